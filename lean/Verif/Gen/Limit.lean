import Verif.Gen.Spec
/-
Execution without fuel.  `exec` bounds the number of iterations of loops; here is its limit,
`execL`, and the proof that `execL` gives a result exactly when `exec` does for some bound.
Used in proofs only.
-/
namespace Verif.Gen

/-- The value a monotone sequence of results settles on. -/
noncomputable def lim {α : Type} (f : Nat → Option α) : Option α := by
  classical
  exact if h : ∃ r n, f n = some r then some h.choose else none

/-- The sequence keeps the first result it gives. -/
def Mono {α : Type} (f : Nat → Option α) : Prop := ∀ n r, f n = some r → f (n + 1) = some r

theorem Mono.le {α : Type} {f : Nat → Option α} (h : Mono f) {n m : Nat} (hm : n ≤ m) {r : α}
    (hr : f n = some r) : f m = some r := by
  induction hm with
  | refl => exact hr
  | step _ ih => exact h _ _ ih

theorem lim_eq_some {α : Type} {f : Nat → Option α} (h : Mono f) (r : α) :
    lim f = some r ↔ ∃ n, f n = some r := by
  unfold lim
  split
  · rename_i hex
    obtain ⟨n, hn⟩ := hex.choose_spec
    constructor
    · intro hr
      injection hr with hr
      exact ⟨n, hr ▸ hn⟩
    · rintro ⟨m, hm⟩
      have h1 := h.le (Nat.le_max_left n m) hn
      have h2 := h.le (Nat.le_max_right n m) hm
      rw [h1] at h2
      injection h2 with h2
      rw [h2]
  · rename_i hex
    constructor
    · intro hr; cases hr
    · rintro ⟨m, hm⟩; exact absurd ⟨r, m, hm⟩ hex

theorem lim_eq_none {α : Type} {f : Nat → Option α} (h : Mono f) :
    lim f = none ↔ ∀ n, f n = none := by
  constructor
  · intro hn n
    cases hf : f n with
    | none => rfl
    | some r => rw [(lim_eq_some h r).2 ⟨n, hf⟩] at hn; cases hn
  · intro hn
    cases hl : lim f with
    | none => rfl
    | some r =>
      obtain ⟨n, hf⟩ := (lim_eq_some h r).1 hl
      rw [hn n] at hf; cases hf

theorem opt_ext {α : Type} {x y : Option α} (h : ∀ r, x = some r ↔ y = some r) : x = y := by
  cases x with
  | none =>
    cases y with
    | none => rfl
    | some r => exact (by have := (h r).2 rfl; cases this)
  | some r => exact ((h r).1 rfl).symm

theorem lim_map {α β : Type} {f : Nat → Option α} (h : Mono f) (g : α → β) :
    lim (fun n => (f n).map g) = (lim f).map g := by
  have h' : Mono (fun n => (f n).map g) := by
    intro n r hr
    cases hf : f n with
    | none => simp only [hf, Option.map_none] at hr; cases hr
    | some x =>
      simp only [hf, Option.map_some] at hr
      simp only [h n x hf, Option.map_some]; exact hr
  apply opt_ext
  intro r
  rw [lim_eq_some h']
  constructor
  · rintro ⟨n, hn⟩
    cases hf : f n with
    | none => rw [hf] at hn; cases hn
    | some x =>
      rw [hf] at hn
      rw [(lim_eq_some h x).2 ⟨n, hf⟩]; exact hn
  · intro hr
    cases hl : lim f with
    | none => rw [hl] at hr; cases hr
    | some x =>
      obtain ⟨n, hn⟩ := (lim_eq_some h x).1 hl
      rw [hl] at hr
      exact ⟨n, by rw [hn]; exact hr⟩

variable {S E V P : Type}

/-- `x` gives no other result than `y`. -/
def Le {α : Type} (x y : Option α) : Prop := ∀ r, x = some r → y = some r

theorem Le.refl {α : Type} (x : Option α) : Le x x := fun _ h => h
theorem Le.trans {α : Type} {x y z : Option α} (h : Le x y) (h' : Le y z) : Le x z :=
  fun r hr => h' r (h r hr)
theorem Le.none {α : Type} (y : Option α) : Le none y := by intro r h; cases h

theorem Le.cases {α : Type} {x y : Option α} (h : Le x y) :
    x = Option.none ∨ x = y := by
  cases x with
  | none => left; rfl
  | some r => right; exact (h r rfl).symm

theorem condR_le {t : S → S × Except (Exc E V) Bool} {b b' o o' : S → Res S E V P}
    (hb : ∀ s, Le (b s) (b' s)) (ho : ∀ s, Le (o s) (o' s)) (s : S) :
    Le (condR t b o s) (condR t b' o' s) := by
  unfold condR
  split
  · exact Le.refl _
  · exact hb _
  · exact ho _

theorem seqR_le {k k' : S → Res S E V P} (hk : ∀ s, Le (k s) (k' s)) {x y : Res S E V P}
    (h : Le x y) : Le (seqR k x) (seqR k' y) := by
  rcases h.cases with rfl | rfl
  · exact Le.none _
  · rcases x with _ | ⟨o, s⟩
    · exact Le.none _
    · cases o <;> first | exact hk s | exact Le.refl _

theorem againR_le {k k' : S → Res S E V P} (hk : ∀ s, Le (k s) (k' s)) {x y : Res S E V P}
    (h : Le x y) : Le (againR k x) (againR k' y) := by
  rcases h.cases with rfl | rfl
  · exact Le.none _
  · rcases x with _ | ⟨o, s⟩
    · exact Le.none _
    · cases o <;> first | exact hk s | exact Le.refl _

theorem tryR_le {h h' : Exc E V → S → Res S E V P} {k k' : S → Res S E V P}
    (hh : ∀ e s, Le (h e s) (h' e s)) (hk : ∀ s, Le (k s) (k' s)) {x y : Res S E V P}
    (hx : Le x y) : Le (tryR h k x) (tryR h' k' y) := by
  rcases hx.cases with rfl | rfl
  · exact Le.none _
  · rcases x with _ | ⟨o, s⟩
    · exact Le.none _
    · cases o <;> first | exact hh _ s | exact hk s | exact Le.refl _

theorem finR_le {f f' : Option (Exc E V) → S → Res S E V P} (hf : ∀ c s, Le (f c s) (f' c s))
    (cur : Option (Exc E V)) {x y : Res S E V P} (hx : Le x y) :
    Le (finR f cur x) (finR f' cur y) := by
  rcases hx.cases with rfl | rfl
  · exact Le.none _
  · rcases x with _ | ⟨o, s⟩
    · exact Le.none _
    · cases o <;>
        first
          | exact hf _ s
          | exact Le.refl _
          | exact seqR_le (fun _ => Le.refl _) (hf _ s)

theorem loopN_le {t : S → S × Except (Exc E V) Bool} {b b' o o' : S → Res S E V P}
    (hb : ∀ s, Le (b s) (b' s)) (ho : ∀ s, Le (o s) (o' s)) {n m : Nat} (hnm : n ≤ m) (s : S) :
    Le (loopN t b o n s) (loopN t b' o' m s) := by
  induction n generalizing m s with
  | zero => exact Le.none _
  | succ n ih =>
    obtain ⟨m', rfl⟩ : ∃ m', m = m' + 1 := ⟨m - 1, by omega⟩
    exact condR_le (fun s' => againR_le (fun s'' => ih (by omega) s'') (hb s')) ho s

theorem loopN_mono (t : S → S × Except (Exc E V) Bool) (b o : S → Res S E V P) (s : S) :
    Mono (fun n => loopN t b o n s) := fun n r h =>
  loopN_le (fun _ => Le.refl _) (fun _ => Le.refl _) (Nat.le_succ n) s r h

/-- A loop without a bound on its iterations. -/
noncomputable def loopL (t : S → S × Except (Exc E V) Bool) (b o : S → Res S E V P) (s : S) :
    Res S E V P := lim (fun n => loopN t b o n s)

theorem loopL_eq_some {t : S → S × Except (Exc E V) Bool} {b o : S → Res S E V P} {s : S}
    (r : Out E V P × S) : loopL t b o s = some r ↔ ∃ n, loopN t b o n s = some r :=
  lim_eq_some (loopN_mono t b o s) r

theorem loopN_le_loopL (t : S → S × Except (Exc E V) Bool) (b o : S → Res S E V P) (n : Nat)
    (s : S) : Le (loopN t b o n s) (loopL t b o s) := fun r h => (loopL_eq_some r).2 ⟨n, h⟩

/-- The loop does what a loop does. -/
theorem loopL_unfold (t : S → S × Except (Exc E V) Bool) (b o : S → Res S E V P) (s : S) :
    loopL t b o s = condR t (fun s' => againR (loopL t b o) (b s')) o s := by
  apply opt_ext
  intro r
  constructor
  · intro h
    obtain ⟨n, hn⟩ := (loopL_eq_some r).1 h
    cases n with
    | zero => cases hn
    | succ n =>
      exact condR_le (fun s' => againR_le (fun s'' => loopN_le_loopL t b o n s'') (Le.refl _))
        (fun _ => Le.refl _) s r hn
  · intro h
    rw [loopL_eq_some]
    unfold condR at h
    rcases ht : t s with ⟨s', x⟩
    rw [ht] at h
    rcases x with e | x
    · exact ⟨1, by simp only [loopN, condR, ht]; exact h⟩
    · cases x with
      | false => exact ⟨1, by simp only [loopN, condR, ht]; exact h⟩
      | true =>
        simp only at h
        rcases hb : b s' with _ | ⟨ou, s''⟩
        · rw [hb] at h; cases h
        · rw [hb] at h
          have again : ∀ {x : S}, loopL t b o x = some r →
              ∃ n, loopN t b o n x = some r := fun hx => (loopL_eq_some r).1 hx
          cases ou with
          | norm =>
            obtain ⟨n, hn⟩ := again h
            exact ⟨n + 1, by simp only [loopN, condR, ht, hb]; exact hn⟩
          | cont =>
            obtain ⟨n, hn⟩ := again h
            exact ⟨n + 1, by simp only [loopN, condR, ht, hb]; exact hn⟩
          | brk => exact ⟨1, by simp only [loopN, condR, ht, hb]; exact h⟩
          | ret v => exact ⟨1, by simp only [loopN, condR, ht, hb]; exact h⟩
          | exc e => exact ⟨1, by simp only [loopN, condR, ht, hb]; exact h⟩
          | susp p => exact ⟨1, by simp only [loopN, condR, ht, hb]; exact h⟩

/-- `g` is the limit of the increasing family `f`. -/
structure IsLim (f : Nat → S → Res S E V P) (g : S → Res S E V P) : Prop where
  mono : ∀ {n m : Nat}, n ≤ m → ∀ s, Le (f n s) (f m s)
  below : ∀ n s, Le (f n s) (g s)
  reach : ∀ s r, g s = some r → ∃ n, f n s = some r

theorem IsLim.const (g : S → Res S E V P) : IsLim (fun _ => g) g :=
  ⟨fun _ _ => Le.refl _, fun _ _ => Le.refl _, fun _ _ h => ⟨0, h⟩⟩

theorem IsLim.condR {t : S → S × Except (Exc E V) Bool} {b o : Nat → S → Res S E V P}
    {b' o' : S → Res S E V P} (hb : IsLim b b') (ho : IsLim o o') :
    IsLim (fun n => condR t (b n) (o n)) (Gen.condR t b' o') where
  mono h s := condR_le (hb.mono h) (ho.mono h) s
  below n s := condR_le (hb.below n) (ho.below n) s
  reach s r h := by
    unfold Gen.condR at *
    rcases ht : t s with ⟨s', x⟩
    rw [ht] at h
    rcases x with e | x
    · exact ⟨0, h⟩
    · cases x with
      | false => exact ho.reach _ _ h
      | true => exact hb.reach _ _ h

/-- Composition: first `f`, then something that depends on the outcome. -/
theorem IsLim.comp {f : Nat → S → Res S E V P} {g : S → Res S E V P}
    {C : Nat → Res S E V P → Res S E V P} {C' : Res S E V P → Res S E V P}
    (hf : IsLim f g)
    (hmono : ∀ {n m : Nat}, n ≤ m → ∀ {x y}, Le x y → Le (C n x) (C m y))
    (hbelow : ∀ n {x y}, Le x y → Le (C n x) (C' y))
    (hreach : ∀ o s r, C' (some (o, s)) = some r → ∃ n, C n (some (o, s)) = some r)
    (hnone : C' none = none) :
    IsLim (fun n s => C n (f n s)) (fun s => C' (g s)) where
  mono h s := hmono h (hf.mono h s)
  below n s := hbelow n (hf.below n s)
  reach s r h := by
    rcases hg : g s with _ | ⟨o, s'⟩
    · simp only [hg, hnone] at h; cases h
    · simp only [hg] at h
      obtain ⟨n, hn⟩ := hf.reach s _ hg
      obtain ⟨m, hm⟩ := hreach _ _ _ h
      refine ⟨max n m, ?_⟩
      have h1 := hf.mono (Nat.le_max_left n m) s _ hn
      simp only [h1]
      exact hmono (Nat.le_max_right n m) (Le.refl _) _ hm

theorem IsLim.seqR {f k : Nat → S → Res S E V P} {f' k' : S → Res S E V P}
    (hf : IsLim f f') (hk : IsLim k k') :
    IsLim (fun n s => seqR (k n) (f n s)) (fun s => Gen.seqR k' (f' s)) :=
  hf.comp (C := fun n => Gen.seqR (k n)) (fun h _ _ hx => seqR_le (hk.mono h) hx)
    (fun n _ _ hx => seqR_le (hk.below n) hx)
    (fun o s r h => by
      cases o <;> first | exact hk.reach _ _ h | exact ⟨0, h⟩)
    rfl

theorem IsLim.tryR {f o : Nat → S → Res S E V P} {f' o' : S → Res S E V P}
    {h : Nat → Exc E V → S → Res S E V P} {h' : Exc E V → S → Res S E V P}
    (hf : IsLim f f') (hh : ∀ e, IsLim (fun n => h n e) (h' e)) (ho : IsLim o o') :
    IsLim (fun n s => tryR (h n) (o n) (f n s)) (fun s => Gen.tryR h' o' (f' s)) :=
  hf.comp (C := fun n => Gen.tryR (h n) (o n))
    (fun hm _ _ hx => tryR_le (fun e s => (hh e).mono hm s) (ho.mono hm) hx)
    (fun n _ _ hx => tryR_le (fun e s => (hh e).below n s) (ho.below n) hx)
    (fun ou s r hr => by
      cases ou <;> first | exact ho.reach _ _ hr | exact (hh _).reach _ _ hr | exact ⟨0, hr⟩)
    rfl

theorem seqR_reach {k : S → Res S E V P} {f : Nat → S → Res S E V P} {f' : S → Res S E V P}
    (hf : IsLim f f') {s : S} {r : Out E V P × S} (h : Gen.seqR k (f' s) = some r) :
    ∃ n, Gen.seqR k (f n s) = some r :=
  ((hf.seqR (IsLim.const k)).reach s r h)

theorem IsLim.finR {f : Nat → S → Res S E V P} {f' : S → Res S E V P}
    {q : Nat → Option (Exc E V) → S → Res S E V P} {q' : Option (Exc E V) → S → Res S E V P}
    (cur : Option (Exc E V)) (hf : IsLim f f') (hq : ∀ c, IsLim (fun n => q n c) (q' c)) :
    IsLim (fun n s => finR (q n) cur (f n s)) (fun s => Gen.finR q' cur (f' s)) :=
  hf.comp (C := fun n => Gen.finR (q n) cur)
    (fun hm _ _ hx => finR_le (fun c s => (hq c).mono hm s) cur hx)
    (fun n _ _ hx => finR_le (fun c s => (hq c).below n s) cur hx)
    (fun ou s r hr => by
      cases ou <;>
        first
          | exact (hq _).reach _ _ hr
          | exact seqR_reach (hq _) hr
          | exact ⟨0, hr⟩)
    rfl

theorem IsLim.loop {t : S → S × Except (Exc E V) Bool} {b o : Nat → S → Res S E V P}
    {b' o' : S → Res S E V P} (hb : IsLim b b') (ho : IsLim o o') :
    IsLim (fun n => loopN t (b n) (o n) n) (loopL t b' o') where
  mono h s := loopN_le (hb.mono h) (ho.mono h) h s
  below n s := (loopN_le (hb.below n) (ho.below n) (Nat.le_refl n) s).trans
    (loopN_le_loopL t b' o' n s)
  reach s r h := by
    obtain ⟨k, hk⟩ := (loopL_eq_some r).1 h
    -- enough fuel for the bodies of `k` iterations
    have key : ∀ (k : Nat) (s : S) (r), loopN t b' o' k s = some r →
        ∃ n, loopN t (b n) (o n) k s = some r := by
      intro k
      induction k with
      | zero => intro s r h; cases h
      | succ k ih =>
        intro s r h
        simp only [loopN, Gen.condR] at h
        rcases ht : t s with ⟨s', x⟩
        rw [ht] at h
        rcases x with e | x
        · exact ⟨0, by simp only [loopN, Gen.condR, ht]; exact h⟩
        · cases x with
          | false =>
            obtain ⟨n, hn⟩ := ho.reach _ _ h
            exact ⟨n, by simp only [loopN, Gen.condR, ht]; exact hn⟩
          | true =>
            simp only at h
            rcases hbs : b' s' with _ | ⟨ou, s''⟩
            · rw [hbs] at h; cases h
            · rw [hbs] at h
              obtain ⟨n, hn⟩ := hb.reach _ _ hbs
              have go : ∀ m, n ≤ m → b m s' = some (ou, s'') := fun m hm => hb.mono hm s' _ hn
              have again : ∀ x, loopN t b' o' k x = some r →
                  ∃ m, n ≤ m ∧ loopN t (b m) (o m) k x = some r := by
                intro x hx
                obtain ⟨m, hm⟩ := ih x r hx
                exact ⟨max n m, Nat.le_max_left _ _,
                  loopN_le (hb.mono (Nat.le_max_right n m)) (ho.mono (Nat.le_max_right n m))
                    (Nat.le_refl k) x r hm⟩
              cases ou with
              | norm =>
                obtain ⟨m, h1, h2⟩ := again s'' h
                exact ⟨m, by simp only [loopN, Gen.condR, ht, go m h1]; exact h2⟩
              | cont =>
                obtain ⟨m, h1, h2⟩ := again s'' h
                exact ⟨m, by simp only [loopN, Gen.condR, ht, go m h1]; exact h2⟩
              | brk => exact ⟨n, by simp only [loopN, Gen.condR, ht, hn]; exact h⟩
              | ret v => exact ⟨n, by simp only [loopN, Gen.condR, ht, hn]; exact h⟩
              | exc e => exact ⟨n, by simp only [loopN, Gen.condR, ht, hn]; exact h⟩
              | susp p => exact ⟨n, by simp only [loopN, Gen.condR, ht, hn]; exact h⟩
    obtain ⟨n, hn⟩ := key k s r hk
    exact ⟨max n k, loopN_le (hb.mono (Nat.le_max_left n k)) (ho.mono (Nat.le_max_left n k))
      (Nat.le_max_right n k) s r hn⟩

variable {σ : Type}

mutual
/-- `exec` without fuel. -/
noncomputable def execL (cur : Option (Exc E V)) : Stmt σ E V → World σ → Res (World σ) E V V
  | .prim f, w => primR f w
  | .yld e, w => yldR e w
  | .ite t b o, w => condR (act t) (execLB cur b) (execLB cur o) w
  | .whl t b o, w => loopL (act t) (execLB cur b) (execLB cur o) w
  | .brk, w => some (.brk, w)
  | .cont, w => some (.cont, w)
  | .ret none, w => some (.ret none, w)
  | .ret (some e), w => retR e w
  | .reraise, w => some (.exc (cur.getD .noActive), w)
  | .info f, w => primR (f cur) w
  | .tri b hs o f, w =>
    finR (fun c => execLB c f) cur (tryR (execLH cur hs) (execLB cur o) (execLB cur b w))
/-- `execB` without fuel. -/
noncomputable def execLB (cur : Option (Exc E V)) : Block σ E V → World σ → Res (World σ) E V V
  | .nil, w => some (.norm, w)
  | .cons s r, w => seqR (execLB cur r) (execL cur s w)
/-- `execH` without fuel. -/
noncomputable def execLH (cur : Option (Exc E V)) : Handlers σ E V → Exc E V → World σ →
    Res (World σ) E V V
  | .nil, e, w => some (.exc e, w)
  | .cons m bind b r, e, w =>
    if m e then execLB (some e) b (bind e w.1, w.2) else execLH cur r e w
end

mutual
theorem exec_isLim : ∀ (s : Stmt σ E V) (cur : Option (Exc E V)),
    IsLim (fun n => exec n cur s) (execL cur s)
  | .prim f, cur => by
    have h1 : (fun n => exec n cur (Stmt.prim f)) = fun _ => execL cur (Stmt.prim f) := by
      funext n w; simp only [exec, execL]
    rw [h1]; exact IsLim.const _
  | .yld e, cur => by
    have h1 : (fun n => exec n cur (Stmt.yld e)) = fun _ => execL cur (Stmt.yld e) := by
      funext n w; simp only [exec, execL]
    rw [h1]; exact IsLim.const _
  | .ite t b o, cur => by
    have h1 : (fun n => exec n cur (Stmt.ite t b o)) =
        fun n => condR (act t) (execB n cur b) (execB n cur o) := by
      funext n w; simp only [exec]
    have h2 : execL cur (Stmt.ite t b o) = condR (act t) (execLB cur b) (execLB cur o) := by
      funext w; simp only [execL]
    rw [h1, h2]; exact IsLim.condR (execB_isLim b cur) (execB_isLim o cur)
  | .whl t b o, cur => by
    have h1 : (fun n => exec n cur (Stmt.whl t b o)) =
        fun n => loopN (act t) (execB n cur b) (execB n cur o) n := by
      funext n w; simp only [exec]
    have h2 : execL cur (Stmt.whl t b o) = loopL (act t) (execLB cur b) (execLB cur o) := by
      funext w; simp only [execL]
    rw [h1, h2]; exact IsLim.loop (execB_isLim b cur) (execB_isLim o cur)
  | .brk, cur => by
    have h1 : (fun n => exec n cur (Stmt.brk : Stmt σ E V)) = fun _ => execL cur Stmt.brk := by
      funext n w; simp only [exec, execL]
    rw [h1]; exact IsLim.const _
  | .cont, cur => by
    have h1 : (fun n => exec n cur (Stmt.cont : Stmt σ E V)) = fun _ => execL cur Stmt.cont := by
      funext n w; simp only [exec, execL]
    rw [h1]; exact IsLim.const _
  | .ret none, cur => by
    have h1 : (fun n => exec n cur (Stmt.ret none : Stmt σ E V)) =
        fun _ => execL cur (Stmt.ret none) := by
      funext n w; simp only [exec, execL]
    rw [h1]; exact IsLim.const _
  | .ret (some e), cur => by
    have h1 : (fun n => exec n cur (Stmt.ret (some e))) =
        fun _ => execL cur (Stmt.ret (some e)) := by
      funext n w; simp only [exec, execL]
    rw [h1]; exact IsLim.const _
  | .info f, cur => by
    have h1 : (fun n => exec n cur (Stmt.info f)) = fun _ => execL cur (Stmt.info f) := by
      funext n w; simp only [exec, execL]
    rw [h1]; exact IsLim.const _
  | .reraise, cur => by
    have h1 : (fun n => exec n cur (Stmt.reraise : Stmt σ E V)) =
        fun _ => execL cur Stmt.reraise := by
      funext n w; simp only [exec, execL]
    rw [h1]; exact IsLim.const _
  | .tri b hs o f, cur => by
    have h1 : (fun n => exec n cur (Stmt.tri b hs o f)) =
        fun n w => finR (fun c => execB n c f) cur
          (tryR (execH n cur hs) (execB n cur o) (execB n cur b w)) := by
      funext n w; simp only [exec]
    have h2 : execL cur (Stmt.tri b hs o f) =
        fun w => finR (fun c => execLB c f) cur
          (tryR (execLH cur hs) (execLB cur o) (execLB cur b w)) := by
      funext w; simp only [execL]
    rw [h1, h2]
    exact IsLim.finR (q := fun n c => execB n c f) cur
      (IsLim.tryR (h := fun n => execH n cur hs) (execB_isLim b cur)
        (fun e => execH_isLim hs cur e) (execB_isLim o cur))
      (fun c => execB_isLim f c)
theorem execB_isLim : ∀ (b : Block σ E V) (cur : Option (Exc E V)),
    IsLim (fun n => execB n cur b) (execLB cur b)
  | .nil, cur => by
    have h1 : (fun n => execB n cur (Block.nil : Block σ E V)) = fun _ => execLB cur .nil := by
      funext n w; simp only [execB, execLB]
    rw [h1]; exact IsLim.const _
  | .cons s r, cur => by
    have h1 : (fun n => execB n cur (Block.cons s r)) =
        fun n w => seqR (execB n cur r) (exec n cur s w) := by
      funext n w; simp only [execB]
    have h2 : execLB cur (Block.cons s r) = fun w => seqR (execLB cur r) (execL cur s w) := by
      funext w; simp only [execLB]
    rw [h1, h2]; exact IsLim.seqR (exec_isLim s cur) (execB_isLim r cur)
theorem execH_isLim : ∀ (hs : Handlers σ E V) (cur : Option (Exc E V)) (e : Exc E V),
    IsLim (fun n => execH n cur hs e) (execLH cur hs e)
  | .nil, cur, e => by
    have h1 : (fun n => execH n cur (Handlers.nil : Handlers σ E V) e) =
        fun _ => execLH cur .nil e := by
      funext n w; simp only [execH, execLH]
    rw [h1]; exact IsLim.const _
  | .cons m bind b r, cur, e => by
    by_cases hm : m e = true
    · have h1 : (fun n => execH n cur (Handlers.cons m bind b r) e) =
          fun n w => execB n (some e) b (bind e w.1, w.2) := by
        funext n w; simp only [execH, hm, if_true]
      have h2 : execLH cur (Handlers.cons m bind b r) e =
          fun w => execLB (some e) b (bind e w.1, w.2) := by
        funext w; simp only [execLH, hm, if_true]
      rw [h1, h2]
      have ih := execB_isLim b (some e)
      exact ⟨fun h w => ih.mono h _, fun n w => ih.below n _, fun w r h => ih.reach _ r h⟩
    · have h1 : (fun n => execH n cur (Handlers.cons m bind b r) e) =
          fun n => execH n cur r e := by
        funext n w; simp only [execH, hm]; rfl
      have h2 : execLH cur (Handlers.cons m bind b r) e = execLH cur r e := by
        funext w; simp only [execLH, hm]; rfl
      rw [h1, h2]; exact execH_isLim r cur e
end

/-- A block gives a result with some fuel exactly when it gives it without fuel. -/
theorem execB_iff (b : Block σ E V) (cur : Option (Exc E V)) (w : World σ)
    (r : Out E V V × World σ) : (∃ N, execB N cur b w = some r) ↔ execLB cur b w = some r :=
  ⟨fun ⟨N, h⟩ => (execB_isLim b cur).below N w r h, fun h => (execB_isLim b cur).reach w r h⟩

end Verif.Gen
