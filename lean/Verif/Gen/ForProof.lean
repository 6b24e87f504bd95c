import Verif.Gen.ForModel
import Verif.Gen.Good
/-
Running the rewritten body, with its hidden variables, is running the body as Python does.
-/
namespace Verif.Gen

variable {σ E V T I X M Y : Type}

/-! ## The conditions on bodies -/

/-- The positions in the names of the hidden variables of `with` statements with these further
items. -/
def withKeys (line col : Nat) : List (WItem σ E V M Y) → Key → Prop
  | [], k => k = .ctx line col
  | i2 :: more, k => k = .ctx line col ∨ withKeys line i2.col more k

mutual
/-- The positions in the names of the hidden variables of a statement. -/
def FStmt.keys (keep : Bool) : FStmt σ E V T X M Y → Key → Prop
  | .ite _ b o, k => b.keys keep k ∨ o.keys keep k
  | .whl _ b o, k => b.keys keep k ∨ o.keys keep k
  | .forS l _ _ b o, k => k = .loop l ∨ b.keys keep k ∨ o.keys keep k
  | .withS line col _ more b, k =>
    withKeys (if keep then line else 0) (if keep then col else 0) more k ∨ b.keys keep k
  | .tri b hs o f, k => b.keys keep k ∨ hs.keys keep k ∨ o.keys keep k ∨ f.keys keep k
  | _, _ => False
/-- `keys` for lists of statements. -/
def FBlock.keys (keep : Bool) : FBlock σ E V T X M Y → Key → Prop
  | .nil, _ => False
  | .cons s r, k => s.keys keep k ∨ r.keys keep k
/-- `keys` for handlers. -/
def FHandlers.keys (keep : Bool) : FHandlers σ E V T X M Y → Key → Prop
  | .nil, _ => False
  | .cons _ _ b r, k => b.keys keep k ∨ r.keys keep k
end

/-- The items of a `with` have different columns, none of which is used in the body, and
assigning to their targets does not raise. -/
def withApart (line col : Nat) (item : WItem σ E V M Y) (K : Key → Prop) :
    List (WItem σ E V M Y) → Prop
  | [] => ¬ K (.ctx line col) ∧ ∀ t, item.target = some t → ∀ y, Safe (t y)
  | i2 :: more => ¬ (withKeys line i2.col more (.ctx line col) ∨ K (.ctx line col)) ∧
      (∀ t, item.target = some t → ∀ y, Safe (t y)) ∧ withApart line i2.col i2 K more

mutual
/-- No loop is nested in the body of another one on the same line, no `with` in the body of
another one (at the same position, if positions are kept), and assigning to the target of a
`with` does not raise. -/
def FStmt.Apart (keep : Bool) : FStmt σ E V T X M Y → Prop
  | .ite _ b o => b.Apart keep ∧ o.Apart keep
  | .whl _ b o => b.Apart keep ∧ o.Apart keep
  | .forS l _ _ b o => ¬ b.keys keep (.loop l) ∧ b.Apart keep ∧ o.Apart keep
  | .withS line col item more b =>
    withApart (if keep then line else 0) (if keep then col else 0) item (b.keys keep) more ∧ b.Apart keep
  | .tri b hs o f => b.Apart keep ∧ hs.Apart keep ∧ o.Apart keep ∧ f.Apart keep
  | _ => True
/-- `Apart` for lists of statements. -/
def FBlock.Apart (keep : Bool) : FBlock σ E V T X M Y → Prop
  | .nil => True
  | .cons s r => s.Apart keep ∧ r.Apart keep
/-- `Apart` for handlers. -/
def FHandlers.Apart (keep : Bool) : FHandlers σ E V T X M Y → Prop
  | .nil => True
  | .cons _ _ b r => b.Apart keep ∧ r.Apart keep
end

/-! ## The relation between the two runs -/

/-- What the consumer does, with hidden variables around. -/
def lift (bt : List (σ → σ)) : List (σ × Hid E V T I X M → σ × Hid E V T I X M) :=
  bt.map (fun a g => (a g.1, g.2))

/-- A world with hidden variables. -/
def wup (w : World σ) (h : Hid E V T I X M) : World (σ × Hid E V T I X M) := ((w.1, h), lift w.2)

/-- Hidden variables differ only at positions in `L`. -/
def Agree (L : Key → Prop) (h' h : Hid E V T I X M) : Prop := ∀ k, ¬ L k → h' k = h k

/-- The same result, and the only hidden variables changed are those at positions in `L`. -/
def HSim (L : Key → Prop) (h : Hid E V T I X M) (R : Res (World (σ × Hid E V T I X M)) E V V) :
    Res (World σ) E V V → Prop
  | none => R = none
  | some (o, w) => ∃ h', R = some (o, wup w h') ∧ Agree L h' h

theorem Agree.refl (L : Key → Prop) (h : Hid E V T I X M) : Agree L h h := fun _ _ => rfl

theorem Agree.trans {L : Key → Prop} {a b c : Hid E V T I X M} (h1 : Agree L a b)
    (h2 : Agree L b c) : Agree L a c := fun k hk => (h1 k hk).trans (h2 k hk)

theorem Agree.mono {L L' : Key → Prop} (hL : ∀ k, L k → L' k) {a b : Hid E V T I X M}
    (h : Agree L a b) : Agree L' a b := fun k hk => h k (fun hl => hk (hL k hl))

theorem agree_set {L : Key → Prop} {k : Key} (hk : L k) (h : Hid E V T I X M)
    (f : HVars E V T I X M → HVars E V T I X M) : Agree L (h.set k f) h := by
  intro k' hk'
  unfold Hid.set
  rw [if_neg]
  rintro rfl
  exact hk' hk

theorem HSim.mono {L L' : Key → Prop} (hL : ∀ k, L k → L' k) {h : Hid E V T I X M}
    {R : Res (World (σ × Hid E V T I X M)) E V V} {Q : Res (World σ) E V V}
    (s : HSim L h R Q) : HSim L' h R Q := by
  match Q, s with
  | none, s => exact s
  | some (o, w), ⟨h', e, a⟩ => exact ⟨h', e, a.mono hL⟩

theorem HSim.from {L : Key → Prop} {h h' : Hid E V T I X M} (a : Agree L h' h)
    {R : Res (World (σ × Hid E V T I X M)) E V V} {Q : Res (World σ) E V V}
    (s : HSim L h' R Q) : HSim L h R Q := by
  match Q, s with
  | none, s => exact s
  | some (o, w), ⟨h'', e, a'⟩ => exact ⟨h'', e, a'.trans a⟩

theorem HSim.here (L : Key → Prop) (h : Hid E V T I X M) (o : Out E V V) (w : World σ) :
    HSim L h (some (o, wup w h)) (some (o, w)) := ⟨h, rfl, Agree.refl L h⟩

theorem HSim.seq {L : Key → Prop} {h : Hid E V T I X M}
    {R : Res (World (σ × Hid E V T I X M)) E V V} {Q : Res (World σ) E V V}
    {K' : World (σ × Hid E V T I X M) → Res (World (σ × Hid E V T I X M)) E V V}
    {K : World σ → Res (World σ) E V V} (s : HSim L h R Q)
    (hk : ∀ w h', Agree L h' h → HSim L h' (K' (wup w h')) (K w)) :
    HSim L h (seqR K' R) (seqR K Q) := by
  match Q, s with
  | none, s => rw [show R = none from s]; rfl
  | some (o, w), ⟨h', e, a⟩ =>
    subst e
    cases o with
    | norm => exact HSim.from a (hk w h' a)
    | brk => exact ⟨h', rfl, a⟩
    | cont => exact ⟨h', rfl, a⟩
    | ret v => exact ⟨h', rfl, a⟩
    | exc x => exact ⟨h', rfl, a⟩
    | susp v => exact ⟨h', rfl, a⟩

theorem HSim.again {L : Key → Prop} {h : Hid E V T I X M}
    {R : Res (World (σ × Hid E V T I X M)) E V V} {Q : Res (World σ) E V V}
    {K' : World (σ × Hid E V T I X M) → Res (World (σ × Hid E V T I X M)) E V V}
    {K : World σ → Res (World σ) E V V} (s : HSim L h R Q)
    (hk : ∀ w h', Agree L h' h → HSim L h' (K' (wup w h')) (K w)) :
    HSim L h (againR K' R) (againR K Q) := by
  match Q, s with
  | none, s => rw [show R = none from s]; rfl
  | some (o, w), ⟨h', e, a⟩ =>
    subst e
    cases o with
    | norm => exact HSim.from a (hk w h' a)
    | cont => exact HSim.from a (hk w h' a)
    | brk => exact ⟨h', rfl, a⟩
    | ret v => exact ⟨h', rfl, a⟩
    | exc x => exact ⟨h', rfl, a⟩
    | susp v => exact ⟨h', rfl, a⟩

theorem HSim.tryS {L : Key → Prop} {h : Hid E V T I X M}
    {R : Res (World (σ × Hid E V T I X M)) E V V} {Q : Res (World σ) E V V}
    {H' : Exc E V → World (σ × Hid E V T I X M) → Res (World (σ × Hid E V T I X M)) E V V}
    {H : Exc E V → World σ → Res (World σ) E V V}
    {K' : World (σ × Hid E V T I X M) → Res (World (σ × Hid E V T I X M)) E V V}
    {K : World σ → Res (World σ) E V V} (s : HSim L h R Q)
    (hh : ∀ x w h', HSim L h' (H' x (wup w h')) (H x w))
    (hk : ∀ w h', HSim L h' (K' (wup w h')) (K w)) :
    HSim L h (tryR H' K' R) (tryR H K Q) := by
  match Q, s with
  | none, s => rw [show R = none from s]; rfl
  | some (o, w), ⟨h', e, a⟩ =>
    subst e
    cases o with
    | norm => exact HSim.from a (hk w h')
    | exc x => exact HSim.from a (hh x w h')
    | cont => exact ⟨h', rfl, a⟩
    | brk => exact ⟨h', rfl, a⟩
    | ret v => exact ⟨h', rfl, a⟩
    | susp v => exact ⟨h', rfl, a⟩

theorem HSim.fin {L : Key → Prop} {h : Hid E V T I X M} {cur : Option (Exc E V)}
    {R : Res (World (σ × Hid E V T I X M)) E V V} {Q : Res (World σ) E V V}
    {F' : Option (Exc E V) → World (σ × Hid E V T I X M) →
      Res (World (σ × Hid E V T I X M)) E V V}
    {F : Option (Exc E V) → World σ → Res (World σ) E V V} (s : HSim L h R Q)
    (hf : ∀ c w h', HSim L h' (F' c (wup w h')) (F c w)) :
    HSim L h (finR F' cur R) (finR F cur Q) := by
  match Q, s with
  | none, s => rw [show R = none from s]; rfl
  | some (o, w), ⟨h', e, a⟩ =>
    subst e
    refine HSim.from a ?_
    cases o with
    | norm => exact hf cur w h'
    | susp v => exact HSim.here L h' _ w
    | brk => exact (hf cur w h').seq (fun w h' _ => HSim.here L h' _ w)
    | cont => exact (hf cur w h').seq (fun w h' _ => HSim.here L h' _ w)
    | ret v => exact (hf cur w h').seq (fun w h' _ => HSim.here L h' _ w)
    | exc x => exact (hf _ w h').seq (fun w h' _ => HSim.here L h' _ w)

/-! ## Expressions and simple statements -/

theorem act_up {α : Type} (f : Act σ E V α) (w : World σ) (h : Hid E V T I X M) :
    act (up f) (wup w h) = (wup (act f w).1 h, (act f w).2) := rfl

theorem HSim.prim (L : Key → Prop) (f : Act σ E V Unit) (w : World σ) (h : Hid E V T I X M) :
    HSim L h (primR (up f) (wup w h)) (primR f w) := by
  unfold primR
  rw [act_up]
  generalize act f w = r
  obtain ⟨w', r⟩ := r
  cases r <;> exact HSim.here L h _ w'

theorem HSim.ret (L : Key → Prop) (f : Act σ E V V) (w : World σ) (h : Hid E V T I X M) :
    HSim L h (retR (up f) (wup w h)) (retR f w) := by
  unfold retR
  rw [act_up]
  generalize act f w = r
  obtain ⟨w', r⟩ := r
  cases r <;> exact HSim.here L h _ w'

theorem HSim.yld (L : Key → Prop) (f : Act σ E V V) (w : World σ) (h : Hid E V T I X M) :
    HSim L h (yldR (up f) (wup w h)) (yldR f w) := by
  unfold yldR
  rw [act_up]
  generalize act f w = r
  obtain ⟨⟨s, bt⟩, r⟩ := r
  cases r with
  | error x => exact HSim.here L h _ _
  | ok v =>
    cases bt with
    | nil => exact HSim.here L h _ _
    | cons a rest => exact HSim.here L h _ (a s, rest)

theorem HSim.cond {L : Key → Prop} {h : Hid E V T I X M} {t : Act σ E V Bool}
    {B' O' : World (σ × Hid E V T I X M) → Res (World (σ × Hid E V T I X M)) E V V}
    {B O : World σ → Res (World σ) E V V} (w : World σ)
    (hb : ∀ w, HSim L h (B' (wup w h)) (B w)) (ho : ∀ w, HSim L h (O' (wup w h)) (O w)) :
    HSim L h (condR (act (up t)) B' O' (wup w h)) (condR (act t) B O w) := by
  unfold condR
  rw [act_up]
  generalize act t w = r
  obtain ⟨w', r⟩ := r
  cases r with
  | error x => exact HSim.here L h _ w'
  | ok v =>
    cases v with
    | true => exact hb w'
    | false => exact ho w'

theorem HSim.loop {L : Key → Prop} {t : Act σ E V Bool}
    {B' O' : World (σ × Hid E V T I X M) → Res (World (σ × Hid E V T I X M)) E V V}
    {B O : World σ → Res (World σ) E V V}
    (hb : ∀ w h, HSim L h (B' (wup w h)) (B w)) (ho : ∀ w h, HSim L h (O' (wup w h)) (O w)) :
    ∀ n w h, HSim L h (loopN (act (up t)) B' O' n (wup w h)) (loopN (act t) B O n w)
  | 0, w, h => rfl
  | n + 1, w, h => by
    unfold loopN
    exact HSim.cond w (fun w => (hb w h).again (fun w h' _ => HSim.loop hb ho n w h'))
      (fun w => ho w h)

theorem seqR_norm {S P : Type} (r : Res S E V P) :
    seqR (fun s => some (.norm, s)) r = r := by
  match r with
  | none => rfl
  | some (.norm, s) => rfl
  | some (.brk, s) => rfl
  | some (.cont, s) => rfl
  | some (.ret v, s) => rfl
  | some (.exc v, s) => rfl
  | some (.susp v, s) => rfl

theorem seqR_assoc {S P : Type} (f g : S → Res S E V P) (r : Res S E V P) :
    seqR f (seqR g r) = seqR (fun s => seqR f (g s)) r := by
  match r with
  | none => rfl
  | some (.norm, s) => rfl
  | some (.brk, s) => rfl
  | some (.cont, s) => rfl
  | some (.ret v, s) => rfl
  | some (.exc v, s) => rfl
  | some (.susp v, s) => rfl

theorem execB_one {S : Type} (N : Nat) (cur : Option (Exc E V)) (s : Stmt S E V) (w : World S) :
    execB N cur (one s) w = exec N cur s w := by
  unfold one
  simp only [execB]
  exact seqR_norm _

theorem execB_append {S : Type} (N : Nat) (cur : Option (Exc E V)) :
    ∀ (a b : Block S E V) (w : World S),
    execB N cur (a.append b) w = seqR (execB N cur b) (execB N cur a w)
  | .nil, b, w => by simp only [Block.append, execB]; rfl
  | .cons s r, b, w => by
    simp only [Block.append, execB]
    rw [seqR_assoc]
    congr 1
    funext w'
    exact execB_append N cur r b w'

/-- Assigning a hidden variable, then going on. -/
theorem hset_seq {α : Type} (k : Key) (e : HVars E V T I X M → Act σ E V α)
    (put : α → HVars E V T I X M → HVars E V T I X M)
    (K : World (σ × Hid E V T I X M) → Res (World (σ × Hid E V T I X M)) E V V)
    (w : World σ) (h : Hid E V T I X M) :
    seqR K (primR (hset k e put) (wup w h)) =
      match act (e (h k)) w with
      | (w', .error x) => some (.exc x, wup w' h)
      | (w', .ok a) => K (wup w' (h.set k (put a))) := by
  obtain ⟨s, bt⟩ := w
  unfold primR act hset wup
  simp only
  generalize e (h k) s = r
  obtain ⟨s', r⟩ := r
  cases r <;> rfl

theorem hget_act {α : Type} (k : Key) (e : HVars E V T I X M → Act σ E V α)
    (w : World σ) (h : Hid E V T I X M) :
    act (hget k e) (wup w h) = (wup (act (e (h k)) w).1 h, (act (e (h k)) w).2) := rfl

/-- A test of hidden variables. -/
theorem cond_get (k : Key) (f : HVars E V T I X M → Bool)
    (B O : World (σ × Hid E V T I X M) → Res (World (σ × Hid E V T I X M)) E V V)
    (w : World σ) (h : Hid E V T I X M) :
    condR (act (hget k (fun v => con (f v)))) B O (wup w h) =
      if f (h k) then B (wup w h) else O (wup w h) := by
  unfold condR
  rw [show act (hget k (fun v => con (f v))) (wup w h) = (wup w h, .ok (f (h k))) from rfl]
  cases f (h k) <;> rfl

/-- A simple statement that reads hidden variables. -/
theorem prim_get (k : Key) (e : HVars E V T I X M → Act σ E V Unit) (w : World σ)
    (h : Hid E V T I X M) :
    primR (hget k e) (wup w h) =
      match act (e (h k)) w with
      | (w', .error x) => some (.exc x, wup w' h)
      | (w', .ok _) => some (.norm, wup w' h) := by
  unfold primR
  rw [hget_act]
  generalize act (e (h k)) w = r
  obtain ⟨w', r⟩ := r
  cases r <;> rfl

/-- Assigning a constant to a hidden variable. -/
theorem prim_con {α : Type} (k : Key) (a : α)
    (put : α → HVars E V T I X M → HVars E V T I X M) (w : World σ) (h : Hid E V T I X M) :
    primR (hset k (fun _ => con a) put) (wup w h) = some (.norm, wup w (h.set k (put a))) := rfl

theorem set_same (h : Hid E V T I X M) (k : Key) (f : HVars E V T I X M → HVars E V T I X M) :
    h.set k f k = f (h k) := if_pos rfl

/-! ## `for` -/

/-- One round of the `while` loop: the next item and the body. -/
theorem fetch_run (p : Proto σ E V T I X M Y) (k : Key) (target : X → Act σ E V Unit)
    (body : Block (σ × Hid E V T I X M) E V) (N : Nat) (cur : Option (Exc E V)) (i : I)
    (w : World σ) (h : Hid E V T I X M) (hi : (h k).iter = some i) :
    execB N cur (fetch p k target body) (wup w h) =
      match act (p.step i) w with
      | (w', .error x) => some (.exc x, wup w' h)
      | (w', .ok none) => some (.brk, wup w' ((h.set k (fun v => { v with ptr := some none })).set k
          (fun v => { v with trigger := true })))
      | (w', .ok (some x)) =>
        match act (target x) w' with
        | (w'', .error x') => some (.exc x', wup w'' (h.set k (fun v => { v with ptr := some (some x) })))
        | (w'', .ok _) =>
          execB N cur body (wup w'' (h.set k (fun v => { v with ptr := some (some x) }))) := by
  unfold fetch
  simp only [execB, exec]
  rw [hset_seq]
  simp only [hi, getOr]
  generalize act (p.step i) w = r
  obtain ⟨w', r⟩ := r
  cases r with
  | error x => rfl
  | ok q =>
    cases q with
    | none =>
      simp only [cond_get, set_same]
      rfl
    | some x =>
      simp only [cond_get, set_same, execB_one, exec, prim_get, Option.join, Option.bind_some, id,
        Option.isSome, if_true, getOr]
      generalize act (target x) w' = r
      obtain ⟨w'', r⟩ := r
      cases r <;> rfl

theorem for_rounds (p : Proto σ E V T I X M Y) (k : Key) (target : X → Act σ E V Unit)
    (body orelse : Block (σ × Hid E V T I X M) E V) (B O : Key → Prop) (hkB : ¬ B k) (N : Nat)
    (cur : Option (Exc E V)) (i : I) (bodyR orelseR : World σ → Res (World σ) E V V)
    (hb : ∀ w h, HSim B h (execB N cur body (wup w h)) (bodyR w))
    (ho : ∀ w h, HSim O h (execB N cur orelse (wup w h)) (orelseR w)) :
    ∀ n w (h : Hid E V T I X M), (h k).iter = some i → (h k).trigger = false →
    HSim (fun k' => k' = k ∨ B k' ∨ O k') h
      (seqR (condR (act (hget k (fun v => con v.trigger))) (execB N cur orelse)
          (fun w => some (.norm, w)))
        (loopN (act (fun g => (g, .ok true))) (execB N cur (fetch p k target body))
          (fun w => some (.norm, w)) n (wup w h)))
      (forN (p.step i) target bodyR orelseR n w)
  | 0, w, h, _, _ => rfl
  | n + 1, w, h, hi, ht => by
    have ih := for_rounds p k target body orelse B O hkB N cur i bodyR orelseR hb ho n
    have e : loopN (act (fun g => (g, .ok true))) (execB N cur (fetch p k target body))
          (fun w => some (.norm, w)) (n + 1) (wup w h) =
        againR (loopN (act (fun g => (g, .ok true))) (execB N cur (fetch p k target body))
          (fun w => some (.norm, w)) n) (execB N cur (fetch p k target body) (wup w h)) := rfl
    rw [e, fetch_run p k target body N cur i w h hi]
    unfold forN actR
    generalize act (p.step i) w = r
    obtain ⟨w', r⟩ := r
    cases r with
    | error x => exact HSim.here _ h _ w'
    | ok q =>
      cases q with
      | none =>
        simp only [againR, seqR, cond_get, set_same, if_true]
        refine HSim.from ?_ ((ho w' _).mono (fun k' h => .inr (.inr h)))
        exact (agree_set (.inl rfl) _ _).trans (agree_set (.inl rfl) _ _)
      | some x =>
        simp only
        generalize act (target x) w' = r
        obtain ⟨w'', r⟩ := r
        have ag : Agree (fun k' => k' = k ∨ B k' ∨ O k')
            (h.set k (fun v => { v with ptr := some (some x) })) h := agree_set (.inl rfl) _ _
        cases r with
        | error x' => exact HSim.from ag (HSim.here _ _ _ w'')
        | ok u =>
          simp only
          refine HSim.from ag ?_
          have hs := hb w'' (h.set k (fun v => { v with ptr := some (some x) }))
          revert hs
          generalize execB N cur body _ = R
          generalize bodyR w'' = Q
          intro hs
          match Q, hs with
          | none, hs => rw [show R = none from hs]; rfl
          | some (o, w3), ⟨h3, e3, a3⟩ =>
            subst e3
            have hk : h3 k = { h k with ptr := some (some x) } := by
              rw [a3 k hkB, set_same]
            have a3' : Agree (fun k' => k' = k ∨ B k' ∨ O k') h3 _ :=
              a3.mono (fun k' h => .inr (.inl h))
            refine HSim.from a3' ?_
            cases o with
            | norm => exact ih w3 h3 (by rw [hk]; exact hi) (by rw [hk]; exact ht)
            | cont => exact ih w3 h3 (by rw [hk]; exact hi) (by rw [hk]; exact ht)
            | brk =>
              simp only [againR, seqR, cond_get, hk, ht, Bool.false_eq_true, if_false]
              exact HSim.here _ h3 _ w3
            | ret v => exact HSim.here _ h3 _ w3
            | exc x => exact HSim.here _ h3 _ w3
            | susp v => exact HSim.here _ h3 _ w3

/-- The `else` of the loop. -/
theorem elseCode {S : Type} (t : Act S E V Bool) (ht : ∀ s, ∃ b, t s = (s, .ok b))
    (orelse : Block S E V) (N : Nat) (cur : Option (Exc E V)) :
    execB N cur (if orelse.isNil then .nil else one (.ite t orelse .nil)) =
      condR (act t) (execB N cur orelse) (fun w => some (.norm, w)) := by
  funext w
  cases orelse with
  | nil =>
    obtain ⟨b, hb⟩ := ht w.1
    simp only [Block.isNil, if_true, execB, condR, act, hb]
    cases b <;> rfl
  | cons s r =>
    simp only [Block.isNil, Bool.false_eq_true, if_false]
    rw [execB_one]
    simp only [exec]
    congr 1

theorem for_sim (p : Proto σ E V T I X M Y) (k : Key) (e : Act σ E V T)
    (target : X → Act σ E V Unit) (body orelse : Block (σ × Hid E V T I X M) E V)
    (B O : Key → Prop) (hkB : ¬ B k) (N : Nat) (cur : Option (Exc E V))
    (bodyR orelseR : World σ → Res (World σ) E V V)
    (hb : ∀ w h, HSim B h (execB N cur body (wup w h)) (bodyR w))
    (ho : ∀ w h, HSim O h (execB N cur orelse (wup w h)) (orelseR w))
    (w : World σ) (h : Hid E V T I X M) :
    HSim (fun k' => k' = k ∨ B k' ∨ O k') h
      (execB N cur (forCode p k e target body orelse) (wup w h))
      (actR e (fun t => actR (p.start t) (fun i => forN (p.step i) target bodyR orelseR N)) w) := by
  unfold forCode
  simp only [execB, exec]
  rw [elseCode (hget k (fun v => con v.trigger)) (fun g => ⟨_, rfl⟩)]
  rw [hset_seq]
  simp only [actR]
  generalize act e w = r
  obtain ⟨w1, r⟩ := r
  cases r with
  | error x => exact HSim.here _ h _ w1
  | ok t =>
    simp only
    rw [hset_seq]
    simp only [set_same, getOr]
    generalize act (p.start t) w1 = r
    obtain ⟨w2, r⟩ := r
    cases r with
    | error x => exact HSim.from (agree_set (.inl rfl) _ _) (HSim.here _ _ _ w2)
    | ok i =>
      simp only
      rw [hset_seq]
      change HSim _ _ (seqR _ (loopN _ _ _ _ (wup w2 _))) _
      refine HSim.from ?_ (for_rounds p k target body orelse B O hkB N cur i bodyR orelseR hb ho N
        _ _ ?_ ?_)
      · exact ((agree_set (.inl rfl) _ _).trans (agree_set (.inl rfl) _ _)).trans
          (agree_set (.inl rfl) _ _)
      · simp only [set_same]
      · simp only [set_same]

/-! ## `with` -/

/-- The `finally` block of the code for `with`. -/
theorem with_fin (p : Proto σ E V T I X M Y) (k : Key) (N : Nat) (c : Option (Exc E V)) (m : M)
    (w : World σ) (h : Hid E V T I X M) (hm : (h k).mgr = some m) :
    execB N c (withFinal p k) (wup w h) =
    if (h k).fine then
      match act (p.exit m none) w with
      | (w', .error x) => some (.exc x, wup w' h)
      | (w', .ok _) => some (.norm, wup w' h)
    else some (.norm, wup w h) := by
  unfold withFinal
  rw [execB_one]
  simp only [exec, cond_get]
  split
  · rw [execB_one]
    simp only [exec, prim_get, hm, getOr]
    obtain ⟨s, bt⟩ := w
    simp only [act, exitA]
    generalize p.exit m none s = r
    obtain ⟨s', r⟩ := r
    cases r <;> rfl
  · simp only [execB]

/-- The handler of the code for `with`. -/
theorem with_handler (p : Proto σ E V T I X M Y) (k : Key) (N : Nat) (cur : Option (Exc E V))
    (m : M) (x : Exc E V) (w : World σ) (h : Hid E V T I X M) (hm : (h k).mgr = some m) :
    ∃ h', Agree (fun k' => k' = k) h' h ∧ (h' k).fine = false ∧ (h' k).mgr = some m ∧
    execH N cur (withHandler p k) x (wup w h) =
      match act (p.exit m (some x)) w with
      | (w', .error x') => some (.exc x', wup w' h')
      | (w', .ok b) => if b then some (.norm, wup w' h') else some (.exc x, wup w' h') := by
  refine ⟨(h.set k (fun v => { v with fine := false })).set k (fun v => { v with info := some x }),
    Agree.trans (L := fun k' => k' = k) (agree_set (L := fun k' => k' = k) rfl _ _)
      (agree_set (L := fun k' => k' = k) rfl _ _), by simp only [set_same],
    by simp only [set_same]; exact hm, ?_⟩
  unfold withHandler
  simp only [execH, if_true, execB, exec]
  change seqR _ (primR _ (wup w h)) = _
  rw [hset_seq]
  change seqR _ (primR (hset k (fun _ => con ()) _) (wup w _)) = _
  rw [hset_seq]
  change execB _ _ _ (wup w _) = _
  rw [execB_one]
  simp only [exec, condR, act, hget, up, wup, set_same, hm, getOr]
  generalize p.exit m (some x) w.1 = r
  obtain ⟨s', r⟩ := r
  cases r with
  | error x' => rfl
  | ok b =>
    cases b
    · simp only [execB_one, exec]; rfl
    · simp only [execB_one, exec]; rfl

/-- The `try` statement of the code for `with`. -/
theorem with_try (p : Proto σ E V T I X M Y) (k : Key)
    (body : Block (σ × Hid E V T I X M) E V) (B : Key → Prop) (hkB : ¬ B k) (N : Nat)
    (cur : Option (Exc E V)) (Q : Res (World σ) E V V) (m : M)
    (w : World σ) (h : Hid E V T I X M) (hm : (h k).mgr = some m) (hf : (h k).fine = true)
    (hb : HSim B h (execB N cur body (wup w h)) Q) :
    HSim (fun k' => k' = k ∨ B k') h
      (exec N cur (.tri body (withHandler p k) .nil (withFinal p k)) (wup w h))
      (exitR (p.exit m) Q) := by
  simp only [exec]
  revert hb
  generalize execB N cur body (wup w h) = R
  intro hb
  match Q, hb with
  | none, hb => rw [show R = none from hb]; rfl
  | some (o, w1), ⟨h1, e1, a1⟩ =>
    subst e1
    have hk : h1 k = h k := a1 k hkB
    refine HSim.from (a1.mono (fun k' hk' => .inr hk')) ?_
    have ends : ∀ o' : Out E V V, HSim (fun k' => k' = k ∨ B k') h1
        (seqR (fun w => some (o', w)) (execB N cur (withFinal p k) (wup w1 h1)))
        (actR (p.exit m none) (fun _ w' => some (o', w')) w1) := by
      intro o'
      rw [with_fin p k N cur m w1 h1 (by rw [hk]; exact hm), if_pos (by rw [hk]; exact hf)]
      unfold actR
      generalize act (p.exit m none) w1 = r
      obtain ⟨w2, r⟩ := r
      cases r <;> exact HSim.here _ h1 _ w2
    cases o with
    | susp v => exact HSim.here _ h1 _ w1
    | norm =>
      have := ends .norm
      rw [seqR_norm] at this
      exact this
    | brk => exact ends .brk
    | cont => exact ends .cont
    | ret v => exact ends (.ret v)
    | exc x =>
      obtain ⟨h2, a2, f2, m2, e2⟩ := with_handler p k N cur m x w1 h1 (by rw [hk]; exact hm)
      refine HSim.from (a2.mono (fun k' hk' => .inl hk')) ?_
      simp only [tryR, e2, exitR, actR]
      generalize act (p.exit m (some x)) w1 = r
      obtain ⟨w2, r⟩ := r
      have quiet : ∀ c, execB N c (withFinal p k) (wup w2 h2) = some (.norm, wup w2 h2) := by
        intro c
        rw [with_fin p k N c m w2 h2 m2, f2]
        rfl
      cases r with
      | error x' =>
        simp only [finR, quiet, seqR]
        exact HSim.here _ h2 _ w2
      | ok b =>
        cases b with
        | false =>
          simp only [finR, quiet, seqR, Bool.false_eq_true, if_false]
          exact HSim.here _ h2 _ w2
        | true =>
          simp only [finR, quiet, if_true]
          exact HSim.here _ h2 _ w2

theorem with_sim (p : Proto σ E V T I X M Y) (k : Key) (item : WItem σ E V M Y)
    (body : Block (σ × Hid E V T I X M) E V) (B : Key → Prop) (hkB : ¬ B k)
    (safe : ∀ t, item.target = some t → ∀ y, Safe (t y)) (N : Nat) (cur : Option (Exc E V))
    (bodyR : World σ → Res (World σ) E V V)
    (hb : ∀ w h, HSim B h (execB N cur body (wup w h)) (bodyR w))
    (w : World σ) (h : Hid E V T I X M) :
    HSim (fun k' => k' = k ∨ B k') h (execB N cur (withCode p k item body) (wup w h))
      (withR p item bodyR w) := by
  unfold withCode withR
  rw [execB, exec, hset_seq]
  change HSim _ _ (execB _ _ _ (wup w _)) _
  refine HSim.from (agree_set (.inl rfl) h (fun v => { v with fine := true })) ?_
  rw [execB, exec, hset_seq]
  simp only [actR]
  generalize act item.mgr w = r
  obtain ⟨w1, r⟩ := r
  cases r with
  | error x => exact HSim.here _ _ _ w1
  | ok m =>
    simp only
    refine HSim.from (agree_set (.inl rfl) _ (fun v => { v with mgr := some m })) ?_
    rw [execB, exec, prim_get]
    simp only [set_same, getOr, act, enterA]
    generalize p.enter m w1.1 = r
    obtain ⟨s2, r⟩ := r
    cases r with
    | error x => exact HSim.here _ _ _ (s2, w1.2)
    | ok y =>
      simp only
      have go : ∀ w3 : World σ, HSim (fun k' => k' = k ∨ B k')
          ((h.set k (fun v => { v with fine := true })).set k (fun v => { v with mgr := some m }))
          (execB N cur (one (.tri body (withHandler p k) .nil (withFinal p k))) (wup w3
            ((h.set k (fun v => { v with fine := true })).set k
              (fun v => { v with mgr := some m }))))
          (exitR (p.exit m) (bodyR w3)) := by
        intro w3
        rw [execB_one]
        exact with_try p k body B hkB N cur (bodyR w3) m w3 _ (by simp only [set_same])
          (by simp only [set_same]) (hb w3 _)
      cases ht : item.target with
      | none => exact go (s2, w1.2)
      | some t =>
        obtain ⟨s3, u, e3⟩ := safe t ht y s2
        simp only [e3]
        exact go (s3, w1.2)

theorem withs_sim (p : Proto σ E V T I X M Y) (body : Block (σ × Hid E V T I X M) E V)
    (B : Key → Prop) (N : Nat) (cur : Option (Exc E V))
    (bodyR : World σ → Res (World σ) E V V)
    (line : Nat) (hb : ∀ w h, HSim B h (execB N cur body (wup w h)) (bodyR w)) :
    ∀ (more : List (WItem σ E V M Y)) (col : Nat) (item : WItem σ E V M Y)
      (_ : withApart line col item B more) (w : World σ) (h : Hid E V T I X M),
    HSim (fun k' => withKeys line col more k' ∨ B k') h
      (execB N cur (withsCode p line col item more body) (wup w h)) (withsR p item more bodyR w)
  | [], col, item, ap, w, h => by
    simp only [withApart] at ap
    exact with_sim p (.ctx line col) item body B ap.1 ap.2 N cur bodyR hb w h
  | i2 :: more, col, item, ap, w, h => by
    simp only [withApart] at ap
    have := with_sim p (.ctx line col) item (withsCode p line i2.col i2 more body)
      (fun k' => withKeys line i2.col more k' ∨ B k') ap.1 ap.2.1 N cur (withsR p i2 more bodyR)
      (fun w h => withs_sim p body B N cur bodyR line hb more i2.col i2 ap.2.2 w h) w h
    refine this.mono (fun k' hk' => ?_)
    simp only [withKeys]
    rcases hk' with h1 | h2 | h3
    · exact .inl (.inl h1)
    · exact .inl (.inr h2)
    · exact .inr h3

/-! ## All statements -/

mutual
theorem rewrite_sim (p : Proto σ E V T I X M Y) (keep : Bool) (N : Nat) : ∀ (x : FStmt σ E V T X M Y)
    (_ : x.Apart keep) (cur : Option (Exc E V)) (w : World σ) (h : Hid E V T I X M),
    HSim (x.keys keep) h (execB N cur (x.rewrite p keep) (wup w h)) (fexec p N cur x w)
  | .prim f, _, cur, w, h => by
    rw [FStmt.rewrite, execB_one, exec, fexec]; exact HSim.prim _ f w h
  | .yld e, _, cur, w, h => by
    rw [FStmt.rewrite, execB_one, exec, fexec]; exact HSim.yld _ e w h
  | .ite t b o, ap, cur, w, h => by
    rw [FStmt.Apart] at ap
    rw [FStmt.rewrite, execB_one, exec, fexec]
    exact HSim.cond w
      (fun w => (rewriteB_sim p keep N b ap.1 cur w h).mono (fun k hk => by rw [FStmt.keys]; exact .inl hk))
      (fun w => (rewriteB_sim p keep N o ap.2 cur w h).mono (fun k hk => by rw [FStmt.keys]; exact .inr hk))
  | .whl t b o, ap, cur, w, h => by
    rw [FStmt.Apart] at ap
    rw [FStmt.rewrite, execB_one, exec, fexec]
    exact HSim.loop
      (fun w h => (rewriteB_sim p keep N b ap.1 cur w h).mono (fun k hk => by rw [FStmt.keys]; exact .inl hk))
      (fun w h => (rewriteB_sim p keep N o ap.2 cur w h).mono (fun k hk => by rw [FStmt.keys]; exact .inr hk))
      N w h
  | .forS l e target b o, ap, cur, w, h => by
    rw [FStmt.Apart] at ap
    rw [FStmt.rewrite, fexec]
    refine HSim.mono ?_ (for_sim p (.loop l) e target (b.rewrite p keep) (o.rewrite p keep) (b.keys keep) (o.keys keep) ap.1
      N cur _ _ (rewriteB_sim p keep N b ap.2.1 cur) (rewriteB_sim p keep N o ap.2.2 cur) w h)
    intro k hk
    rw [FStmt.keys]; exact hk
  | .withS l c item more b, ap, cur, w, h => by
    rw [FStmt.Apart] at ap
    rw [FStmt.rewrite, fexec]
    refine HSim.mono ?_ (withs_sim p (b.rewrite p keep) (b.keys keep) N cur _ _ (rewriteB_sim p keep N b ap.2 cur)
      more _ item ap.1 w h)
    intro k hk
    rw [FStmt.keys]; exact hk
  | .brk, _, cur, w, h => by
    rw [FStmt.rewrite, execB_one, exec, fexec]; exact HSim.here _ h _ w
  | .cont, _, cur, w, h => by
    rw [FStmt.rewrite, execB_one, exec, fexec]; exact HSim.here _ h _ w
  | .ret none, _, cur, w, h => by
    rw [FStmt.rewrite, execB_one, exec, fexec]; exact HSim.here _ h _ w
  | .ret (some e), _, cur, w, h => by
    rw [FStmt.rewrite, execB_one, exec, fexec]; exact HSim.ret _ e w h
  | .reraise, _, cur, w, h => by
    rw [FStmt.rewrite, execB_one, exec, fexec]; exact HSim.here _ h _ w
  | .tri b hs o f, ap, cur, w, h => by
    rw [FStmt.Apart] at ap
    rw [FStmt.rewrite, execB_one, exec, fexec]
    refine HSim.fin (HSim.tryS ?_ ?_ ?_) ?_
    · exact (rewriteB_sim p keep N b ap.1 cur w h).mono (fun k hk => by rw [FStmt.keys]; exact .inl hk)
    · exact fun x w h => (rewriteH_sim p keep N hs ap.2.1 cur x w h).mono
        (fun k hk => by rw [FStmt.keys]; exact .inr (.inl hk))
    · exact fun w h => (rewriteB_sim p keep N o ap.2.2.1 cur w h).mono
        (fun k hk => by rw [FStmt.keys]; exact .inr (.inr (.inl hk)))
    · exact fun c w h => (rewriteB_sim p keep N f ap.2.2.2 c w h).mono
        (fun k hk => by rw [FStmt.keys]; exact .inr (.inr (.inr hk)))
theorem rewriteB_sim (p : Proto σ E V T I X M Y) (keep : Bool) (N : Nat) : ∀ (x : FBlock σ E V T X M Y)
    (_ : x.Apart keep) (cur : Option (Exc E V)) (w : World σ) (h : Hid E V T I X M),
    HSim (x.keys keep) h (execB N cur (x.rewrite p keep) (wup w h)) (fexecB p N cur x w)
  | .nil, _, cur, w, h => by
    rw [FBlock.rewrite, execB, fexecB]; exact HSim.here _ h _ w
  | .cons s r, ap, cur, w, h => by
    rw [FBlock.Apart] at ap
    rw [FBlock.rewrite, execB_append, fexecB]
    exact HSim.seq
      ((rewrite_sim p keep N s ap.1 cur w h).mono (fun k hk => by rw [FBlock.keys]; exact .inl hk))
      (fun w h _ => (rewriteB_sim p keep N r ap.2 cur w h).mono
        (fun k hk => by rw [FBlock.keys]; exact .inr hk))
theorem rewriteH_sim (p : Proto σ E V T I X M Y) (keep : Bool) (N : Nat) : ∀ (x : FHandlers σ E V T X M Y)
    (_ : x.Apart keep) (cur : Option (Exc E V)) (e : Exc E V) (w : World σ) (h : Hid E V T I X M),
    HSim (x.keys keep) h (execH N cur (x.rewrite p keep) e (wup w h)) (fexecH p N cur x e w)
  | .nil, _, cur, e, w, h => by
    rw [FHandlers.rewrite, execH, fexecH]; exact HSim.here _ h _ w
  | .cons m bind b r, ap, cur, e, w, h => by
    rw [FHandlers.Apart] at ap
    rw [FHandlers.rewrite, execH, fexecH]
    split
    · exact (rewriteB_sim p keep N b ap.1 (some e) (bind e w.1, w.2) h).mono
        (fun k hk => by rw [FHandlers.keys]; exact .inl hk)
    · exact (rewriteH_sim p keep N r ap.2 cur e w h).mono
        (fun k hk => by rw [FHandlers.keys]; exact .inr hk)
end

theorem fold_lift : ∀ (bt : List (σ → σ)) (s : σ) (h : Hid E V T I X M),
    (lift bt).foldl (fun x f => f x) (s, h) = (bt.foldl (fun x f => f x) s, h)
  | [], _, _ => rfl
  | a :: bt, s, h => fold_lift bt (a s) h

/-- A Python generator with the rewritten body is a Python generator with the body. -/
theorem nthNext_rewrite (p : Proto σ E V T I X M Y) (keep : Bool) (N : Nat) (body : FBlock σ E V T X M Y)
    (ap : body.Apart keep) (bt : List (σ → σ)) (s : σ) (h : Hid E V T I X M) :
    (nthNext N (body.rewrite p keep) (bt.map (fun a g => (a g.1, g.2))) (s, h)).map
        (fun r => (r.1, r.2.1)) =
      nthNextFor p N body bt s := by
  have := rewriteB_sim p keep N body ap none (s, bt) h
  unfold nthNext nthNextFor
  have e : (((s, h), bt.map (fun a g => (a g.1, g.2))) : World (σ × Hid E V T I X M)) =
      wup (s, bt) h := rfl
  rw [e]
  revert this
  generalize execB N none (body.rewrite p keep) (wup (s, bt) h) = R
  generalize fexecB p N none body (s, bt) = Q
  intro this
  match Q, this with
  | none, this => rw [show R = none from this]; rfl
  | some (o, (s', [])), ⟨h', e, _⟩ => subst e; rfl
  | some (o, (s', a :: rest)), ⟨h', e, _⟩ =>
    subst e
    have := fold_lift (a :: rest) s' h'
    simp only [Option.map, wup]
    change Option.some _ = _
    exact congrArg (fun z : σ × Hid E V T I X M => Option.some (Obs.stop none, z.1)) this

end Verif.Gen
