import Verif.Flow.Try
/-
The generated code simulates Python: `try`, its `else` and its `finally`.
-/
namespace Verif.Flow

variable {n : Nat} {H : Hier} {σ : Slots n} {K : Nat} {ω : Nat → Nat} {N : Nat}

/-- A `try` before its `finally`, from what its body did. -/
def tryPre (orelse : PSt n → POut × PSt n) (hs : Val → PSt n → POut × PSt n) :
    POut × PSt n → POut × PSt n
  | (.normal, st') => orelse st'
  | (.raised v, st') => hs v st'
  | r => r

/-- How what happened in a `try` at depth `d` is recorded until its `finally` has run. -/
def Pend (d : Nat) (e : Bool) (st : St n) : POut → Prop
  | .normal => st.flow d = .default
  | .brk => e = true ∧ st.flow d = .brk
  | .cont => e = true ∧ st.flow d = .cont
  | .raised v => st.flow d = .exception ∧ st.info = some v
  | .returned v => st.flow d = .ret ∧ st.rv = some v
  | .timeout => False

/-- A part of a `try` has run, and the exception it may have thrown was caught. -/
structure Mid (H : Hier) (σ : Slots n) (d : Nat) (e : Bool) (st : St n) (st' : St n)
    (po : POut) (p : PSt n) : Prop where
  py : st'.py = p
  slot : SlotOK H σ st'.env
  pend : Pend d e st' po
  flow : ∀ j, j < d → st'.flow j = st.flow j

def excSt (st : St n) (v : Val) (d : Nat) : St n :=
  { st with err := some v, info := some v, flow := fun j => if j = d then .exception else st.flow j }

def caught (d : Nat) : Code n := .seq .catchExc (.setFlow d .exception)

theorem run_catch {c : Code n} {d : Nat} {st : St n} :
    run H ω N (.tryCatch c (caught d)) st =
      match run H ω N c st with
      | (.raised v, s) => (.normal, excSt s v d)
      | r => r := by
  simp only [run, caught]
  generalize run H ω N c st = x
  obtain ⟨o, s⟩ := x
  cases o <;> rfl

theorem run_catch_exc {c : Code n} {d : Nat} {st : St n} :
    run H ω N (.tryCatch c (.seq (.setExc true) (caught d))) st =
      match run H ω N c st with
      | (.raised v, s) => (.normal, excSt { s with exc := true } v d)
      | r => r := by
  simp only [run, caught]
  generalize run H ω N c st = x
  obtain ⟨o, s⟩ := x
  cases o <;> rfl

/-- the blocks inside a `try` -/
theorem WF_push {b : Blocks} {l : Label} (hl : l = .endTry b.depth ∨ l = .endFin b.depth) :
    (b.pushTry l).WF := by
  intro k hk
  simp only [Blocks.pushTry, Option.some.injEq] at hk
  subst hk
  exact ⟨b.depth, rfl, hl⟩

/-- An outcome other than a normal end, in a part of a `try` whose exceptions are recorded. -/
theorem mid_abnormal {b : Blocks} {l : Label} (hl : l.depth = b.depth) {st : St n} {x : Out × St n}
    {y : POut × PSt n} (hm : Matches (b.pushTry l) x.1 x.2 y.1) (hpx : x.2.py = y.2)
    (hslot : SlotOK H σ x.2.env) (hfl : ∀ j, j < b.depth → x.2.flow j = st.flow j)
    (hto : y.1 ≠ .timeout) (hno : y.1 ≠ .normal) :
    (∃ v, y.1 = .raised v ∧ x.1 = .raised v ∧ ∀ s : St n, s.env = x.2.env → s.pos = x.2.pos →
        s.flow = x.2.flow → Mid H σ b.depth b.inLoopEver st (excSt s v b.depth) y.1 y.2) ∨
    (x.1 = .jump l ∧ Mid H σ b.depth b.inLoopEver st x.2 y.1 y.2) := by
  obtain ⟨xo, xs⟩ := x
  obtain ⟨yo, ys⟩ := y
  cases yo with
  | normal => exact absurd rfl hno
  | timeout => exact absurd rfl hto
  | raised v =>
    left
    refine ⟨v, rfl, hm, fun s h3 h4 h5 => ?_⟩
    exact { py := by rw [← hpx]; simp only [St.py, excSt, h3, h4]
            slot := by simp only [excSt, h3]; exact hslot
            pend := ⟨by simp [excSt], rfl⟩
            flow := fun j hj => by
              have hne : j ≠ b.depth := by omega
              simp only [excSt, h5, if_neg hne]
              exact hfl j hj }
  | brk =>
    right
    rcases hm with ⟨he, ⟨hin, _⟩ | ⟨_, rr, hret, ho, hf⟩⟩
    · simp [Blocks.pushTry] at hin
    · simp only [Blocks.pushTry, Option.some.injEq] at hret
      subst hret
      exact ⟨ho, { py := hpx, slot := hslot, pend := ⟨he, by rw [← hl]; exact hf⟩, flow := hfl }⟩
  | cont =>
    right
    rcases hm with ⟨he, ⟨hin, _⟩ | ⟨_, rr, hret, ho, hf⟩⟩
    · simp [Blocks.pushTry] at hin
    · simp only [Blocks.pushTry, Option.some.injEq] at hret
      subst hret
      exact ⟨ho, { py := hpx, slot := hslot, pend := ⟨he, by rw [← hl]; exact hf⟩, flow := hfl }⟩
  | returned v =>
    right
    rcases hm with ⟨hret, _⟩ | ⟨rr, hret, ho, hf, hrv⟩
    · simp [Blocks.pushTry] at hret
    · simp only [Blocks.pushTry, Option.some.injEq] at hret
      subst hret
      exact ⟨ho, { py := hpx, slot := hslot, pend := ⟨by rw [← hl]; exact hf, hrv⟩, flow := hfl }⟩

theorem Rel.abnormal {b : Blocks} {l : Label} (hl : l.depth = b.depth) {V : Fin n → Prop} {A' : VS n}
    {r nt : Bool} {st : St n} {x : Out × St n} {y : POut × PSt n}
    (h : Rel H σ (b.pushTry l) V A' r nt st x y) (hto : y.1 ≠ .timeout) (hno : y.1 ≠ .normal) :
    (∃ v, y.1 = .raised v ∧ x.1 = .raised v ∧ ∀ s : St n, s.env = x.2.env → s.pos = x.2.pos →
        s.flow = x.2.flow → Mid H σ b.depth b.inLoopEver st (excSt s v b.depth) y.1 y.2) ∨
    (x.1 = .jump l ∧ Mid H σ b.depth b.inLoopEver st x.2 y.1 y.2) := by
  have h2 := h.2 hto
  refine mid_abnormal hl h2.out h2.py h2.slot (fun j hj => ?_) hto hno
  refine h2.flow j (by simp only [Blocks.pushTry]; omega) (fun k hk _ => ?_)
  simp only [Blocks.pushTry, Option.some.injEq] at hk
  subst hk
  rw [hl]; omega

theorem blockOut_jump (l : Label) (s : St n) : blockOut l (.jump l, s) = (.normal, s) := by
  simp [blockOut]

theorem blockOut_normal (l : Label) (s : St n) : blockOut l (.normal, s) = (.normal, s) := rfl

/-- A `try` without its `finally`: what the generated code has recorded, and what Python does. -/
theorem try_mid {b : Blocks} {body orelse : Stmt n} {hs : Handlers n} (hb : P H σ K ω N body)
    (hh : PH H σ K ω N hs) (ho : P H σ K ω N orelse) {A A₁ A₁' A₂ : VS n} {cb working co : Code n}
    {rb ro : Bool}
    (hcb : conv H σ K body (b.pushTry (.endTry b.depth)) A = some (cb, A₁, rb))
    (hch : convHandlers H σ K hs (b.pushTry (.endTry b.depth)) (A.enterHandlers σ body.assigns) A₁ =
      some (working, A₁'))
    (hco : conv H σ K orelse (b.pushTry (.endTry b.depth)) A₁' = some (co, A₂, ro))
    (hgb : good H σ K body (b.pushTry (.endTry b.depth)) A = true)
    (hgh : goodHandlers H σ K hs (b.pushTry (.endTry b.depth)) (A.enterHandlers σ body.assigns) = true)
    (hgo : good H σ K orelse (b.pushTry (.endTry b.depth)) A₁' = true)
    (hhn : ∀ x, body.hnames x = true → A.defInit x = false)
    (hel : orelse.isPass = true ∨ (body.noTry = true ∧ hs.noTry = true ∧
      (hs.isNil = true ∨ ∀ x, (A₂.defInit x = true → A₁'.defInit x = true) ∧
        (narrowable (σ x) = true → A₂.types x = A₁'.types x))))
    (hsb : body.Sound H) (hsh : hs.Sound H) (hso : orelse.Sound H)
    {V : Fin n → Prop} (hVb : ∀ x, body.mentions x = true → V x)
    (hVh : ∀ x, hs.mentions x = true → V x) (hVo : ∀ x, orelse.mentions x = true → V x)
    {cur : Option Val} {st : St n} (hslot : SlotOK H σ st.env) (hcov : Cov H σ V A st.env)
    (hinfo : body.usesReraise = true → st.info = cur)
    (hinfo' : orelse.usesReraise = true → st.info = cur) :
    let x := run H ω N (.block (.endTry b.depth) (.seq (.seq (.setExc false) (.setFlow b.depth .default))
      (.seq (.tryCatch cb (.seq (.setExc true) (.tryCatch working (caught b.depth))))
        (.ifExc .skip (.tryCatch co (.seq (.setExc true) (caught b.depth))))))) st
    let y := tryPre (py H ω N orelse cur) (pyHandlers H ω N hs) (py H ω N body cur st.py)
    (y.1 = .timeout → x.1 = .timeout) ∧
    (y.1 ≠ .timeout → x.1 = .normal ∧ Mid H σ b.depth b.inLoopEver st x.2 y.1 y.2 ∧
      (y.1 = .normal → Cov H σ V A₂ x.2.env)) := by
  intro x y
  let st0 : St n := { st with exc := false, flow := fun j => if j = b.depth then .default else st.flow j }
  let L : Label := .endTry b.depth
  let b1 := b.pushTry L
  have hw1 : b1.WF := WF_push (.inl rfl)
  have hd1 : L.depth = b.depth := rfl
  let els : Code n := .ifExc .skip (.tryCatch co (.seq (.setExc true) (caught b.depth)))
  have hfl0 : ∀ j, j < b.depth → st0.flow j = st.flow j := by
    intro j hj
    have hne : j ≠ b.depth := by omega
    simp only [st0, if_neg hne]
  have hpy0 : st0.py = st.py := rfl
  have hx : x = blockOut L (run H ω N (.seq (.tryCatch cb (.seq (.setExc true)
      (.tryCatch working (caught b.depth)))) els) st0) := by
    simp only [x]
    rw [run_block, run_seq_normal (st' := st0) rfl]
  have hpass : orelse.isPass = true → co = .skip ∧ A₂ = A₁' := by
    intro hp
    cases orelse with
    | pass =>
      simp only [conv, Option.some.injEq, Prod.mk.injEq] at hco
      exact ⟨hco.1.symm, hco.2.1.symm⟩
    | _ => simp [Stmt.isPass] at hp
  -- the `else` part does nothing when it is empty, or when an exception was recorded
  have helsSkip : ∀ s : St n, orelse.isPass = true ∨ s.exc = true →
      run H ω N els s = (.normal, s) := by
    intro s h
    simp only [els, run]
    rcases h with h | h
    · rw [(hpass h).1]
      split
      · rfl
      · simp only [run]
    · rw [if_pos h]
  have hfrb := py_frame H ω N body cur st.py
  have hrb := hb b1 hw1 A cb A₁ rb hcb hgb hsb V hVb cur st0 hslot hcov hinfo
  rw [hpy0] at hrb
  generalize hpb : py H ω N body cur st.py = yb at hrb hfrb
  generalize hxb : run H ω N cb st0 = xb at hrb
  obtain ⟨xo, xs⟩ := xb
  obtain ⟨yo, ys⟩ := yb
  have hy : y = tryPre (py H ω N orelse cur) (pyHandlers H ω N hs) (yo, ys) := by
    simp only [y, hpb]
  have hflowMid : ∀ {s : St n} {po : POut} {p : PSt n},
      Mid H σ b.depth b.inLoopEver st0 s po p → Mid H σ b.depth b.inLoopEver st s po p := by
    intro s po p h
    exact { py := h.py, slot := h.slot, pend := h.pend
            flow := fun j hj => (h.flow j hj).trans (hfl0 j hj) }
  cases hyo : yo with
  | timeout =>
    subst hyo
    have hxo : xo = .timeout := hrb.1 rfl
    subst hxo
    simp only [tryPre] at hy
    rw [hy, hx]
    refine ⟨fun _ => ?_, fun h => absurd rfl h⟩
    have : run H ω N (.tryCatch cb (.seq (.setExc true) (.tryCatch working (caught b.depth)))) st0 =
        (.timeout, xs) := by simp only [run, hxb]
    rw [run_seq_abn this (by simp)]
    rfl
  | normal =>
    subst hyo
    have h2 := hrb.2 (by simp)
    have hxo : xo = .normal := h2.out
    subst hxo
    have hpx : xs.py = ys := h2.py
    simp only [tryPre] at hy
    have hmain : run H ω N (.tryCatch cb (.seq (.setExc true) (.tryCatch working (caught b.depth)))) st0 =
        (.normal, xs) := by simp only [run, hxb]
    have hflb : ∀ j, j < b.depth + 1 → xs.flow j = st0.flow j :=
      fun j hj => h2.flow j hj (fun l _ h => by simp at h)
    have hfd : xs.flow b.depth = .default := by rw [hflb _ (by omega)]; simp [st0]
    have hcv := convHandlers_cov hs b1 _ _ _ _ hch V _ (h2.norm rfl).2
    by_cases hp : orelse.isPass = true
    · have hx' : x = (.normal, xs) := by
        rw [hx, run_seq_normal hmain, helsSkip xs (.inl hp)]; rfl
      have hy' : y = (.normal, ys) := by
        rw [hy]
        cases orelse with
        | pass => rfl
        | _ => simp [Stmt.isPass] at hp
      rw [hx', hy']
      refine ⟨fun h => by simp at h, fun _ => ⟨rfl, ?_, fun _ => ?_⟩⟩
      · exact { py := hpx, slot := h2.slot, pend := hfd
                flow := fun j hj => (hflb j (by omega)).trans (hfl0 j hj) }
      · rw [(hpass hp).2]; exact hcv
    · have hel' := hel.resolve_left hp
      have hexc : xs.exc = false := (h2.noTry hel'.1).1
      have hro := ho b1 hw1 A₁' co A₂ ro hco hgo hso V hVo cur xs h2.slot hcv
        (fun hu => by
          have h3 := ((h2.noTry hel'.1).2 (by rintro ⟨l, _, h⟩; simp at h)).1
          exact Eq.trans h3 (hinfo' hu))
      rw [hpx] at hro
      have hels : run H ω N els xs =
          run H ω N (.tryCatch co (.seq (.setExc true) (caught b.depth))) xs := by
        simp only [els, run, hexc, Bool.false_eq_true, if_false]
      rw [hx, hy, run_seq_normal hmain, hels, run_catch_exc]
      have hflo : ∀ {s : St n} {po : POut} {p : PSt n},
          Mid H σ b.depth b.inLoopEver xs s po p → Mid H σ b.depth b.inLoopEver st s po p := by
        intro s po p h
        exact { py := h.py, slot := h.slot, pend := h.pend
                flow := fun j hj => ((h.flow j hj).trans (hflb j (by omega))).trans (hfl0 j hj) }
      generalize hxx : run H ω N co xs = xx at hro ⊢
      generalize hyy : py H ω N orelse cur ys = yy at hro ⊢
      obtain ⟨xo, xs'⟩ := xx
      obtain ⟨yo, ys'⟩ := yy
      by_cases hto : yo = .timeout
      · subst hto
        have : xo = .timeout := hro.1 rfl
        subst this
        exact ⟨fun _ => rfl, fun h => absurd rfl h⟩
      · by_cases hno : yo = .normal
        · subst hno
          have h3 := hro.2 (by simp)
          have hxo : xo = .normal := h3.out
          subst hxo
          refine ⟨fun h => by simp at h, fun _ => ⟨rfl, hflo ?_, fun _ => (h3.norm rfl).2⟩⟩
          refine { py := h3.py, slot := h3.slot, pend := ?_, flow := fun j hj => ?_ }
          · show xs'.flow b.depth = .default
            rw [h3.flow b.depth (Nat.lt_succ_self _) (fun l _ h => by simp at h)]
            exact hfd
          · exact h3.flow j (Nat.lt_succ_of_lt hj) (fun l _ h => by simp at h)
        · rcases hro.abnormal hd1 hto hno with ⟨v, hv1, hv2, hv3⟩ | ⟨hj1, hj2⟩
          · simp only at hv2
            subst hv2
            refine ⟨fun h => absurd h hto, fun _ => ⟨rfl, hflo ?_, fun h => absurd h hno⟩⟩
            exact hv3 { xs' with exc := true } rfl rfl rfl
          · simp only at hj1
            subst hj1
            refine ⟨fun h => absurd h hto, fun _ => ?_⟩
            rw [show blockOut L (match ((.jump L, xs') : Out × St n) with
              | (.raised v, s) => (.normal, excSt { s with exc := true } v b.depth)
              | r => r) = (.normal, xs') from blockOut_jump L xs']
            exact ⟨rfl, hflo hj2, fun h => absurd h hno⟩
  | raised w =>
    subst hyo
    have h2 := hrb.2 (by simp)
    have hxo : xo = .raised w := h2.out
    subst hxo
    have hpx : xs.py = ys := h2.py
    simp only [tryPre] at hy
    let s2 : St n := { xs with err := some w, exc := true }
    have hmain : run H ω N (.tryCatch cb (.seq (.setExc true) (.tryCatch working (caught b.depth)))) st0 =
        run H ω N (.tryCatch working (caught b.depth)) s2 := by
      simp only [run, hxb]; rfl
    have hflb : ∀ j, j < b.depth + 1 → xs.flow j = st0.flow j :=
      fun j hj => h2.flow j hj (fun l _ h => by simp at h)
    have hfd : xs.flow b.depth = .default := by rw [hflb _ (by omega)]; simp [st0]
    have hfr := hfrb (by simp)
    have hcv : Cov H σ V (A.enterHandlers σ body.assigns) s2.env := by
      refine Cov.enterHandlers (env := st.env) (hn := body.hnames) hcov hslot h2.slot ?_ hhn
      have : xs.env = ys.env := by rw [← hpx]; rfl
      rw [this]; exact hfr
    have hrh := hh b1 b.depth hw1 rfl rfl _ _ working A₁' hch hgh hsh V hVh w s2 h2.slot hcv rfl
    have hpy2 : s2.py = ys := by rw [← hpx]; rfl
    rw [hpy2] at hrh
    rw [hx, hy]
    have hflo : ∀ {s : St n} {po : POut} {p : PSt n},
        Mid H σ b.depth b.inLoopEver s2 s po p → Mid H σ b.depth b.inLoopEver st s po p := by
      intro s po p h
      exact { py := h.py, slot := h.slot, pend := h.pend
              flow := fun j hj => ((h.flow j hj).trans (hflb j (by omega))).trans (hfl0 j hj) }
    have hexcOK : ∀ s : St n, (hs.noTry = true → s.exc = s2.exc) → orelse.isPass = true ∨ s.exc = true := by
      intro s h
      rcases hel with h' | h'
      · exact .inl h'
      · exact .inr (by rw [h h'.2.1])
    generalize hxx : run H ω N working s2 = xx at hrh
    generalize hyy : pyHandlers H ω N hs w ys = yy at hrh ⊢
    obtain ⟨xo, xs'⟩ := xx
    obtain ⟨yo, ys'⟩ := yy
    by_cases hto : yo = .timeout
    · subst hto
      have : xo = .timeout := hrh.1 rfl
      subst this
      refine ⟨fun _ => ?_, fun h => absurd rfl h⟩
      have : run H ω N (.tryCatch cb (.seq (.setExc true) (.tryCatch working (caught b.depth)))) st0 =
        (.timeout, xs') := by rw [hmain, run_catch, hxx]
      rw [run_seq_abn this (by simp)]
      rfl
    · have h3 := hrh.2 hto
      refine ⟨fun h => absurd h hto, fun _ => ?_⟩
      -- the handlers end, and the `else` part is skipped
      have fin : ∀ s : St n,
          run H ω N (.tryCatch working (caught b.depth)) s2 = (.normal, s) →
          (hs.noTry = true → s.exc = s2.exc) →
          blockOut L (run H ω N (.seq (.tryCatch cb (.seq (.setExc true)
            (.tryCatch working (caught b.depth)))) els) st0) = (.normal, s) := by
        intro s h1 h4
        rw [← hmain] at h1
        rw [run_seq_normal h1, helsSkip s (hexcOK s h4)]
        rfl
      by_cases hno : yo = .normal
      · subst hno
        have hxo : xo = .normal := by
          rcases h3.out with h | ⟨v, h, _⟩
          · exact h
          · simp at h
        subst hxo
        rw [fin xs' (by rw [run_catch, hxx]) h3.noTry]
        obtain ⟨hc1, hf1⟩ := h3.norm rfl
        refine ⟨rfl, hflo ?_, fun _ => ?_⟩
        · exact { py := h3.py, slot := h3.slot, pend := by
                    show xs'.flow b.depth = .default
                    rw [hf1]; exact hfd
                  flow := h3.flow }
        · rcases hel with h' | h'
          · rw [(hpass h').2]; exact hc1
          · rcases h'.2.2 with h4 | h4
            · exfalso
              cases hs with
              | nil => simp [pyHandlers] at hyy
              | cons _ _ _ _ => simp [Handlers.isNil] at h4
            · exact hc1.weaken (fun x _ => (h4 x).1) (fun x _ => (h4 x).2)
      · rcases h3.out with h | ⟨v, hv1, hv2, hv3, hv4⟩
        · -- as any other part
          rcases mid_abnormal (x := (xo, xs')) (y := (yo, ys')) hd1 h h3.py h3.slot h3.flow hto hno with
            ⟨v, hv1, hv2, hv3⟩ | ⟨hj1, hj2⟩
          · simp only at hv2
            subst hv2
            rw [fin (excSt xs' v b.depth) (by rw [run_catch, hxx]) h3.noTry]
            exact ⟨rfl, hflo (hv3 xs' rfl rfl rfl), fun h => absurd h hno⟩
          · simp only at hj1
            subst hj1
            have h4 : run H ω N (.tryCatch working (caught b.depth)) s2 = (.jump L, xs') := by
              rw [run_catch, hxx]
            rw [← hmain] at h4
            rw [run_seq_abn h4 (by simp), blockOut_jump]
            exact ⟨rfl, hflo hj2, fun h => absurd h hno⟩
        · subst hv1
          subst hv2
          rw [fin xs' (by rw [run_catch, hxx]) h3.noTry]
          exact ⟨rfl, hflo { py := h3.py, slot := h3.slot, pend := ⟨hv3, hv4⟩, flow := h3.flow },
            fun h => absurd h hno⟩
  | brk =>
    subst hyo
    simp only [tryPre] at hy
    rw [hx, hy]
    rcases hrb.abnormal hd1 (by simp) (by simp) with ⟨v, hv1, _⟩ | ⟨hj1, hj2⟩
    · simp at hv1
    · simp only at hj1
      subst hj1
      refine ⟨fun h => by simp at h, fun _ => ?_⟩
      rw [run_seq_abn (o := .jump L) (st' := xs) (by simp only [run, hxb]) (by simp), blockOut_jump]
      exact ⟨rfl, hflowMid hj2, fun h => by simp at h⟩
  | cont =>
    subst hyo
    simp only [tryPre] at hy
    rw [hx, hy]
    rcases hrb.abnormal hd1 (by simp) (by simp) with ⟨v, hv1, _⟩ | ⟨hj1, hj2⟩
    · simp at hv1
    · simp only at hj1
      subst hj1
      refine ⟨fun h => by simp at h, fun _ => ?_⟩
      rw [run_seq_abn (o := .jump L) (st' := xs) (by simp only [run, hxb]) (by simp), blockOut_jump]
      exact ⟨rfl, hflowMid hj2, fun h => by simp at h⟩
  | returned w =>
    subst hyo
    simp only [tryPre] at hy
    rw [hx, hy]
    rcases hrb.abnormal hd1 (by simp) (by simp) with ⟨v, hv1, _⟩ | ⟨hj1, hj2⟩
    · simp at hv1
    · simp only at hj1
      subst hj1
      refine ⟨fun h => by simp at h, fun _ => ?_⟩
      rw [run_seq_abn (o := .jump L) (st' := xs) (by simp only [run, hxb]) (by simp), blockOut_jump]
      exact ⟨rfl, hflowMid hj2, fun h => by simp at h⟩

end Verif.Flow
