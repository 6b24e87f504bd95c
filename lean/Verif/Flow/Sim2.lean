import Verif.Flow.Sim
/-
The generated code simulates Python: the statements other than `try`.
-/
namespace Verif.Flow

variable {n : Nat} {H : Hier} {σ : Slots n}

/-- The claim about a statement. -/
def P (H : Hier) (σ : Slots n) (K : Nat) (ω : Nat → Nat) (N : Nat) (s : Stmt n) : Prop :=
  ∀ (b : Blocks), b.WF → ∀ (A : VS n) (c : Code n) (A' : VS n) (r : Bool),
    conv H σ K s b A = some (c, A', r) → good H σ K s b A = true → s.Sound H →
    ∀ (V : Fin n → Prop), (∀ x, s.mentions x = true → V x) → ∀ (cur : Option Val) (st : St n),
      SlotOK H σ st.env → Cov H σ V A st.env → (s.usesReraise = true → st.info = cur) →
      Rel H σ b V A' r s.noTry st (run H ω N c st) (py H ω N s cur st.py)

variable {K : Nat} {ω : Nat → Nat} {N : Nat}

theorem P_pass : P H σ K ω N .pass := by
  intro b _ A c A' r hc _ _ V _ cur st hs hcov _
  simp only [conv, Option.some.injEq, Prod.mk.injEq] at hc
  obtain ⟨rfl, rfl, rfl⟩ := hc
  exact Rel.normal (p := st.pos) hs hcov

theorem P_seq {s₁ s₂ : Stmt n} (h1 : P H σ K ω N s₁) (h2 : P H σ K ω N s₂) :
    P H σ K ω N (.seq s₁ s₂) := by
  intro b hw A c A' r hc hg hsd V hV cur st hs hcov hinfo
  simp only [conv] at hc
  simp only [good, Bool.and_eq_true] at hg
  have hV1 : ∀ x, s₁.mentions x = true → V x := fun x hx => hV x (by simp [Stmt.mentions, hx])
  have hV2 : ∀ x, s₂.mentions x = true → V x := fun x hx => hV x (by simp [Stmt.mentions, hx])
  have hi1 : s₁.usesReraise = true → st.info = cur := fun hx => hinfo (by simp [Stmt.usesReraise, hx])
  cases hc1 : conv H σ K s₁ b A with
  | none => rw [hc1] at hc; simp at hc
  | some q =>
    obtain ⟨c₁, A₁, r₁⟩ := q
    rw [hc1] at hc hg
    have hr1 := h1 b hw A c₁ A₁ r₁ hc1 hg.1 hsd.1 V hV1 cur st hs hcov hi1
    obtain ⟨xo, xs, hrun⟩ : ∃ o s', run H ω N c₁ st = (o, s') := ⟨_, _, rfl⟩
    obtain ⟨yo, ys, hpy⟩ : ∃ o s', py H ω N s₁ cur st.py = (o, s') := ⟨_, _, rfl⟩
    have hnt : (Stmt.seq s₁ s₂).noTry = true → s₁.noTry = true := by
      simp only [Stmt.noTry, Bool.and_eq_true]; exact fun h => h.1
    have hpyn : yo ≠ .normal → py H ω N (.seq s₁ s₂) cur st.py = (yo, ys) := by
      intro hyo
      simp only [py, hpy]
      cases yo <;> first | rfl | exact absurd rfl hyo
    rw [hrun, hpy] at hr1
    cases r₁ with
    | false =>
      simp only [Option.some.injEq, Prod.mk.injEq] at hc
      obtain ⟨rfl, rfl, rfl⟩ := hc
      have hyo : yo ≠ .normal := by
        intro h; subst h
        have := ((hr1.2 (by simp)).norm rfl).1
        simp at this
      rw [hrun, hpyn hyo]
      exact hr1.conseq hnt (fun h => absurd h hyo)
    | true =>
      simp only at hc hg
      cases hc2 : conv H σ K s₂ b A₁ with
      | none => rw [hc2] at hc; simp at hc
      | some q =>
        obtain ⟨c₂, A₂, r₂⟩ := q
        rw [hc2] at hc
        simp only [Option.some.injEq, Prod.mk.injEq] at hc
        obtain ⟨rfl, rfl, rfl⟩ := hc
        simp only [Bool.and_eq_true, Bool.or_eq_true, Bool.not_eq_true'] at hg
        by_cases hyo : yo = .normal
        · subst hyo
          have hres := hr1.2 (by simp)
          have hxo : xo = .normal := hres.out
          subst hxo
          have hys : xs.py = ys := hres.py
          rw [run_seq_normal hrun]
          have hpy2 : py H ω N (.seq s₁ s₂) cur st.py = py H ω N s₂ cur xs.py := by
            simp only [py, hpy, hys]
          rw [hpy2]
          have hnl : ¬ Leaves b Out.normal := by rintro ⟨l, _, h⟩; simp at h
          refine (Rel.conseq (nt₁ := (Stmt.seq s₁ s₂).noTry) ?_ (fun h => h) (fun _ a b => ⟨a, b⟩))
          refine Rel.prefix (st₁ := xs) ?_ ?_ ?_
          · refine (h2 b hw A₁ c₂ A₂ r₂ hc2 hg.2.1 hsd.2 V hV2 cur xs hres.slot
              (hres.norm rfl).2 ?_).conseq ?_ (fun _ a b => ⟨a, b⟩)
            · intro hu
              rcases hg.2.2 with hg2 | hg2
              · rw [hg2] at hu; simp at hu
              · rw [((hres.noTry hg2).2 hnl).1]
                exact hinfo (by simp [Stmt.usesReraise, hu])
            · simp only [Stmt.noTry, Bool.and_eq_true]; exact fun h => h.2
          · intro d hd
            exact hres.flow d hd (fun l _ h => by simp at h)
          · intro hn
            have h3 := hres.noTry (hnt hn)
            exact ⟨h3.1, (h3.2 hnl).1, (h3.2 hnl).2⟩
        · rw [hpyn hyo]
          by_cases hto : yo = .timeout
          · subst hto
            have : xo = .timeout := hr1.1 rfl
            subst this
            rw [run_seq_abn hrun (by simp)]
            exact ⟨fun _ => rfl, fun h => absurd rfl h⟩
          · have hxo := (hr1.2 hto).out.ne_normal hyo
            rw [run_seq_abn hrun hxo]
            exact hr1.conseq hnt (fun h => absurd h hyo)

theorem mem_reads {e : List (Fin n)} {x : Fin n} (h : x ∈ e) : e.contains x = true := by
  simpa using h

theorem storeMode_fst {A : VS n} {x : Fin n} : (storeMode σ A x).1 = A.defInit x := rfl

/-- Storing where the state describes the variable. -/
theorem doStore_eq {V : Fin n → Prop} {A : VS n} {x : Fin n} {st : St n} (hc : Cov H σ V A st.env)
    (hx : V x) (v : Val) (pod : Bool) :
    doStore st x v (storeMode σ A x).1 pod =
      (.normal, { st with env := setVar st.env x (some v) }) := by
  unfold doStore
  split
  · rename_i h
    simp only [Bool.and_eq_true, storeMode_fst] at h
    have := (hc x hx).1 h.1
    cases he : st.env x with
    | none => exact absurd he this
    | some w => rw [he] at h; simp at h
  · rfl

theorem P_assign {x : Fin n} {e : Expr n} : P H σ K ω N (.assign x e) := by
  intro b hw A c A' r hc hg hsd V hV cur st hs hcov _
  have hVe : ∀ y, y ∈ e.reads → V y :=
    fun y hy => hV y (by simp only [Stmt.mentions, mem_reads hy, Bool.or_true])
  have hVx : V x := hV x (by simp [Stmt.mentions])
  rcases doEval_eq ω e hsd st hs hcov hVe with ⟨w, p, h1, h2⟩ | ⟨v, p, t, h1, h2, h3, h4⟩
  · have hpy : py H ω N (.assign x e) cur st.py = (.raised w, { env := st.env, pos := p }) := by
      simp only [py, h1]
    rw [hpy]
    have hrun : run H ω N c st = (.raised w, { st with pos := p }) := by
      simp only [conv] at hc
      split at hc
      · rename_i rs heq
        rw [heq] at h2
        simp only [Option.some.injEq, Prod.mk.injEq] at hc
        obtain ⟨rfl, rfl, rfl⟩ := hc
        simp only [run, h2]
      · rename_i rs t heq
        rw [heq] at h2
        simp only [Option.some.injEq, Prod.mk.injEq] at hc
        obtain ⟨rfl, rfl, rfl⟩ := hc
        simp only [run, h2]
    rw [hrun]
    exact Rel.raised hs
  · have hpy : py H ω N (.assign x e) cur st.py =
        (.normal, { env := setVar st.env x (some v), pos := p }) := by
      simp only [py, h1]
    rw [hpy]
    simp only [good, h3] at hg
    obtain ⟨hsafe, hslot⟩ := settled_safe hg h4
    simp only [conv] at hc
    split at hc
    · rename_i rs heq; rw [heq] at h3; simp at h3
    · rename_i rs t' heq
      rw [heq] at h2 h3
      simp only [Option.some.injEq] at h3
      subst h3
      simp only [Option.some.injEq, Prod.mk.injEq] at hc
      obtain ⟨rfl, rfl, rfl⟩ := hc
      have hrun : run H ω N (.store x e rs true (storeMode σ A x).1 (storeMode σ A x).2) st =
          (.normal, { st with pos := p, env := setVar st.env x (some v) }) := by
        simp only [run, h2, if_true]
        exact doStore_eq (st := { st with pos := p }) hcov hVx v _
      rw [hrun]
      refine ⟨fun h => by simp at h, fun _ => ?_⟩
      exact { py := rfl, slot := hs.set hslot, out := rfl
              norm := fun _ => ⟨rfl, hcov.assigned hsafe⟩
              flow := fun _ _ _ => rfl, noTry := fun _ => ⟨rfl, fun _ => ⟨rfl, rfl⟩⟩ }

theorem P_expr {e : Expr n} : P H σ K ω N (.expr e) := by
  intro b hw A c A' r hc hg hsd V hV cur st hs hcov _
  have hVe : ∀ y, y ∈ e.reads → V y :=
    fun y hy => hV y (by simp only [Stmt.mentions, mem_reads hy])
  rcases doEval_eq ω e hsd st hs hcov hVe with ⟨w, p, h1, h2⟩ | ⟨v, p, t, h1, h2, h3, h4⟩
  · have hpy : py H ω N (.expr e) cur st.py = (.raised w, { env := st.env, pos := p }) := by
      simp only [py, h1]
    rw [hpy]
    have hrun : run H ω N c st = (.raised w, { st with pos := p }) := by
      simp only [conv] at hc
      split at hc
      all_goals
        rename_i heq
        rw [heq] at h2
        simp only [Option.some.injEq, Prod.mk.injEq] at hc
        obtain ⟨rfl, rfl, rfl⟩ := hc
        simp only [run, h2]
    rw [hrun]
    exact Rel.raised hs
  · have hpy : py H ω N (.expr e) cur st.py = (.normal, { env := st.env, pos := p }) := by
      simp only [py, h1]
    rw [hpy]
    simp only [conv] at hc
    split at hc
    · rename_i rs heq; rw [heq] at h3; simp at h3
    · rename_i rs t' heq
      rw [heq] at h2
      simp only [Option.some.injEq, Prod.mk.injEq] at hc
      obtain ⟨rfl, rfl, rfl⟩ := hc
      have hrun : run H ω N (.eval e rs true) st = (.normal, { st with pos := p }) := by
        simp only [run, h2, if_true]
      rw [hrun]
      exact Rel.normal hs hcov

theorem P_raiseE {e : Expr n} : P H σ K ω N (.raiseE e) := by
  intro b hw A c A' r hc hg hsd V hV cur st hs hcov _
  have hVe : ∀ y, y ∈ e.reads → V y :=
    fun y hy => hV y (by simp only [Stmt.mentions, mem_reads hy])
  simp only [conv, Option.some.injEq, Prod.mk.injEq] at hc
  obtain ⟨rfl, rfl, rfl⟩ := hc
  rcases doEval_eq ω e hsd st hs hcov hVe with ⟨w, p, h1, h2⟩ | ⟨v, p, t, h1, h2, h3, h4⟩
  · simp only [py, h1, run, h2]
    exact Rel.raised hs
  · simp only [py, h1, run, h2]
    exact Rel.raised hs

theorem P_ret {e : Expr n} : P H σ K ω N (.ret e) := by
  intro b hw A c A' r hc hg hsd V hV cur st hs hcov _
  have hVe : ∀ y, y ∈ e.reads → V y :=
    fun y hy => hV y (by simp only [Stmt.mentions, mem_reads hy])
  rcases doEval_eq ω e hsd st hs hcov hVe with ⟨w, p, h1, h2⟩ | ⟨v, p, t, h1, h2, h3, h4⟩
  · have hpy : py H ω N (.ret e) cur st.py = (.raised w, { env := st.env, pos := p }) := by
      simp only [py, h1]
    rw [hpy]
    have hrun : run H ω N c st = (.raised w, { st with pos := p }) := by
      simp only [conv] at hc
      split at hc
      · rename_i rs heq
        rw [heq] at h2
        simp only [Option.some.injEq, Prod.mk.injEq] at hc
        obtain ⟨rfl, rfl, rfl⟩ := hc
        simp only [run, h2]
      · rename_i rs t heq
        rw [heq] at h2
        simp only [Option.some.injEq, Prod.mk.injEq] at hc
        obtain ⟨rfl, rfl, rfl⟩ := hc
        unfold retCode
        split
        · simp only [run, h2]
        · simp only [run, h2]
    rw [hrun]
    exact Rel.raised hs
  · have hpy : py H ω N (.ret e) cur st.py = (.returned v, { env := st.env, pos := p }) := by
      simp only [py, h1]
    rw [hpy]
    simp only [conv] at hc
    split at hc
    · rename_i rs heq; rw [heq] at h3; simp at h3
    · rename_i rs t' heq
      rw [heq] at h2
      simp only [Option.some.injEq, Prod.mk.injEq] at hc
      obtain ⟨rfl, rfl, rfl⟩ := hc
      refine ⟨fun h => by simp at h, fun _ => ?_⟩
      unfold retCode
      split
      · rename_i hret
        have hrun : run H ω N (.ret e rs true) st = (.returned v, { st with pos := p }) := by
          simp only [run, h2, if_true]
        rw [hrun]
        exact { py := rfl, slot := hs, out := .inl ⟨hret, rfl⟩, norm := fun h => by simp at h
                flow := fun _ _ _ => rfl, noTry := fun _ => ⟨rfl, fun _ => ⟨rfl, rfl⟩⟩ }
      · rename_i rr hret
        have hrun : run H ω N (.saveRet e rs true) st =
            (.normal, { st with pos := p, rv := some v }) := by
          simp only [run, h2, if_true]
        rw [run_seq_normal hrun, run_defer]
        exact { py := rfl, slot := hs
                out := .inr ⟨rr, hret, rfl, by simp [run, deferSt], rfl⟩
                norm := fun h => by simp at h
                flow := fun d _ hl => by
                  have := hl rr hret rfl
                  simp [run, deferSt, this]
                noTry := fun _ => ⟨rfl, fun hl => absurd ⟨rr, hret, rfl⟩ hl⟩ }

theorem P_reraise : P H σ K ω N .reraise := by
  intro b hw A c A' r hc hg hsd V hV cur st hs hcov hinfo
  simp only [conv, Option.some.injEq, Prod.mk.injEq] at hc
  obtain ⟨rfl, rfl, rfl⟩ := hc
  have hi := hinfo rfl
  subst hi
  cases hx : st.info with
  | none =>
    simp only [py, run, hx]
    exact Rel.raised (p := st.pos) hs
  | some v =>
    simp only [py, run, hx]
    exact Rel.raised (p := st.pos) hs

theorem P_brk : P H σ K ω N .brk := by
  intro b hw A c A' r hc hg hsd V hV cur st hs hcov _
  simp only [conv] at hc
  split at hc
  · simp at hc
  · rename_i j hj
    simp only [Option.some.injEq, Prod.mk.injEq] at hc
    obtain ⟨rfl, rfl, rfl⟩ := hc
    obtain ⟨o, st', h1, h2, h3, h4, h5, h6, h7⟩ :=
      jumpCode_run (H := H) (ω := ω) (N := N) hj hg st
    rw [h1]
    refine ⟨fun h => by simp [py] at h, fun _ => ?_⟩
    exact { py := by simp [py, St.py, h2, h3], slot := by rw [h2]; exact hs, out := h4
            norm := fun h => by simp [py] at h, flow := h5, noTry := fun _ => ⟨h6, h7⟩ }

theorem P_cont : P H σ K ω N .cont := by
  intro b hw A c A' r hc hg hsd V hV cur st hs hcov _
  simp only [conv] at hc
  split at hc
  · simp at hc
  · rename_i j hj
    simp only [Option.some.injEq, Prod.mk.injEq] at hc
    obtain ⟨rfl, rfl, rfl⟩ := hc
    obtain ⟨o, st', h1, h2, h3, h4, h5, h6, h7⟩ :=
      jumpCode_run (H := H) (ω := ω) (N := N) hj hg st
    rw [h1]
    refine ⟨fun h => by simp [py] at h, fun _ => ?_⟩
    exact { py := by simp [py, St.py, h2, h3], slot := by rw [h2]; exact hs, out := h4
            norm := fun h => by simp [py] at h, flow := h5, noTry := fun _ => ⟨h6, h7⟩ }

theorem P_assert {t : Test n} : P H σ K ω N (.assertS t) := by
  intro b hw A c A' r hc hg hsd V hV cur st hs hcov _
  have hVe : ∀ y, y ∈ t.reads → V y :=
    fun y hy => hV y (by simp only [Stmt.mentions, mem_reads hy])
  simp only [conv] at hc
  simp only [good] at hg
  rcases doTest_eq ω t hsd st hs hcov hVe with ⟨w, p, h1, h2⟩ | ⟨v, p, h1, h2, h3, h4, vs, h5, h6⟩
  · have hpy : py H ω N (.assertS t) cur st.py = (.raised w, { env := st.env, pos := p }) := by
      simp only [py, h1]
    rw [hpy]
    have hrun : run H ω N c st = (.raised w, { st with pos := p }) := by
      split at hc <;>
      · rename_i heq
        rw [heq] at h2
        simp only [Option.some.injEq, Prod.mk.injEq] at hc
        obtain ⟨rfl, rfl, rfl⟩ := hc
        simp only [run, h2]
    rw [hrun]
    exact Rel.raised hs
  · have hR := Cov.restrictBy hs hcov hVe hg h5 h6
    split at hc
    · rename_i heq; rw [heq] at h3; simp at h3
    · rename_i heq
      rw [heq] at h2 h4
      have hv := h4 true rfl
      subst hv
      simp only [Option.some.injEq, Prod.mk.injEq] at hc
      obtain ⟨rfl, rfl, rfl⟩ := hc
      simp only [py, h1, run, h2]
      exact Rel.normal hs hcov
    · rename_i heq
      rw [heq] at h2 h4
      have hv := h4 false rfl
      subst hv
      simp only [Option.some.injEq, Prod.mk.injEq] at hc
      obtain ⟨rfl, rfl, rfl⟩ := hc
      simp only [py, h1, run, h2]
      exact Rel.raised hs
    · rename_i heq
      rw [heq] at h2 h4
      simp only [Option.some.injEq, Prod.mk.injEq] at hc
      obtain ⟨rfl, rfl, rfl⟩ := hc
      cases v with
      | true => simp only [py, h1, run, h2]; exact Rel.normal hs hR
      | false => simp only [py, h1, run, h2]; exact Rel.raised hs

theorem P_if {t : Test n} {a d : Stmt n} (ha : P H σ K ω N a) (hd : P H σ K ω N d) :
    P H σ K ω N (.ifS t a d) := by
  intro b hw A c A' r hc hg hsd V hV cur st hs hcov hinfo
  have hVe : ∀ y, y ∈ t.reads → V y :=
    fun y hy => hV y (by simp only [Stmt.mentions, mem_reads hy, Bool.true_or])
  have hVa : ∀ x, a.mentions x = true → V x := fun x hx => hV x (by simp [Stmt.mentions, hx])
  have hVd : ∀ x, d.mentions x = true → V x := fun x hx => hV x (by simp [Stmt.mentions, hx])
  have hia : a.usesReraise = true → st.info = cur := fun hx => hinfo (by simp [Stmt.usesReraise, hx])
  have hid : d.usesReraise = true → st.info = cur := fun hx => hinfo (by simp [Stmt.usesReraise, hx])
  have hna : (Stmt.ifS t a d).noTry = true → a.noTry = true := by
    simp only [Stmt.noTry, Bool.and_eq_true]; exact fun h => h.1
  have hnd : (Stmt.ifS t a d).noTry = true → d.noTry = true := by
    simp only [Stmt.noTry, Bool.and_eq_true]; exact fun h => h.2
  simp only [conv] at hc
  simp only [good] at hg
  rcases doTest_eq ω t hsd.1 st hs hcov hVe with ⟨w, p, h1, h2⟩ | ⟨v, p, h1, h2, h3, h4, vs, h5, h6⟩
  · have hpy : py H ω N (.ifS t a d) cur st.py = (.raised w, { env := st.env, pos := p }) := by
      simp only [py, h1]
    rw [hpy]
    have hrun : run H ω N c st = (.raised w, { st with pos := p }) := by
      split at hc
      · rename_i heq
        rw [heq] at h2
        simp only [Option.some.injEq, Prod.mk.injEq] at hc
        obtain ⟨rfl, rfl, rfl⟩ := hc
        simp only [run, h2]
      · rename_i heq
        rw [heq] at h2
        split at hc
        · simp at hc
        · simp only [Option.some.injEq, Prod.mk.injEq] at hc
          obtain ⟨rfl, rfl, rfl⟩ := hc
          simp only [run, h2]
      · rename_i heq
        rw [heq] at h2
        split at hc
        · simp at hc
        · simp only [Option.some.injEq, Prod.mk.injEq] at hc
          obtain ⟨rfl, rfl, rfl⟩ := hc
          simp only [run, h2]
      · rename_i heq
        rw [heq] at h2
        split at hc
        · simp only [Option.some.injEq, Prod.mk.injEq] at hc
          obtain ⟨rfl, rfl, rfl⟩ := hc
          simp only [run, h2]
        · simp at hc
    rw [hrun]
    exact Rel.raised hs
  · split at hc
    · rename_i heq; rw [heq] at h3; simp at h3
    · rename_i heq
      rw [heq] at h2 h4 hg
      have hv := h4 true rfl
      subst hv
      simp only at hg
      split at hc
      · simp at hc
      · rename_i c₁ A₁ r₁ hc1
        simp only [Option.some.injEq, Prod.mk.injEq] at hc
        obtain ⟨rfl, rfl, rfl⟩ := hc
        have hpy : py H ω N (.ifS t a d) cur st.py =
            py H ω N a cur ({ st with pos := p } : St n).py := by
          simp only [py, h1]; rfl
        rw [hpy, run_seq_normal (st' := { st with pos := p }) (by simp only [run, h2])]
        refine Rel.pos (q := p) ?_
        exact (ha b hw A c₁ A₁ r₁ hc1 hg hsd.2.1 V hVa cur { st with pos := p } hs hcov hia).conseq hna
          (fun _ a b => ⟨a, b⟩)
    · rename_i heq
      rw [heq] at h2 h4 hg
      have hv := h4 false rfl
      subst hv
      simp only at hg
      split at hc
      · simp at hc
      · rename_i c₁ A₁ r₁ hc1
        simp only [Option.some.injEq, Prod.mk.injEq] at hc
        obtain ⟨rfl, rfl, rfl⟩ := hc
        have hpy : py H ω N (.ifS t a d) cur st.py =
            py H ω N d cur ({ st with pos := p } : St n).py := by
          simp only [py, h1]; rfl
        rw [hpy, run_seq_normal (st' := { st with pos := p }) (by simp only [run, h2])]
        refine Rel.pos (q := p) ?_
        exact (hd b hw A c₁ A₁ r₁ hc1 hg hsd.2.2 V hVd cur { st with pos := p } hs hcov hid).conseq hnd
          (fun _ a b => ⟨a, b⟩)
    · rename_i rs heq
      rw [heq] at h2 h4 hg
      simp only [Bool.and_eq_true] at hg
      have hR := Cov.restrictBy hs hcov hVe hg.1.1 h5 h6
      split at hc
      · rename_i ct T rt cf F rf hct hcf
        simp only [Option.some.injEq, Prod.mk.injEq] at hc
        obtain ⟨rfl, rfl, rfl⟩ := hc
        cases v with
        | true =>
          have hpy : py H ω N (.ifS t a d) cur st.py =
              py H ω N a cur ({ st with pos := p } : St n).py := by
            simp only [py, h1]; rfl
          have hrun : run H ω N (.branch t rs ct cf) st = run H ω N ct { st with pos := p } := by
            simp only [run, h2]
          rw [hpy, hrun]
          refine Rel.pos (q := p) ?_
          refine (ha b hw _ ct T rt hct hg.1.2 hsd.2.1 V hVa cur { st with pos := p } hs hR
            hia).conseq hna ?_
          intro _ hr hcv
          subst hr
          exact ⟨by simp, hcv.becomeMerge_left⟩
        | false =>
          have hpy : py H ω N (.ifS t a d) cur st.py =
              py H ω N d cur ({ st with pos := p } : St n).py := by
            simp only [py, h1]; rfl
          have hrun : run H ω N (.branch t rs ct cf) st = run H ω N cf { st with pos := p } := by
            simp only [run, h2]
          rw [hpy, hrun]
          refine Rel.pos (q := p) ?_
          refine (hd b hw _ cf F rf hcf hg.2 hsd.2.2 V hVd cur { st with pos := p } hs hR
            hid).conseq hnd ?_
          intro _ hr hcv
          subst hr
          exact ⟨by simp, hcv.becomeMerge_right⟩
      · simp at hc

end Verif.Flow
