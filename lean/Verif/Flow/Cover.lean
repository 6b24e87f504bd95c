import Verif.Flow.Frame
/-
A variable state that describes the variables, and how the operations on states keep it so.
-/
namespace Verif.Flow

variable {n : Nat} {H : Hier} {σ : Slots n}

/-- Every variable that is bound holds a value of its slot's type. -/
def SlotOK (H : Hier) (σ : Slots n) (env : Fin n → Option Val) : Prop :=
  ∀ x v, env x = some v → ∃ s, σ x = some s ∧ safeIn H v s = true

/-- The state describes the variables in `V`: one known to be initialised is bound, and the value of
one whose type can be narrowed has the type recorded. -/
def Cov (H : Hier) (σ : Slots n) (V : Fin n → Prop) (A : VS n) (env : Fin n → Option Val) : Prop :=
  ∀ x, V x → (A.defInit x = true → env x ≠ none) ∧
    (narrowable (σ x) = true → ∀ v, env x = some v →
      ∃ t, A.current x = some t ∧ safeIn H v t = true)

theorem Cov.sub {V W : Fin n → Prop} {A : VS n} {env : Fin n → Option Val} (h : Cov H σ V A env)
    (hw : ∀ x, W x → V x) : Cov H σ W A env := fun x hx => h x (hw x hx)

theorem recast_of_not_narrowable {s : Ty} (h : narrowable (some s) = false) (cur : Option Ty) :
    recast H s cur = s := by
  unfold recast
  cases cur with
  | none => rfl
  | some t =>
    simp only
    split
    · rfl
    · match s, h with
      | [], h => simp [narrowable] at h
      | [a], h => cases a <;> simp_all [narrowable]
      | a :: b :: r, h => simp [narrowable] at h

theorem recast_cases (s t : Ty) : recast H s (some t) = s ∨ recast H s (some t) = t := by
  unfold recast
  simp only
  split
  · exact .inl rfl
  · split
    · exact .inr rfl
    · split
      · split
        · exact .inr rfl
        · exact .inl rfl
      · exact .inl rfl

theorem recast_in {V : Fin n → Prop} {A : VS n} {env : Fin n → Option Val} (hs : SlotOK H σ env)
    (hc : Cov H σ V A env) {x : Fin n} (hx : V x) {v : Val} (hv : env x = some v) :
    ∃ s, σ x = some s ∧ safeIn H v (recast H s (A.current x)) = true := by
  obtain ⟨s, hs1, hs2⟩ := hs x v hv
  refine ⟨s, hs1, ?_⟩
  cases hn : narrowable (σ x) with
  | false => rw [hs1] at hn; rw [recast_of_not_narrowable hn]; exact hs2
  | true =>
    obtain ⟨t, ht1, ht2⟩ := (hc x hx).2 hn v hv
    rw [ht1]
    rcases recast_cases (H := H) s t with h | h
    · rw [h]; exact hs2
    · rw [h]; exact ht2

/-- Reading variables in the generated code and in Python. -/
theorem doReads_eq {V : Fin n → Prop} {A : VS n} {env : Fin n → Option Val} (hs : SlotOK H σ env)
    (hc : Cov H σ V A env) : ∀ xs : List (Fin n), (∀ x, x ∈ xs → V x) →
      (∀ w, pyReads env xs = .error w → doReads H env (readsOf H σ A xs).1 = .error (.raised w)) ∧
      (∀ vs, pyReads env xs = .ok vs → doReads H env (readsOf H σ A xs).1 = .ok vs ∧
        ∃ ts, (readsOf H σ A xs).2 = some ts ∧ hasTypes H vs ts = true)
  | [], _ => by
    refine ⟨fun w h => by simp [pyReads] at h, fun vs h => ?_⟩
    simp only [pyReads, Except.ok.injEq] at h
    subst h
    exact ⟨rfl, [], rfl, rfl⟩
  | x :: xs, hV => by
    have ih := doReads_eq hs hc xs (fun y hy => hV y (List.mem_cons_of_mem _ hy))
    have hx := hV x (List.mem_cons_self)
    have hrx : (readOf H σ A x).1.x = x := by unfold readOf; split <;> rfl
    have hrc : (readOf H σ A x).1.checked = !A.defInit x := by unfold readOf; split <;> rfl
    cases hv : env x with
    | none =>
      refine ⟨fun w h => ?_, fun vs h => ?_⟩
      · simp only [pyReads, hv, Except.error.injEq] at h
        have hd : A.defInit x = false := by
          cases hd : A.defInit x with
          | false => rfl
          | true => exact absurd hv ((hc x hx).1 hd)
        simp only [readsOf, doReads, hrx, hrc, hv, hd, Bool.not_false, if_true]
        rw [h]
      · simp [pyReads, hv] at h
    | some v =>
      obtain ⟨s, hs1, hs2⟩ := recast_in hs hc hx hv
      have hty : (readOf H σ A x).1.ty = recast H s (A.current x) := by simp [readOf, hs1]
      have hty2 : (readOf H σ A x).2 = some (recast H s (A.current x)) := by simp [readOf, hs1]
      have hin := inTy_of_safeIn hs2
      refine ⟨fun w h => ?_, fun vs h => ?_⟩
      · simp only [pyReads, hv] at h
        cases hp : pyReads env xs with
        | error w' =>
          rw [hp] at h
          simp only [Except.error.injEq] at h
          subst h
          simp only [readsOf, doReads, hrx, hv, hty, hin, if_true, ih.1 w' hp]
        | ok vs => rw [hp] at h; simp at h
      · simp only [pyReads, hv] at h
        cases hp : pyReads env xs with
        | error w' => rw [hp] at h; simp at h
        | ok vs' =>
          rw [hp] at h
          simp only [Except.ok.injEq] at h
          subst h
          obtain ⟨h1, ts, h2, h3⟩ := ih.2 vs' hp
          refine ⟨?_, recast H s (A.current x) :: ts, ?_, ?_⟩
          · simp only [readsOf, doReads, hrx, hv, hty, hin, if_true, h1]
          · simp only [readsOf, hty2, h2]
          · simp only [hasTypes, hin, h3, Bool.and_self]

/-- The Python state that corresponds to a state of the generated code. -/
def St.py (st : St n) : PSt n := { env := st.env, pos := st.pos }

theorem doEval_eq {V : Fin n → Prop} {A : VS n} (ω : Nat → Nat) (e : Expr n) (he : e.Sound H)
    (st : St n) (hs : SlotOK H σ st.env) (hc : Cov H σ V A st.env) (hV : ∀ x, x ∈ e.reads → V x) :
    (∃ w p, pyEval ω e.reads e.eval st.py = (.error w, { env := st.env, pos := p }) ∧
      doEval H ω e (convExpr H σ A e).1 st = (.error (.raised w), { st with pos := p })) ∨
    (∃ v p t, pyEval ω e.reads e.eval st.py = (.ok v, { env := st.env, pos := p }) ∧
      doEval H ω e (convExpr H σ A e).1 st = (.ok v, { st with pos := p }) ∧
      (convExpr H σ A e).2 = some t ∧ inTy H v t = true) := by
  obtain ⟨h1, h2⟩ := doReads_eq hs hc e.reads hV
  have hrs : (convExpr H σ A e).1 = (readsOf H σ A e.reads).1 := by
    unfold convExpr; split <;> simp_all
  cases hp : pyReads st.env e.reads with
  | error w =>
    left
    refine ⟨w, st.pos, ?_, ?_⟩
    · simp only [pyEval, St.py, hp]
    · simp only [doEval, hrs, h1 w hp]
  | ok vs =>
    obtain ⟨hd, ts, hts, hty⟩ := h2 vs hp
    cases hev : e.eval vs (ω st.pos) with
    | error w =>
      left
      refine ⟨w, st.pos + 1, ?_, ?_⟩
      · simp only [pyEval, St.py, hp, hev]
      · simp only [doEval, hrs, hd, hev]
    | ok v =>
      right
      obtain ⟨t, ht, hin⟩ := he ts vs _ v hty hev
      refine ⟨v, st.pos + 1, t, ?_, ?_, ?_, hin⟩
      · simp only [pyEval, St.py, hp, hev]
      · simp only [doEval, hrs, hd, hev]
      · unfold convExpr
        split
        · rename_i rs heq; rw [heq] at hts; simp at hts
        · rename_i rs ts' heq; rw [heq] at hts; simp only [Option.some.injEq] at hts; rw [hts]; exact ht

theorem doTest_eq {V : Fin n → Prop} {A : VS n} (ω : Nat → Nat) (t : Test n) (he : t.Sound H)
    (st : St n) (hs : SlotOK H σ st.env) (hc : Cov H σ V A st.env) (hV : ∀ x, x ∈ t.reads → V x) :
    (∃ w p, pyEval ω t.reads (t.eval H) st.py = (.error w, { env := st.env, pos := p }) ∧
      doTest H ω t (convTest H σ A t).1 st = (.error (.raised w), { st with pos := p })) ∨
    (∃ b p, pyEval ω t.reads (t.eval H) st.py = (.ok b, { env := st.env, pos := p }) ∧
      doTest H ω t (convTest H σ A t).1 st = (.ok b, { st with pos := p }) ∧
      (convTest H σ A t).2.1 = true ∧ (∀ b', (convTest H σ A t).2.2 = some b' → b = b') ∧
      ∃ vs, pyReads st.env t.reads = .ok vs ∧ t.eval H vs (ω st.pos) = .ok b) := by
  obtain ⟨h1, h2⟩ := doReads_eq hs hc t.reads hV
  have hrs : (convTest H σ A t).1 = (readsOf H σ A t.reads).1 := by
    unfold convTest; split <;> simp_all
  cases hp : pyReads st.env t.reads with
  | error w =>
    left
    refine ⟨w, st.pos, ?_, ?_⟩
    · simp only [pyEval, St.py, hp]
    · simp only [doTest, hrs, h1 w hp]
  | ok vs =>
    obtain ⟨hd, ts, hts, hty⟩ := h2 vs hp
    cases hev : t.eval H vs (ω st.pos) with
    | error w =>
      left
      refine ⟨w, st.pos + 1, ?_, ?_⟩
      · simp only [pyEval, St.py, hp, hev]
      · simp only [doTest, hrs, hd, hev]
    | ok b =>
      right
      obtain ⟨hok, hfold⟩ := he ts vs _ b hty hev
      have hct : (convTest H σ A t).2 = (t.ok ts, t.fold ts) := by
        unfold convTest
        split
        · rename_i rs heq; rw [heq] at hts; simp at hts
        · rename_i rs ts' heq; rw [heq] at hts; simp only [Option.some.injEq] at hts; rw [hts]
      refine ⟨b, st.pos + 1, ?_, ?_, ?_, ?_, vs, rfl, hev⟩
      · simp only [pyEval, St.py, hp, hev]
      · simp only [doTest, hrs, hd, hev]
      · rw [hct]; exact hok
      · rw [hct]; exact hfold

/-! ### Merging -/

theorem merge2_defInit {L R : VS n} {x : Fin n} (h : (L.merge2 H R).defInit x = true) :
    L.defInit x = true ∧ R.defInit x = true := by
  simp only [VS.defInit, VS.merge2] at h ⊢
  split at h
  · rename_i hc
    simp only [hc, if_true, Option.isSome_some, Bool.true_and, Bool.not_eq_true', Bool.or_eq_false_iff,
      Bool.not_eq_false', Bool.and_eq_true] at h
    simp [h]
  · simp at h

theorem merge2_current_left {L R : VS n} {x : Fin n} {t : Ty} (h : L.current x = some t) {v : Val}
    (hv : safeIn H v t = true) :
    ∃ r, (L.merge2 H R).current x = some r ∧ safeIn H v r = true := by
  have hl : (L.types x).isSome = true := by
    unfold VS.current at h
    cases hx : L.types x with
    | none => rw [hx] at h; simp at h
    | some _ => rfl
  have hcur : (L.merge2 H R).current x = mergeTypes H [L.current x, R.current x] := by
    simp only [VS.current, VS.merge2, hl, Bool.true_or, if_true]
    rfl
  rw [hcur]
  exact mergeTypes_safe (by rw [h]; simp) hv

theorem merge2_current_right {L R : VS n} {x : Fin n} {t : Ty} (h : R.current x = some t) {v : Val}
    (hv : safeIn H v t = true) :
    ∃ r, (L.merge2 H R).current x = some r ∧ safeIn H v r = true := by
  have hl : (R.types x).isSome = true := by
    unfold VS.current at h
    cases hx : R.types x with
    | none => rw [hx] at h; simp at h
    | some _ => rfl
  have hcur : (L.merge2 H R).current x = mergeTypes H [L.current x, R.current x] := by
    simp only [VS.current, VS.merge2, hl, Bool.true_or, Bool.or_true, if_true]
    rfl
  rw [hcur]
  exact mergeTypes_safe (by rw [h]; simp) hv

theorem Cov.merge_left {V : Fin n → Prop} {L R : VS n} {env : Fin n → Option Val}
    (h : Cov H σ V L env) : Cov H σ V (L.merge2 H R) env := by
  intro x hx
  refine ⟨fun hd => (h x hx).1 (merge2_defInit hd).1, fun hn v hv => ?_⟩
  obtain ⟨t, ht, hin⟩ := (h x hx).2 hn v hv
  exact merge2_current_left ht hin

theorem Cov.merge_right {V : Fin n → Prop} {L R : VS n} {env : Fin n → Option Val}
    (h : Cov H σ V R env) : Cov H σ V (L.merge2 H R) env := by
  intro x hx
  refine ⟨fun hd => (h x hx).1 (merge2_defInit hd).2, fun hn v hv => ?_⟩
  obtain ⟨t, ht, hin⟩ := (h x hx).2 hn v hv
  exact merge2_current_right ht hin

theorem Cov.becomeMerge_left {V : Fin n → Prop} {L : VS n} {R : Option (VS n)}
    {env : Fin n → Option Val} (h : Cov H σ V L env) :
    Cov H σ V (VS.becomeMerge H (some L) R) env := by
  cases R with
  | none => exact h
  | some R => exact h.merge_left

theorem Cov.becomeMerge_right {V : Fin n → Prop} {L : Option (VS n)} {R : VS n}
    {env : Fin n → Option Val} (h : Cov H σ V R env) :
    Cov H σ V (VS.becomeMerge H L (some R)) env := by
  cases L with
  | none => exact h
  | some L => exact h.merge_right

/-! ### Assignment -/

theorem settled_safe {x : Fin n} {t : Ty} (hs : settled H σ x t = true) {v : Val}
    (hv : inTy H v t = true) :
    safeIn H v t = true ∧ ∃ s, σ x = some s ∧ safeIn H v s = true := by
  unfold settled at hs
  cases hx : σ x with
  | none => rw [hx] at hs; simp at hs
  | some s =>
    rw [hx] at hs
    simp only [Bool.and_eq_true, beq_iff_eq] at hs
    have h1 := safeIn_of_inTy hs.2 hv
    obtain ⟨r, hr, hin⟩ := mergeTypes_safe (H := H) (ts := [some s, some t]) (t := t) (by simp) h1
    rw [hs.1] at hr
    simp only [Option.some.injEq] at hr
    exact ⟨h1, s, rfl, hr ▸ hin⟩

theorem SlotOK.set {env : Fin n → Option Val} (h : SlotOK H σ env) {x : Fin n} {v : Val}
    (hv : ∃ s, σ x = some s ∧ safeIn H v s = true) : SlotOK H σ (setVar env x (some v)) := by
  intro y w hw
  unfold setVar at hw
  split at hw
  · rename_i hy
    simp only [Option.some.injEq] at hw
    subst hw; subst hy
    exact hv
  · exact h y w hw

theorem SlotOK.unset {env : Fin n → Option Val} (h : SlotOK H σ env) {x : Fin n} :
    SlotOK H σ (setVar env x none) := by
  intro y w hw
  unfold setVar at hw
  split at hw
  · simp at hw
  · exact h y w hw

theorem Cov.assigned {V : Fin n → Prop} {A : VS n} {env : Fin n → Option Val} (h : Cov H σ V A env)
    {x : Fin n} {t : Ty} {v : Val} (hv : safeIn H v t = true) :
    Cov H σ V (A.assigned x t) (setVar env x (some v)) := by
  intro y hy
  by_cases hyx : y = x
  · subst hyx
    refine ⟨fun _ => by simp [setVar], fun _ w hw => ⟨t, by simp [VS.current, VS.assigned], ?_⟩⟩
    simp only [setVar, if_true, Option.some.injEq] at hw
    exact hw ▸ hv
  · have h1 := h y hy
    simp only [VS.defInit, VS.current, VS.assigned, setVar, if_neg hyx] at h1 ⊢
    exact h1

theorem Cov.uninit {V : Fin n → Prop} {A : VS n} {env : Fin n → Option Val} (h : Cov H σ V A env)
    {x : Fin n} : Cov H σ V (A.uninit x) (setVar env x none) := by
  intro y hy
  by_cases hyx : y = x
  · subst hyx
    exact ⟨fun hd => by simp [VS.defInit, VS.uninit] at hd, fun _ w hw => by simp [setVar] at hw⟩
  · have h1 := h y hy
    simp only [VS.defInit, VS.current, VS.uninit, setVar, if_neg hyx] at h1 ⊢
    exact h1

/-- A slot that can hold an exception needs a destructor. -/
theorem not_pod_of_inst {s : Ty} {c i : Nat} (h : safeIn H (.inst c i) s = true) :
    isPod s = false := by
  rw [safeIn_eq, List.any_eq_true] at h
  obtain ⟨a, ha, hv⟩ := h
  cases hp : isPod s with
  | false => rfl
  | true =>
    unfold isPod at hp
    rw [List.all_eq_true] at hp
    have := hp a ha
    cases a <;> simp_all [safeAtom, inAtom]

/-! ### Conditions -/

theorem pyReads_single {env : Fin n → Option Val} {x : Fin n} {vs : List Val}
    (h : pyReads env [x] = .ok vs) : ∃ v, env x = some v ∧ vs = [v] := by
  simp only [pyReads] at h
  cases hx : env x with
  | none => rw [hx] at h; simp at h
  | some v => rw [hx] at h; simp only [Except.ok.injEq] at h; exact ⟨v, rfl, h.symm⟩

theorem VS.restrict_defInit {A : VS n} {x y : Fin n} {T : Atom} {b : Bool}
    (h : (A.restrict H x T b).defInit y = true) : A.defInit y = true := by
  unfold VS.restrict at h
  split at h
  · exact h
  · rename_i cur hx
    split at h
    · by_cases hy : y = x
      · subst hy; simpa [VS.defInit, hx] using h
      · simpa [VS.defInit, hy] using h
    · split at h
      · exact h
      · split at h
        · exact h
        · by_cases hy : y = x
          · subst hy; simpa [VS.defInit, hx] using h
          · simpa [VS.defInit, hy] using h

theorem VS.restrict_current_ne {A : VS n} {x y : Fin n} {T : Atom} {b : Bool} (hy : y ≠ x) :
    (A.restrict H x T b).current y = A.current y := by
  unfold VS.restrict
  split
  · rfl
  · split
    · simp [VS.current, hy]
    · split
      · rfl
      · split
        · rfl
        · simp [VS.current, hy]

theorem removeTypeFrom_safe {t t' : Ty} {T : Atom} (h : removeTypeFrom H t T = some t') {v : Val}
    (hv : safeIn H v t = true) (hT : inAtom H v T = false) : safeIn H v t' = true := by
  unfold removeTypeFrom at h
  split at h
  · simp only [Option.some.injEq] at h; exact h ▸ hv
  · have hf : safeIn H v (t.filter (· ≠ T)) = true := by
      rw [safeIn_eq, List.any_eq_true] at hv ⊢
      obtain ⟨a, ha, hav⟩ := hv
      refine ⟨a, List.mem_filter.mpr ⟨ha, ?_⟩, hav⟩
      simp only [decide_eq_true_eq]
      intro hc
      subst hc
      simp [safeAtom, hT] at hav
    split at h
    · simp at h
    · rename_i a heq
      simp only [Option.some.injEq] at h
      rw [heq] at hf
      exact h ▸ hf
    · rw [safeIn_eq, List.any_eq_true] at hf
      obtain ⟨a, ha, hav⟩ := hf
      obtain ⟨r, hr, hin⟩ := mergeTypes_safe (H := H) (v := v)
        (ts := (t.filter (· ≠ T)).map (fun a => some [a])) (t := [a])
        (List.mem_map.mpr ⟨a, ha, rfl⟩) (by rw [safeIn_eq]; simp [hav])
      rw [h] at hr
      simp only [Option.some.injEq] at hr
      exact hr ▸ hin

/-- Narrowing by the outcome `b` of a test that found `v` in `T` exactly when `b`. -/
theorem Cov.restrict {V : Fin n → Prop} {A : VS n} {env : Fin n → Option Val} (h : Cov H σ V A env)
    {x : Fin n} {T : Atom} {b : Bool} {v : Val} (hx : env x = some v)
    (ht : b = true → safeAtom H v T = true) (hf : b = false → inAtom H v T = false) :
    Cov H σ V (A.restrict H x T b) env := by
  intro y hy
  refine ⟨fun hd => (h y hy).1 (VS.restrict_defInit hd), fun hn w hw => ?_⟩
  obtain ⟨t, hty, hin⟩ := (h y hy).2 hn w hw
  by_cases hyx : y = x
  · subst hyx
    rw [hx] at hw
    simp only [Option.some.injEq] at hw
    subst hw
    unfold VS.current at hty
    cases hA : A.types y with
    | none => rw [hA] at hty; simp at hty
    | some cur =>
      rw [hA] at hty
      simp only [Option.join] at hty
      unfold VS.restrict
      simp only [hA]
      cases b with
      | true =>
        refine ⟨[T], by simp [VS.current], ?_⟩
        rw [safeIn_eq]
        simp [ht rfl]
      | false =>
        simp only [Bool.false_eq_true, if_false]
        have hcur : cur = some t := by simpa using hty
        subst hcur
        simp only
        cases hr : removeTypeFrom H t T with
        | none => exact ⟨t, by simp [VS.current, hA], hin⟩
        | some t' => exact ⟨t', by simp [VS.current], removeTypeFrom_safe hr hin (hf rfl)⟩
  · rw [VS.restrict_current_ne hyx]
    exact ⟨t, hty, hin⟩

theorem Cov.restrictBy {V : Fin n → Prop} {A : VS n} {env : Fin n → Option Val} (hs : SlotOK H σ env)
    (h : Cov H σ V A env) {t : Test n} (hV : ∀ x, x ∈ t.reads → V x) (he : exactTest H σ A t = true)
    {vs : List Val} {k : Nat} {b : Bool} (hr : pyReads env t.reads = .ok vs)
    (hev : t.eval H vs k = .ok b) : Cov H σ V (restrictBy H A t b) env := by
  cases t with
  | cond _ _ _ _ => exact h
  | isNone x neg f =>
    obtain ⟨v, hv, rfl⟩ := pyReads_single hr
    simp only [Test.eval, Except.ok.injEq] at hev
    refine Cov.restrict h hv ?_ ?_
    · intro hb
      cases neg <;> cases b <;> simp_all [safeAtom, inAtom, boolConst]
    · intro hb
      cases neg <;> cases b <;> simp_all [inAtom]
  | isinst x T f =>
    obtain ⟨v, hv, rfl⟩ := pyReads_single hr
    simp only [Test.eval, Except.ok.injEq] at hev
    simp only [exactTest, Bool.and_eq_true, Bool.not_eq_true'] at he
    refine Cov.restrict h hv ?_ ?_
    · intro hb
      subst hb
      simp only [pyIsInst, Bool.or_eq_true, Bool.and_eq_true, beq_iff_eq] at hev
      have h1 : inAtom H v T = true := by
        rcases hev with hev | ⟨hT, hbv⟩
        · exact hev
        · exfalso
          obtain ⟨s, hs1, hs2⟩ := recast_in hs h (hV x (by simp [Test.reads])) hv
          have he2 := he.2
          rw [hT] at he2
          simp only [bne_self_eq_false, Bool.false_or, hs1] at he2
          rw [List.all_eq_true] at he2
          rw [safeIn_eq, List.any_eq_true] at hs2
          obtain ⟨a, ha, hav⟩ := hs2
          have := he2 a ha
          simp only [safeAtom, Bool.and_eq_true] at hav
          cases v <;> simp [inAtom] at hbv
          rename_i c
          cases c <;> simp at hbv
          rename_i bb
          cases bb <;> simp_all
      simp [safeAtom, h1, he.1]
    · intro hb
      subst hb
      simp only [pyIsInst, Bool.or_eq_false_iff] at hev
      exact hev.1

/-! ### Handlers and loops -/

theorem Cov.enterHandlers {V : Fin n → Prop} {A : VS n} {asg hn : Fin n → Bool}
    {env env' : Fin n → Option Val} (h : Cov H σ V A env) (hs0 : SlotOK H σ env)
    (hs : SlotOK H σ env') (hf : Frame asg hn env env')
    (hh : ∀ x, hn x = true → A.defInit x = false) :
    Cov H σ V (A.enterHandlers σ asg) env' := by
  intro x hx
  constructor
  · intro hd
    have hd' : A.defInit x = true ∧ (asg x && (σ x).isSome) = false := by
      simp only [VS.defInit, VS.enterHandlers] at hd ⊢
      cases ha : asg x <;> cases hsx : σ x <;> simp_all
    have hb := (h x hx).1 hd'.1
    have hsome : (σ x).isSome = true := by
      cases hv : env x with
      | none => exact absurd hv hb
      | some v => obtain ⟨s, hs1, _⟩ := hs0 x v hv; rw [hs1]; rfl
    refine (hf x).2 ?_ hb
    cases hc : hn x with
    | false => rfl
    | true => rw [hh x hc] at hd'; simp at hd'
  · intro hna v hv
    cases ha : asg x with
    | false =>
      rcases (hf x).1 ha with h1 | ⟨_, h1⟩
      · rw [h1] at hv
        obtain ⟨t, ht, hin⟩ := (h x hx).2 hna v hv
        exact ⟨t, by simpa [VS.current, VS.enterHandlers, ha] using ht, hin⟩
      · rw [h1] at hv; simp at hv
    | true =>
      obtain ⟨s, hs1, hs2⟩ := hs x v hv
      exact ⟨s, by simp [VS.current, VS.enterHandlers, ha, hs1], hs2⟩

/-- A state keeps describing the variables over a part that leaves those it narrows alone. -/
theorem Cov.frame {V : Fin n → Prop} {A B : VS n} {asg hn : Fin n → Bool}
    {env env' : Fin n → Option Val} (h : Cov H σ V A env) (hf : Frame asg hn env env')
    (hd : ∀ x, V x → B.defInit x = true → A.defInit x = true ∧ hn x = false)
    (hn' : ∀ x, V x → narrowable (σ x) = true → asg x = false ∧ hn x = false ∧ B.types x = A.types x) :
    Cov H σ V B env' := by
  intro x hx
  refine ⟨fun hb => (hf x).2 (hd x hx hb).2 ((h x hx).1 (hd x hx hb).1), fun hna v hv => ?_⟩
  obtain ⟨h1, h2, h3⟩ := hn' x hx hna
  rcases (hf x).1 h1 with h4 | ⟨h4, _⟩
  · rw [h4] at hv
    obtain ⟨t, ht, hin⟩ := (h x hx).2 hna v hv
    exact ⟨t, by unfold VS.current at ht ⊢; rw [h3]; exact ht, hin⟩
  · rw [h2] at h4; simp at h4

/-- A state with no more claims. -/
theorem Cov.weaken {V : Fin n → Prop} {A B : VS n} {env : Fin n → Option Val} (h : Cov H σ V A env)
    (hd : ∀ x, V x → B.defInit x = true → A.defInit x = true)
    (ht : ∀ x, V x → narrowable (σ x) = true → B.types x = A.types x) : Cov H σ V B env := by
  intro x hx
  refine ⟨fun hb => (h x hx).1 (hd x hx hb), fun hna v hv => ?_⟩
  obtain ⟨t, h1, hin⟩ := (h x hx).2 hna v hv
  exact ⟨t, by unfold VS.current at h1 ⊢; rw [ht x hx hna]; exact h1, hin⟩

theorem eqv_eq {A B : VS n} (h : A.eqv B = true) : A = B := by
  simp only [VS.eqv, Bool.and_eq_true, decide_eq_true_eq] at h
  cases A; cases B
  simp only [VS.mk.injEq]
  exact ⟨funext h.1, funext h.2⟩

end Verif.Flow
