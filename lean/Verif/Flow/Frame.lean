import Verif.Flow.Merge
/-
What a Python statement can do to the variables, and how it can end.
-/
namespace Verif.Flow

variable {n : Nat}

/-- A variable that is not assigned keeps its value, unless an `except` clause unbinds it; a variable
that no `except` clause binds stays bound. -/
def Frame (asg hn : Fin n → Bool) (env env' : Fin n → Option Val) : Prop :=
  ∀ x, (asg x = false → env' x = env x ∨ (hn x = true ∧ env' x = none)) ∧
    (hn x = false → env x ≠ none → env' x ≠ none)

theorem Frame.refl {asg hn : Fin n → Bool} {env : Fin n → Option Val} : Frame asg hn env env :=
  fun _ => ⟨fun _ => .inl rfl, fun _ h => h⟩

theorem Frame.trans {asg hn : Fin n → Bool} {e₁ e₂ e₃ : Fin n → Option Val}
    (h₁ : Frame asg hn e₁ e₂) (h₂ : Frame asg hn e₂ e₃) : Frame asg hn e₁ e₃ := by
  intro x
  refine ⟨fun hx => ?_, fun hx hb => (h₂ x).2 hx ((h₁ x).2 hx hb)⟩
  rcases (h₂ x).1 hx with h | h
  · rcases (h₁ x).1 hx with h' | h'
    · exact .inl (h.trans h')
    · exact .inr ⟨h'.1, h.trans h'.2⟩
  · exact .inr h

theorem Frame.mono {asg hn asg' hn' : Fin n → Bool} {e₁ e₂ : Fin n → Option Val}
    (h : Frame asg hn e₁ e₂) (ha : ∀ x, asg x = true → asg' x = true)
    (hh : ∀ x, hn x = true → hn' x = true) : Frame asg' hn' e₁ e₂ := by
  intro x
  refine ⟨fun hx => ?_, fun hx hb => ?_⟩
  · have : asg x = false := by
      cases hc : asg x with
      | false => rfl
      | true => rw [ha x hc] at hx; exact absurd hx (by simp)
    rcases (h x).1 this with h' | h'
    · exact .inl h'
    · exact .inr ⟨hh x h'.1, h'.2⟩
  · have : hn x = false := by
      cases hc : hn x with
      | false => rfl
      | true => rw [hh x hc] at hx; exact absurd hx (by simp)
    exact (h x).2 this hb

theorem pyEval_env {α : Type} (ω : Nat → Nat) (rs : List (Fin n)) (f : List Val → Nat → Except Val α)
    (st : PSt n) : (pyEval ω rs f st).2.env = st.env := by
  unfold pyEval
  split <;> rfl

theorem pyLoop_frame {asg hn : Fin n → Bool} {test : PSt n → Except Val Bool × PSt n}
    {body orelse : PSt n → POut × PSt n}
    (ht : ∀ st, (test st).2.env = st.env)
    (hb : ∀ st, (body st).1 ≠ .timeout → Frame asg hn st.env (body st).2.env)
    (ho : ∀ st, (orelse st).1 ≠ .timeout → Frame asg hn st.env (orelse st).2.env) :
    ∀ (k : Nat) (st : PSt n), (pyLoop test body orelse k st).1 ≠ .timeout →
      Frame asg hn st.env (pyLoop test body orelse k st).2.env
  | 0, st, h => absurd rfl h
  | k + 1, st, h => by
    have h1 := ht st
    simp only [pyLoop] at h ⊢
    match hts : test st with
    | (.error v, st') => simp only [hts] at h1 ⊢; rw [h1]; exact Frame.refl
    | (.ok false, st') =>
      simp only [hts] at h h1 ⊢
      rw [← h1]
      exact ho st' h
    | (.ok true, st') =>
      simp only [hts] at h h1 ⊢
      rw [← h1]
      have h2 := hb st'
      match hbs : body st' with
      | (.normal, st'') =>
        simp only [hbs] at h h2 ⊢
        exact (h2 (by simp)).trans (pyLoop_frame ht hb ho k st'' h)
      | (.cont, st'') =>
        simp only [hbs] at h h2 ⊢
        exact (h2 (by simp)).trans (pyLoop_frame ht hb ho k st'' h)
      | (.brk, st'') => simp only [hbs] at h2 ⊢; exact h2 (by simp)
      | (.raised v, st'') => simp only [hbs] at h2 ⊢; exact h2 (by simp)
      | (.returned v, st'') => simp only [hbs] at h2 ⊢; exact h2 (by simp)
      | (.timeout, st'') => simp only [hbs] at h; exact absurd rfl h

theorem pyFinally_eq (cur : Option Val) (final : Option Val → PSt n → POut × PSt n) {o : POut}
    (st : PSt n) (ho : o ≠ .timeout) :
    pyFinally cur final (o, st) = afterFinal o (final (pending cur o) st) := by
  cases o <;> first | rfl | exact absurd rfl ho

theorem pyFinally_frame {asg hn : Fin n → Bool} {cur : Option Val}
    {final : Option Val → PSt n → POut × PSt n} {r : POut × PSt n} {env : Fin n → Option Val}
    (hr : r.1 ≠ .timeout → Frame asg hn env r.2.env)
    (hf : ∀ c st, (final c st).1 ≠ .timeout → Frame asg hn st.env (final c st).2.env)
    (h : (pyFinally cur final r).1 ≠ .timeout) :
    Frame asg hn env (pyFinally cur final r).2.env := by
  obtain ⟨o, st⟩ := r
  by_cases ho : o = .timeout
  · subst ho; exact absurd rfl h
  · have hfin := pyFinally_eq cur final st ho
    rw [hfin] at h ⊢
    have h1 := hf (pending cur o) st
    generalize hg : final (pending cur o) st = g at h h1 ⊢
    obtain ⟨o', st'⟩ := g
    have h2 : o' ≠ .timeout := by
      intro hc; subst hc; exact absurd rfl h
    have h3 := (hr ho).trans (h1 h2)
    cases o' <;> exact h3

theorem or_left_imp {a b : Bool} (h : a = true) : (a || b) = true := by rw [h]; rfl
theorem or_right_imp {a b : Bool} (h : b = true) : (a || b) = true := by rw [h, Bool.or_true]

mutual
theorem py_frame (H : Hier) (ω : Nat → Nat) (N : Nat) : ∀ (s : Stmt n) (cur : Option Val)
    (st : PSt n), (py H ω N s cur st).1 ≠ .timeout →
      Frame s.assigns s.hnames st.env (py H ω N s cur st).2.env
  | .pass, _, _, _ | .brk, _, _, _ | .cont, _, _, _ => Frame.refl
  | .seq a b, cur, st, h => by
    have h1 := py_frame H ω N a cur st
    simp only [py] at h ⊢
    match ha : py H ω N a cur st with
    | (.normal, st') =>
      simp only [ha] at h h1 ⊢
      have h2 := py_frame H ω N b cur st' h
      exact ((h1 (by simp)).mono (fun _ => or_left_imp) (fun _ => or_left_imp)).trans
        (h2.mono (fun _ => or_right_imp) (fun _ => or_right_imp))
    | (.brk, st') | (.cont, st') | (.raised v, st') | (.returned v, st') =>
      simp only [ha] at h1 ⊢
      exact (h1 (by simp)).mono (fun _ => or_left_imp) (fun _ => or_left_imp)
    | (.timeout, st') => simp only [ha] at h; exact absurd rfl h
  | .assign x e, cur, st, _ => by
    have h1 := pyEval_env ω e.reads e.eval st
    simp only [py]
    match he : pyEval ω e.reads e.eval st with
    | (.error v, st') => simp only [he] at h1 ⊢; rw [h1]; exact Frame.refl
    | (.ok v, st') =>
      simp only [he] at h1 ⊢
      rw [h1]
      intro y
      by_cases hy : y = x
      · subst hy
        exact ⟨fun h => by simp [Stmt.assigns] at h, fun _ _ => by simp [setVar]⟩
      · have hs : setVar st.env x (some v) y = st.env y := by simp only [setVar, if_neg hy]
        rw [hs]
        exact ⟨fun _ => .inl rfl, fun _ hb => hb⟩
  | .expr e, _, st, _ | .ret e, _, st, _ | .raiseE e, _, st, _ => by
    have h1 := pyEval_env ω e.reads e.eval st
    simp only [py]
    match he : pyEval ω e.reads e.eval st with
    | (.error v, st') => simp only [he] at h1 ⊢; rw [h1]; exact Frame.refl
    | (.ok v, st') => simp only [he] at h1 ⊢; rw [h1]; exact Frame.refl
  | .reraise, cur, st, _ => by
    simp only [py]
    cases cur <;> exact Frame.refl
  | .assertS t, _, st, _ => by
    have h1 := pyEval_env ω t.reads (t.eval H) st
    simp only [py]
    match he : pyEval ω t.reads (t.eval H) st with
    | (.error v, st') => simp only [he] at h1 ⊢; rw [h1]; exact Frame.refl
    | (.ok true, st') => simp only [he] at h1 ⊢; rw [h1]; exact Frame.refl
    | (.ok false, st') => simp only [he] at h1 ⊢; rw [h1]; exact Frame.refl
  | .ifS t a b, cur, st, h => by
    have h1 := pyEval_env ω t.reads (t.eval H) st
    simp only [py] at h ⊢
    match he : pyEval ω t.reads (t.eval H) st with
    | (.error v, st') => simp only [he] at h1 ⊢; rw [h1]; exact Frame.refl
    | (.ok true, st') =>
      simp only [he] at h h1 ⊢
      rw [← h1]
      exact (py_frame H ω N a cur st' h).mono (fun _ => or_left_imp) (fun _ => or_left_imp)
    | (.ok false, st') =>
      simp only [he] at h h1 ⊢
      rw [← h1]
      exact (py_frame H ω N b cur st' h).mono (fun _ => or_right_imp) (fun _ => or_right_imp)
  | .whileS t a b, cur, st, h => by
    simp only [py] at h ⊢
    exact pyLoop_frame (pyEval_env ω t.reads (t.eval H))
      (fun st h => (py_frame H ω N a cur st h).mono (fun _ => or_left_imp) (fun _ => or_left_imp))
      (fun st h => (py_frame H ω N b cur st h).mono (fun _ => or_right_imp) (fun _ => or_right_imp))
      N st h
  | .tryS body hs orelse final, cur, st, h => by
    simp only [py] at h ⊢
    refine pyFinally_frame ?_ ?_ h
    · intro h'
      have h1 := py_frame H ω N body cur st
      have e1 : ∀ x, body.assigns x = true →
          (Stmt.tryS body hs orelse final).assigns x = true := by
        intro x hx; simp [Stmt.assigns, hx]
      have e2 : ∀ x, body.hnames x = true →
          (Stmt.tryS body hs orelse final).hnames x = true := by
        intro x hx; simp [Stmt.hnames, hx]
      match hb : py H ω N body cur st with
      | (.normal, st') =>
        simp only [hb] at h' h1 ⊢
        refine ((h1 (by simp)).mono e1 e2).trans
          ((py_frame H ω N orelse cur st' h').mono ?_ ?_)
        · intro x hx; simp [Stmt.assigns, hx]
        · intro x hx; simp [Stmt.hnames, hx]
      | (.raised v, st') =>
        simp only [hb] at h' h1 ⊢
        refine ((h1 (by simp)).mono e1 e2).trans
          ((pyHandlers_frame H ω N hs v st' h').mono ?_ ?_)
        · intro x hx; simp [Stmt.assigns, hx]
        · intro x hx; simp [Stmt.hnames, hx]
      | (.brk, st') | (.cont, st') | (.returned v, st') =>
        simp only [hb] at h1 ⊢
        exact (h1 (by simp)).mono e1 e2
      | (.timeout, st') => simp only [hb] at h'; exact absurd rfl h'
    · intro c st' h'
      refine (py_frame H ω N final c st' h').mono ?_ ?_
      · intro x hx; simp [Stmt.assigns, hx]
      · intro x hx; simp [Stmt.hnames, hx]
theorem pyHandlers_frame (H : Hier) (ω : Nat → Nat) (N : Nat) : ∀ (hs : Handlers n) (v : Val)
    (st : PSt n), (pyHandlers H ω N hs v st).1 ≠ .timeout →
      Frame hs.assigns hs.hnames st.env (pyHandlers H ω N hs v st).2.env
  | .nil, _, _, _ => Frame.refl
  | .cons c name body rest, v, st, h => by
    simp only [pyHandlers] at h ⊢
    split
    · rename_i hc
      simp only [if_pos hc] at h
      cases name with
      | none =>
        simp only at h ⊢
        refine (py_frame H ω N body (some v) st h).mono ?_ ?_
        · intro x hx; simp [Handlers.assigns, hx]
        · intro x hx; simp [Handlers.hnames, hx]
      | some x =>
        simp only at h ⊢
        have h1 := py_frame H ω N body (some v) { st with env := setVar st.env x (some v) }
        generalize hg : py H ω N body (some v) { st with env := setVar st.env x (some v) } = g
          at h h1 ⊢
        obtain ⟨o, st'⟩ := g
        have ho : o ≠ .timeout := by intro hc; subst hc; exact absurd rfl h
        have h2 : Frame (Handlers.cons c (some x) body rest).assigns
            (Handlers.cons c (some x) body rest).hnames st.env (setVar st'.env x none) := by
          intro y
          by_cases hy : y = x
          · subst hy
            have hh : (Handlers.cons c (some y) body rest).hnames y = true := by
              simp [Handlers.hnames]
            exact ⟨fun _ => .inr ⟨hh, by simp [setVar]⟩, fun hf => by rw [hh] at hf; simp at hf⟩
          · have h3 := (h1 ho) y
            simp only [setVar, if_neg hy] at h3 ⊢
            constructor
            · intro ha
              simp only [Handlers.assigns, Bool.or_eq_false_iff] at ha
              rcases h3.1 ha.1 with h4 | h4
              · exact .inl h4
              · exact .inr ⟨by simp [Handlers.hnames, h4.1], h4.2⟩
            · intro ha hb
              simp only [Handlers.hnames, Bool.or_eq_false_iff] at ha
              exact h3.2 ha.1.2 hb
        cases o <;> first | exact h2 | exact absurd rfl ho
    · rename_i hc
      simp only [if_neg hc] at h
      refine (pyHandlers_frame H ω N rest v st h).mono ?_ ?_
      · intro x hx; simp [Handlers.assigns, hx]
      · intro x hx; simp [Handlers.hnames, hx]
end

/-! ### How a statement can end -/

/-- `break` and `continue` come from a statement that contains them. -/
def JumpOK (fb fc : Bool) (o : POut) : Prop := (o = .brk → fb = true) ∧ (o = .cont → fc = true)

theorem pyLoop_jump {fb fc : Bool} {test : PSt n → Except Val Bool × PSt n}
    {body orelse : PSt n → POut × PSt n} (ho : ∀ st, JumpOK fb fc (orelse st).1) :
    ∀ (k : Nat) (st : PSt n), JumpOK fb fc (pyLoop test body orelse k st).1
  | 0, st => by simp [pyLoop, JumpOK]
  | k + 1, st => by
    simp only [pyLoop]
    match test st with
    | (.error v, st') => simp [JumpOK]
    | (.ok false, st') => exact ho st'
    | (.ok true, st') =>
      simp only
      match body st' with
      | (.normal, st'') => exact pyLoop_jump ho k st''
      | (.cont, st'') => exact pyLoop_jump ho k st''
      | (.brk, st'') | (.raised v, st'') | (.returned v, st'') | (.timeout, st'') => simp [JumpOK]

theorem JumpOK.mono {fb fc fb' fc' : Bool} {o : POut} (h : JumpOK fb fc o) (h1 : fb = true → fb' = true)
    (h2 : fc = true → fc' = true) : JumpOK fb' fc' o := ⟨fun e => h1 (h.1 e), fun e => h2 (h.2 e)⟩

theorem pyFinally_jump {fb fc : Bool} {cur : Option Val}
    {final : Option Val → PSt n → POut × PSt n} {r : POut × PSt n} (hr : JumpOK fb fc r.1)
    (hf : ∀ c st, JumpOK fb fc (final c st).1) : JumpOK fb fc (pyFinally cur final r).1 := by
  obtain ⟨o, st⟩ := r
  by_cases ho : o = .timeout
  · subst ho; exact hr
  · have hfin := pyFinally_eq cur final st ho
    rw [hfin]
    have h1 := hf (pending cur o) st
    generalize final (pending cur o) st = g at h1 ⊢
    obtain ⟨o', st'⟩ := g
    cases o' <;> first | exact h1 | exact hr

mutual
theorem py_jump (H : Hier) (ω : Nat → Nat) (N : Nat) : ∀ (s : Stmt n) (cur : Option Val)
    (st : PSt n), JumpOK s.freeBrk s.freeCont (py H ω N s cur st).1
  | .pass, _, _ => by simp [py, JumpOK]
  | .brk, _, _ => by simp [py, JumpOK, Stmt.freeBrk]
  | .cont, _, _ => by simp [py, JumpOK, Stmt.freeCont]
  | .seq a b, cur, st => by
    have h1 := py_jump H ω N a cur st
    simp only [py]
    match ha : py H ω N a cur st with
    | (.normal, st') => exact (py_jump H ω N b cur st').mono or_right_imp or_right_imp
    | (.brk, st') | (.cont, st') | (.raised v, st') | (.returned v, st') | (.timeout, st') =>
      simp only [ha] at h1 ⊢
      exact h1.mono or_left_imp or_left_imp
  | .assign x e, _, st | .expr e, _, st | .ret e, _, st | .raiseE e, _, st => by
    simp only [py]
    match pyEval ω e.reads e.eval st with
    | (.error v, st') => simp [JumpOK]
    | (.ok v, st') => simp [JumpOK]
  | .reraise, cur, st => by
    simp only [py]
    cases cur <;> simp [JumpOK]
  | .assertS t, _, st => by
    simp only [py]
    match pyEval ω t.reads (t.eval H) st with
    | (.error v, st') => simp [JumpOK]
    | (.ok true, st') => simp [JumpOK]
    | (.ok false, st') => simp [JumpOK]
  | .ifS t a b, cur, st => by
    simp only [py]
    match pyEval ω t.reads (t.eval H) st with
    | (.error v, st') => simp [JumpOK]
    | (.ok true, st') => exact (py_jump H ω N a cur st').mono or_left_imp or_left_imp
    | (.ok false, st') => exact (py_jump H ω N b cur st').mono or_right_imp or_right_imp
  | .whileS t a b, cur, st => by
    simp only [py]
    exact pyLoop_jump (fun st => py_jump H ω N b cur st) N st
  | .tryS body hs orelse final, cur, st => by
    simp only [py]
    refine pyFinally_jump ?_ ?_
    · have h1 := py_jump H ω N body cur st
      match hb : py H ω N body cur st with
      | (.normal, st') =>
        refine (py_jump H ω N orelse cur st').mono ?_ ?_ <;> intro hx
        · simp [Stmt.freeBrk, hx]
        · simp [Stmt.freeCont, hx]
      | (.raised v, st') =>
        refine (pyHandlers_jump H ω N hs v st').mono ?_ ?_ <;> intro hx
        · simp [Stmt.freeBrk, hx]
        · simp [Stmt.freeCont, hx]
      | (.brk, st') | (.cont, st') | (.returned v, st') | (.timeout, st') =>
        simp only [hb] at h1 ⊢
        refine h1.mono ?_ ?_ <;> intro hx
        · simp [Stmt.freeBrk, hx]
        · simp [Stmt.freeCont, hx]
    · intro c st'
      refine (py_jump H ω N final c st').mono ?_ ?_ <;> intro hx
      · simp [Stmt.freeBrk, hx]
      · simp [Stmt.freeCont, hx]
theorem pyHandlers_jump (H : Hier) (ω : Nat → Nat) (N : Nat) : ∀ (hs : Handlers n) (v : Val)
    (st : PSt n), JumpOK hs.freeBrk hs.freeCont (pyHandlers H ω N hs v st).1
  | .nil, _, _ => by simp [pyHandlers, JumpOK]
  | .cons c name body rest, v, st => by
    simp only [pyHandlers]
    split
    · cases name with
      | none =>
        refine (py_jump H ω N body (some v) st).mono ?_ ?_ <;> intro hx
        · simp [Handlers.freeBrk, hx]
        · simp [Handlers.freeCont, hx]
      | some x =>
        simp only
        have h1 := py_jump H ω N body (some v) { st with env := setVar st.env x (some v) }
        generalize py H ω N body (some v) { st with env := setVar st.env x (some v) } = g at h1 ⊢
        obtain ⟨o, st'⟩ := g
        have h2 : JumpOK (Handlers.cons c (some x) body rest).freeBrk
            (Handlers.cons c (some x) body rest).freeCont o := by
          refine h1.mono ?_ ?_ <;> intro hx
          · simp [Handlers.freeBrk, hx]
          · simp [Handlers.freeCont, hx]
        cases o <;> exact h2
    · refine (pyHandlers_jump H ω N rest v st).mono ?_ ?_ <;> intro hx
      · simp [Handlers.freeBrk, hx]
      · simp [Handlers.freeCont, hx]
end

end Verif.Flow
