import Verif.Pmap.Frame
/-
Jobs partition the elements, and the results of all jobs make up the result of a call.
-/
namespace Verif.Pmap

variable {V E : Type} {N : Nat}

theorem gran_pos (g : Nat) : 0 < gran g := by unfold gran; omega

theorem job_unique {n g i j y : Nat} (h1 : jobLo g i ≤ y) (h2 : y < jobHi n g i) (h3 : jobLo g j ≤ y)
    (h4 : y < jobHi n g j) : i = j := by
  have key : ∀ i, jobLo g i ≤ y → y < jobHi n g i → y / gran g = i := by
    intro i h1 h2
    unfold jobLo at h1
    unfold jobHi at h2
    refine Nat.div_eq_of_lt_le h1 ?_
    exact lt_of_lt_of_le h2 (Nat.min_le_right _ _)
  rw [← key i h1 h2, key j h3 h4]

theorem job_exists {n g y : Nat} (h : y < n) :
    ∃ i, i < jobCount n g ∧ jobLo g i ≤ y ∧ y < jobHi n g i := by
  have hp := gran_pos g
  refine ⟨y / gran g, ?_, Nat.div_mul_le_self y _, ?_⟩
  · have h1 : y / gran g ≤ n / gran g := Nat.div_le_div_right h.le
    unfold jobCount
    split
    · omega
    · rename_i hn
      have h2 : n / gran g * gran g = n := le_antisymm (Nat.div_mul_le_self n _) (by omega)
      rw [Nat.div_lt_iff_lt_mul hp, h2]
      exact h
  · unfold jobHi
    rw [lt_min_iff]
    exact ⟨h, (Nat.div_lt_iff_lt_mul hp).1 (Nat.lt_succ_self _)⟩

theorem job_nonempty {n g i : Nat} (h : i < jobCount n g) : jobLo g i < jobHi n g i := by
  have hp := gran_pos g
  unfold jobLo jobHi
  rw [lt_min_iff]
  refine ⟨?_, Nat.mul_lt_mul_of_pos_right (Nat.lt_succ_self i) hp⟩
  have h1 := Nat.div_mul_le_self n (gran g)
  unfold jobCount at h
  split at h
  · rename_i hn
    exact lt_of_le_of_lt (Nat.mul_le_mul_right _ (by omega)) hn
  · exact lt_of_lt_of_le (Nat.mul_lt_mul_of_pos_right h hp) h1

/-- Writing an element of one job leaves the others as they are. -/
theorem PhaseOK.write {cl : Call V E} {i i' x : Nat} {v : V} (h1 : jobLo cl.g i ≤ x)
    (h2 : x < jobHi cl.n cl.g i) (hne : i' ≠ i) {ph : Phase} (h : PhaseOK cl i' ph) :
    PhaseOK { cl with res := Function.update cl.res x (some v) } i' ph := by
  have keep : ∀ y, cl.res y ≠ none → Function.update cl.res x (some v) y ≠ none := by
    intro y hy
    by_cases hyx : y = x
    · subst hyx; rw [Function.update_self]; simp
    · rw [Function.update_of_ne hyx]; exact hy
  have same : ∀ y, jobLo cl.g i' ≤ y → y < jobHi cl.n cl.g i' →
      Function.update cl.res x (some v) y = cl.res y := by
    intro y hy1 hy2
    have : y ≠ x := by
      rintro rfl
      exact hne (job_unique hy1 hy2 h1 h2)
    rw [Function.update_of_ne this]
  cases ph with
  | fresh =>
    intro y hy1 hy2
    simp only at hy1 hy2 ⊢
    rw [same y hy1 hy2]; exact h y hy1 hy2
  | mid z =>
    obtain ⟨g1, g2, g3, g4⟩ := h
    refine ⟨g1, g2, fun y hy1 hy2 => keep y (g3 y hy1 hy2), fun y hy1 hy2 => ?_⟩
    simp only at hy1 hy2 ⊢
    rw [same y (by omega) hy2]; exact g4 y hy1 hy2
  | done =>
    intro y hy1 hy2
    rcases h y hy1 hy2 with h | h
    · exact .inl (keep y h)
    · exact .inr h

/-- An exception more changes nothing for the others. -/
theorem PhaseOK.raise {cl : Call V E} {i : Nat} {ex : Nat × E} {ph : Phase} (h : PhaseOK cl i ph) :
    PhaseOK { cl with exq := cl.exq ++ [ex] } i ph := by
  cases ph with
  | fresh => exact h
  | mid z => exact h
  | done =>
    intro y hy1 hy2
    rcases h y hy1 hy2 with h | ⟨z, e, h1, h2⟩
    · exact .inl h
    · exact .inr ⟨z, e, List.mem_append_left _ h1, h2⟩

/-! ### The result of a call -/

theorem earliest_spec : ∀ (l : List (Nat × E)) (m : Nat) (best : Option E),
    (earliest m best l = best ∧ ∀ z ∈ l, m ≤ z.1) ∨
    ∃ i e, (i, e) ∈ l ∧ i < m ∧ earliest m best l = some e ∧ ∀ z ∈ l, i ≤ z.1
  | [], m, best => .inl ⟨rfl, by simp⟩
  | (i, e) :: rest, m, best => by
    simp only [earliest]
    by_cases h : i < m
    · rw [if_pos h]
      rcases earliest_spec rest i (some e) with ⟨h1, h2⟩ | ⟨j, e', h1, h2, h3, h4⟩
      · refine .inr ⟨i, e, by simp, h, h1, ?_⟩
        intro z hz
        rcases List.mem_cons.1 hz with rfl | hz
        · exact le_rfl
        · exact h2 z hz
      · refine .inr ⟨j, e', List.mem_cons_of_mem _ h1, by omega, h3, ?_⟩
        intro z hz
        rcases List.mem_cons.1 hz with rfl | hz
        · simp only; omega
        · exact h4 z hz
    · rw [if_neg h]
      rcases earliest_spec rest m best with ⟨h1, h2⟩ | ⟨j, e', h1, h2, h3, h4⟩
      · refine .inl ⟨h1, ?_⟩
        intro z hz
        rcases List.mem_cons.1 hz with rfl | hz
        · simp only; omega
        · exact h2 z hz
      · refine .inr ⟨j, e', List.mem_cons_of_mem _ h1, h2, h3, ?_⟩
        intro z hz
        rcases List.mem_cons.1 hz with rfl | hz
        · simp only; omega
        · exact h4 z hz

theorem listComp_ok {f : Nat → Except E V} {res : Nat → Option V} : ∀ {n : Nat},
    (∀ y, y < n → ∃ v, res y = some v ∧ f y = .ok v) →
    ∃ vs, allElems res n = some vs ∧ listComp f n = .ok vs
  | 0, _ => ⟨[], rfl, rfl⟩
  | n + 1, h => by
    obtain ⟨vs, h1, h2⟩ := listComp_ok (n := n) (fun y hy => h y (by omega))
    obtain ⟨v, h3, h4⟩ := h n (by omega)
    refine ⟨vs ++ [v], ?_, ?_⟩
    · simp only [allElems, h1, h3]
    · simp only [listComp_succ, h2, h4]

theorem listComp_error {f : Nat → Except E V} {x : Nat} {e : E} (hx : f x = .error e) :
    ∀ {n : Nat}, x < n → (∀ y, y < x → ∃ v, f y = .ok v) → listComp f n = .error e
  | 0, h, _ => by omega
  | n + 1, h, hy => by
    rw [listComp_succ]
    by_cases hxn : x = n
    · subst hxn
      have : ∃ vs, listComp f x = .ok vs := by
        obtain ⟨vs, _, h2⟩ := listComp_ok (f := f) (n := x)
          (res := fun y => match f y with | .ok v => some v | .error _ => none) (by
            intro y hyx
            obtain ⟨v, hv⟩ := hy y hyx
            exact ⟨v, by simp only [hv], hv⟩)
        exact ⟨vs, h2⟩
      obtain ⟨vs, hvs⟩ := this
      simp only [hvs, hx]
    · rw [listComp_error hx (n := n) (by omega) hy]

/-- When every job is done, the storage and the exceptions say what the call should give. -/
theorem collect_spec {cl : Call V E} (hcl : CallOK cl)
    (hall : ∀ i, i < cntOf cl → PhaseOK cl i .done) :
    (∃ e, earliest cl.n none cl.exq = some e ∧ callSeq cl = .error e) ∨
    (earliest cl.n none cl.exq = none ∧ ∃ vs, allElems cl.res cl.n = some vs ∧ callSeq cl = .ok vs) := by
  have hdone : ∀ y, y < cl.n → (∃ v, cl.res y = some v ∧ seq (cl.xs y) = .ok v) ∨
      ∃ z e, (z, e) ∈ cl.exq ∧ z ≤ y := by
    intro y hy
    obtain ⟨i, h1, h2, h3⟩ := job_exists (g := cl.g) hy
    rcases hall i h1 y h2 h3 with h | h
    · left
      cases hr : cl.res y with
      | none => exact absurd hr h
      | some v => exact ⟨v, rfl, (hcl.res y v hr).2⟩
    · exact .inr h
  rcases earliest_spec cl.exq cl.n none with ⟨h1, h2⟩ | ⟨x, e, h1, h2, h3, h4⟩
  · right
    refine ⟨h1, listComp_ok ?_⟩
    intro y hy
    rcases hdone y hy with h | ⟨z, e, hz, _⟩
    · exact h
    · have := h2 _ hz
      have := (hcl.exq z e hz).1
      simp only at *
      omega
  · left
    refine ⟨e, h3, listComp_error (hcl.exq x e h1).2 h2 ?_⟩
    intro y hy
    rcases hdone y (by omega) with ⟨v, _, h⟩ | ⟨z, e', hz, hzy⟩
    · exact ⟨v, h⟩
    · have := h4 _ hz
      simp only at this
      omega

theorem destroyAll_none {cl : Call V E} (hcl : CallOK cl) (x : Nat) : destroyAll cl.res cl.n x = none := by
  have key : ∀ n, x < n → destroyAll cl.res n x = none := by
    intro n
    induction n with
    | zero => intro h; omega
    | succ n ih =>
      intro h
      simp only [destroyAll]
      by_cases hx : x = n
      · subst hx; rw [Function.update_self]
      · rw [Function.update_of_ne hx]; exact ih (by omega)
  have key2 : ∀ n, n ≤ x → destroyAll cl.res n x = cl.res x := by
    intro n
    induction n with
    | zero => intro _; rfl
    | succ n ih =>
      intro h
      simp only [destroyAll]
      rw [Function.update_of_ne (by omega)]; exact ih (by omega)
  by_cases h : x < cl.n
  · exact key _ h
  · rw [key2 _ (by omega)]
    cases hr : cl.res x with
    | none => rfl
    | some v => exact absurd (hcl.res x v hr).1 h

end Verif.Pmap
