import Verif.Conv.Typing
/-
Where conversions do not do what one expects.
-/
namespace Verif.Conv

/-- `OneOf(1, bool)`: `True` is stored as the constant 1, at every level, and read as the integer 1. -/
theorem true_becomes_one (e : Env) (l : Level) :
    conv e (.oneOf [.value (.num .i64 (.int 1)), .reg .bool]) (.bool true) l = some (.tag 0 .unit) ∧
    extract (.oneOf [.value (.num .i64 (.int 1)), .reg .bool]) (.tag 0 .unit) = .int 1 := by
  refine ⟨conversion_monotone (l := .signature) ?_ (Nat.zero_le _), rfl⟩
  rw [oneOf_takes_first_at_least_level rfl]
  refine ⟨.signature, 0, _, .unit, Level.le_refl _, by decide, rfl, rfl, rfl, ?_, by simp⟩
  intro s' hs'
  exact absurd hs' (Nat.not_lt_zero _)

/-- So a value of such a type does not survive being read and converted back, and a boolean does not keep its type. -/
theorem oneOf_not_restored (e : Env) : ¬ ∀ (ts : List Ty) (x : Data) (l : Level), Has e (.oneOf ts) x → (∀ us, .oneOf us ∉ ts) →
    (∀ c, .value c ∈ ts → c.ok e) →
    ∃ x', conv e (.oneOf ts) (extract (.oneOf ts) x) l = some x' ∧ extract (.oneOf ts) x' = extract (.oneOf ts) x := by
  intro h
  obtain ⟨x', h1, h2⟩ := h [.value (.num .i64 (.int 1)), .reg .bool] (.tag 1 (.num (.int 1))) .signature
    (.oneOf rfl (.reg (.inr rfl))) (by simp) (by
      intro c hc
      simp only [List.mem_cons, Ty.value.injEq, reduceCtorEq, List.not_mem_nil, or_false] at hc
      subst hc
      exact ⟨by decide, by decide⟩)
  have h3 : extract (.oneOf [.value (.num .i64 (.int 1)), .reg .bool]) (.tag 1 (.num (.int 1))) = .bool true := rfl
  rw [h3] at h1 h2
  rw [(true_becomes_one e .signature).1] at h1
  cases h1
  rw [(true_becomes_one e .signature).2] at h2
  cases h2

/-- `OneOf(0.0, float)`: the negative zero is stored as the constant zero. -/
theorem zero_loses_sign {e : Env} (h : e.feq 0 (2 ^ 63) = true) (l : Level) :
    conv e (.oneOf [.value (.num .f64 (.flt 0)), .reg .f64]) (.float (2 ^ 63)) l = some (.tag 0 .unit) ∧
    extract (.oneOf [.value (.num .f64 (.flt 0)), .reg .f64]) (.tag 0 .unit) = .float 0 := by
  refine ⟨conversion_monotone (l := .signature) ?_ (Nat.zero_le _), rfl⟩
  rw [oneOf_takes_first_at_least_level rfl]
  refine ⟨.signature, 0, _, .unit, Level.le_refl _, by decide, rfl, rfl, ?_, ?_, by simp⟩
  · have : constEq e (.num .f64 (.flt 0)) (.float (2 ^ 63)) true = true := h
    rw [conv, copyOr_other (fun d hd => by cases hd), convTo]
    exact if_pos this
  · intro s' hs'
    exact absurd hs' (Nat.not_lt_zero _)

/-- Integers beyond 64 bits lose their high bits without an error, even where no conversion is allowed. -/
theorem wide_int_wraps (e : Env) (l : Level) (n : Int) (h : 2 ^ 63 ≤ n) :
    conv e (.reg .i64) (.int n) l = some (.num (.int (wrap 64 true (n % 2 ^ 64)))) := by
  refine conversion_monotone (l := .signature) ?_ (Nat.zero_le _)
  have hv : conv e (.reg .i64) (.int n) .signature = some (.num (fromInt e .i64 n)) := rfl
  have hl : longBits n = n % 2 ^ 64 := by
    rw [longBits, if_neg]
    rw [inInt64_iff]
    exact fun hh => absurd hh.2 (by omega)
  rw [hv, fromInt, hl]
  rfl

/-- `int` of 2^64 + 5 is 5. -/
theorem wide_int_five (e : Env) (l : Level) : conv e (.reg .i64) (.int (2 ^ 64 + 5)) l = some (.num (.int 5)) := by
  rw [wide_int_wraps e l _ (by decide)]
  decide +kernel

/-- `OneOf(1, None)` takes 2^64 + 1 for 1. -/
theorem wide_int_is_constant (e : Env) (l : Level) :
    conv e (.oneOf [.value (.num .i64 (.int 1)), .none]) (.int (2 ^ 64 + 1)) l = some (.tag 0 .unit) := by
  refine conversion_monotone (l := .signature) ?_ (Nat.zero_le _)
  rw [oneOf_takes_first_at_least_level rfl]
  refine ⟨.signature, 0, _, .unit, Level.le_refl _, by decide, rfl, rfl, rfl, ?_, by simp⟩
  intro s' hs'
  exact absurd hs' (Nat.not_lt_zero _)

/-- So the content of a value is not kept when its integers are not of 64 bits. -/
theorem content_not_kept (e : Env) : ¬ ∀ (t : Ty) (v : Py) (l : Level) (d : Data), TyOk e t → l ≤ .upcastContainers →
    conv e t v l = some d → Holds e t d v := by
  intro h
  have := h _ _ .signature _ .reg (by decide) (wide_int_five e .signature)
  cases this with
  | int hi => cases hi

/-- Upcasts of integers to floats are lossy: a float type makes the same of two integers its numbers do not tell apart. -/
theorem int_upcast_lossy {e : Env} (h : e.double (2 ^ 53 + 1) = e.double (2 ^ 53)) :
    conv e (.reg .f64) (.int (2 ^ 53 + 1)) .upcast = conv e (.reg .f64) (.int (2 ^ 53)) .upcast ∧
    (conv e (.reg .f64) (.int (2 ^ 53)) .upcast).isSome = true := by
  have hv : ∀ n, conv e (.reg .f64) (.int n) .upcast = some (.num (.flt (e.double n))) := fun n => rfl
  rw [hv, hv, h]
  exact ⟨rfl, rfl⟩

/-- `Int32` upcasts to `Float32`, which has 24 bits for it. -/
theorem int32_upcast_lossy {e : Env} (h : e.single (2 ^ 24 + 1) = e.single (2 ^ 24)) :
    conv e (.reg .f32) (.inst (.reg .i32) (.num (.int (2 ^ 24 + 1)))) .upcast =
      conv e (.reg .f32) (.inst (.reg .i32) (.num (.int (2 ^ 24)))) .upcast ∧
    (conv e (.reg .f32) (.inst (.reg .i32) (.num (.int (2 ^ 24)))) .upcast).isSome = true := by
  have hv : ∀ n, conv e (.reg .f32) (.inst (.reg .i32) (.num (.int n))) .upcast = some (.num (.flt (e.single n))) := fun n => rfl
  rw [hv, hv, h]
  exact ⟨rfl, rfl⟩

/-- `TupleOf(ListOf(int))` converts a tuple of lists implicitly, though `ListOf(int)` does not convert a list implicitly and a
`Tuple` of one does not either. -/
theorem implicit_lists_in_tuples (e : Env) :
    conv e (.tupleOf (.listOf (.reg .i64))) (.tuple [.list [.int 1]]) .implicit = some (.seq [.seq [.num (.int 1)]]) ∧
    conv e (.listOf (.reg .i64)) (.list [.int 1]) .implicit = none ∧
    conv e (.tuple [.listOf (.reg .i64)]) (.tuple [.list [.int 1]]) .implicit = none := ⟨rfl, rfl, rfl⟩

/-- `NamedTuple(a=ListOf(int))`, where containers may be converted implicitly, accepts a dictionary with a list but not a tuple with
one; called explicitly it accepts both. -/
theorem named_tuple_refuses_tuple (e : Env) :
    conv e (.named ["a"] [.listOf (.reg .i64)]) (.dict [.str [97]] [.list [.int 1]]) .implicitContainers = some (.seq [.seq [.num (.int 1)]]) ∧
    conv e (.named ["a"] [.listOf (.reg .i64)]) (.tuple [.list [.int 1]]) .implicitContainers = none ∧
    conv e (.named ["a"] [.listOf (.reg .i64)]) (.tuple [.list [.int 1]]) .new = some (.seq [.seq [.num (.int 1)]]) := by
  refine ⟨?_, rfl, rfl⟩
  have hk : keysAreNames ["a"] [.str [97]] = true := by decide +kernel
  have hg : dictGet [.str [97]] [.list [.int 1]] "a" = some (.list [.int 1]) := by
    have : ([97] : List Nat) = points "a" := by decide +kernel
    simp only [dictGet]
    exact if_pos this
  rw [conv, copyOr_other (fun d hd => by cases hd), convTo, if_pos (by decide), if_pos hk]
  simp only [convFields, List.headD_cons, hg]
  rfl

end Verif.Conv
