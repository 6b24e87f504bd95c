import Verif.Conv.Wrong
/-
Concrete values that meet the hypotheses of the theorems.
-/
namespace Verif.Conv

/-- An environment: singles are doubles, integers become floats with the same pattern, objects have no explicit conversions except
that `bytes` of anything is empty. -/
def sample : Env where
  double n := n.toNat
  single n := n.toNat
  narrow x := x
  trunc x := x
  nonzero x := x ≠ 0
  feq a b := a = b
  truth _ := some true
  long _ := none
  float _ := none
  str _ := none
  bytes _ := some []

theorem sample_lawful : sample.Lawful := by
  refine ⟨fun _ => rfl, fun _ => rfl, rfl, ?_⟩
  intro v b h
  cases h
  simp

/-- A type with containers, names, constants and a choice. -/
def order : Ty := .named ["id", "lines", "note"]
  [.reg .u32, .tupleOf (.tuple [.str, .reg .f64]), .oneOf [.none, .value (.str [120]), .reg .i64, .str]]

theorem order_ok : TyOk sample order := by
  refine .named rfl ?_
  intro t ht
  simp only [List.mem_cons, List.not_mem_nil, or_false] at ht
  rcases ht with rfl | rfl | rfl
  · exact .reg
  · refine .tupleOf (.tuple ?_)
    intro t ht
    simp only [List.mem_cons, List.not_mem_nil, or_false] at ht
    rcases ht with rfl | rfl
    · exact .str
    · exact .reg
  · refine .oneOf ?_
    intro t ht
    simp only [List.mem_cons, List.not_mem_nil, or_false] at ht
    rcases ht with rfl | rfl | rfl | rfl
    · exact .none
    · exact .value trivial
    · exact .reg
    · exact .str

/-- A value for it: a dictionary without a note. -/
def orderValue : Py := .dict [.str (points "id"), .str (points "lines")]
  [.inst (.reg .u16) (.num (.int 7)), .list [.tuple [.str [97], .int 3], .tuple [.str [98], .bool true]]]

theorem orderValue_sound : Sound sample orderValue := by
  refine .dict ?_ ?_
  · intro x hx
    simp only [List.mem_cons, List.not_mem_nil, or_false] at hx
    rcases hx with rfl | rfl <;> exact .str
  · intro x hx
    simp only [List.mem_cons, List.not_mem_nil, or_false] at hx
    rcases hx with rfl | rfl
    · exact .inst (.reg (by simp [Fits]))
    · refine .list ?_
      intro x hx
      simp only [List.mem_cons, List.not_mem_nil, or_false] at hx
      rcases hx with rfl | rfl
      · refine .tuple ?_
        intro x hx
        simp only [List.mem_cons, List.not_mem_nil, or_false] at hx
        rcases hx with rfl | rfl
        · exact .str
        · exact .int (by simp [InInt64])
      · refine .tuple ?_
        intro x hx
        simp only [List.mem_cons, List.not_mem_nil, or_false] at hx
        rcases hx with rfl | rfl
        · exact .str
        · exact .bool

/-- What it becomes. -/
def orderData : Data := .seq [.num (.int 7), .seq [.seq [.str [97], .num (.flt 3)], .seq [.str [98], .num (.flt 1)]], .tag 0 .unit]

theorem orderValue_converts : conv sample order orderValue .upcastContainers = some orderData := by decide +kernel

example : conv sample order orderValue .upcast = none := by decide +kernel
example : conv sample order orderValue .new = some orderData := conversion_monotone orderValue_converts (by decide)
example : Holds sample order orderData orderValue := upcast_keeps_content_partial order_ok (by decide) orderValue_sound orderValue_converts
example : Has sample order orderData := conversion_typed sample_lawful order_ok orderValue_sound orderValue_converts
example : conv sample order (extract order orderData) .signature = some orderData :=
  conversion_restored sample_lawful order_ok orderValue_sound nofun orderValue_converts

/-- A `OneOf` keeps the type of a value whatever the order of its alternatives. -/
example : ∃ d, conv sample (.oneOf [.reg .f64, .str, .reg .i64]) (.int 5) .implicitContainers = some (.tag 2 d) ∧
    conv sample (.reg .i64) (.int 5) .signature = some d :=
  oneOf_keeps_type (by simp [Ty.plain]) rfl rfl (by
    intro j hj
    match j, hj with
    | 0, _ => simp
    | 1, _ => simp)

/-- Where no alternative has the type, the least level decides: a boolean is upcast rather than made a tuple. -/
example : conv sample (.oneOf [.reg .u8, .str]) (.int 5) .upcast = none ∧
    conv sample (.oneOf [.reg .u8, .str]) (.int 5) .implicit = some (.tag 0 (.num (.int 5))) ∧
    conv sample (.oneOf [.reg .u8, .reg .f64]) (.int 5) .implicit = some (.tag 1 (.num (.flt 5))) := by decide +kernel

/-- A choice with constants none of which is ambiguous. -/
example : Clear sample [.value (.num .i64 (.int 2)), .value (.str [120]), .reg .bool, .str] := by
  intro c hc
  simp only [List.mem_cons, Ty.value.injEq, List.not_mem_nil, or_false, reduceCtorEq] at hc
  rcases hc with rfl | rfl
  · intro h
    omega
  · trivial

example : makeOneOf [.str, .oneOf [.none, .str, .oneOf [.reg .i64]], .none] = [.str, .none, .reg .i64] := by decide +kernel

end Verif.Conv
