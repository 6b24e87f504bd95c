import Verif.Arith.Model

/-!
# What the arithmetic operators should do

Python's integers: `//` is `Int.fdiv` (rounding towards minus infinity), `%` is `Int.fmod`
(sign of the divisor), `<<` multiplies by a power of two and `>>` floor-divides by one.
A fixed-width type holds exactly the integers of its range.
-/

namespace Verif.Arith.Spec
open Verif.Arith

/-- One of the eight sized integer types. -/
def IntType (t : ITy) : Prop := t.bits = 8 ∨ t.bits = 16 ∨ t.bits = 32 ∨ t.bits = 64

instance (t : ITy) : Decidable (IntType t) := by unfold IntType; infer_instance

/-- `x` is a value of the type. -/
def InRange (t : ITy) (x : Int) : Prop :=
  if t.signed then -(2 ^ (t.bits - 1)) ≤ x ∧ x < 2 ^ (t.bits - 1) else 0 ≤ x ∧ x < 2 ^ t.bits

instance (t : ITy) (x : Int) : Decidable (InRange t x) := by unfold InRange; infer_instance

/-- The `int` of compiled code. -/
def int64 : ITy := ⟨true, 64⟩

/-- Python's result for an operator on unbounded integers; `none` where Python raises. -/
def python : Op → Int → Int → Option Int
  | .add, a, b => some (a + b)
  | .sub, a, b => some (a - b)
  | .mul, a, b => some (a * b)
  | .floordiv, a, b => if b = 0 then none else some (Int.fdiv a b)
  | .mod, a, b => if b = 0 then none else some (Int.fmod a b)
  | .lshift, a, b => if b < 0 then none else some (a * 2 ^ b.toNat)
  | .rshift, a, b => if b < 0 then none else some (Int.fdiv a (2 ^ b.toNat))

/-- Two executions agree: the same value, or an exception on both sides. -/
def Agree : Except Err Int → Except Err Int → Prop
  | .ok x, .ok y => x = y
  | .error _, .error _ => True
  | _, _ => False

instance (x y : Except Err Int) : Decidable (Agree x y) := by
  unfold Agree; split <;> infer_instance

/-- `x` and `y` are the same value of the type `t` up to wrap-around. -/
def Congruent (t : ITy) (x y : Int) : Prop := (2 ^ t.bits : Int) ∣ x - y

end Verif.Arith.Spec
