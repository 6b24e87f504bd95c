import Verif.Common
import Verif.Conv.Types
/-
The types and values whose comparisons and hashes are modelled.

A value carries the constructor of its type, which the C++ code finds by walking the type beside the bytes; values are compared with
values of the same type (`has`).
-/
namespace Verif.Compare
open Verif.Conv (Reg)

/-- Type.hpp:106-146 `TypeCategory`: the categories that are modelled.  `num` is bool or an integer type, `flt` is Float32 (`true`) or
float.  `tuple` is Tuple and NamedTuple, whose comparisons and hashes do not look at the names.  `alt n` is an Alternative; its cases
are looked up in an environment, so that Alternatives may be recursive. -/
inductive Ty
  | none
  | num (r : Reg)
  | flt (single : Bool)
  | str
  | bytes
  | tupleOf (isList : Bool) (elt : Ty)
  | tuple (fields : List Ty)
  | oneOf (alternatives : List Ty)
  | alt (n : Nat)
  deriving Repr

/-- Values.  A float is the bit pattern of a double; a Float32 is kept as the double it equals.  Strings are their code points,
bytes objects their bytes. -/
inductive Data
  | none
  | num (r : Reg) (n : Int)
  | flt (single : Bool) (bits : Nat)
  | str (points : List Nat)
  | bytes (b : List Nat)
  | tupleOf (isList : Bool) (items : List Data)
  | tuple (items : List Data)
  | oneOf (which : Nat) (d : Data)
  | alt (which : Nat) (d : Data)
  deriving Repr

/-- Induction over values. -/
theorem Data.ind {P : Data → Prop} (none : P .none) (num : ∀ r n, P (.num r n)) (flt : ∀ s b, P (.flt s b))
    (str : ∀ p, P (.str p)) (bytes : ∀ b, P (.bytes b)) (tupleOf : ∀ l ds, (∀ d ∈ ds, P d) → P (.tupleOf l ds))
    (tuple : ∀ ds, (∀ d ∈ ds, P d) → P (.tuple ds)) (oneOf : ∀ i d, P d → P (.oneOf i d)) (alt : ∀ i d, P d → P (.alt i d)) :
    ∀ d, P d := by
  intro d
  exact Data.rec (motive_1 := P) (motive_2 := fun ds => ∀ d ∈ ds, P d) none num flt str bytes (fun l ds h => tupleOf l ds h)
    (fun ds h => tuple ds h) (fun i d h => oneOf i d h) (fun i d h => alt i d h) (fun _ h => nomatch h)
    (fun d ds h hs e he => by
      rcases List.mem_cons.1 he with h1 | h1
      · rw [h1]; exact h
      · exact hs e h1) d

/-- RegisterTypes.hpp:126-157 `isUnsigned`, `bits`: the values of an integer type. -/
def inRange : Reg → Int → Bool
  | .bool, n => 0 ≤ n && n < 2
  | .i8, n => -2 ^ 7 ≤ n && n < 2 ^ 7
  | .i16, n => -2 ^ 15 ≤ n && n < 2 ^ 15
  | .i32, n => -2 ^ 31 ≤ n && n < 2 ^ 31
  | .i64, n => -2 ^ 63 ≤ n && n < 2 ^ 63
  | .u8, n => 0 ≤ n && n < 2 ^ 8
  | .u16, n => 0 ≤ n && n < 2 ^ 16
  | .u32, n => 0 ≤ n && n < 2 ^ 32
  | .u64, n => 0 ≤ n && n < 2 ^ 64
  | .f32, _ => false
  | .f64, _ => false

mutual
/-- `has E d t`: the value `d` belongs to the type `t`.  `E` gives the cases of the Alternatives, each a tuple type. -/
def has (E : Nat → List Ty) : Data → Ty → Bool
  | .none, .none => true
  | .num r n, .num r' => r == r' && inRange r n
  | .flt s b, .flt s' => s == s' && b < 2 ^ 64
  | .str _, .str => true
  | .bytes _, .bytes => true
  | .tupleOf l ds, .tupleOf l' t => l == l' && hasEach E ds t
  | .tuple ds, .tuple ts => hasAll E ds ts
  | .oneOf i d, .oneOf ts => match ts[i]? with
    | some t => has E d t
    | Option.none => false
  | .alt i d, .alt n => match (E n)[i]? with
    | some t => has E d t
    | Option.none => false
  | _, _ => false
termination_by structural d => d

/-- Every value of the list belongs to the type. -/
def hasEach (E : Nat → List Ty) : List Data → Ty → Bool
  | [], _ => true
  | d :: ds, t => has E d t && hasEach E ds t
termination_by structural ds => ds

/-- The values of the list belong to the types of the other list, one to each. -/
def hasAll (E : Nat → List Ty) : List Data → List Ty → Bool
  | [], [] => true
  | d :: ds, t :: ts => has E d t && hasAll E ds ts
  | _, _ => false
termination_by structural ds => ds
end

/-- Comparison of doubles by the processor (IEEE 754): a pattern whose magnitude is above that of infinity is not a number. -/
def isNaN (b : Nat) : Bool := 0x7FF0000000000000 < b % 2 ^ 63

/-- Comparison of doubles by the processor (IEEE 754): sign and magnitude, as an integer; both zeros are 0. -/
def fkey (b : Nat) : Int := if b < 2 ^ 63 then b else -(b - 2 ^ 63 : Nat)

/-- Comparison of doubles by the processor (IEEE 754): `x < y`, false if either is not a number. -/
def flt (x y : Nat) : Bool := !isNaN x && !isNaN y && decide (fkey x < fkey y)

/-- Comparison of doubles by the processor (IEEE 754): `x == y`, false if either is not a number. -/
def feq (x y : Nat) : Bool := !isNaN x && !isNaN y && decide (fkey x = fkey y)

/-- HashAccumulator.hpp:73 `i == int32_t(i)`: the 32 bit integer a double equals, if it equals one.  (Converting a double that is out of
range is undefined in C++; the processors in use give the least integer, which does not equal it.) -/
def asInt32 (b : Nat) : Option Int :=
  let e := b / 2 ^ 52 % 2 ^ 11
  let m := b % 2 ^ 52
  if e = 0 then (if m = 0 then some 0 else none)
  else if 1055 ≤ e then none
  else if (2 ^ 52 + m) % 2 ^ (1075 - e) = 0 then
    let v : Int := ((2 ^ 52 + m) / 2 ^ (1075 - e) : Nat)
    let v := if b < 2 ^ 63 then v else -v
    if -2 ^ 31 ≤ v && v < 2 ^ 31 then some v else none
  else none

mutual
/-- No float in the value is NaN. -/
def noNaN : Data → Bool
  | .flt _ b => !isNaN b
  | .tupleOf _ ds => noNaNs ds
  | .tuple ds => noNaNs ds
  | .oneOf _ d => noNaN d
  | .alt _ d => noNaN d
  | _ => true
termination_by structural d => d

/-- No float in the values is NaN. -/
def noNaNs : List Data → Bool
  | [] => true
  | d :: ds => noNaN d && noNaNs ds
termination_by structural ds => ds
end

end Verif.Compare
