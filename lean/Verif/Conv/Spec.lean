import Verif.Conv.Types
/-
What conversions are supposed to do, in terms of Python values and types only.
-/
namespace Verif.Conv

/-- The type a Python value has of itself, when it is one of those that are modelled. -/
def pyType : Py → Option Ty
  | .none => some .none
  | .bool _ => some (.reg .bool)
  | .int _ => some (.reg .i64)
  | .float _ => some (.reg .f64)
  | .str _ => some .str
  | .bytes _ => some .bytes
  | .inst t _ => some t
  | _ => none

/-- Types that are neither a choice nor a constant. -/
def Ty.plain : Ty → Bool
  | .value _ | .oneOf _ => false
  | _ => true

/-- No object is an object of a `OneOf`: reading one gives the alternative it holds. -/
def Py.proper : Py → Bool
  | .inst (.oneOf _) _ => false
  | _ => true

/-- `u` is an alternative of `t`: `t` itself, or an alternative of an alternative of a `OneOf`. -/
inductive Inside (u : Ty) : Ty → Prop
  | here : (∀ ts, u ≠ .oneOf ts) → Inside u u
  | there {ts : List Ty} {t : Ty} : t ∈ ts → Inside u t → Inside u (.oneOf ts)

/-- The integers of 64 bits. -/
def InInt64 (n : Int) : Prop := -2 ^ 63 ≤ n ∧ n < 2 ^ 63

/-- The numbers a machine type can hold. -/
def Fits (e : Env) : Reg → Num → Prop
  | .bool, .int n => n = 0 ∨ n = 1
  | .i8, .int n => -2 ^ 7 ≤ n ∧ n < 2 ^ 7
  | .i16, .int n => -2 ^ 15 ≤ n ∧ n < 2 ^ 15
  | .i32, .int n => -2 ^ 31 ≤ n ∧ n < 2 ^ 31
  | .i64, .int n => InInt64 n
  | .u8, .int n => 0 ≤ n ∧ n < 2 ^ 8
  | .u16, .int n => 0 ≤ n ∧ n < 2 ^ 16
  | .u32, .int n => 0 ≤ n ∧ n < 2 ^ 32
  | .u64, .int n => 0 ≤ n ∧ n < 2 ^ 64
  | .f32, .flt x => e.narrow x = x
  | .f64, .flt _ => True
  | _, _ => False

/-- Constants that equal themselves: written as literals, and not NaN. -/
def Const.ok (e : Env) : Const → Prop
  | .num .bool n => Fits e .bool n
  | .num .i64 n => Fits e .i64 n
  | .num .f64 (.flt x) => e.feq x x = true
  | .num _ _ => False
  | .str _ => True
  | .bytes b => ∀ n ∈ b, n < 256

/-- `d` is the data of a value of type `t`. -/
inductive Has (e : Env) : Ty → Data → Prop
  | none : Has e .none .unit
  | reg {r : Reg} {n : Num} : Fits e r n → Has e (.reg r) (.num n)
  | str {s : List Nat} : Has e .str (.str s)
  | bytes {b : List Nat} : (∀ n ∈ b, n < 256) → Has e .bytes (.bytes b)
  | value {c : Const} : c.ok e → Has e (.value c) .unit
  | tupleOf {t : Ty} {ds : List Data} : (∀ d ∈ ds, Has e t d) → Has e (.tupleOf t) (.seq ds)
  | listOf {t : Ty} {ds : List Data} : (∀ d ∈ ds, Has e t d) → Has e (.listOf t) (.seq ds)
  | tuple {ts : List Ty} {ds : List Data} : ts.length = ds.length →
      (∀ (i : Nat) (t : Ty) (d : Data), ts[i]? = some t → ds[i]? = some d → Has e t d) → Has e (.tuple ts) (.seq ds)
  | named {ns : List String} {ts : List Ty} {ds : List Data} : ts.length = ds.length →
      (∀ (i : Nat) (t : Ty) (d : Data), ts[i]? = some t → ds[i]? = some d → Has e t d) → Has e (.named ns ts) (.seq ds)
  | oneOf {ts : List Ty} {k : Nat} {t : Ty} {d : Data} : ts[k]? = some t → Has e t d → Has e (.oneOf ts) (.tag k d)

/-- No constant among the alternatives equals a value of another alternative that is not the same value: no float that equals
another float (zero), and none of the integers 0 and 1 beside booleans. -/
def Clear (e : Env) (ts : List Ty) : Prop := ∀ c, .value c ∈ ts → match c with
  | .num .i64 (.int n) => n = 0 ∨ n = 1 → .reg .bool ∉ ts ∧ ∀ m, .value (.num .bool m) ∉ ts
  | .num .f64 (.flt x) => ∀ y, e.feq x y = true → x = y
  | .num .bool (.int _) => True
  | .num _ _ => False
  | _ => True

end Verif.Conv
