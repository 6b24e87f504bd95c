import Verif.Conv.Model
import Verif.Conv.Spec
/-
What it means that the stored data represents a Python value.
-/
namespace Verif.Conv

/-- `v` is the integer `n`: an integer, a boolean (0 or 1), or an integer of a machine type. -/
inductive IsInt : Py → Int → Prop
  | int {n : Int} : IsInt (.int n) n
  | bool {b : Bool} : IsInt (.bool b) (if b then 1 else 0)
  | inst {r : Reg} {n : Int} : IsInt (.inst (.reg r) (.num (.int n))) n

/-- `v` is the float `x`. -/
inductive IsFloat : Py → Nat → Prop
  | float {x : Nat} : IsFloat (.float x) x
  | inst {r : Reg} {x : Nat} : IsFloat (.inst (.reg r) (.num (.flt x))) x

/-- The items of tuples and lists, typed or not; those of typed ones as they are read. -/
inductive Contents : Py → List Py → Prop
  | tuple {xs : List Py} : Contents (.tuple xs) xs
  | list {xs : List Py} : Contents (.list xs) xs
  | tupleOf {t : Ty} {ds : List Data} : Contents (.inst (.tupleOf t) (.seq ds)) (ds.map (extract t))
  | listOf {t : Ty} {ds : List Data} : Contents (.inst (.listOf t) (.seq ds)) (ds.map (extract t))
  | typedTuple {ts : List Ty} {ds : List Data} : Contents (.inst (.tuple ts) (.seq ds)) (List.zipWith extract ts ds)
  | named {ns : List String} {ts : List Ty} {ds : List Data} : Contents (.inst (.named ns ts) (.seq ds)) (List.zipWith extract ts ds)

/-- The values that have named parts: dictionaries and named tuples. -/
def getField : Py → String → Option Py
  | .dict ks vs, n => dictGet ks vs n
  | .inst (.named ns ts) (.seq ds), n => fieldOf ns ts ds n
  | _, _ => none

/-- Every part of the value has one of the names. -/
def AllNamed : Py → List String → Prop
  | .dict ks _, ns => ∀ k ∈ ks, ∃ n ∈ ns, k = .str (points n)
  | .inst (.named ns' _) (.seq _), ns => ∀ n ∈ ns', n ∈ ns
  | _, _ => False

/-- The data `d` of type `t` represents the value `v`.  Only the integer that is held as a float may be rounded. -/
inductive Holds (e : Env) : Ty → Data → Py → Prop
  | none : Holds e .none .unit .none
  | int {r : Reg} {n : Int} {v : Py} : IsInt v n → Holds e (.reg r) (.num (.int n)) v
  | float {r : Reg} {x : Nat} {v : Py} : IsFloat v x → Holds e (.reg r) (.num (.flt x)) v
  | double {n : Int} {v : Py} : IsInt v n → Holds e (.reg .f64) (.num (.flt (e.double n))) v
  | single {n : Int} {v : Py} : IsInt v n → Holds e (.reg .f32) (.num (.flt (e.single n))) v
  | str {s : List Nat} : Holds e .str (.str s) (.str s)
  | bytes {b : List Nat} : Holds e .bytes (.bytes b) (.bytes b)
  | constInt {r : Reg} {n : Int} {v : Py} : IsInt v n → Holds e (.value (.num r (.int n))) .unit v
  | constFloat {r : Reg} {x y : Nat} : e.feq x y = true → Holds e (.value (.num r (.flt x))) .unit (.float y)
  | constStr {s : List Nat} : Holds e (.value (.str s)) .unit (.str s)
  | constBytes {b : List Nat} : Holds e (.value (.bytes b)) .unit (.bytes b)
  | same {t : Ty} {d : Data} : Holds e t d (.inst t d)
  | tupleOf {t : Ty} {ds : List Data} {v : Py} {xs : List Py} : Contents v xs → ds.length = xs.length →
      (∀ (i : Nat) (d : Data) (x : Py), ds[i]? = some d → xs[i]? = some x → Holds e t d x) → Holds e (.tupleOf t) (.seq ds) v
  | tuple {ts : List Ty} {ds : List Data} {v : Py} {xs : List Py} : Contents v xs → ds.length = xs.length → ts.length = xs.length →
      (∀ (i : Nat) (t : Ty) (d : Data) (x : Py), ts[i]? = some t → ds[i]? = some d → xs[i]? = some x → Holds e t d x) →
      Holds e (.tuple ts) (.seq ds) v
  | named {ns : List String} {ts : List Ty} {ds : List Data} {v : Py} {xs : List Py} : Contents v xs → ds.length = xs.length →
      ts.length = xs.length →
      (∀ (i : Nat) (t : Ty) (d : Data) (x : Py), ts[i]? = some t → ds[i]? = some d → xs[i]? = some x → Holds e t d x) →
      Holds e (.named ns ts) (.seq ds) v
  | byName {ns : List String} {ts : List Ty} {ds : List Data} {v : Py} : AllNamed v ns → ds.length = ts.length →
      (∀ (i : Nat) (n : String) (t : Ty) (d : Data) (x : Py), ns[i]? = some n → ts[i]? = some t → ds[i]? = some d →
        getField v n = some x → Holds e t d x) →
      (∀ (i : Nat) (n : String) (t : Ty) (d : Data), ns[i]? = some n → ts[i]? = some t → ds[i]? = some d →
        getField v n = Option.none → dflt t = some d) →
      Holds e (.named ns ts) (.seq ds) v
  | oneOf {ts : List Ty} {k : Nat} {t : Ty} {d : Data} {v : Py} : ts[k]? = some t → Holds e t d v → Holds e (.oneOf ts) (.tag k d) v

/-- The integers of a value have 64 bits, its bytes 8, and the typed objects in it are values of their types. -/
inductive Sound (e : Env) : Py → Prop
  | none : Sound e .none
  | bool {b : Bool} : Sound e (.bool b)
  | int {n : Int} : InInt64 n → Sound e (.int n)
  | float {x : Nat} : Sound e (.float x)
  | str {s : List Nat} : Sound e (.str s)
  | bytes {b : List Nat} : (∀ n ∈ b, n < 256) → Sound e (.bytes b)
  | tuple {xs : List Py} : (∀ x ∈ xs, Sound e x) → Sound e (.tuple xs)
  | list {xs : List Py} : (∀ x ∈ xs, Sound e x) → Sound e (.list xs)
  | dict {ks vs : List Py} : (∀ x ∈ ks, Sound e x) → (∀ x ∈ vs, Sound e x) → Sound e (.dict ks vs)
  | iter {b : Bool} {xs : List Py} : (∀ x ∈ xs, Sound e x) → Sound e (.iter b xs)
  | inst {t : Ty} {d : Data} : Has e t d → Sound e (.inst t d)
  | obj {n : Nat} : Sound e (.obj n)

/-- The constants of a type equal themselves, and its named tuples have a name for each field. -/
inductive TyOk (e : Env) : Ty → Prop
  | none : TyOk e .none
  | reg {r : Reg} : TyOk e (.reg r)
  | str : TyOk e .str
  | bytes : TyOk e .bytes
  | value {c : Const} : c.ok e → TyOk e (.value c)
  | tupleOf {t : Ty} : TyOk e t → TyOk e (.tupleOf t)
  | listOf {t : Ty} : TyOk e t → TyOk e (.listOf t)
  | tuple {ts : List Ty} : (∀ t ∈ ts, TyOk e t) → TyOk e (.tuple ts)
  | named {ns : List String} {ts : List Ty} : ns.length = ts.length → (∀ t ∈ ts, TyOk e t) → TyOk e (.named ns ts)
  | oneOf {ts : List Ty} : (∀ t ∈ ts, TyOk e t) → TyOk e (.oneOf ts)

/-- What is needed of the operations on floats and bytes: a single is a single, zero is one, and `bytes` makes bytes. -/
structure Env.Lawful (e : Env) : Prop where
  narrow_narrow : ∀ x, e.narrow (e.narrow x) = e.narrow x
  narrow_single : ∀ n, e.narrow (e.single n) = e.single n
  narrow_zero : e.narrow 0 = 0
  bytes : ∀ v b, e.bytes v = some b → ∀ n ∈ b, n < 256

end Verif.Conv
