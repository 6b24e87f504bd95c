import Verif.Conv.KeepSpec
/-
What conversions in compiled code are supposed to do.
-/
namespace Verif.CConv

open Verif.Conv

/-- The types a program can declare: constants equal themselves, the fields of a NamedTuple have different names, and the alternatives
of a OneOf are not OneOfs (Python writes `OneOf(int, OneOf(str, None))` as `OneOf(int, str, None)`, see `oneOf_has_no_oneOf`). -/
inductive Good (e : Env) : Ty → Prop
  | none : Good e .none
  | reg {r : Reg} : Good e (.reg r)
  | str : Good e .str
  | bytes : Good e .bytes
  | value {c : Const} : c.ok e → Good e (.value c)
  | tupleOf {t : Ty} : Good e t → Good e (.tupleOf t)
  | listOf {t : Ty} : Good e t → Good e (.listOf t)
  | tuple {ts : List Ty} : (∀ t ∈ ts, Good e t) → Good e (.tuple ts)
  | named {ns : List String} {ts : List Ty} : ns.Nodup → ns.length = ts.length → (∀ t ∈ ts, Good e t) → Good e (.named ns ts)
  | oneOf {ts : List Ty} : (∀ t ∈ ts, Good e t) → (∀ t ∈ ts, ∀ us, t ≠ .oneOf us) → Good e (.oneOf ts)

/-- What is needed of the operations on floats, and of `int(b)`: the integers of compiled code have 64 bits. -/
structure Laws (e : Env) : Prop extends Env.Lawful e where
  long : ∀ b n, e.long (.bytes b) = some n → InInt64 n

end Verif.CConv
