import Verif.Typed.Spec
/-
What it means that something read from a stream is a value of its type, whatever the stream was, and the types for which that can be
relied on.
-/
namespace Verif.Typed

open Verif.Wire (Reg InRange)

/-- The value is a value of the type.  `heapTy` gives the types of the objects, of which there are `n`. -/
inductive IsA (env heapTy : Nat → Ty) (n : Nat) : Ty → Val → Prop
  | reg {r v} : InRange r v → IsA env heapTy n (.reg r) (.reg v)
  | unit : IsA env heapTy n .unit .unit
  | bytes {b} : (∀ x ∈ b, x < 256) → IsA env heapTy n .bytes (.bytes b)
  | str {s} : IsA env heapTy n .str (.str s)
  | tuple {ts vs} : vs.length = ts.length → (∀ (i : Nat) t v, ts[i]? = some t → vs[i]? = some v → IsA env heapTy n t v) →
      IsA env heapTy n (.tuple ts) (.seq vs)
  | oneOf {ts t v} {i : Nat} : ts[i]? = some t → IsA env heapTy n t v → IsA env heapTy n (.oneOf ts) (.tag i v)
  | alt {ts t v} {i : Nat} : ts[i]? = some t → IsA env heapTy n t v → IsA env heapTy n (.alt ts) (.tag i v)
  | tupleOf {t vs} : (∀ v ∈ vs, IsA env heapTy n t v) → IsA env heapTy n (.tupleOf t) (.seq vs)
  | constDict {k w vs} : vs.length % 2 = 0 → (∀ (i : Nat) v, vs[i]? = some v → IsA env heapTy n (if i % 2 = 0 then k else w) v) →
      IsA env heapTy n (.constDict k w) (.seq vs)
  | ref {t a} : (eltAt t).isSome = true → a < n → heapTy a = t → IsA env heapTy n t (.ref a)
  | named {m v} : IsA env heapTy n (env m) v → IsA env heapTy n (.named m) v

/-- Every object contains what its type says. -/
structure ObjectsOk (env heapTy : Nat → Ty) (heap : List (List Val)) : Prop where
  elts : ∀ (a : Nat) (vs : List Val) (e : Nat → Ty), heap[a]? = some vs → eltAt (heapTy a) = some e →
    ∀ (i : Nat) (v : Val), vs[i]? = some v → IsA env heapTy heap.length (e i) v
  pairs : ∀ (a : Nat) (vs : List Val) (k w : Ty), heap[a]? = some vs → heapTy a = .dict k w → vs.length % 2 = 0

/-- The machine types that exist. -/
def realReg : Reg → Bool
  | .bool => true
  | .uint n | .int n => 1 ≤ n && n ≤ 8
  | .float n => n = 4 || n = 8

mutual
/-- Plain data of which any bytes are a value: numbers and tuples of numbers. -/
def anyBytes : Ty → Bool
  | .reg r => r ≠ .bool
  | .unit => true
  | .tuple ts => anyBytesAll ts
  | _ => false
/-- `anyBytes` of all of them. -/
def anyBytesAll : List Ty → Bool
  | [] => true
  | t :: ts => anyBytes t && anyBytesAll ts
end

/-- The types of `Q` and all they are made of are: made of existing machine types, without a container of plain data with booleans,
choices or alternatives in it, with at most 256 choices or cases, and with no mutable container but `R`. -/
structure Sturdy (env : Nat → Ty) (R : Ty) (Q : Ty → Prop) : Prop where
  reg : ∀ {r}, Q (.reg r) → realReg r = true
  tuple : ∀ {ts}, Q (.tuple ts) → ∀ t ∈ ts, Q t
  oneOf : ∀ {ts}, Q (.oneOf ts) → ts.length ≤ 256 ∧ ∀ t ∈ ts, Q t
  alt : ∀ {ts}, Q (.alt ts) → ts.length ≤ 256 ∧ ∀ t ∈ ts, Q t
  tupleOf : ∀ {t}, Q (.tupleOf t) → Q t ∧ (podSize t = none ∨ anyBytes t = true)
  listOf : ∀ {t}, Q (.listOf t) → Q t ∧ (podSize t = none ∨ anyBytes t = true) ∧ R = .listOf t
  constDict : ∀ {k w}, Q (.constDict k w) → Q k ∧ Q w
  dict : ∀ {k w}, Q (.dict k w) → Q k ∧ Q w ∧ R = .dict k w
  set : ∀ {k}, Q (.set k) → Q k ∧ R = .set k
  named : ∀ {m}, Q (.named m) → Q (env m)

/-- No ten bytes in a row have their high bit set: no number in the stream is longer than a 64-bit number can be. -/
def ShortNumbers (bytes : List Nat) : Prop :=
  ∀ before run after, bytes = before ++ run ++ after → run.length = 10 → ∃ b ∈ run, b < 128

/-- The types of `C` and all they are made of are without text, dictionaries and sets, without containers of 64-bit integers and of values
that have no size, and no name stands for a name. -/
structure Calm (env : Nat → Ty) (C : Ty → Prop) : Prop where
  str : ¬ C .str
  ints : ¬ C (.tupleOf (.reg (.int 8))) ∧ ¬ C (.listOf (.reg (.int 8)))
  tuple : ∀ {ts}, C (.tuple ts) → ∀ t ∈ ts, C t
  oneOf : ∀ {ts}, C (.oneOf ts) → ∀ t ∈ ts, C t
  alt : ∀ {ts}, C (.alt ts) → ∀ t ∈ ts, C t
  tupleOf : ∀ {t}, C (.tupleOf t) → C t ∧ podSize t ≠ some 0
  listOf : ∀ {t}, C (.listOf t) → C t ∧ podSize t ≠ some 0
  constDict : ∀ {k w}, ¬ C (.constDict k w)
  dict : ∀ {k w}, ¬ C (.dict k w)
  set : ∀ {k}, ¬ C (.set k)
  named : ∀ {m}, C (.named m) → C (env m) ∧ ∀ n, env m ≠ .named n

end Verif.Typed
