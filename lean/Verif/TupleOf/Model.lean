import Verif.TupleOf.Spec
import Mathlib.Data.Int.Init
/-
Comparison and hashing of TupleOf and ListOf: /repo/typed_python/TupleOrListOfType.cpp, PyTupleOrListOfInstance.cpp and the compiled
functions of compiler/type_wrappers/tuple_of_wrapper.py.

Simplifications: the element type has a total order and comparisons of elements do not raise; `int32_t` counts are not exceeded.
-/
namespace Verif.TupleOf
open Spec

variable {α : Type} [LinearOrder α]

/-- TupleOrListOfType.hpp:24-31 `layout`: where it is, the cached hash and the elements. -/
structure Layout (α : Type) where
  addr : Nat
  cache : Int
  elts : List α

/-- An instance is a pointer to a layout; null is the empty tuple. -/
abbrev Obj (α : Type) := Option (Layout α)

/-- The elements of an instance. -/
def Obj.elements : Obj α → List α
  | none => []
  | some l => l.elts

/-- util.hpp:215-226 `cmpResultToBoolForPyOrdering`. -/
def opResult : Op → Int → Bool
  | .eq, r => r = 0
  | .ne, r => r ≠ 0
  | .lt, r => r < 0
  | .gt, r => r > 0
  | .le, r => r ≤ 0
  | .ge, r => r ≥ 0

/-- TupleOrListOfType.cpp:127-134: the loop of `==`. -/
def eqLoop : List α → List α → Bool
  | a :: as, b :: bs => if a ≠ b then false else eqLoop as bs
  | _, _ => true

/-- TupleOrListOfType.cpp:137-156: the loop of the ordering comparisons and the lengths. -/
def ordLoop (op : Op) (nl nr : Nat) : List α → List α → Bool
  | a :: as, b :: bs => if a ≠ b then opResult op (if a < b then -1 else 1) else ordLoop op nl nr as bs
  | _, _ => if nl < nr then opResult op (-1) else if nl > nr then opResult op 1 else opResult op 0

/-- TupleOrListOfType.cpp:95-157 `cmp`; 116-118 calls itself with `Py_EQ`. -/
def cmp (op : Op) (left right : Obj α) : Bool :=
  match left, right with
  | none, none => opResult op 0
  | none, some r => if r.elts.length = 0 then opResult op 0 else opResult op (-1)
  | some l, none => if l.elts.length = 0 then opResult op 0 else opResult op 1
  | some l, some r =>
    if l.elts.length = 0 ∧ r.elts.length = 0 then opResult op 0
    else if l.elts.length = 0 then opResult op (-1)
    else if r.elts.length = 0 then opResult op 1
    else if l.addr = r.addr then opResult op 0
    else if op = .ne then !(if l.elts.length ≠ r.elts.length then false else eqLoop l.elts r.elts)
    else if op = .eq then if l.elts.length ≠ r.elts.length then false else eqLoop l.elts r.elts
    else ordLoop op l.elts.length r.elts.length l.elts r.elts

/-- PyTupleOrListOfInstance.cpp:1263-1309 (and 1201-1247 for lists), `compare_to_python_concrete` with a Python tuple (list): the
loop over the other's items.  `rest` are our elements from `indexInOwn` on. -/
def pyLoop (op : Op) : List α → List α → Int
  | [], [] => 0
  | _ :: _, [] => 1
  | [], _ :: _ => -1
  | a :: rest, b :: other =>
    if a = b then pyLoop op rest other
    else if op = .eq ∨ op = .ne then 1
    else if a < b then -1
    else 1

def compareToPython (op : Op) (self : Obj α) (other : List α) : Bool := opResult op (pyLoop op self.elements other)

/-! ### compiled -/

/-- tuple_of_wrapper.py:52-61 `tuple_compare_eq`. -/
def cEq (l r : List α) : Bool := if l.length ≠ r.length then false else eqLoop l r

/-- tuple_of_wrapper.py:66-70 and 77-81: the loop of `tuple_compare_lt` and `tuple_compare_lte`; `none` when it runs out. -/
def cOrdLoop : List α → List α → Option Bool
  | a :: as, b :: bs => if a > b then some false else if a < b then some true else cOrdLoop as bs
  | _, _ => none

/-- tuple_of_wrapper.py:64-72 `tuple_compare_lt`. -/
def cLt (l r : List α) : Bool :=
  match cOrdLoop l r with
  | some b => b
  | none => l.length < r.length

/-- tuple_of_wrapper.py:75-83 `tuple_compare_lte`. -/
def cLe (l r : List α) : Bool :=
  match cOrdLoop l r with
  | some b => b
  | none => l.length ≤ r.length

/-- tuple_of_wrapper.py:52-95 and 369-381: the compiled comparisons. -/
def cCmp : Op → List α → List α → Bool
  | .eq, l, r => cEq l r
  | .ne, l, r => !cEq l r
  | .lt, l, r => cLt l r
  | .le, l, r => cLe l r
  | .gt, l, r => !cLe l r
  | .ge, l, r => !cLt l r

/-! ### hashing -/

/-- Wrap to `int32_t`. -/
def int32 (x : Int) : Int := Int.bmod x (2 ^ 32)

/-- `^` on `int32_t`. -/
def xor32 (a b : Int) : Int := int32 (((a % 2 ^ 32).toNat ^^^ (b % 2 ^ 32).toNat : Nat) : Int)

/-- HashAccumulator.hpp:30-32 `add`. -/
def hashAdd (state i : Int) : Int := xor32 (int32 (state * 1000003)) i

/-- TupleOrListOfType.cpp:78-89: what is put in the cache. -/
def hashCompute {α : Type} (h : α → Int) (elts : List α) : Int :=
  let acc := elts.foldl (fun st x => hashAdd st (h x)) 0
  if acc = -1 then -2 else acc

/-- TupleOrListOfType.cpp:72-93 `hash`: the answer and the instance with its cache. -/
def hash {α : Type} (h : α → Int) : Obj α → Int × Obj α
  | none => (0x123, none)
  | some l =>
    if l.cache = -1 then (hashCompute h l.elts, some { l with cache := hashCompute h l.elts })
    else (l.cache, some l)

/-- tuple_of_wrapper.py:98-110 `tuple_of_hash`; `none`: `_hash_cache` is loaded through the null pointer (449-453). -/
def cHash {α : Type} (h : α → Int) : Obj α → Option (Int × Obj α)
  | none => none
  | some l =>
    if l.cache ≠ -1 then some (l.cache, some l)
    else some (hashCompute h l.elts, some { l with cache := hashCompute h l.elts })

/-- ListOf has the same hash function, and `append` (TupleOrListOfType.cpp:308-335) leaves the cache as it is. -/
def appendKeepsCache {α : Type} (l : Layout α) (v : α) : Layout α := { l with elts := l.elts ++ [v] }

/-! ### how instances come about -/

/-- Ways to make an instance: TupleOrListOfType.hpp:203-234 `constructor` (a TupleOf without elements is null, 207-210),
TupleOrListOfType.hpp:237-276 `constructorUnbounded` (the same, 252-257), tuple_of_wrapper.py:113-157 `PreReservedTupleOrList` (the
same, 138-142), and tuple_of_wrapper.py:726-753: a compiled comprehension or generator, built as a list and relabelled. -/
inductive Made {α : Type} : Obj α → Prop
  | interpreter (addr : Nat) (vs : List α) : Made (if vs.length = 0 then none else some ⟨addr, -1, vs⟩)
  | comprehension (addr : Nat) (vs : List α) : Made (some ⟨addr, -1, vs⟩)

end Verif.TupleOf
