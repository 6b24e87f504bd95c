import Verif.HashTable.Model

/-!
# Model of `Set(T)`

`SetType.cpp`, `PySetInstance.cpp`.  A set is the hash table with nothing but keys.  Set objects are named by numbers
(`Heap`), so that aliasing (`s.update(s)`) can be expressed.  Arguments of the methods are set objects of the same type
or any other iterable, given by the list of what it yields.  Conversion of elements to `T` is not modelled, nor are
iterables that look at the set while it is being changed.
-/

namespace Verif.HashTable

abbrev SetT (K : Type) := Tbl K Unit

variable {K : Type} (ko : KeyOps K)

/-- The elements in slot order: `getDataFromNative`, `PySetInstance.cpp:18-25`, and the iterator, lines 1083-1110. -/
def elems (t : SetT K) : List K := (iterate t).map (·.1)

/-- `SetType::lookupKey` as a test, `SetType.cpp:52-61`. -/
def has (t : SetT K) (k : K) : Except Err Bool := (lookupSlot ko t k).map Option.isSome

/-- `PySetInstance::insertKey`, `PySetInstance.cpp:1112-1117`. -/
def addElt (t : SetT K) (k : K) : Except Err (SetT K) :=
  (has ko t k).bind fun b => if b then .ok t else insertKey ko t k ()

/-- `SetType::discard`, `SetType.cpp:20-31`. -/
def discard (t : SetT K) (k : K) : Except Err (SetT K × Bool) := deleteKey ko t k

/-- Loops that insert those of the keys that satisfy a test. -/
def insertIf (p : K → Except Err Bool) : SetT K → List K → Except Err (SetT K)
  | t, [] => .ok t
  | t, k :: ks => (p k).bind fun b => (if b then addElt ko t k else .ok t).bind fun t => insertIf p t ks

/-- `copy_elements`, lines 156-182. -/
def copyElements (dst : SetT K) (ks : List K) : Except Err (SetT K) := insertIf ko (fun _ => .ok true) dst ks

/-- `set_intersection`, lines 213-264: iterates over `other`. -/
def intersection (self : SetT K) (other : List K) : Except Err (SetT K) := insertIf ko (has ko self) {} other

/-- The loop of the fast path of `set_intersection_update`, lines 280-285 with `SetType.hpp:78-88`: visits the slots
below `items_reserved`, which is read again before every step, and discards from the set being visited.  `discard` is
given a pointer into that set; here it gets the key that was there, also after the storage has been moved. -/
def retainLoop (other : SetT K) : Nat → Nat → SetT K → Except Err (SetT K)
  | 0, _, _ => .error .fuel
  | f + 1, k, t =>
    if k < t.items.length then
      match t.items[k]? with
      | some (some (x, _)) =>
        (has ko other x).bind fun b =>
          if b then retainLoop other f (k + 1) t
          else (discard ko t x).bind fun r => retainLoop other f (k + 1) r.1
      | _ => retainLoop other f (k + 1) t
    else .ok t

/-- `set_intersection_update` with another `Set(T)`, lines 277-286. -/
def intersectionUpdateFast (self other : SetT K) : Except Err (SetT K) :=
  retainLoop ko other (self.items.length + 4 * self.count + 9) 0 self

/-- `set_intersection_update` with another iterable, lines 290-303. -/
def intersectionUpdateSlow (self : SetT K) (other : List K) : Except Err (SetT K) :=
  (copyElements ko {} (elems self)).bind fun copy => insertIf ko (has ko copy) (clear self) other

/-- The loop of `set_difference_update`, lines 367-373. -/
def discardAll : SetT K → List K → Except Err (SetT K)
  | t, [] => .ok t
  | t, k :: ks => (discard ko t k).bind fun r => discardAll r.1 ks

/-- The test `!lookupKey`. -/
def hasNot (t : SetT K) (k : K) : Except Err Bool := (has ko t k).map (!·)

/-- `set_difference` with another `Set(T)`, lines 320-337. -/
def differenceSet (self other : SetT K) : Except Err (SetT K) := insertIf ko (hasNot ko other) {} (elems self)

/-- `set_difference` with another iterable, lines 345-354. -/
def differenceIter (self : SetT K) (other : List K) : Except Err (SetT K) :=
  (copyElements ko {} (elems self)).bind fun copy => discardAll ko copy other

/-- `set_symmetric_difference` with another `Set(T)`, lines 473-498. -/
def symDiffSet (self other : SetT K) : Except Err (SetT K) :=
  (insertIf ko (hasNot ko other) {} (elems self)).bind fun t => insertIf ko (hasNot ko self) t (elems other)

/-- `set_symmetric_difference_update` of distinct objects, lines 528-552: `to_be_removed` and `to_be_added`. -/
def symDiffUpdate (self : SetT K) (other : List K) : Except Err (SetT K) :=
  (insertIf ko (has ko self) {} other).bind fun removed =>
  (insertIf ko (hasNot ko self) {} other).bind fun added =>
  (discardAll ko self (elems removed)).bind fun t => copyElements ko t (elems added)

/-- `set_symmetric_difference` with another iterable, lines 505-516. -/
def symDiffIter (self : SetT K) (other : List K) : Except Err (SetT K) :=
  (copyElements ko {} (elems self)).bind fun copy => symDiffUpdate ko copy other

/-- The loop of `set_is_subset`, lines 401-414. -/
def subsetLoop (self : SetT K) : SetT K → List K → Except Err Bool
  | _, [] => .ok false
  | shadow, k :: ks => (has ko self k).bind fun b =>
      if b then (addElt ko shadow k).bind fun shadow =>
        if shadow.count = self.count then .ok true else subsetLoop self shadow ks
      else subsetLoop self shadow ks

/-- `set_is_subset` of distinct objects, lines 386-422. -/
def isSubset (self : SetT K) (other : List K) : Except Err Bool :=
  if self.count = 0 then .ok true else subsetLoop ko self {} other

/-- `set_is_superset` of distinct objects, lines 425-444. -/
def isSuperset (self : SetT K) : List K → Except Err Bool
  | [] => .ok true
  | k :: ks => (has ko self k).bind fun b => if b then isSuperset self ks else .ok false

/-- `set_is_disjoint` of distinct objects, lines 447-466. -/
def isDisjoint (self : SetT K) : List K → Except Err Bool
  | [] => .ok true
  | k :: ks => (has ko self k).bind fun b => if b then .ok false else isDisjoint self ks

/-- `setPop`, lines 997-1032: the first populated slot. -/
def pop (t : SetT K) : Except Err (SetT K × Option K) :=
  match elems t with
  | [] => .ok (t, none)
  | k :: _ => (discard ko t k).bind fun r => if r.2 then .ok (r.1, some k) else .error .badItem

/-- `SetType::subset`, `SetType.cpp:126-138`. -/
def subsetTest (l r : SetT K) : Except Err Bool := isSuperset ko r (elems l)

inductive Rel
  | eq | ne | le | lt | ge | gt
deriving DecidableEq

/-- `SetType::cmp`, `SetType.cpp:140-176`. -/
def cmpSets (same : Bool) (rel : Rel) (l r : SetT K) : Except Err Bool :=
  if same then .ok (match rel with | .eq | .le | .ge => true | _ => false)
  else match rel with
    | .eq => if l.count ≠ r.count then .ok false else subsetTest ko l r
    | .ne => if l.count ≠ r.count then .ok true else (subsetTest ko l r).map (!·)
    | .le => if l.count > r.count then .ok false else subsetTest ko l r
    | .lt => if l.count ≥ r.count then .ok false else subsetTest ko l r
    | .ge => if r.count > l.count then .ok false else subsetTest ko r l
    | .gt => if r.count ≥ l.count then .ok false else subsetTest ko r l

/-- `PySetInstance::subset`, `PySetInstance.cpp:1310-1319`: the visitor returns `found <= 0`, so the visit goes on after
a missing element and stops at the first one found.  `right` is a Python `set`, given by its elements. -/
def subsetPyLoop (right : List K) : Bool → List K → Bool
  | found, [] => found
  | _, k :: ks => if right.any (ko.eq k) then true else subsetPyLoop right false ks

def subsetPy (l : SetT K) (right : List K) : Bool := subsetPyLoop ko right true (elems l)

/-- The loop of `PySetInstance::superset`, lines 1329-1339. -/
def supersetPyLoop (right : List K) : Nat → List K → Nat
  | n, [] => n
  | n, k :: ks =>
    if right.any (ko.eq k) then (if n + 1 ≥ right.length then n + 1 else supersetPyLoop right (n + 1) ks)
    else supersetPyLoop right n ks

/-- `PySetInstance::superset`, lines 1321-1341. -/
def supersetPy (l : SetT K) (right : List K) : Bool :=
  if right.length = 0 then true else decide (supersetPyLoop ko right 0 (elems l) ≥ right.length)

/-- `compare_to_python_concrete` with a Python `set`, lines 1343-1395. -/
def cmpPy (rel : Rel) (l : SetT K) (right : List K) : Bool :=
  match rel with
  | .eq => if l.count ≠ right.length then false else subsetPy ko l right
  | .ne => if l.count ≠ right.length then true else !subsetPy ko l right
  | .le => if l.count > right.length then false else subsetPy ko l right
  | .lt => if l.count ≥ right.length then false else subsetPy ko l right
  | .ge => if l.count < right.length then false else supersetPy ko l right
  | .gt => if l.count ≤ right.length then false else supersetPy ko l right

/-! ### A program that works with several set objects -/

abbrev Heap (K : Type) := Nat → SetT K

/-- An argument of a set method. -/
inductive Arg (K : Type)
  | set (j : Nat)
  | iter (l : List K)

/-- What iterating over an argument yields. -/
def Arg.items (h : Heap K) : Arg K → List K
  | .set j => elems (h j)
  | .iter l => l

inductive SOp (K : Type)
  | add (i : Nat) (k : K) | discard (i : Nat) (k : K) | remove (i : Nat) (k : K) | pop (i : Nat) | clear (i : Nat)
  | contains (i : Nat) (k : K) | len (i : Nat) | items (i : Nat)
  | copy (d i : Nat) | make (d : Nat) (l : List K)
  | union (d i : Nat) (args : List (Arg K)) | update (i : Nat) (args : List (Arg K))
  | inter (d i : Nat) (args : List (Arg K)) | interUpdate (i : Nat) (args : List (Arg K))
  | diff (d i : Nat) (args : List (Arg K)) | diffUpdate (i : Nat) (args : List (Arg K))
  | symDiff (d i : Nat) (a : Arg K) | symDiffUpdate (i : Nat) (a : Arg K)
  | issubset (i : Nat) (a : Arg K) | issuperset (i : Nat) (a : Arg K) | isdisjoint (i : Nat) (a : Arg K)
  | cmp (rel : Rel) (i j : Nat)

inductive SRes (K : Type)
  | unit | bool (b : Bool) | int (n : Nat) | key (k : K) | keys (l : List K)
deriving DecidableEq

/-- `setUnion`/`setUpdate`, lines 762-804 and 944-976. -/
def unionAll (h : Heap K) (t : SetT K) : List (Arg K) → Except Err (SetT K)
  | [] => .ok t
  | a :: as => (copyElements ko t (a.items h)).bind fun t => unionAll h t as

/-- The loop of `setIntersection`, lines 735-744. -/
def interAll (h : Heap K) (t : SetT K) : List (Arg K) → Except Err (SetT K)
  | [] => .ok t
  | a :: as => (intersection ko t (a.items h)).bind fun t => interAll h t as

/-- The loop of `setIntersectionUpdate`, lines 852-858, with `set_intersection_update`, lines 267-313. -/
def interUpdateAll (h : Heap K) (i : Nat) (t : SetT K) : List (Arg K) → Except Err (SetT K)
  | [] => .ok t
  | .set j :: as =>
    (if j = i then .ok t else intersectionUpdateFast ko t (h j)).bind fun t => interUpdateAll h i t as
  | .iter l :: as => (intersectionUpdateSlow ko t l).bind fun t => interUpdateAll h i t as

/-- `set_difference`, lines 315-357. -/
def difference (h : Heap K) (t : SetT K) : Arg K → Except Err (SetT K)
  | .set j => differenceSet ko t (h j)
  | .iter l => differenceIter ko t l

/-- The loop of `setDifference` over the remaining arguments, lines 620-626: the result is a new object. -/
def diffAll (h : Heap K) (t : SetT K) : List (Arg K) → Except Err (SetT K)
  | [] => .ok t
  | a :: as => (discardAll ko t (a.items h)).bind fun t => diffAll h t as

/-- The loop of `setDifferenceUpdate`, lines 889-895, with `set_difference_update`, lines 360-383. -/
def diffUpdateAll (h : Heap K) (i : Nat) (t : SetT K) : List (Arg K) → Except Err (SetT K)
  | [] => .ok t
  | .set j :: as => (if j = i then .ok (clear t) else discardAll ko t (elems (h j))).bind fun t => diffUpdateAll h i t as
  | .iter l :: as => (discardAll ko t l).bind fun t => diffUpdateAll h i t as

/-- Store a new or changed set. -/
def put (h : Heap K) (d : Nat) (r : Except Err (SetT K)) : Except Err (Heap K × Except Err (SRes K)) :=
  r.map fun t => (fun j => if j = d then t else h j, .ok .unit)

/-- Answer a test. -/
def ans (h : Heap K) (r : Except Err Bool) : Except Err (Heap K × Except Err (SRes K)) :=
  r.map fun b => (h, .ok (.bool b))

/-- Is the argument the object itself? -/
def Arg.is (i : Nat) : Arg K → Bool
  | .set j => decide (j = i)
  | .iter _ => false

/-- One method call. -/
def stepS (h : Heap K) : SOp K → Except Err (Heap K × Except Err (SRes K))
  | .add i k => put h i (addElt ko (h i) k)
  | .discard i k => put h i ((discard ko (h i) k).map (·.1))
  | .remove i k => (discard ko (h i) k).map fun r =>
      (fun j => if j = i then r.1 else h j, if r.2 then .ok .unit else .error .keyError)
  | .pop i => (pop ko (h i)).map fun r =>
      (fun j => if j = i then r.1 else h j, match r.2 with | some k => .ok (.key k) | none => .error .keyError)
  | .clear i => put h i (.ok (clear (h i)))
  | .contains i k => ans h (has ko (h i) k)
  | .len i => .ok (h, .ok (.int (h i).count))
  | .items i => .ok (h, .ok (.keys (elems (h i))))
  | .copy d i => put h d (copyElements ko {} (elems (h i)))
  | .make d l => put h d (copyElements ko {} l)
  | .union d i args => put h d ((copyElements ko {} (elems (h i))).bind fun t => unionAll ko h t args)
  | .update i args => put h i (unionAll ko h (h i) args)
  | .inter d i args => put h d (if args = [] then copyElements ko {} (elems (h i)) else interAll ko h (h i) args)
  | .interUpdate i args => put h i (interUpdateAll ko h i (h i) args)
  | .diff d i [] => put h d (copyElements ko {} (elems (h i)))
  | .diff d i (a :: as) => put h d ((difference ko h (h i) a).bind fun t => diffAll ko h t as)
  | .diffUpdate i args => put h i (diffUpdateAll ko h i (h i) args)
  | .symDiff d i (.set j) => put h d (symDiffSet ko (h i) (h j))
  | .symDiff d i (.iter l) => put h d (symDiffIter ko (h i) l)
  | .symDiffUpdate i a => put h i (if a.is i then .ok (clear (h i)) else symDiffUpdate ko (h i) (a.items h))
  | .issubset i a => ans h (if a.is i then .ok true else isSubset ko (h i) (a.items h))
  | .issuperset i a => ans h (if a.is i then .ok true else isSuperset ko (h i) (a.items h))
  | .isdisjoint i a => ans h (if a.is i then .ok false else isDisjoint ko (h i) (a.items h))
  | .cmp rel i j => ans h (cmpSets ko (decide (i = j)) rel (h i) (h j))

/-- A program. -/
def runS (h : Heap K) : List (SOp K) → Except Err (Heap K × List (Except Err (SRes K)))
  | [] => .ok (h, [])
  | op :: ops => (stepS ko h op).bind fun r => (runS r.1 ops).map fun r' => (r'.1, r.2 :: r'.2)

end Verif.HashTable
