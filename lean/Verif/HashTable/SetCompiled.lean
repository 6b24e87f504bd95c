import Verif.HashTable.Compiled
import Verif.HashTable.SetModel

/-!
# `Set(T)` in compiled code

Model of `compiler/type_wrappers/set_wrapper.py` (cited without a file name) and of the functions for sets of
`hash_table_implementation.py`, which compiled code runs in place of `PySetInstance.cpp`.  As in `SetModel`, set objects
are named by numbers.  Conversion of arguments to the element type is not modelled, nor are iterables that look at the
set while it is being changed.
-/

namespace Verif.HashTable

variable {K : Type} (ko : KeyOps K) (nh : NHash K)

/-- `set_table_contains`, `hash_table_implementation.py:287-292`. -/
def hasC (t : SetT K) (k : K) : Except Err Bool := (lookupSlotC ko nh t k).map Option.isSome

/-- `set_add`, `hash_table_implementation.py:295-303`. -/
def addC (t : SetT K) (k : K) : Except Err (SetT K) :=
  (hasC ko nh t k).bind fun b => if b then .ok t else insertKeyC nh t k ()

/-- `set_discard`, and `set_remove` before it raises, `hash_table_implementation.py:319-328`. -/
def discardC (t : SetT K) (k : K) : Except Err (SetT K) := (deleteKeyC ko nh t k).map (·.1)

/-- `set_add_or_remove`, `hash_table_implementation.py:306-316`. -/
def toggleC (t : SetT K) (k : K) : Except Err (SetT K) :=
  (hasC ko nh t k).bind fun b => if b then discardC ko nh t k else insertKeyC nh t k ()

/-- `set_pop`, `hash_table_implementation.py:331-341`: the first populated slot. -/
def popC (t : SetT K) : Except Err (SetT K × Option K) :=
  match elems t with
  | [] => .ok (t, none)
  | k :: _ => (discardC ko nh t k).map fun t => (t, some k)

/-- `copy`, lines 537-546: `copyTable`, `hash_table_layout.hpp:270-305`, copies the arrays as they are. -/
def copyT (t : SetT K) : SetT K := if t.items.length = 0 then {} else t

/-! ### Loops -/

/-- A `for` loop over something that is not touched by its body. -/
def eachK {σ : Type} (f : σ → K → Except Err σ) : σ → List K → Except Err σ
  | s, [] => .ok s
  | s, k :: ks => (f s k).bind fun s => eachK f s ks

/-- `table_next_slot`, `hash_table_implementation.py:153-161`, on the slots that follow. -/
def scan : List (Option (K × Unit)) → Nat → Option (Nat × K)
  | [], _ => none
  | some e :: _, s => some (s, e.1)
  | none :: l, s => scan l (s + 1)

/-- A `for` loop over a set object that its body may change: `SetIterator.__fastnext__`, lines 852-861, with
`checkSetSizeAndThrowIfChanged`, lines 37-39.  `cur` finds the set in the state, `s` is the slot after the last one
visited, and the result says whether the loop came to its end without raising. -/
def forSet {σ : Type} (cur : σ → SetT K) (count : Nat) (body : σ → K → Except Err σ) :
    Nat → Nat → σ → Except Err (σ × Bool)
  | 0, _, _ => .error .fuel
  | f + 1, s, st =>
    if (cur st).count ≠ count then .ok (st, false)
    else match scan ((cur st).items.drop s) s with
      | none => .ok (st, true)
      | some (s', x) => (body st x).bind fun st => forSet cur count body f (s' + 1) st

/-- A `for` loop over a set object from the start. -/
def overSet {σ : Type} (cur : σ → SetT K) (body : σ → K → Except Err σ) (st : σ) : Except Err (σ × Bool) :=
  forSet cur (cur st).count body ((cur st).items.length + 1) 0 st

/-- `for x in a`, where the body changes the set object `i`, which `left` finds in the state. -/
def forArg {σ : Type} (h : Heap K) (i : Nat) (left : σ → SetT K) (body : σ → K → Except Err σ) (st : σ) :
    Arg K → Except Err (σ × Bool)
  | .set j => overSet (fun st => if j = i then left st else h j) body st
  | .iter l => (eachK body st l).map fun st => (st, true)

/-- One argument after another, up to the first exception. -/
def forArgs (one : SetT K → Arg K → Except Err (SetT K × Bool)) : SetT K → List (Arg K) → Except Err (SetT K × Bool)
  | t, [] => .ok (t, true)
  | t, a :: as => (one t a).bind fun r => if r.2 then forArgs one r.1 as else .ok r

/-! ### Operators -/

/-- `set_union`, lines 112-121. -/
def unionC (l r : SetT K) : Except Err (SetT K) :=
  if l.count ≥ r.count then eachK (addC ko nh) (copyT l) (elems r) else eachK (addC ko nh) (copyT r) (elems l)

/-- `if i not in s: result.discard(i)`. -/
def keepIf (s : SetT K) (t : SetT K) (k : K) : Except Err (SetT K) :=
  (hasC ko nh s k).bind fun b => if b then .ok t else discardC ko nh t k

/-- `if i not in s: result.add(i)`. -/
def addUnless (s : K → Except Err Bool) (t : SetT K) (k : K) : Except Err (SetT K) :=
  (s k).bind fun b => if b then .ok t else addC ko nh t k

/-- `set_intersection`, lines 124-135. -/
def interC (l r : SetT K) : Except Err (SetT K) :=
  if l.count > r.count then eachK (keepIf ko nh l) (copyT r) (elems r) else eachK (keepIf ko nh r) (copyT l) (elems l)

/-- `set_difference`, lines 138-148. -/
def diffC (l r : SetT K) : Except Err (SetT K) :=
  if l.count > 4 * r.count then eachK (discardC ko nh) (copyT l) (elems r)
  else eachK (addUnless ko nh (hasC ko nh r)) {} (elems l)

/-- The last branch of `set_symmetric_difference`, lines 161-167; `right` yields `ks` and answers `in` by `inR`. -/
def symDiffLast (l : SetT K) (ks : List K) (inR : K → Except Err Bool) : Except Err (SetT K) :=
  (eachK (addUnless ko nh inR) {} (elems l)).bind fun t => eachK (addUnless ko nh (hasC ko nh l)) t ks

/-- `set_symmetric_difference` of two sets, lines 151-168. -/
def symDiffC (l r : SetT K) : Except Err (SetT K) :=
  if l.count > 2 * r.count then eachK (toggleC ko nh) (copyT l) (elems r)
  else if r.count > 2 * l.count then eachK (toggleC ko nh) (copyT r) (elems l)
  else symDiffLast ko nh l (elems r) (hasC ko nh r)

/-- `set_symmetric_difference` with a list, lines 151-168; the copy of a list made on line 157 has no place for
`set_add_or_remove`. -/
def symDiffIterC (l : SetT K) (r : List K) : Except Err (Except Err (SetT K)) :=
  if l.count > 2 * r.length then (eachK (toggleC ko nh) (copyT l) r).map .ok
  else if r.length > 2 * l.count then .ok (.error .typeError)
  else (symDiffLast ko nh l r (fun k => .ok (r.any fun y => ko.eq y k))).map .ok

/-- `set_union_multiple`, `set_intersection_multiple`, `set_difference_multiple`, lines 184-188, 197-201, 221-225: the
result is object `i` itself, or a new set.  The operators take a set of the same type only: `convert_bin_op`, lines
652-675, and `Wrapper.convert_bin_op_reverse`, `wrapper.py:685-711`. -/
def multipleC (op : SetT K → SetT K → Except Err (SetT K)) (h : Heap K) :
    Sum Nat (SetT K) → List (Arg K) → Except Err (Except Err (Sum Nat (SetT K)))
  | r, [] => .ok (.ok r)
  | r, .set j :: as => (op (r.elim h id) (h j)).bind fun t => multipleC op h (.inr t) as
  | _, .iter _ :: _ => .ok (.error .typeError)

/-! ### Updates -/

/-- `set_update`, lines 191-194. -/
def updateC (h : Heap K) (i : Nat) (t : SetT K) (a : Arg K) : Except Err (SetT K × Bool) :=
  forArg h i id (addC ko nh) t a

/-- `set_intersection_update`, lines 212-218. -/
def interUpdateC (h : Heap K) (i : Nat) (t : SetT K) (a : Arg K) : Except Err (SetT K × Bool) :=
  forArg h i id (fun left k => (hasC ko nh (copyT t) k).bind fun b => if b then addC ko nh left k else .ok left) (clearC t) a

/-- `set_difference_update`, lines 228-231. -/
def diffUpdateC (h : Heap K) (i : Nat) (t : SetT K) (a : Arg K) : Except Err (SetT K × Bool) :=
  forArg h i id (discardC ko nh) t a

/-- The body of the loop of `set_symmetric_difference_update`, lines 175-179: the set, `to_remove` and `to_add`. -/
def symDiffBody (st : SetT K × SetT K × SetT K) (k : K) : Except Err (SetT K × SetT K × SetT K) :=
  (hasC ko nh st.1 k).bind fun b =>
    if b then (addC ko nh st.2.1 k).map fun rm => (st.1, rm, st.2.2)
    else (addC ko nh st.2.2 k).bind fun ad => (addC ko nh st.1 k).map fun left => (left, st.2.1, ad)

/-- `set_symmetric_difference_update`, lines 171-181. -/
def symDiffUpdateC (h : Heap K) (i : Nat) (t : SetT K) (a : Arg K) : Except Err (SetT K × Bool) :=
  (forArg h i (·.1) (symDiffBody ko nh) (t, {}, {}) a).bind fun r =>
    if r.2 then
      (eachK (discardC ko nh) r.1.1 (elems r.1.2.1)).bind fun left =>
        (eachK (addC ko nh) left (elems r.1.2.2)).map fun left => (left, true)
    else .ok (r.1.1, false)

/-! ### Tests -/

/-- `set_subset` with the arguments swapped, lines 242-246, and `set_superset`, lines 262-266. -/
def allIn (t : SetT K) : List K → Except Err Bool
  | [] => .ok true
  | k :: ks => (hasC ko nh t k).bind fun b => if b then allIn t ks else .ok false

/-- `set_disjoint`, lines 234-238. -/
def disjointC (t : SetT K) : List K → Except Err Bool
  | [] => .ok true
  | k :: ks => (hasC ko nh t k).bind fun b => if b then .ok false else disjointC t ks

/-- The loop of `set_subset_iterable`, lines 253-259. -/
def shadowLoop (self : SetT K) : SetT K → List K → Except Err Bool
  | _, [] => .ok false
  | shadow, k :: ks => (hasC ko nh self k).bind fun b =>
      if b then (addC ko nh shadow k).bind fun shadow =>
        if shadow.count = self.count then .ok true else shadowLoop self shadow ks
      else shadowLoop self shadow ks

/-- `issubset`, lines 560-566 with `set_subset_iterable`, lines 250-259. -/
def subsetC (h : Heap K) (l : SetT K) : Arg K → Except Err Bool
  | .set j => allIn ko nh (h j) (elems l)
  | .iter ks => if l.count = 0 then .ok true else shadowLoop ko nh l {} ks

/-- The comparisons, lines 662-673 with lines 269-281. -/
def cmpC (l r : SetT K) : Rel → Except Err Bool
  | .eq => if l.count = r.count then allIn ko nh r (elems l) else .ok false
  | .ne => if l.count ≠ r.count then .ok true else (allIn ko nh l (elems r)).map (!·)
  | .lt => (allIn ko nh r (elems l)).map (· && decide (l.count < r.count))
  | .le => allIn ko nh r (elems l)
  | .gt => (allIn ko nh l (elems r)).map (· && decide (r.count < l.count))
  | .ge => allIn ko nh l (elems r)

/-! ### Calls -/

/-- A method that returns nothing has changed object `i`, and may have raised. -/
def putC (h : Heap K) (i : Nat) (r : Except Err (SetT K × Bool)) : Except Err (Heap K × Except Err (SRes K)) :=
  r.map fun r => (fun j => if j = i then r.1 else h j, if r.2 then .ok .unit else .error .runtimeError)

/-- Store the result of a functional method.  Where the result is an existing object, this stores its present value:
what follows from having two names for one object is the subject of `union_of_nothing_is_the_set_itself`. -/
def putNew (h : Heap K) (d : Nat) (r : Except Err (Except Err (Sum Nat (SetT K)))) :
    Except Err (Heap K × Except Err (SRes K)) :=
  r.map fun r => match r with
    | .ok v => (fun j => if j = d then v.elim h id else h j, .ok .unit)
    | .error e => (h, .error e)

/-- One method call made by compiled code: `convert_method_call`, lines 473-634, and the operators, lines 652-689. -/
def stepSC (h : Heap K) : SOp K → Except Err (Heap K × Except Err (SRes K))
  | .add i k => put h i (addC ko nh (h i) k)
  | .discard i k => put h i (discardC ko nh (h i) k)
  | .remove i k => (deleteKeyC ko nh (h i) k).map fun r =>
      (fun j => if j = i then r.1 else h j, if r.2 then .ok .unit else .error .keyError)
  | .pop i => (popC ko nh (h i)).map fun r =>
      (fun j => if j = i then r.1 else h j, match r.2 with | some k => .ok (.key k) | none => .error .keyError)
  | .clear i => put h i (.ok (clearC (h i)))
  | .contains i k => ans h (hasC ko nh (h i) k)
  | .len i => .ok (h, .ok (.int (h i).count))
  | .items i => .ok (h, .ok (.keys (elems (h i))))
  | .copy d i => put h d (.ok (copyT (h i)))
  -- `initialize_set_from_other_*`, lines 42-109, `set_duplicate`, lines 284-288
  | .make d l => put h d (eachK (addC ko nh) {} l)
  | .union d i args => putNew h d (multipleC (unionC ko nh) h (.inl i) args)
  | .update i args => putC h i (forArgs (updateC ko nh h i) (h i) args)
  | .inter d i args => putNew h d (multipleC (interC ko nh) h (.inl i) args)
  | .interUpdate i args => putC h i (forArgs (interUpdateC ko nh h i) (h i) args)
  | .diff d i args => putNew h d (multipleC (diffC ko nh) h (.inl i) args)
  | .diffUpdate i args => putC h i (forArgs (diffUpdateC ko nh h i) (h i) args)
  | .symDiff d i (.set j) => put h d (symDiffC ko nh (h i) (h j))
  | .symDiff d i (.iter l) => putNew h d ((symDiffIterC ko nh (h i) l).map (·.map .inr))
  | .symDiffUpdate i a => putC h i (symDiffUpdateC ko nh h i (h i) a)
  | .issubset i a => ans h (subsetC ko nh h (h i) a)
  | .issuperset i a => ans h (allIn ko nh (h i) (a.items h))
  | .isdisjoint i a => ans h (disjointC ko nh (h i) (a.items h))
  | .cmp rel i j => ans h (cmpC ko nh (h i) (h j) rel)

/-- A program, each call marked with whether compiled code makes it. -/
def runSM (h : Heap K) : List (Bool × SOp K) → Except Err (Heap K × List (Except Err (SRes K)))
  | [] => .ok (h, [])
  | (c, op) :: ops => (if c then stepSC ko nh h op else stepS ko h op).bind fun r =>
      (runSM r.1 ops).map fun r' => (r'.1, r.2 :: r'.2)

end Verif.HashTable
