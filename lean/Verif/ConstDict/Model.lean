import Mathlib.Order.Defs.LinearOrder
import Mathlib.Data.List.Nodup
/-
Model of ConstDict: /repo/typed_python/ConstDictType.cpp, ConstDictType.hpp 324-340, PyConstDictInstance.cpp, and of its
compiled twin /repo/typed_python/compiler/type_wrappers/const_dict_wrapper.py 34-366.

Simplifications: a dictionary is the list of its key/value pairs in storage order; the null pointer and a layout with
count 0 are both the empty list (every function modelled here treats them alike: `count`, `size` and `lookupIndexByKey`
give 0, 0 and -1 for both).  The unfinished "subpointers" layout is never created by the code and is left out.  Reference
counts and memory are not modelled.  The key and value types are linearly ordered types, `m_key->cmp(l, r, Py_LT)` being
`l < r`; types whose comparison is not a linear order (floats with NaN) are outside the model.
-/
namespace Verif.ConstDict

variable {K V : Type} [LinearOrder K]

/-- The stored pairs. -/
abbrev Dict (K V : Type) := List (K × V)

/-- What `std::sort` (ConstDictType.cpp 384) may do with a list of indices: the C++ standard promises a permutation that is
sorted for a strict weak order, and nothing about the order of equivalent elements. -/
structure StdSort where
  run : (Nat → Nat → Bool) → List Nat → List Nat
  perm : ∀ lt l, (run lt l).Perm l
  sorted : ∀ (lt : Nat → Nat → Bool) (l : List Nat), (∀ a ∈ l, ∀ b ∈ l, lt a b = true → lt b a = false) →
    (∀ a ∈ l, ∀ b ∈ l, ∀ c ∈ l, lt a c = true → lt a b = true ∨ lt b c = true) →
    (run lt l).Pairwise (fun a b => lt b a = false)

/-- Key at an index: ConstDictType.cpp 331-339, `kvPairPtrKey`, compared with another by `<`; out of range reads (which do
not happen) compare false. -/
def keyLt (d : Dict K V) (i j : Nat) : Bool :=
  match d[i]?, d[j]? with
  | some a, some b => decide (a.1 < b.1)
  | _, _ => false

/-- ConstDictType.cpp 360-404, `sortKvPairs`.  The moves through the temporary buffer (388-402) put the pair at
`indices[k]` in place `k`. -/
def sortKvPairs (s : StdSort) (d : Dict K V) : Dict K V :=
  match d with
  | [] => []
  | [a] => [a]
  | [a, b] => if a.1 > b.1 then [b, a] else [a, b]
  | d => (s.run (keyLt d) (List.range d.length)).filterMap (fun i => d[i]?)

/-- ConstDictType.hpp 324-340 with PyConstDictInstance.cpp 521-585: convert the keys and values of the mapping given, in
its iteration order, and sort.  `conv` is the conversion of keys (`ConversionLevel::UpcastContainers`). -/
def fromMapping (s : StdSort) {K' : Type} (conv : K' → K) (pairs : List (K' × V)) : Dict K V :=
  sortKvPairs s (pairs.map (fun p => (conv p.1, p.2)))

/-- ConstDictType.cpp 467-482, the loop of `lookupIndexByKey`, with fuel for the iterations. -/
def lookupLoop (d : Dict K V) (key : K) : Nat → Nat → Nat → Option Nat
  | 0, _, _ => none
  | f + 1, low, high =>
    if low < high then
      let mid := (low + high) / 2
      match d[mid]? with
      | none => none
      | some p =>
        if p.1 = key then some mid
        else if p.1 < key then lookupLoop d key f (mid + 1) high
        else lookupLoop d key f low mid
    else none

/-- ConstDictType.cpp 458-483, `lookupIndexByKey` (`none` is -1).  Each iteration shrinks `high - low`, so `length + 1`
iterations are enough. -/
def lookupIndex (d : Dict K V) (key : K) : Option Nat := lookupLoop d key (d.length + 1) 0 d.length

/-- ConstDictType.cpp 485-491, `lookupValueByKey`; this is `d[k]` (PyConstDictInstance.cpp 384-420, `none` is KeyError),
`d.get(k)` (120-177, `none` is the default) and `k in d` (274-292). -/
def lookup (d : Dict K V) (key : K) : Option V :=
  match lookupIndex d key with
  | none => none
  | some i => d[i]?.map (·.2)

/-- ConstDictType.cpp 450-456, `size`. -/
def size (d : Dict K V) : Nat := d.length

/-- PyConstDictInstance.cpp 190-224: iterating the items. -/
def items (d : Dict K V) : List (K × V) := d

/-- ConstDictType.cpp 252-279, `addDicts`. -/
def addDicts (s : StdSort) (lhs rhs : Dict K V) : Dict K V :=
  sortKvPairs s (rhs ++ lhs.filter (fun p => (lookup rhs p.1).isNone))

/-- ConstDictType.cpp 281-309, `subtractTupleOfKeysFromDict`: `remove` is the set of indices found. -/
def subtractKeys (lhs : Dict K V) (keys : List K) : Dict K V :=
  let remove := keys.filterMap (lookupIndex lhs)
  (List.range lhs.length).filterMap (fun k => if remove.contains k then none else lhs[k]?)

/-- Python's comparison operators. -/
inductive Op | eq | ne | lt | gt | le | ge
  deriving DecidableEq, Repr

/-- util.hpp 215-226, `cmpResultToBoolForPyOrdering`. -/
def opResult : Op → Int → Bool
  | .eq, r => r = 0
  | .ne, r => r ≠ 0
  | .lt, r => r < 0
  | .gt, r => r > 0
  | .le, r => r ≤ 0
  | .ge, r => r ≥ 0

section cmp
variable [LinearOrder V]

/-- ConstDictType.cpp 219-226. -/
def eqLoop (compareValues : Bool) : Dict K V → Dict K V → Bool
  | a :: as, b :: bs => if a.1 ≠ b.1 ∨ (compareValues ∧ a.2 ≠ b.2) then false else eqLoop compareValues as bs
  | _, _ => true

/-- ConstDictType.cpp 228-235 (and 238-245 for values): the first difference. -/
def firstDiff {A : Type} [LinearOrder A] : List A → List A → Int
  | a :: as, b :: bs => if a ≠ b then (if a < b then -1 else 1) else firstDiff as bs
  | _, _ => 0

/-- ConstDictType.cpp 200-250, `cmp`.  `same` says that both operands are the same object (212); `Py_NE` does not pass
`compareValues` on (202). -/
def cmp (op : Op) (same : Bool) (left right : Dict K V) (compareValues : Bool := true) : Bool :=
  let core (op : Op) (compareValues : Bool) : Bool :=
    if size left < size right then opResult op (-1)
    else if size left > size right then opResult op 1
    else if same then opResult op 0
    else if op = .eq then eqLoop compareValues left right
    else if firstDiff (left.map (·.1)) (right.map (·.1)) ≠ 0 then
      opResult op (firstDiff (left.map (·.1)) (right.map (·.1)))
    else if compareValues then opResult op (firstDiff (left.map (·.2)) (right.map (·.2)))
    else opResult op 0
  if op = .ne then !core .eq true else core op compareValues
end cmp

/-- Wrap to `int32_t`. -/
def int32 (x : Int) : Int := Int.bmod x (2 ^ 32)

/-- `^` on `int32_t`. -/
def xor32 (a b : Int) : Int := int32 (((a % 2 ^ 32).toNat ^^^ (b % 2 ^ 32).toNat : Nat) : Int)

/-- HashAccumulator.hpp 30-32, `add`. -/
def hashAdd (state i : Int) : Int := xor32 (int32 (state * 1000003)) i

/-- ConstDictType.cpp 181-193: the hash that is stored in the cache.  `cat` is the type category number. -/
def hashCompute (cat : Int) (hk : K → Int) (hv : V → Int) (d : Dict K V) : Int :=
  let h := d.foldl (fun st p => hashAdd (hashAdd st (hk p.1)) (hv p.2)) (hashAdd cat d.length)
  if h = -1 then -2 else h

/-- ConstDictType.cpp 175-197, `hash`: the answer and the new content of the cache. -/
def hash (cat : Int) (hk : K → Int) (hv : V → Int) (d : Dict K V) (cache : Int) : Int × Int :=
  if size d = 0 then (0x123456, cache)
  else if cache = -1 then (hashCompute cat hk hv d, hashCompute cat hk hv d)
  else (cache, cache)

/-! ### The compiled twin (const_dict_wrapper.py) -/

/-- const_dict_wrapper.py 136-153, `const_dict_index_of_key`; the loop with fuel.  `const_dict_getitem` (96-113) and
`const_dict_get` (116-133) contain the same loop. -/
def cIndexLoop (d : Dict K V) (key : K) : Nat → Nat → Nat → Option Nat
  | 0, _, _ => none
  | f + 1, low, high =>
    if low < high then
      let mid := (low + high) >>> 1
      match d[mid]? with
      | none => none
      | some p =>
        if p.1 < key then cIndexLoop d key f (mid + 1) high
        else if key < p.1 then cIndexLoop d key f low mid
        else some mid
    else none

/-- const_dict_wrapper.py 136-153. -/
def cIndex (d : Dict K V) (key : K) : Option Nat := cIndexLoop d key (d.length + 1) 0 d.length

/-- const_dict_wrapper.py 96-133: `d[k]` (`none` is KeyError) and `d.get(k, default)` (`none` is the default). -/
def cLookup (d : Dict K V) (key : K) : Option V :=
  match cIndex d key with
  | none => none
  | some i => d[i]?.map (·.2)

/-- const_dict_wrapper.py 156-157. -/
def cContains (d : Dict K V) (key : K) : Bool := (cIndex d key).isSome

/-- const_dict_wrapper.py 203-233, `const_dict_sub`. -/
def cSub (lhs : Dict K V) (keys : List K) : Dict K V :=
  let remove := (keys.filterMap (cIndex lhs)).dedup
  if remove.length = lhs.length then []
  else (List.range lhs.length).filterMap (fun i => if remove.contains i then none else lhs[i]?)

/-- const_dict_wrapper.py 253-268: `lhsValuesToKeep`, with fuel for the iterations. -/
def cKeep (lhs rhs : Dict K V) : Nat → Nat → Nat → Nat
  | 0, _, _ => 0
  | f + 1, i, j =>
    match lhs[i]? with
    | none => 0
    | some l =>
      match rhs[j]? with
      | some r =>
        if l.1 < r.1 then cKeep lhs rhs f (i + 1) j + 1
        else if r.1 < l.1 then cKeep lhs rhs f i (j + 1)
        else cKeep lhs rhs f (i + 1) (j + 1)
      | none => cKeep lhs rhs f (i + 1) j + 1

/-- const_dict_wrapper.py 279-323: the pairs written, in order, with fuel for the iterations. -/
def cMerge (lhs rhs : Dict K V) : Nat → Nat → Nat → Dict K V
  | 0, _, _ => []
  | f + 1, i, j =>
    match lhs[i]?, rhs[j]? with
    | some l, some r =>
      if l.1 < r.1 then l :: cMerge lhs rhs f (i + 1) j
      else if l.1 = r.1 then r :: cMerge lhs rhs f (i + 1) (j + 1)
      else r :: cMerge lhs rhs f i (j + 1)
    | some l, none => l :: cMerge lhs rhs f (i + 1) j
    | none, some r => r :: cMerge lhs rhs f i (j + 1)
    | none, none => []

/-- const_dict_wrapper.py 236-330, `const_dict_add`; `none` is the failing assertion of line 325, which also stands for
writing past the `len(rhs) + lhsValuesToKeep` slots allocated at 271-273. -/
def cAdd (lhs rhs : Dict K V) : Option (Dict K V) :=
  if lhs.length = 0 then some rhs
  else if rhs.length = 0 then some lhs
  else
    let out := cMerge lhs rhs (lhs.length + rhs.length) 0 0
    if out.length = rhs.length + cKeep lhs rhs (lhs.length + rhs.length) 0 0 then some out else none

/-- const_dict_wrapper.py 641-697: the literal `ConstDict(K, V)({k1: v1, ...})` in compiled code stores every pair written
and sorts when there is more than one. -/
def cLiteral (s : StdSort) (pairs : List (K × V)) : Dict K V :=
  if pairs.length > 1 then sortKvPairs s pairs else pairs

section ccmp
variable [LinearOrder V]

/-- const_dict_wrapper.py 34-45, `const_dict_eq`. -/
def cEqLoop : Dict K V → Dict K V → Bool
  | a :: as, b :: bs => if a.1 ≠ b.1 then false else if a.2 ≠ b.2 then false else cEqLoop as bs
  | _, _ => true

/-- const_dict_wrapper.py 54-65 (also 72-83): the loop of the ordering comparisons, `none` when it runs to its end. -/
def cOrdLoop : Dict K V → Dict K V → Option Bool
  | a :: as, b :: bs =>
    if a.1 > b.1 then some false
    else if a.1 < b.1 then some true
    else if a.2 > b.2 then some false
    else if a.2 < b.2 then some true
    else cOrdLoop as bs
  | _, _ => none

/-- const_dict_wrapper.py 52-67. -/
def cLt (l r : Dict K V) : Bool := match cOrdLoop l r with | some b => b | none => l.length < r.length
/-- const_dict_wrapper.py 70-85. -/
def cLe (l r : Dict K V) : Bool := match cOrdLoop l r with | some b => b | none => l.length ≤ r.length

/-- const_dict_wrapper.py 34-93. -/
def cCmp : Op → Dict K V → Dict K V → Bool
  | .eq, l, r => if l.length ≠ r.length then false else cEqLoop l r
  | .ne, l, r => !(if l.length ≠ r.length then false else cEqLoop l r)
  | .lt, l, r => cLt l r
  | .le, l, r => cLe l r
  | .gt, l, r => !cLe l r
  | .ge, l, r => !cLt l r
end ccmp

end Verif.ConstDict
