import Verif.Common

/-!
# The hash table behind `Dict` and `Set`

Model of `typed_python/hash_table_layout.hpp`, `DictType.cpp`, `PyDictInstance.cpp` and the compiled twin
`compiler/type_wrappers/hash_table_implementation.py`.

Memory: the arrays `hash_table_slots` and `hash_table_hashes` are functions from index to value together with the
length `size`; a null pointer is `size = 0`.  `items` and `items_populated` are one list of options of length
`items_reserved`; null is the empty list (`tp_malloc(0)` and `tp_realloc(p, _, 0)` return null, `Memory.cpp:8-11,46-49`,
so `items` is null exactly when `items_reserved = 0`, for element types of positive size).  Reading an item that is
out of bounds or not populated is the distinguished failure `Err.badItem`.

Loops without a bound in the source take `size + 14` steps at most in the model; taking more is `Err.fuel`.
-/

namespace Verif.HashTable

/-- `EMPTY` and `DELETED`, `hash_table_layout.hpp:41`. -/
def EMPTY : Int := -1
/-- See `EMPTY`. -/
def DELETED : Int := -2

inductive Err
  | keyError
  /-- a loop of the source was cut off -/
  | fuel
  /-- "corrupt slot", line 198 -/
  | corruptSlot
  /-- "invalid slot", line 204 -/
  | invalidSlot
  /-- "failed during compression", line 212 -/
  | failedCompression
  /-- an item out of bounds or not populated was accessed -/
  | badItem
  /-- "set size changed during iteration" -/
  | runtimeError
  /-- an operand of the wrong type -/
  | typeError
  deriving DecidableEq, Repr

/-- `int32_t` wrap-around. -/
def w32 (x : Int) : Int := Int.bmod x (2 ^ 32)

/-- `(uint64_t)hash` for a signed 32-bit hash: sign extension. -/
def u64 (x : Int) : Nat := (x % (2 ^ 64 : Nat)).toNat

/-- `if (hash < 0) { hash = -hash; }` on `int32_t`, lines 56-58, 89-91, 136-138. -/
def norm (h : Int) : Int := if h < 0 then w32 (-h) else h

/-- `offset = (offset << 2) + offset + perturb + 1` on `uint64_t`, lines 77, 110, 162. -/
def nextOffset (o p : Nat) : Nat := (o * 4 + o + p + 1) % 2 ^ 64

/-- `perturb >>= PERTURB_SHIFT`, lines 78, 111, 163. -/
def nextPerturb (p : Nat) : Nat := p / 32

/-- The fields of `hash_table_layout`, lines 520-537 (no reference count). -/
structure Tbl (K V : Type) where
  items : List (Option (K × V)) := []
  top : Nat := 0
  slots : Nat → Int := fun _ => 0
  hashes : Nat → Int := fun _ => 0
  size : Nat := 0
  count : Nat := 0
  empty : Nat := 0

variable {K V : Type}

/-- `offset & mask` with `mask = hash_table_size - 1`. -/
def Tbl.ix (t : Tbl K V) (o : Nat) : Nat := o &&& (t.size - 1)

/-- `compare(items + item_size * slot)`. -/
def Tbl.compareAt (t : Tbl K V) (s : Int) (compare : K → Bool) : Except Err Bool :=
  match t.items[s.toNat]? with
  | some (some (k, _)) => .ok (compare k)
  | _ => .error .badItem

/-- The loop of `find`, lines 64-79. -/
def findLoop (t : Tbl K V) (hash : Int) (compare : K → Bool) : Nat → Nat → Nat → Except Err Int
  | 0, _, _ => .error .fuel
  | f + 1, o, p =>
    let i := t.ix o
    let slot := t.slots i
    if slot = EMPTY then .ok (-1)
    else if slot ≠ DELETED ∧ t.hashes i = hash then do
      if ← t.compareAt slot compare then .ok slot
      else findLoop t hash compare f (nextOffset o p) (nextPerturb p)
    else findLoop t hash compare f (nextOffset o p) (nextPerturb p)

/-- `find`, lines 51-80. -/
def find (t : Tbl K V) (hash : Int) (compare : K → Bool) : Except Err Int :=
  if t.size = 0 then .ok (-1)
  else findLoop t (norm hash) compare (t.size + 14) (u64 (norm hash)) (u64 (norm hash))

/-- The loop of `add`, lines 97-112: the index at which the entry is stored. -/
def addLoop (t : Tbl K V) : Nat → Nat → Nat → Except Err Nat
  | 0, _, _ => .error .fuel
  | f + 1, o, p =>
    let i := t.ix o
    if t.slots i = EMPTY ∨ t.slots i = DELETED then .ok i
    else addLoop t f (nextOffset o p) (nextPerturb p)

/-- Writing one array element. -/
def upd (g : Nat → Int) (i : Nat) (x : Int) : Nat → Int := fun j => if j = i then x else g j

/-- `add` after the resize check, lines 89-112.  Simplification: `items_populated[slot] = 1` (line 105) is done by
the caller that stores the item (`insertKey`); when called from `resizeTable` it is already set. -/
def place (t : Tbl K V) (hash slot : Int) : Except Err (Tbl K V) := do
  let h := norm hash
  let i ← addLoop t (t.size + 14) (u64 h) (u64 h)
  .ok { t with
    slots := upd t.slots i slot
    hashes := upd t.hashes i h
    count := t.count + 1
    empty := if t.slots i = EMPTY then t.empty - 1 else t.empty }

/-- The loop of `pickHashTableSize`, lines 247-249, with `ct <<= 1` on `int32_t`. -/
def pickLoop (minSize : Int) : Nat → Int → Except Err Int
  | 0, _ => .error .fuel
  | f + 1, ct => if ct < minSize then pickLoop minSize f (w32 (ct * 2)) else .ok ct

/-- `pickHashTableSize`, lines 245-251; the argument is converted to `int32_t`.  `int32_t` overflows after 29
doublings of `MIN_SIZE`, so 40 steps decide. -/
def pick (minSize : Nat) : Except Err Nat := do
  let r ← pickLoop (w32 minSize) 40 8
  .ok r.toNat

/-- A table of `n` empty entries, lines 325-331. -/
def fresh (t : Tbl K V) (n : Nat) : Tbl K V :=
  { t with size := n, slots := fun _ => EMPTY, hashes := fun _ => EMPTY, count := 0, empty := n }

/-- One iteration of the loop of `resizeTable`, lines 333-337, with the recursive method `add` passed in. -/
def readd (add : Tbl K V → Int → Int → Except Err (Tbl K V)) (old t : Tbl K V) (k : Nat) : Except Err (Tbl K V) :=
  if old.slots k ≠ EMPTY ∧ old.slots k ≠ DELETED then add t (old.hashes k) (old.slots k) else .ok t

/-- `resizeTable`, lines 307-342. -/
def resizeWith (add : Tbl K V → Int → Int → Except Err (Tbl K V)) (t : Tbl K V) : Except Err (Tbl K V) := do
  let n ← pick (t.count * 4)
  if t.size = 0 then .ok (fresh t n)
  else (List.range t.size).foldlM (readd add t) (fresh t n)

/-- `add`, lines 83-113.  `add` and `resizeTable` call each other; the first argument bounds that recursion. -/
def addF : Nat → Tbl K V → Int → Int → Except Err (Tbl K V)
  | 0, _, _, _ => .error .fuel
  | d + 1, t, hash, slot => do
    let t ← if t.count * 2 + 1 > t.size ∨ t.empty < t.size / 4 + 1 then resizeWith (addF d) t else .ok t
    place t hash slot

/-- `add` as called from outside: two nested calls are enough (proved). -/
def add (t : Tbl K V) (hash slot : Int) : Except Err (Tbl K V) := addF 2 t hash slot

/-- `resizeTable` as called from `remove`. -/
def resize (t : Tbl K V) : Except Err (Tbl K V) := resizeWith (addF 1) t

/-- `newItemPositions[k]`, lines 168-187: the number of populated items before `k`, or -1. -/
def newPos (items : List (Option (K × V))) (k : Nat) : Int :=
  match items[k]? with
  | some (some _) => (items.take k).countP Option.isSome
  | _ => -1

/-- `compressItemTable`, lines 167-216.  The two loops over the table throw at the first bad entry. -/
def compress (t : Tbl K V) : Except Err (Tbl K V) :=
  let items' := t.items.filter Option.isSome
  if (List.range t.size).any (fun k => t.slots k ≥ 0 && t.slots k ≥ t.items.length) then .error .corruptSlot
  else if (List.range t.size).any (fun k => t.slots k ≥ 0 && newPos t.items (t.slots k).toNat < 0) then
    .error .invalidSlot
  else
    let slots' := fun k => if t.slots k ≥ 0 then newPos t.items (t.slots k).toNat else t.slots k
    if (List.range t.size).any (fun k => slots' k ≥ 0 && slots' k ≥ items'.length) then .error .failedCompression
    else .ok { t with items := items', top := items'.length, slots := slots' }

/-- The loop of `remove`, lines 144-164: the index in the table and the item slot. -/
def removeLoop (t : Tbl K V) (compare : K → Bool) : Nat → Nat → Nat → Except Err (Option (Nat × Int))
  | 0, _, _ => .error .fuel
  | f + 1, o, p =>
    let i := t.ix o
    let slot := t.slots i
    if slot = EMPTY then .ok none
    else if slot ≠ DELETED then do
      if ← t.compareAt slot compare then .ok (some (i, slot))
      else removeLoop t compare f (nextOffset o p) (nextPerturb p)
    else removeLoop t compare f (nextOffset o p) (nextPerturb p)

/-- Lines 127-129. -/
def shrinkItems (t : Tbl K V) : Except Err (Tbl K V) :=
  if t.items.length > (t.count + 2) * 4 then compress t else .ok t

/-- Lines 132-134. -/
def shrinkTable (t : Tbl K V) : Except Err (Tbl K V) :=
  if t.count < t.size / 8 then resize t else .ok t

/-- Lines 136-164 and the destruction of the item by the caller (`DictType.cpp:291-295`). -/
def removeFrom (t : Tbl K V) (hash : Int) (compare : K → Bool) : Except Err (Tbl K V × Bool) :=
  match removeLoop t compare (t.size + 14) (u64 (norm hash)) (u64 (norm hash)) with
  | .error e => .error e
  | .ok none => .ok (t, false)
  | .ok (some (i, slot)) =>
    .ok ({ t with
      items := t.items.set slot.toNat none
      slots := upd t.slots i DELETED
      hashes := upd t.hashes i (-1)
      count := t.count - 1 }, true)

/-- `remove`, lines 122-165: the table and whether an item was removed. -/
def remove (t : Tbl K V) (hash : Int) (compare : K → Bool) : Except Err (Tbl K V × Bool) :=
  if t.size = 0 then .ok (t, false)
  else (shrinkItems t).bind fun t => (shrinkTable t).bind fun t => removeFrom t hash compare

/-- The growth loop of `allocateNewSlot`, lines 231-240.  `items_reserved * 1.25 + 1` is computed in `double`, exact
for the sizes that fit in memory.  Every pass adds at least one item, so `top + 1` passes are enough. -/
def growItems (top : Nat) : Nat → List (Option (K × V)) → List (Option (K × V))
  | 0, items => items
  | f + 1, items =>
    if top ≥ items.length then growItems top f (items ++ List.replicate (items.length / 4 + 1) none) else items

/-- `allocateNewSlot`, lines 218-243: the table and the slot index. -/
def allocateNewSlot (t : Tbl K V) : Tbl K V × Nat :=
  let t := if t.items = [] then { t with items := List.replicate 4 none, top := 0 } else t
  ({ t with items := growItems t.top (t.top + 1) t.items, top := t.top + 1 }, t.top)

/-- `allItemsHaveBeenRemoved`, lines 255-267, after the loop of `DictType::clear`, `DictType.cpp:300-313`. -/
def clear (t : Tbl K V) : Tbl K V :=
  let items := t.items.map (fun _ => none)
  if t.size = 0 then { t with items := items }
  else { t with items := items, count := 0, top := 0, empty := t.size, slots := fun _ => EMPTY, hashes := fun _ => EMPTY }

/-! ### Dict -/

/-- The key type: `m_key->hash` and `m_key->cmp(a, b, Py_EQ)`. -/
structure KeyOps (K : Type) where
  hash : K → Int
  eq : K → K → Bool

variable (ko : KeyOps K)

/-- `DictType::lookupValueByKey`, `DictType.cpp:266-280`: the slot, if found. -/
def lookupSlot (t : Tbl K V) (k : K) : Except Err (Option Nat) := do
  let index ← find t (ko.hash k) (ko.eq k)
  if index ≥ 0 then .ok (some index.toNat) else .ok none

/-- Reading the value at a slot (`extractPythonObject(i, valueType)`). -/
def valueAt (t : Tbl K V) (s : Nat) : Except Err V :=
  match t.items[s]? with
  | some (some (_, v)) => .ok v
  | _ => .error .badItem

/-- `DictType::insertKey` followed by the construction of the value, `DictType.cpp:331-343`,
`PyDictInstance.cpp:420-421`. -/
def insertKey (t : Tbl K V) (k : K) (v : V) : Except Err (Tbl K V) := do
  let (t, slot) := allocateNewSlot t
  let t ← add t (ko.hash k) slot
  if slot < t.items.length then .ok { t with items := t.items.set slot (some (k, v)) } else .error .badItem

/-- `mp_ass_subscript_concrete_typed`, `PyDictInstance.cpp:410-425`. -/
def setitem (t : Tbl K V) (k : K) (v : V) : Except Err (Tbl K V) := do
  match ← lookupSlot ko t k with
  | some s =>
    match t.items[s]? with
    | some (some (k', _)) => .ok { t with items := t.items.set s (some (k', v)) }
    | _ => .error .badItem
  | none => insertKey ko t k v

/-- `DictType::deleteKey`, `DictType.cpp:282-298`. -/
def deleteKey (t : Tbl K V) (k : K) : Except Err (Tbl K V × Bool) := remove t (ko.hash k) (ko.eq k)

/-- Calls on a `Dict`. -/
inductive Op (K V : Type) where
  | getitem (k : K)
  | contains (k : K)
  | setitem (k : K) (v : V)
  | delitem (k : K)
  | pop (k : K)
  | popD (k : K) (v : V)
  | get (k : K) (v : V)
  | setdefault (k : K) (v : V)
  | clear
  | len
  | items
  deriving DecidableEq, Repr

inductive Res (K V : Type) where
  | unit
  | val (v : V)
  | bool (b : Bool)
  | int (n : Nat)
  | list (l : List (K × V))
  deriving DecidableEq, Repr

/-- The pairs visited by iteration, in slot order: `tp_iternext_concrete`, `PyDictInstance.cpp:247-293` (no mutation
during the iteration). -/
def iterate (t : Tbl K V) : List (K × V) := t.items.filterMap id

/-- One call, leaving the table unchanged when the call fails. -/
def step (t : Tbl K V) (op : Op K V) : Except Err (Tbl K V × Except Err (Res K V)) :=
  match op with
  -- `mp_subscript_concrete`, `PyDictInstance.cpp:372-408`
  | .getitem k => do
    match ← lookupSlot ko t k with
    | some s => .ok (t, .ok (.val (← valueAt t s)))
    | none => .ok (t, .error .keyError)
  -- `sq_contains_concrete`, `PyDictInstance.cpp:343-361`
  | .contains k => do .ok (t, .ok (.bool (← lookupSlot ko t k).isSome))
  | .setitem k v => do .ok (← setitem ko t k v, .ok .unit)
  -- `mp_ass_subscript_concrete_keytyped`, `PyDictInstance.cpp:427-435`
  | .delitem k => do
    let (t', b) ← deleteKey ko t k
    .ok (t', if b then .ok .unit else .error .keyError)
  -- `pop`, `PyDictInstance.cpp:796-811`
  | .pop k => do
    match ← lookupSlot ko t k with
    | some s =>
      let v ← valueAt t s
      let (t', _) ← deleteKey ko t k
      .ok (t', .ok (.val v))
    | none => .ok (t, .error .keyError)
  | .popD k d => do
    match ← lookupSlot ko t k with
    | some s =>
      let v ← valueAt t s
      let (t', _) ← deleteKey ko t k
      .ok (t', .ok (.val v))
    | none => .ok (t, .ok (.val d))
  -- `dictGet`, `PyDictInstance.cpp:142-199`
  | .get k d => do
    match ← lookupSlot ko t k with
    | some s => .ok (t, .ok (.val (← valueAt t s)))
    | none => .ok (t, .ok (.val d))
  -- `setDefault`, `PyDictInstance.cpp:657-744`
  | .setdefault k d => do
    match ← lookupSlot ko t k with
    | some s => .ok (t, .ok (.val (← valueAt t s)))
    | none => .ok (← insertKey ko t k d, .ok (.val d))
  | .clear => .ok (clear t, .ok .unit)
  | .len => .ok (t, .ok (.int t.count))
  | .items => .ok (t, .ok (.list (iterate t)))

/-- A history of calls.  The outer `Except` is an internal failure of the table. -/
def run (t : Tbl K V) : List (Op K V) → Except Err (Tbl K V × List (Except Err (Res K V)))
  | [] => .ok (t, [])
  | op :: ops => do
    let (t, r) ← step ko t op
    let (t, rs) ← run t ops
    .ok (t, r :: rs)

end Verif.HashTable
