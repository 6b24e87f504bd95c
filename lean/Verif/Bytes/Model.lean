import Verif.Common
import Verif.Str.Spec
/-
Compiled `bytes`: the value, indexing and searching.
/repo/typed_python/compiler/type_wrappers/bytes_wrapper.py 293-814, 1134-1225, _runtime.cpp 741-770.

Simplification: integers are unbounded (`int` is 64 bits wide; no index computed here leaves the range of the arguments and of
the lengths by more than their sum).
-/
namespace Verif.Bytes

/-- What goes wrong: IndexError, ValueError, a read outside of the bytes, or a loop that does not end. -/
inductive Err
  | index | value | oob | hang
  deriving DecidableEq, Repr

/-- BytesType.hpp:24-37: a `bytes` is a pointer to a `layout` with a hash cache, a count and the bytes; the empty bytes may also
be the null pointer. -/
abbrev B := Option (List Nat)

/-- bytes_wrapper.py:1657-1687: the bytes there are; the null pointer has none. -/
def text (x : B) : List Nat := x.getD []

/-- bytes_wrapper.py:1188-1225: `x[i]`, with negative indices from the end. -/
def item (x : B) (i : Int) : Except Err Nat :=
  let n : Int := (text x).length
  if i < -n ∨ i ≥ n then .error .index
  else
    match (text x)[(if i < 0 then i + n else i).toNat]? with
    | none => .error .oob
    | some b => .ok b

/-- _runtime.cpp:741-770: `x[start:stop]`. The null pointer, if nothing is left. -/
def getslice (x : B) (start stop : Int) : B :=
  match x with
  | none => none
  | some ps =>
    let n : Int := ps.length
    let start := if start < 0 then start + n else start
    let stop := if stop < 0 then stop + n else stop
    let start := if start < 0 then 0 else start
    let stop := if stop < 0 then 0 else stop
    let start := if start > n then n else start
    let stop := if stop > n then n else stop
    if start ≥ stop then none else some ((ps.drop start.toNat).take (stop - start).toNat)

/-- bytes_wrapper.py:428-437, 483-492, 518-527, 568-577, 602-611, 652-661: the range of a search. -/
def range (x : B) (start stop : Int) : Int × Int :=
  let n : Int := (text x).length
  let start := if start < 0 then start + n else start
  let start := if start < 0 then 0 else start
  let stop := if stop < 0 then stop + n else stop
  let stop := if stop < 0 then 0 else stop
  let stop := if stop > n then n else stop
  (start, stop)

/-- bytes_wrapper.py:331-340, 390-399: the range of `startswith` and `endswith`. -/
def affixRange (x : B) (start stop : Int) : Int × Int :=
  let n : Int := (text x).length
  (if start < 0 then (if start + n < 0 then 0 else start + n) else start,
   if stop < 0 then (if stop + n < 0 then 0 else stop + n) else if stop > n then n else stop)

/-- bytes_wrapper.py:309-313, 345-349, 368-372, 406-410: the loop over the prefix or suffix. -/
def affixLoop (x : B) : List Nat → Int → Except Err Bool
  | [], _ => .ok true
  | i :: rest, index =>
    match item x index with
    | .error e => .error e
    | .ok b => if b ≠ i then .ok false else affixLoop x rest (index + 1)

/-- bytes_wrapper.py:293-313 `bytes_startswith`. -/
def startswith (x pre : B) : Except Err Bool :=
  if (text x).length < (text pre).length then .ok false else affixLoop x (text pre) 0

/-- bytes_wrapper.py:316-349 `bytes_startswith_range`. -/
def startswithRange (x pre : B) (start stop : Int) : Except Err Bool :=
  let r := affixRange x start stop
  if r.2 - r.1 < (text pre).length then .ok false else affixLoop x (text pre) r.1

/-- bytes_wrapper.py:352-372 `bytes_endswith`. -/
def endswith (x suf : B) : Except Err Bool :=
  let index : Int := (text x).length - (text suf).length
  if index < 0 then .ok false else affixLoop x (text suf) index

/-- bytes_wrapper.py:375-410 `bytes_endswith_range`. -/
def endswithRange (x suf : B) (start stop : Int) : Except Err Bool :=
  let r := affixRange x start stop
  if r.2 - r.1 < (text suf).length then .ok false
  else
    let index := r.2 - (text suf).length
    if index < 0 then .ok false else affixLoop x (text suf) index

/-- bytes_wrapper.py:451-456, 537-542, 621-626: whether the inner loop from `subindex` on reaches the end of `sub`; `todo` is
what is left of `sub`. -/
def matches_ (x sub : B) (index : Int) : Nat → Int → Except Err Bool
  | 0, _ => .ok true
  | todo + 1, subindex =>
    match item x (index + subindex) with
    | .error e => .error e
    | .ok b =>
      match item sub subindex with
      | .error e => .error e
      | .ok c => if b ≠ c then .ok false else matches_ x sub index todo (subindex + 1)

/-- bytes_wrapper.py:536-545: the outer loop of `bytes_find`. -/
def findLoop (x sub : B) (stop : Int) : Nat → Int → Except Err Int
  | 0, _ => .error .hang
  | fuel + 1, index =>
    if index < stop - (text sub).length + 1 then
      match matches_ x sub index (text sub).length 0 with
      | .error e => .error e
      | .ok true => .ok index
      | .ok false => findLoop x sub stop fuel (index + 1)
    else .ok (-1)

/-- bytes_wrapper.py:503-545 `bytes_find`. -/
def find (x sub : B) (start stop : Int) : Except Err Int :=
  let r := range x start stop
  if (text sub).length = 0 then
    if r.1 > (text x).length ∨ r.1 > r.2 then .ok (-1) else .ok r.1
  else findLoop x sub r.2 ((text x).length + 1) r.1

/-- bytes_wrapper.py:580-584: the loop of `bytes_find_single`. -/
def findSingleLoop (x : B) (sub stop : Int) : Nat → Int → Except Err Int
  | 0, _ => .error .hang
  | fuel + 1, index =>
    if index < stop then
      match item x index with
      | .error e => .error e
      | .ok b => if (b : Int) = sub then .ok index else findSingleLoop x sub stop fuel (index + 1)
    else .ok (-1)

/-- bytes_wrapper.py:548-584 `bytes_find_single`. -/
def findSingle (x : B) (sub start stop : Int) : Except Err Int :=
  if sub < 0 ∨ sub > 255 then .error .value
  else
    let r := range x start stop
    findSingleLoop x sub r.2 ((text x).length + 1) r.1

/-- bytes_wrapper.py:620-629: the outer loop of `bytes_rfind`. -/
def rfindLoop (x sub : B) (start : Int) : Nat → Int → Except Err Int
  | 0, _ => .error .hang
  | fuel + 1, index =>
    if index ≥ start then
      match matches_ x sub index (text sub).length 0 with
      | .error e => .error e
      | .ok true => .ok index
      | .ok false => rfindLoop x sub start fuel (index - 1)
    else .ok (-1)

/-- bytes_wrapper.py:587-629 `bytes_rfind`. -/
def rfind (x sub : B) (start stop : Int) : Except Err Int :=
  let r := range x start stop
  if (text sub).length = 0 then
    if r.1 > (text x).length ∨ r.1 > r.2 then .ok (-1) else .ok r.2
  else rfindLoop x sub r.1 ((text x).length + 1) (r.2 - (text sub).length)

/-- bytes_wrapper.py:664-668: the loop of `bytes_rfind_single`. -/
def rfindSingleLoop (x : B) (sub start : Int) : Nat → Int → Except Err Int
  | 0, _ => .error .hang
  | fuel + 1, index =>
    if index ≥ start then
      match item x index with
      | .error e => .error e
      | .ok b => if (b : Int) = sub then .ok index else rfindSingleLoop x sub start fuel (index - 1)
    else .ok (-1)

/-- bytes_wrapper.py:632-668 `bytes_rfind_single`. -/
def rfindSingle (x : B) (sub start stop : Int) : Except Err Int :=
  if sub < 0 ∨ sub > 255 then .error .value
  else
    let r := range x start stop
    rfindSingleLoop x sub r.1 ((text x).length + 1) (r.2 - 1)

/-- bytes_wrapper.py:450-460: the outer loop of `bytes_count`; after a match the position moves behind it. -/
def countLoop (x sub : B) (stop : Int) : Nat → Int → Int → Except Err Int
  | 0, _, _ => .error .hang
  | fuel + 1, index, count =>
    if index < stop - (text sub).length + 1 then
      match matches_ x sub index (text sub).length 0 with
      | .error e => .error e
      | .ok true => countLoop x sub stop fuel (index + ((text sub).length - 1) + 1) (count + 1)
      | .ok false => countLoop x sub stop fuel (index + 1) count
    else .ok count

/-- bytes_wrapper.py:413-460 `bytes_count`. -/
def count (x sub : B) (start stop : Int) : Except Err Int :=
  let r := range x start stop
  if (text sub).length = 0 then
    if r.1 > (text x).length then .ok 0
    else .ok (if r.2 - r.1 + 1 < 0 then 0 else r.2 - r.1 + 1)
  else countLoop x sub r.2 ((text x).length + 1) r.1 0

/-- bytes_wrapper.py:496-500: the loop of `bytes_count_single`. -/
def countSingleLoop (x : B) (sub stop : Int) : Nat → Int → Int → Except Err Int
  | 0, _, _ => .error .hang
  | fuel + 1, index, count =>
    if index < stop then
      match item x index with
      | .error e => .error e
      | .ok b => countSingleLoop x sub stop fuel (index + 1) (if (b : Int) = sub then count + 1 else count)
    else .ok count

/-- bytes_wrapper.py:463-500 `bytes_count_single`. -/
def countSingle (x : B) (sub start stop : Int) : Except Err Int :=
  if sub < 0 ∨ sub > 255 then .error .value
  else
    let r := range x start stop
    countSingleLoop x sub r.2 ((text x).length + 1) r.1 0

/-- bytes_wrapper.py:689-692, 713-716, 737-740, 761-764: `index` and `rindex` from the result of the search. -/
def indexResult : Except Err Int → Except Err Int
  | .error e => .error e
  | .ok r => if r = -1 then .error .value else .ok r

/-- bytes_wrapper.py:1029-1132: `sub in x` is `x.find(sub) >= 0`. -/
def contains (x sub : B) : Except Err Bool :=
  match find x sub 0 (text x).length with
  | .error e => .error e
  | .ok r => .ok (r ≥ 0)

/-- bytes_wrapper.py:767-789 `bytes_partition`. -/
def partition (x sep : B) : Except Err (B × B × B) :=
  if (text sep).length = 0 then .error .value
  else
    match find x sep 0 (text x).length with
    | .error e => .error e
    | .ok pos =>
      if pos = -1 then .ok (x, none, none)
      else .ok (getslice x 0 pos, sep, getslice x (pos + (text sep).length) (text x).length)

/-- bytes_wrapper.py:792-814 `bytes_rpartition`. -/
def rpartition (x sep : B) : Except Err (B × B × B) :=
  if (text sep).length = 0 then .error .value
  else
    match rfind x sep 0 (text x).length with
    | .error e => .error e
    | .ok pos =>
      if pos = -1 then .ok (none, none, x)
      else .ok (getslice x 0 pos, sep, getslice x (pos + (text sep).length) (text x).length)

end Verif.Bytes
