import Verif.ListOf.Model
/-
The compiled methods of ListOf: /repo/typed_python/compiler/type_wrappers/list_of_wrapper.py and tuple_of_wrapper.py.

Integers are 64-bit and wrap.  An element argument is passed by value, or, for element types the compiler passes by reference, as
a pointer; a pointer into the list's own storage is `CArg.ref`.  `realloc` may move the storage; `moves` says whether it does.
-/
namespace Verif.ListOf
open Spec

variable {α : Type}

/-- The wrapped value of a 64-bit integer expression. -/
def w64 (x : Int) : Int := Int.bmod x (2 ^ 64)

/-- list_of_wrapper.py:322-345 `generateReserve`. -/
def cReserve (s : L α) (n : Int) : Except Fault (L α) :=
  let n := if n < s.count then (s.count : Int) else n
  match realloc s.cells n.toNat with
  | .error f => .error f
  | .ok m => .ok ⟨s.count, n.toNat, m⟩

/-- An element argument: a value, or a reference to an element of the list itself. -/
inductive CArg (α : Type)
  | val (v : α)
  | ref (j : Nat)

/-- Load the argument; a reference into storage that has moved is dangling. -/
def cLoad (stale : Bool) (m : Mem α) : CArg α → Except Fault α
  | .val v => .ok v
  | .ref j => if stale then .error .useAfterFree else read m j

/-- list_of_wrapper.py:295-304 `generateAppend`. -/
def cAppend (moves : Bool) (s : L α) (arg : CArg α) : Except Fault (L α) :=
  if s.reserved < s.count + 1 then
    match cReserve s ((s.count * 5 / 4 + 1 : Nat) : Int) with
    | .error f => .error f
    | .ok s' =>
      match cLoad moves s'.cells arg with
      | .error f => .error f
      | .ok v =>
        match construct s'.cells s'.count v with
        | .error f => .error f
        | .ok m => .ok ⟨s'.count + 1, s'.reserved, m⟩
  else
    match cLoad false s.cells arg with
    | .error f => .error f
    | .ok v =>
      match construct s.cells s.count v with
      | .error f => .error f
      | .ok m => .ok ⟨s.count + 1, s.reserved, m⟩

/-- list_of_wrapper.py:216-260 `generatePop`. -/
def cPop (s : L α) (i : Int) : Except Fault (L α × Except PyErr (Ret α (L α))) :=
  let ix := if i < 0 then i + s.count else i
  if ix < 0 ∨ ix ≥ s.count then .ok (s, .error .indexError)
  else
    match read s.cells ix.toNat with
    | .error f => .error f
    | .ok v =>
      match memmoveDown (s.cells.set ix.toNat none) ix.toNat (s.count - 1 - ix.toNat) with
      | .error f => .error f
      | .ok m => .ok (⟨s.count - 1, s.reserved, m⟩, .ok (.val v))

/-- list_of_wrapper.py:262-285 `generateResize`; `v` is the second argument or the default value. -/
def cResize (s : L α) (n : Int) (v : α) : Except Fault (L α) :=
  if (s.count : Int) = n then .ok s
  else if (s.count : Int) < n then
    match (if (s.reserved : Int) < n then cReserve s n else .ok s) with
    | .error f => .error f
    | .ok s' =>
      match fillLoop (fun _ _ => .ok (some v)) s'.count (n - s'.count).toNat 0 s'.cells with
      | .error f => .error f
      | .ok (m, _, _) => .ok ⟨n.toNat, s'.reserved, m⟩
  else if n < 0 then .error .outOfBounds
  else
    match destroyLoop (s.count - n.toNat) n.toNat s.cells with
    | .error f => .error f
    | .ok m => .ok ⟨n.toNat, s.reserved, m⟩

/-- list_of_wrapper.py:287-293 `generateClear`. -/
def cClear (s : L α) : Except Fault (L α) :=
  match destroyLoop s.count 0 s.cells with
  | .error f => .error f
  | .ok m => .ok ⟨0, s.reserved, m⟩

/-- list_of_wrapper.py:306-320 `generateCopy` of a list made by 362-378 `createEmptyList`. -/
def cCopy (s : L α) : Except Fault (L α) :=
  match cReserve ⟨0, 1, [none]⟩ (s.count : Int) with
  | .error f => .error f
  | .ok out =>
    match fillLoop (fun _ i => elt (read s.cells i)) 0 s.count 0 out.cells with
    | .error f => .error f
    | .ok (m, _, _) => .ok ⟨s.count, out.reserved, m⟩

/-- list_of_wrapper.py:29-37 `list_of_extend` by other values. -/
def cExtend (moves : Bool) : List α → L α → Except Fault (L α)
  | [], s => .ok s
  | v :: t, s =>
    match cAppend moves s (.val v) with
    | .error f => .error f
    | .ok s' => cExtend moves t s'

/-- list_of_wrapper.py:33-34: `list_of_extend` of a list by itself, the loop over `range(len(extendWith))`; `byRef`: the element
type is passed by reference. -/
def cExtendSelfLoop (moves byRef : Bool) : Nat → Nat → L α → Except Fault (L α)
  | 0, _, s => .ok s
  | n + 1, i, s =>
    match read s.cells i with
    | .error f => .error f
    | .ok v =>
      match cAppend moves s (if byRef then .ref i else .val v) with
      | .error f => .error f
      | .ok s' => cExtendSelfLoop moves byRef n (i + 1) s'

def cExtendSelf (moves byRef : Bool) (s : L α) : Except Fault (L α) := cExtendSelfLoop moves byRef s.count 0 s

/-- tuple_of_wrapper.py:484-510 `convert_getitem`. -/
def cGet (s : L α) (i : Int) : Except Fault (Except PyErr (Ret α (L α))) :=
  let ix := if i < 0 then i + s.count else i
  if ix ≥ 0 ∧ ix < s.count then
    match read s.cells ix.toNat with
    | .error f => .error f
    | .ok v => .ok (.ok (.val v))
  else .ok (.error .indexError)

/-- list_of_wrapper.py:380-399 `convert_setitem`. -/
def cSet (s : L α) (i : Int) (v : α) : Except Fault (L α × Except PyErr (Ret α (L α))) :=
  let ix := if i < 0 then i + s.count else i
  if ix ≥ 0 ∧ ix < s.count then
    match assign s.cells ix.toNat v with
    | .error f => .error f
    | .ok m => .ok (⟨s.count, s.reserved, m⟩, .ok .unit)
  else .ok (s, .error .indexError)

/-- tuple_of_wrapper.py:152-182: a list with room for `n` elements and none constructed. -/
def preReserved (n : Int) : Except Fault (L α) :=
  if n < 0 then .error .tooBig
  else
    match malloc n.toNat with
    | .error f => .error f
    | .ok m => .ok ⟨0, n.toNat, m⟩

/-- tuple_of_wrapper.py:267-272 and 297-302: the loop of `list_or_tupleof_of_slice`; `k` is how often `writeP` has been advanced.
The fuel is one more than any number of iterations that stays inside the list; running out of it is a fault. -/
def cSliceLoop (src : Mem α) (up : Bool) (stop step : Int) : Nat → Int → Nat → Mem α → Except Fault (Mem α)
  | 0, _, _, _ => .error .outOfBounds
  | fuel + 1, i, k, m =>
    if (up && decide (i < stop)) || (!up && decide (i > stop)) then
      if i < 0 then .error .outOfBounds
      else
        match read src i.toNat with
        | .error f => .error f
        | .ok v =>
          match construct m k v with
          | .error f => .error f
          | .ok m' => cSliceLoop src up stop step fuel (w64 (i + step)) (k + 1) m'
    else .ok m

/-- tuple_of_wrapper.py:250-274 and 281-304: `list_or_tupleof_of_slice` once start, stop and step are there. -/
def cSliceCore (s : L α) (start stop step : Int) : Except Fault (L α) :=
  let start := if start < 0 then start + s.count else start
  let stop := if stop < 0 then stop + s.count else stop
  if step > 0 then
    let start := max 0 start
    let stop := min (s.count : Int) stop
    let count := max 0 (Int.fdiv (w64 (stop - start + (step - 1))) step)
    match preReserved count with
    | .error f => .error f
    | .ok out =>
      match cSliceLoop s.cells true stop step (s.count + 1) start 0 out.cells with
      | .error f => .error f
      | .ok m => .ok ⟨count.toNat, out.reserved, m⟩
  else
    let start := min ((s.count : Int) - 1) start
    let stop := max (-1) stop
    let count := max 0 (Int.fdiv (w64 (start - stop + (-step - 1))) (-step))
    match preReserved count with
    | .error f => .error f
    | .ok out =>
      match cSliceLoop s.cells false stop step (s.count + 1) start 0 out.cells with
      | .error f => .error f
      | .ok m => .ok ⟨count.toNat, out.reserved, m⟩

/-- tuple_of_wrapper.py:244-245 and 276-277: a missing start. -/
def cStart (n : Nat) (start : Option Int) (step : Int) : Int :=
  match start with
  | none => if step > 0 then 0 else (n : Int) - 1
  | some x => x

/-- tuple_of_wrapper.py:247-248 and 278-279: a missing stop. -/
def cStop (n : Nat) (stop : Option Int) (step : Int) : Int :=
  match stop with
  | none => if step > 0 then (n : Int) else -1 - n
  | some x => x

/-- tuple_of_wrapper.py:238-304 `list_or_tupleof_of_slice`: missing arguments are replaced one at a time (239-240 the step). -/
def cSlice (s : L α) (start stop step : Option Int) : Except Fault (Except PyErr (Ret α (L α))) :=
  if step.getD 1 = 0 then .ok (.error .valueError)
  else
    match cSliceCore s (cStart s.count start (step.getD 1)) (cStop s.count stop (step.getD 1)) (step.getD 1) with
    | .error f => .error f
    | .ok l => .ok (.ok (.new l))

/-- tuple_of_wrapper.py:202-217 `concatenate_tuple_or_list`. -/
def cConcat (s r : L α) : Except Fault (Except PyErr (Ret α (L α))) :=
  match preReserved ((s.count + r.count : Nat) : Int) with
  | .error f => .error f
  | .ok out =>
    match fillLoop (fun _ i => elt (read s.cells i)) 0 s.count 0 out.cells with
    | .error f => .error f
    | .ok (m, n, _) =>
      match fillLoop (fun _ i => elt (read r.cells i)) n r.count 0 m with
      | .error f => .error f
      | .ok (m', k, _) => .ok (.ok (.new ⟨n + k, out.reserved, m'⟩))

/-- for_loop_codegen.py:218-244 `rewriteIntiterForLoop` over a list, tuple_of_wrapper.py:429-443: the length is taken once, the
elements are read without a check.  The body gets the element and may change the list. -/
def cForLoop (body : α → L α → Except Fault (L α)) : Nat → Nat → L α → Except Fault (L α)
  | 0, _, s => .ok s
  | n + 1, i, s =>
    match read s.cells i with
    | .error f => .error f
    | .ok v =>
      match body v s with
      | .error f => .error f
      | .ok s' => cForLoop body n (i + 1) s'

def cFor (body : α → L α → Except Fault (L α)) (s : L α) : Except Fault (L α) := cForLoop body s.count 0 s

/-- One compiled call; element arguments are values. -/
def cApply (moves : Bool) (d : α) (s : L α) : Op α → Option (Except Fault (L α × Except PyErr (Ret α (L α))))
  | .append (some v) => some (done (cAppend moves s (.val v)))
  | .extend vs => some (done (cExtend moves vs s))
  | .extendSelf => some (done (cExtendSelf moves false s))
  | .clear => some (done (cClear s))
  | .reserve n => some (done (cReserve s n))
  | .resize n => some (done (cResize s n d))
  | .resizeWith n (some v) => some (done (cResize s n v))
  | .pop i => some (cPop s i)
  | .get i => some (keep s (cGet s i))
  | .set i (some v) => some (cSet s i v)
  | .slice a b c => some (keep s (cSlice s a b c))
  | .concat vs => some (keep s (cConcat s (ofList vs)))
  | .copy =>
    some (keep s (match cCopy s with
      | .error f => .error f
      | .ok l => .ok (.ok (.new l))))
  | _ => none

end Verif.ListOf
