/-
Model of the typed_python memory layer: the bump allocator behind `deepcopyContiguous`
(/repo/typed_python/Slab.hpp, Slab.cpp) and the header-carrying free-store allocator
(/repo/typed_python/Memory.hpp, Memory.cpp).

Simplifications, all of them stated once here:
* `A` stands for `sizeof(std::max_align_t)` (32 with GCC on x86-64, 16 elsewhere); every theorem is for any `A > 0`.
* Addresses inside a slab are offsets from `mSlabData`; sizes are unbounded naturals (no 2^64 wrap-around).
* Object contents are not modelled, only the extents that are handed out.
* `mTrackAllocTypes` is taken to be on in `free` (it is what makes a double free an exception); with it off `free` is
  just `decref`, which is the same on histories that never free twice.
-/
namespace Verif.Slab

/-- Failures of the memory layer.  `oom`: Slab.hpp 193 ("Slab ran out of data."); `unknownAlloc`, `doubleFree`:
Slab.cpp 14-22; `useAfterDelete` marks a call on a slab that `delete this` has already destroyed (undefined
behaviour in C++, made visible here). -/
inductive Err
  | oom
  | unknownAlloc
  | doubleFree
  | useAfterDelete
  deriving DecidableEq, Repr

/-- /repo/typed_python/Memory.hpp 53-63, `bytesRequiredForAllocation`. -/
def bytesRequired (A s : Nat) : Nat :=
  if s = 0 then 0
  else if s % A ≠ 0 then (s + (A - s % A)) + A
  else s + A

/-- One allocation handed out by a slab: where its header starts, the pointer returned, and the bytes asked for. -/
structure Block where
  header : Nat
  user : Nat
  bytes : Nat
  deriving DecidableEq, Repr

/-- /repo/typed_python/Slab.hpp 57-92: `mSlabBytecount`, `mAllocationPoint - mSlabData`, `mRefcount`, `mAllocs`
(with the requested size), `mAliveAllocs`; `deleted` records that `delete this` ran (line 155). -/
structure Slab where
  size : Nat
  point : Nat
  refcount : Nat
  allocs : List Block
  alive : List Nat
  deleted : Bool
  deriving DecidableEq, Repr

/-- /repo/typed_python/Slab.hpp 69-74: slabs of more than 128 KiB are mapped and rounded up to whole pages. -/
def mappedSize (pageSize slabSize : Nat) : Nat :=
  if slabSize > 1024 * 128 then
    (if slabSize % pageSize ≠ 0 then slabSize + (pageSize - slabSize % pageSize) else slabSize)
  else slabSize

/-- /repo/typed_python/Slab.hpp 59-92, the constructor for `isFreeStoreSlab = false`. -/
def new (pageSize slabSize : Nat) : Slab :=
  { size := mappedSize pageSize slabSize, point := 0, refcount := 1, allocs := [], alive := [], deleted := false }

/-- /repo/typed_python/Slab.hpp 188-190: round the request up to a multiple of the alignment. -/
def roundUp (A bytes : Nat) : Nat :=
  if bytes % A ≠ 0 then bytes + A - bytes % A else bytes

/-- /repo/typed_python/Slab.hpp 180-207, `Slab::allocate` on a slab that is not the free store.  `none` is the null
pointer. -/
def allocate (A : Nat) (s : Slab) (bytes : Nat) : Except Err (Option Nat × Slab) :=
  if s.deleted then .error .useAfterDelete
  else if bytes = 0 then .ok (none, s)
  else if s.point + roundUp A bytes > s.size then .error .oom
  else .ok (some (s.point + A),
    { s with
        refcount := s.refcount + 1
        allocs := s.allocs ++ [⟨s.point, s.point + A, bytes⟩]
        alive := s.alive ++ [s.point + A]
        point := s.point + (roundUp A bytes + A) })

/-- /repo/typed_python/Slab.hpp 146-157, `decref`. -/
def decref (s : Slab) : Slab :=
  if s.refcount = 1 then { s with refcount := s.refcount - 1, deleted := true }
  else { s with refcount := s.refcount - 1 }

/-- /repo/typed_python/Slab.cpp 5-30, `Slab::free` with allocation tracking. -/
def free (s : Slab) (p : Nat) : Except Err Slab :=
  if s.deleted then .error .useAfterDelete
  else if (s.allocs.map Block.user).contains p = false then .error .unknownAlloc
  else if s.alive.contains p = false then .error .doubleFree
  else .ok (decref { s with alive := s.alive.erase p })

/-- /repo/typed_python/Slab.hpp 171-173, `getAllocated`. -/
def getAllocated (s : Slab) : Nat := s.point

/-- A run of allocations, stopping at the first failure (the deep copier never frees). -/
def allocAll (A : Nat) : Slab → List Nat → Except Err (List (Option Nat) × Slab)
  | s, [] => .ok ([], s)
  | s, n :: ns =>
    match allocate A s n with
    | .error e => .error e
    | .ok (p, s') =>
      match allocAll A s' ns with
      | .error e => .error e
      | .ok (ps, s'') => .ok (p :: ps, s'')

/-- A caller's step on a slab: allocate, free one of the pointers, or drop the owner's reference
(/repo/typed_python/_types.cpp 1706, `slab->decref()`). -/
inductive Op
  | alloc (bytes : Nat)
  | free (p : Nat)
  deriving DecidableEq, Repr

/-- One step; a step that throws leaves the slab as it was. -/
def step (A : Nat) (s : Slab) : Op → Slab
  | .alloc n => match allocate A s n with
    | .ok (_, s') => s'
    | .error _ => s
  | .free p => match free s p with
    | .ok s' => s'
    | .error _ => s

/-! ### The free store (Memory.cpp) -/

/-- What a header word says: a free-store block of some size (negative word) or a pointer to a slab. -/
inductive Header
  | store (size : Nat)
  | slab
  deriving DecidableEq, Repr

/-- The process heap as the memory layer sees it: the header in front of each live pointer, the byte counter
(`tpBytesAllocatedOnFreeStore`, Memory.hpp 46-49; kept as an integer, the C++ counter is modulo 2^64) and, for slab
blocks, how many slab frees were issued.  Fresh pointers come from the argument of the operation (`malloc` may return
anything not live). -/
structure Store where
  live : List (Nat × Header)
  counter : Int
  slabFrees : List Nat
  deriving Repr

/-- The header word in front of `p` (Memory.cpp 27-29, 51-53). -/
def header? (st : Store) (p : Nat) : Option Header := st.live.lookup p

/-- /repo/typed_python/Memory.cpp 8-20, `tp_malloc`; `fresh` is what `malloc` returned, past the header. -/
def tpMalloc (A : Nat) (st : Store) (fresh s : Nat) : Option Nat × Store :=
  if s = 0 then (none, st)
  else (some fresh, { st with live := (fresh, .store s) :: st.live, counter := st.counter + ((s : Int) + A) })

/-- Forget a pointer (the effect of `free`/`realloc` moving a block). -/
def dropPtr (st : Store) (p : Nat) : Store := { st with live := st.live.filter (fun x => x.1 != p) }

/-- /repo/typed_python/Memory.cpp 22-39, `tp_free`.  `none` = use of a pointer with no header (undefined behaviour). -/
def tpFree (A : Nat) (st : Store) : Option Nat → Option Store
  | none => some st
  | some p =>
    match header? st p with
    | none => none
    | some (.store s) => some { dropPtr st p with counter := st.counter + (-(s : Int) - A) }
    | some .slab => some { dropPtr st p with slabFrees := p :: st.slabFrees }

/-- /repo/typed_python/Memory.cpp 41-72, `tp_realloc`; `fresh` is where `realloc`/`malloc` put the block. -/
def tpRealloc (A : Nat) (st : Store) (fresh : Nat) (ptr : Option Nat) (oldSize newSize : Nat) :
    Option (Option Nat × Store) :=
  match ptr with
  | none => some (tpMalloc A st fresh newSize)
  | some p =>
    if newSize = 0 then (tpFree A st (some p)).map (fun st' => (none, st'))
    else
      match header? st p with
      | none => none
      | some (.store _) =>
        let st1 := dropPtr st p
        some (some fresh, { st1 with live := (fresh, .store newSize) :: st1.live,
                                     counter := st.counter + ((newSize : Int) - oldSize) })
      | some .slab =>
        let r := tpMalloc A st fresh newSize
        some (r.1, { dropPtr r.2 p with slabFrees := p :: st.slabFrees })

end Verif.Slab
