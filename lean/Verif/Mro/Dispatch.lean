import Verif.Mro.Model
/-
Virtual method calls of compiled code: the dispatch tables of each class, seen as each of the classes of
its method resolution order, and the threads that call through them while classes are made, slots are
allocated and functions are compiled.
-/
namespace Verif.Mro.Dispatch

/-- A method name with a return type and argument types (`method_call_signature_type`,
HeldClassType.hpp:117-127). -/
abbrev Sig := Nat

/-- A compiled function: instances of `impl`, known as an `iface`, called with the signature `sig`
(class_wrapper.py:1240-1258); `version` tells apart the results of compiling the same thing twice. -/
structure Ptr where
  iface : Nat
  impl : Nat
  sig : Sig
  version : Nat
deriving DecidableEq, Repr

/-- A place in a table of function pointers: what `tp_malloc` left there, null, or a function. -/
inductive Cell where
  | junk
  | null
  | fn (p : Ptr)
deriving DecidableEq, Repr

/-- An array made by `tp_malloc`, which is never freed (HeldClassType.hpp:194-197).  `owner` is the
dispatch table that it was made for (implementing class and interface), which the program does not
know. -/
structure Block where
  owner : Nat × Nat
  cells : List Cell
deriving DecidableEq, Repr

/-- `ClassDispatchTable` (HeldClassType.hpp:129-287).  `arr` is the address of `mFuncPtrs`; the global
queue of pointers that need compiling, which the compiler does not use, is left out. -/
structure Table where
  iface : Nat
  impl : Nat
  /-- `mDispatchIndices` -/
  indices : List (Sig × Nat)
  /-- `mDispatchDefinitions` -/
  defs : List (Nat × Sig)
  /-- `mFuncPtrsUsed` -/
  used : Nat
  /-- `mFuncPtrsAllocated` -/
  alloc : Nat
  arr : Nat
  /-- `mIndicesNeedingDefinition` -/
  needing : List Nat
  /-- `mUpcastDispatches` -/
  upcasts : List Nat
deriving DecidableEq, Repr

/-- The errors of HeldClassType.hpp:201, 213-224, 250, 1008, 1071 and HeldClassType.cpp:428, and a read
or write outside an array. -/
inductive Err where
  | lostTrack | twice | invalidSlot | corrupted | notAncestor | badMroIndex | memory
deriving DecidableEq, Repr

/-- A slot that the compiler was asked to fill, with the signature it looked up. -/
structure Job where
  iface : Nat
  impl : Nat
  slot : Nat
  sig : Sig
deriving DecidableEq, Repr

/-- Where a thread is in a virtual call (class_wrapper.py:1166-1215; the same code is at
class_wrapper.py:1059-1085). -/
inductive Pc where
  /-- about to read `mFuncPtrs`, for the test -/
  | load
  /-- about to read the slot, for the test -/
  | test (arr : Nat)
  /-- the slot was empty: in `np_compileClassDispatch` -/
  | empty
  /-- about to read `mFuncPtrs` again, for the call -/
  | reload
  /-- about to read the slot again, for the call -/
  | jump (arr : Nat)
  | called (p : Ptr)
  /-- compiling raised an exception -/
  | raised
  /-- read outside an array or uninitialized memory, or called null -/
  | crashed
deriving DecidableEq, Repr

/-- A thread in a call of a method with the signature `sig` on an instance of `impl` that it knows as an
`iface`, compiled to use `slot`.  `unwinding` says that an exception is being propagated: the call is
made by a `__del__`. -/
structure Thread where
  impl : Nat
  iface : Nat
  sig : Sig
  slot : Nat
  unwinding : Bool
  pc : Pc
deriving DecidableEq, Repr

/-- Everything.  `tables c k` is `mClassDispatchTables[k]` of class `c`; `implementors` is
`m_implementors`; `compiling` is what the thread holding the runtime's lock (runtime.py:370) compiles;
`installed` is `_installedVMIs` and `delayed` is `_delayedVMIs` (python_to_native_converter.py:72-75). -/
structure State where
  world : World := []
  tables : Nat → Nat → Table := fun _ _ => ⟨0, 0, [], [], 0, 0, 0, [], []⟩
  implementors : Nat → List Nat := fun _ => []
  heap : List Block := []
  compiling : Option Job := none
  installed : List (Nat × Nat × Nat) := []
  delayed : List (Nat × Nat × Nat) := []
  threads : List Thread := []
  err : Option Err := none

/-- The first pair with this key. -/
def lookup {α β : Type} [DecidableEq α] : List (α × β) → α → Option β
  | [], _ => none
  | (x, y) :: rest, k => if x = k then some y else lookup rest k

/-- The position in a list. -/
def indexOf : List Nat → Nat → Option Nat
  | [], _ => none
  | x :: rest, y => if x = y then some 0 else (indexOf rest y).map (· + 1)

/-- `getMroIndex` (HeldClassType.hpp:1051-1066) for classes of which there are no equivalent copies. -/
def mroIndex (w : World) (c i : Nat) : Option Nat := indexOf (w.mroOf c) i

/-- `dispatchTableAs` (HeldClassType.hpp:1068-1075). -/
def tableAs (s : State) (c i : Nat) : Except Err Table :=
  match mroIndex s.world c i with
  | none => .error .notAncestor
  | some k => .ok (s.tables c k)

/-- Writing to the table that `dispatchTableAs` returns. -/
def setTable (s : State) (c i : Nat) (t : Table) : State :=
  match mroIndex s.world c i with
  | none => s
  | some k => { s with tables := fun c' k' => if c' = c ∧ k' = k then t else s.tables c' k' }

/-- `p[k]` for an array `p` of function pointers. -/
def read (h : List Block) (a k : Nat) : Option Cell :=
  match h[a]? with
  | none => none
  | some b => b.cells[k]?

/-- `p[k] = x`; `none` outside the array. -/
def write (h : List Block) (a k : Nat) (x : Cell) : Option (List Block) :=
  match h[a]? with
  | none => none
  | some b => if k < b.cells.length then some (h.set a { b with cells := b.cells.set k x }) else none

/-! ### Making a class -/

/-- `allocateUpcastDispatchTables` (HeldClassType.cpp:421-433): where the classes of the order of the
interface are in the order of the implementing class, in 16 bits. -/
def upcastTable (w : World) (c : Nat) : List Nat → Except Err (List Nat)
  | [] => .ok []
  | j :: rest => match mroIndex w c j with
    | none => .error .badMroIndex
    | some k => match upcastTable w c rest with
      | .error e => .error e
      | .ok l => .ok (k % 65536 :: l)

/-- `ClassDispatchTable::initialize` (HeldClassType.hpp:150-166). -/
def initTable (w : World) (h : List Block) (t base : Table) : Except Err (List Block × Table) :=
  match upcastTable w t.impl (w.mroOf t.iface) with
  | .error e => .error e
  | .ok ups => .ok
    (h ++ [⟨(t.impl, t.iface),
      List.replicate base.used Cell.null ++ List.replicate (base.alloc - base.used) Cell.junk⟩],
     { t with
       indices := base.indices
       defs := base.defs
       used := base.used
       alloc := base.alloc
       arr := h.length
       needing := List.range base.used
       upcasts := ups })

/-- The loop that initializes the tables of a new class (HeldClassType.hpp:954-956). -/
def initTables (s : State) (c : Nat) : List Nat → Except Err State
  | [] => .ok s
  | i :: rest =>
    match tableAs s c i, tableAs s i i with
    | .ok t, .ok base => match initTable s.world s.heap t base with
      | .error e => .error e
      | .ok (h, t') => initTables (setTable { s with heap := h } c i t') c rest
    | _, _ => .error .notAncestor

/-- A class statement: `Make` and the last part of `initializeMRO` (HeldClassType.hpp:936-956).  The
dispatch tables are made empty (HeldClassType.hpp:131-145). -/
def classStmt (s : State) (bases : List Nat) : State :=
  let c := s.world.length
  let w := (declare s.world bases).1
  if w.length = c then s
  else
    let mro := w.mroOf c
    let s1 := { s with
      world := w
      tables := fun c' k => if c' = c then ⟨mro.getD k 0, c, [], [], 0, 0, 0, [], []⟩ else s.tables c' k
      implementors := fun i => if mro.contains i then s.implementors i ++ [c] else s.implementors i }
    match initTables s1 c mro with
    | .ok s2 => s2
    | .error e => { s with err := some e }

/-! ### Slots -/

/-- `ClassDispatchTable::allocateMethodDispatch` (HeldClassType.hpp:168-210). -/
def allocateIn (h : List Block) (t : Table) (sig : Sig) : Except Err (List Block × Table × Nat) :=
  match lookup t.indices sig with
  | some k => .ok (h, t, k)
  | none =>
    let newIndex := t.indices.length
    let indices := t.indices ++ [(sig, newIndex)]
    let grown : Option (List Block × Nat × Nat) :=
      if t.used ≥ t.alloc then
        let n := (t.alloc + 1) * 2
        match h[t.arr]? with
        | none => none
        | some b => some (h ++ [⟨(t.impl, t.iface),
            b.cells.take t.used ++ List.replicate (n - t.used) Cell.junk⟩], h.length, n)
      else some (h, t.arr, t.alloc)
    match grown with
    | none => .error .memory
    | some (h1, arr, alloc) =>
      if t.used + 1 ≠ indices.length then .error .lostTrack
      else match write h1 arr newIndex Cell.null with
        | none => .error .memory
        | some h2 => .ok (h2,
            { t with
              indices := indices
              defs := t.defs ++ [(newIndex, sig)]
              used := t.used + 1
              alloc := alloc
              arr := arr
              needing := newIndex :: t.needing },
            newIndex)

/-- Allocating in the table of `c` as `i`. -/
def allocateAs (s : State) (c i : Nat) (sig : Sig) : Except Err (State × Nat) :=
  match tableAs s c i with
  | .error e => .error e
  | .ok t => match allocateIn s.heap t sig with
    | .error e => .error e
    | .ok (h, t', k) => .ok (setTable { s with heap := h } c i t', k)

/-- The loop over the implementors (HeldClassType.hpp:1006-1010). -/
def allocateInChildren (s : State) (i : Nat) (sig : Sig) (result : Nat) : List Nat → Except Err State
  | [] => .ok s
  | child :: rest => match allocateAs s child i sig with
    | .error e => .error e
    | .ok (s', k) =>
      if result ≠ k then .error .corrupted else allocateInChildren s' i sig result rest

/-- `HeldClass::allocateMethodDispatch` (HeldClassType.hpp:1002-1013), called when a module with the
call is loaded (loaded_module.py:106-114). -/
def allocate (s : State) (i : Nat) (sig : Sig) : Except Err (State × Nat) :=
  match allocateAs s i i sig with
  | .error e => .error e
  | .ok (s', k) => match allocateInChildren s' i sig k (s'.implementors i) with
    | .error e => .error e
    | .ok s'' => .ok (s'', k)

/-! ### Compiling -/

/-- `ClassDispatchTable::define` (HeldClassType.hpp:212-229) of a pointer that is not null. -/
def define (h : List Block) (t : Table) (slot : Nat) (p : Ptr) : Except Err (List Block × Table) :=
  match read h t.arr slot with
  | none => .error .memory
  | some x =>
    if x = .fn p then .ok (h, t)
    else if t.needing.contains slot then
      match write h t.arr slot (.fn p) with
      | none => .error .memory
      | some h' => .ok (h', { t with needing := t.needing.filter (· ≠ slot) })
    else .error .twice

/-- The first part of `compileSingleClassDispatch` (python_to_native_converter.py:503-509): the thread
has the lock of the runtime, and looks up the signature (_types.cpp:474-516, HeldClassType.hpp:247-253)
unless the slot is filled. -/
def beginCompile (s : State) (i c slot : Nat) : State :=
  if s.compiling.isSome then s
  else if s.installed.contains (i, c, slot) then s
  else match tableAs s c i with
    | .error e => { s with err := some e }
    | .ok t => match lookup t.defs slot with
      | none => { s with err := some .invalidSlot }
      | some sig => { s with compiling := some ⟨i, c, slot, sig⟩ }

/-- The last part (python_to_native_converter.py:524-537): the function is compiled for the signature and
installed (_types.cpp:518-552). -/
def finishCompile (s : State) (version : Nat) : State :=
  match s.compiling with
  | none => s
  | some j => match tableAs s j.impl j.iface with
    | .error e => { s with err := some e }
    | .ok t => match define s.heap t j.slot ⟨j.iface, j.impl, j.sig, version⟩ with
      | .error e => { s with err := some e }
      | .ok (h, t') =>
        let s' := setTable { s with heap := h } j.impl j.iface t'
        { s' with compiling := none, installed := (j.iface, j.impl, j.slot) :: s.installed }

/-! ### Threads -/

/-- What a thread finds in its slot of the current array. -/
def current (s : State) (t : Thread) : Option Cell :=
  match tableAs s t.impl t.iface with
  | .error _ => none
  | .ok tab => read s.heap tab.arr t.slot

/-- One access to shared memory by a thread in a virtual call (class_wrapper.py:1166-1178, 1215;
_runtime.cpp:58-106 for an empty slot, after it has been compiled or not).  If the method did not
compile and an exception is being propagated already, `np_compileClassDispatch` returns
(_runtime.cpp:83-87). -/
def advance (s : State) (t : Thread) : Pc :=
  match t.pc with
  | .load => match tableAs s t.impl t.iface with
    | .error _ => .crashed
    | .ok tab => .test tab.arr
  | .test a => match read s.heap a t.slot with
    | some .null => .empty
    | some (.fn _) => .reload
    | _ => .crashed
  | .empty => match current s t with
    | some .null => if t.unwinding then .reload else .raised
    | some (.fn _) => .reload
    | _ => .crashed
  | .reload => match tableAs s t.impl t.iface with
    | .error _ => .crashed
    | .ok tab => .jump tab.arr
  | .jump a => match read s.heap a t.slot with
    | some (.fn p) => .called p
    | _ => .crashed
  | pc => pc

/-- What can happen. -/
inductive Step where
  /-- a class statement -/
  | classStmt (bases : List Nat)
  /-- a module that calls a method of `i` with this signature is loaded -/
  | allocate (i : Nat) (sig : Sig)
  /-- `triggerVirtualMethodInstantiation` for class `c`, as one of its classes -/
  | trigger (c i : Nat) (sig : Sig)
  /-- a delayed instantiation is begun (python_to_native_converter.py:489-495) -/
  | flush
  /-- a thread that found an empty slot begins to compile it (_runtime.cpp:70-81) -/
  | ask (n : Nat)
  /-- what is being compiled is installed -/
  | finish (version : Nat)
  /-- what is being compiled raises an exception -/
  | abandon
  /-- compiled code calls a method of an instance of `c` known as an `i` -/
  | call (c i : Nat) (sig : Sig) (unwinding : Bool)
  /-- thread `n` makes one access to shared memory -/
  | advance (n : Nat)
deriving Repr

/-- A step.  `trigger` is one round of the loop of python_to_native_converter.py:475-487; `call` needs
a module in which the call has a slot. -/
def step (s : State) : Step → State
  | .classStmt bases => classStmt s bases
  | .allocate i sig =>
    if i < s.world.length then match allocate s i sig with
      | .ok (s', _) => s'
      | .error e => { s with err := some e }
    else s
  | .trigger c i sig =>
    if (s.world.mroOf c).contains i then match allocate s i sig with
      | .ok (s', k) => { s' with delayed := s'.delayed ++ [(i, c, k)] }
      | .error e => { s with err := some e }
    else s
  | .flush => match s.delayed with
    | [] => s
    | (i, c, k) :: rest => beginCompile { s with delayed := rest } i c k
  | .ask n => match s.threads[n]? with
    | some t => if t.pc = .empty then beginCompile s t.iface t.impl t.slot else s
    | none => s
  | .finish v => finishCompile s v
  | .abandon => { s with compiling := none }
  | .call c i sig u =>
    if (s.world.mroOf c).contains i then match tableAs s i i with
      | .ok t => match lookup t.indices sig with
        | some k => { s with threads := s.threads ++ [⟨c, i, sig, k, u, .load⟩] }
        | none => s
      | .error _ => s
    else s
  | .advance n => match s.threads[n]? with
    | some t => { s with threads := s.threads.set n { t with pc := advance s t } }
    | none => s

/-- The state after these steps. -/
def run (steps : List Step) : State := steps.foldl step {}

/-! ### Casts -/

/-- The top 16 bits of a pointer to an instance of `c` that is known as an `i`
(ClassType.hpp:67-91, class_wrapper.py:387-411): the number of the dispatch table. -/
abbrev Tag := Nat

/-- `withDispatchIndex` (class_wrapper.py:423-442): casting an instance of `c` with the tag `tag` to the
class number `jx` of the order of the class that it is known as. -/
def upcast (s : State) (c : Nat) (tag : Tag) (jx : Nat) : Option Tag :=
  (s.tables c tag).upcasts[jx]?

/-- `np_classObjectDowncast` (_runtime.cpp:138-154): casting to any class `j` that the instance has.  The
index goes through 16 bits (ClassType.hpp:77). -/
def downcast (s : State) (c j : Nat) : Option Tag :=
  (mroIndex s.world c j).map (· % 65536)

end Verif.Mro.Dispatch
