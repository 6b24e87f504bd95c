/-
C127: typed cells, in the interpreter and in compiled code.
-/
namespace Verif.Cell

abbrev Val := Nat

/-- What is in the memory of a cell: a value, or nothing that may be read (it was never there, or it was destroyed). -/
inductive Slot where
  | alive (v : Val)
  | dead
  deriving DecidableEq, Repr

/-- The layout of a cell, TypedCellType.hpp:25-30; the reference count is not modelled. -/
structure Cell where
  initialized : Bool
  data : Slot
  deriving DecidableEq, Repr

/-- What an operation gives. -/
inductive Res where
  | done
  | value (v : Val)
  | bool (b : Bool)
  /-- `RuntimeError`: the cell is empty. -/
  | empty
  /-- The value cannot be converted. -/
  | conversion
  /-- What was destroyed is read. -/
  | readsDead
  /-- What was destroyed is destroyed again. -/
  | destroysDead
  deriving DecidableEq, Repr

/-- TypedCellType.hpp:182-190 `initializeHandleAt`, and `convert_default_initialize` at typed_cell_wrapper.py:59-71. -/
def new : Cell := ⟨false, .dead⟩

/-- Destroying what is in a cell: `none` if it has been destroyed before.  What is plain memory stays. -/
def destroy (pod : Bool) : Slot → Option Slot
  | s => if pod then some s else match s with
    | .alive _ => some .dead
    | .dead => none

/-- Reading what is in a cell; memory that was never written is dead for plain types too. -/
def read : Slot → Res
  | .alive v => .value v
  | .dead => .readsDead

/-- TypedCellType.hpp:226-231 `clear`. -/
def clear (pod : Bool) (c : Cell) : Cell × Res :=
  if c.initialized then match destroy pod c.data with
    | some s => (⟨false, s⟩, .done)
    | none => (c, .destroysDead)
  else (c, .done)

/-- TypedCellType.hpp:217-224 `set`, called at PyTypedCellInstance.hpp:56-67; `none` is a value that cannot be converted. -/
def set (pod : Bool) (c : Cell) (v : Option Val) : Cell × Res :=
  match clear pod c with
  | (c, .done) => match v with
    | some v => (⟨true, .alive v⟩, .done)
    | none => (c, .conversion)
  | r => r

/-- PyTypedCellInstance.hpp:98-118 `get`. -/
def get (c : Cell) : Res := if !c.initialized then .empty else read c.data

/-- typed_cell_wrapper.py:146-148: `destroyUnsafe` does not change whether the cell is initialized. -/
def destroyUnsafe (pod : Bool) (c : Cell) : Cell × Res :=
  match destroy pod c.data with
  | some s => ({ c with data := s }, .done)
  | none => (c, .destroysDead)

/-- typed_cell_wrapper.py:137-144: `initializeUnsafe`. -/
def initializeUnsafe (c : Cell) : Option Val → Cell × Res
  | some v => (⟨true, .alive v⟩, .done)
  | none => (c, .conversion)

/-- typed_cell_wrapper.py:28-31 `cell_get`. -/
def getCompiled (c : Cell) : Res := if !c.initialized then .empty else read c.data

/-- typed_cell_wrapper.py:34-38 `cell_set`. -/
def setCompiled (pod : Bool) (c : Cell) (v : Option Val) : Cell × Res :=
  if c.initialized then match destroyUnsafe pod c with
    | (c, .done) => initializeUnsafe c v
    | r => r
  else initializeUnsafe c v

/-- typed_cell_wrapper.py:41-43 `cell_clear`. -/
def clearCompiled (pod : Bool) (c : Cell) : Cell × Res :=
  if c.initialized then destroyUnsafe pod c else (c, .done)

/-- An operation on a cell. -/
inductive Op where
  | set (v : Option Val)
  | clear
  | get
  | isSet
  deriving DecidableEq, Repr

/-- One operation, in compiled code or in the interpreter; `isSet` is PyTypedCellInstance.hpp:85-96 and typed_cell_wrapper.py:127-128. -/
def step (pod : Bool) (c : Cell) : Bool × Op → Cell × Res
  | (false, .set v) => set pod c v
  | (false, .clear) => clear pod c
  | (false, .get) => (c, get c)
  | (true, .set v) => setCompiled pod c v
  | (true, .clear) => clearCompiled pod c
  | (true, .get) => (c, getCompiled c)
  | (_, .isSet) => (c, .bool c.initialized)

/-- A history: for each operation whether it is compiled. -/
def run (pod : Bool) : Cell → List (Bool × Op) → List Res
  | _, [] => []
  | c, op :: ops => (step pod c op).2 :: run pod (step pod c op).1 ops

inductive Cmp where
  | eq | ne | lt | le | gt | ge
  deriving DecidableEq, Repr

/-- TypedCellType.hpp:167-180 `cmp`, where `same` says whether it is the same cell; `none` is an exception. -/
def cmp (same : Bool) (op : Cmp) (suppress : Bool) : Option Bool :=
  if op = .eq then some same
  else if op ≠ .ne then some same
  else if suppress then some false
  else none

end Verif.Cell
