import Verif.Common
/-
Model of the member storage of classes: /repo/typed_python/HeldClassType.cpp 244-395, HeldClassType.hpp 565-590 and
658-660, and the attribute guards of /repo/typed_python/PyClassInstance.cpp 193-242.

Simplifications: a member value is a natural number standing for an owned reference; a member's storage is `some v`
while a value is constructed there and `none` while it is raw memory.  What C++ leaves undefined becomes visible:
destroying or assigning onto raw memory is an error, and constructing on top of a constructed value records the old
value in `leaked`.  `__del__` and user-defined `__setattr__` are not modelled.
-/
namespace Verif.HeldClass

/-- How a member starts out in a fresh instance: HeldClassType.cpp 277-286.  `value v`: a declared default;
`construct v`: a default-constructible, non-Class type (or a nonempty member); `empty`: uninitialised. -/
inductive Start
  | value (v : Nat)
  | construct (v : Nat)
  | empty
  deriving DecidableEq, Repr

/-- A member of the class: whether it was declared `nonempty` (then it has no initialisation flag) and how it starts. -/
structure Member where
  nonempty : Bool
  start : Start
  deriving DecidableEq, Repr

/-- The members of a class, in order. -/
abbrev ClassDef := List Member

/-- The bytes of an instance: initialisation bits (one byte per eight members) and the members' storage. -/
structure Inst where
  bits : List Nat
  store : List (Option Nat)
  leaked : List Nat
  deriving DecidableEq, Repr

/-- Failures.  `undefined` marks behaviour C++ does not define. -/
inductive Err
  | undefined
  | cannotDelete
  | notInitialized
  | notDefaultConstructible
  deriving DecidableEq, Repr

/-- HeldClassType.hpp 658-660, `fieldGuaranteedInitialized`. -/
def guaranteed (d : ClassDef) (k : Nat) : Bool := (d[k]?.map Member.nonempty).getD false

/-- HeldClassType.cpp 370-372: the bit of member `k`. -/
def rawCheck (bits : List Nat) (k : Nat) : Bool := ((bits.getD (k / 8) 0) &&& (1 <<< (k % 8))) != 0

/-- HeldClassType.cpp 380-383. -/
def rawSet (bits : List Nat) (k : Nat) : List Nat := bits.set (k / 8) ((bits.getD (k / 8) 0) ||| (1 <<< (k % 8)))

/-- HeldClassType.cpp 391-394 (`~mask` on a byte is `255 - mask`). -/
def rawClear (bits : List Nat) (k : Nat) : List Nat := bits.set (k / 8) ((bits.getD (k / 8) 0) &&& (255 - (1 <<< (k % 8))))

/-- HeldClassType.cpp 365-373, `checkInitializationFlag`. -/
def check (d : ClassDef) (i : Inst) (k : Nat) : Bool := if guaranteed d k then true else rawCheck i.bits k

/-- HeldClassType.cpp 375-384, `setInitializationFlag`. -/
def setFlag (d : ClassDef) (i : Inst) (k : Nat) : Inst := if guaranteed d k then i else { i with bits := rawSet i.bits k }

/-- HeldClassType.cpp 386-395, `clearInitializationFlag`. -/
def clearFlag (d : ClassDef) (i : Inst) (k : Nat) : Inst := if guaranteed d k then i else { i with bits := rawClear i.bits k }

/-- The value constructed in the storage of member `k`. -/
def cell (i : Inst) (k : Nat) : Option Nat := (i.store[k]?).getD none

/-- Copy-construct `v` in member `k`; whatever was constructed there is lost. -/
def construct (i : Inst) (k v : Nat) : Inst :=
  { i with store := i.store.set k (some v), leaked := (match cell i k with | some o => o :: i.leaked | none => i.leaked) }

/-- Assign `v` to the constructed member `k` (the old reference is released). -/
def assignCell (i : Inst) (k v : Nat) : Except Err Inst :=
  match cell i k with
  | some _ => .ok { i with store := i.store.set k (some v) }
  | none => .error .undefined

/-- Destroy the constructed member `k`. -/
def destroyCell (i : Inst) (k : Nat) : Except Err Inst :=
  match cell i k with
  | some _ => .ok { i with store := i.store.set k none }
  | none => .error .undefined

/-- HeldClassType.cpp 253-267, `setAttribute`. -/
def setAttribute (d : ClassDef) (i : Inst) (k v : Nat) : Except Err Inst :=
  if check d i k then assignCell i k v else .ok (setFlag d (construct i k v) k)

/-- HeldClassType.cpp 244-251, `delAttribute`. -/
def delAttribute (d : ClassDef) (i : Inst) (k : Nat) : Except Err Inst :=
  if check d i k then
    match destroyCell i k with
    | .error e => .error e
    | .ok i1 => .ok (clearFlag d i1 k)
  else .ok i

/-- PyClassInstance.cpp 193-214: `del x.attr`. -/
def pyDelAttr (d : ClassDef) (i : Inst) (k : Nat) : Except Err Inst :=
  if guaranteed d k then .error .cannotDelete
  else if check d i k = false then .error .notInitialized
  else delAttribute d i k

/-- Reading `x.attr`: the stored value when the flag says it is there (PyClassInstance.cpp, `tp_getattro_concrete`). -/
def pyGetAttr (d : ClassDef) (i : Inst) (k : Nat) : Except Err Nat :=
  if check d i k = false then .error .notInitialized
  else match cell i k with
    | some v => .ok v
    | none => .error .undefined

/-- Apply a per-member step to a list of members, in order. -/
def each (f : Inst → Nat → Except Err Inst) : Inst → List Nat → Except Err Inst
  | i, [] => .ok i
  | i, k :: ks =>
    match f i k with
    | .error e => .error e
    | .ok i1 => each f i1 ks

/-- One member of HeldClassType.cpp 274-287. -/
def constructStep (d : ClassDef) (i : Inst) (k : Nat) : Except Err Inst :=
  match d[k]? with
  | none => .ok i
  | some m =>
    match m.start with
    | .value v => .ok (setFlag d (construct i k v) k)
    | .construct v => .ok (setFlag d (construct i k v) k)
    | .empty => .ok (clearFlag d i k)

/-- HeldClassType.cpp 269-288, `constructor`, on raw memory holding any bits. -/
def constructor (d : ClassDef) (garbage : List Nat) : Except Err Inst :=
  each (constructStep d) ⟨garbage, List.replicate d.length none, []⟩ (List.range d.length)

/-- One member of HeldClassType.cpp 327-332. -/
def destroyStep (d : ClassDef) (i : Inst) (k : Nat) : Except Err Inst :=
  if check d i k then destroyCell i k else .ok i

/-- HeldClassType.cpp 327-332: the member loop of `destroy`, last member first. -/
def destroy (d : ClassDef) (i : Inst) : Except Err Inst := each (destroyStep d) i (List.range d.length).reverse

/-- One member of HeldClassType.cpp 336-344. -/
def copyStep (d : ClassDef) (other : Inst) (i : Inst) (k : Nat) : Except Err Inst :=
  if check d other k then
    match cell other k with
    | some v => .ok (setFlag d (construct i k v) k)
    | none => .error .undefined
  else .ok (clearFlag d i k)

/-- HeldClassType.cpp 335-345, `copy_constructor`, into raw memory holding any bits. -/
def copyConstructor (d : ClassDef) (garbage : List Nat) (other : Inst) : Except Err Inst :=
  each (copyStep d other) ⟨garbage, List.replicate d.length none, []⟩ (List.range d.length).reverse

/-- One member of HeldClassType.cpp 348-362.  In the third case the code clears the flag it should set. -/
def assignStep (d : ClassDef) (other : Inst) (i : Inst) (k : Nat) : Except Err Inst :=
  if check d i k && check d other k then
    match cell other k with
    | some v => assignCell i k v
    | none => .error .undefined
  else if check d i k && !check d other k then
    match destroyCell i k with
    | .error e => .error e
    | .ok i1 => .ok (clearFlag d i1 k)
  else if !check d i k && check d other k then
    match cell other k with
    | some v => .ok (clearFlag d (construct i k v) k)
    | none => .error .undefined
  else .ok i

/-- HeldClassType.cpp 347-363, `assign`. -/
def assign (d : ClassDef) (i other : Inst) : Except Err Inst :=
  each (assignStep d other) i (List.range d.length).reverse

/-- One member of HeldClassType.hpp 570-579 (the deep copy of the member's value is taken as `dup`). -/
def deepcopyStep (d : ClassDef) (dup : Nat → Nat) (other : Inst) (i : Inst) (k : Nat) : Except Err Inst :=
  if check d other k then
    match cell other k with
    | some v => .ok (setFlag d (construct i k (dup v)) k)
    | none => .error .undefined
  else .ok i

/-- HeldClassType.hpp 565-580, `deepcopyConcrete`, into slab memory holding any bits. -/
def deepcopy (d : ClassDef) (dup : Nat → Nat) (garbage : List Nat) (other : Inst) : Except Err Inst :=
  each (deepcopyStep d dup other) ⟨garbage, List.replicate d.length none, []⟩ (List.range d.length)

end Verif.HeldClass
