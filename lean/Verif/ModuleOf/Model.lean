import Verif.TypeFn.Spec
/-
Modules of types: /repo/typed_python/module.py `Module`, with `Forward.define` of ForwardType.hpp.

Simplifications: a type is a tree of named constructions over forwards, as for type functions (`TypeFn.Ty`); a forward that is defined stands for
its target wherever it is mentioned.  Members are types.  A type has no attribute `define` unless it is a forward.  Names are upper case if
they begin with one of the letters A to Z.  The test whether a type would contain itself is a parameter.
-/
namespace Verif.ModuleOf

open TypeFn (Ty)

/-- ForwardType.hpp's test whether the target contains the forward. -/
abbrev Contains := (Nat → Option Ty) → Nat → Ty → Bool

/-- The members in the order of the dictionary (module.py:54), whether the module is frozen (55); the forwards that are defined, their number, and
the member that each was made for (63), if it was made by the module. -/
structure State where
  items : List (String × Ty)
  frozen : Bool
  defined : Nat → Option Ty
  forwards : Nat
  owner : Nat → Option String

/-- module.py:53-56 `__init__`. -/
def State.initial : State := ⟨[], false, fun _ => none, 0, fun _ => none⟩

/-- module.py:59, 71: names of members begin with a capital letter. -/
def named (x : String) : Bool := match x.toList with
  | c :: _ => c.isUpper
  | [] => false

/-- Putting an entry into a dictionary. -/
def store (x : String) (t : Ty) : List (String × Ty) → List (String × Ty)
  | [] => [(x, t)]
  | (y, u) :: rest => if x = y then (y, t) :: rest else (y, u) :: store x t rest

/-- ForwardType.hpp:76-82, for at most so many steps. -/
def followN (defined : Nat → Option Ty) : Nat → Ty → Ty
  | 0, t => t
  | n + 1, t => match t with
    | .fwd j => match defined j with
      | some t' => followN defined n t'
      | none => t
    | t => t

/-- ForwardType.hpp:76-82: to the end of a chain of defined forwards, which is not longer than the number of forwards. -/
def follow (s : State) (t : Ty) : Ty := followN s.defined s.forwards t

/-- ForwardType.hpp:71-166 `define`: the target, and the state with the forward defined; `none` is an exception (84-86, 98-105).  A forward that is
defined already is defined again (115). -/
def define (contains : Contains) (s : State) (i : Nat) (t : Ty) : Option (State × Ty) :=
  let target := follow s t
  if target = .fwd i then none
  else if s.defined i = some target then some (s, target)
  else match target with
    | .fwd _ => some ({ s with defined := fun j => if j = i then some target else s.defined j }, target)
    | .con _ _ => if contains s.defined i target then none
      else some ({ s with defined := fun j => if j = i then some target else s.defined j }, target)

/-- module.py:58-64 `__getattr__`. -/
def get (s : State) (x : String) : Option (State × Ty) :=
  if !named x then none
  else match s.items.lookup x with
    | some t => some (s, t)
    | none =>
      some ({ s with
        items := store x (.fwd s.forwards) s.items
        forwards := s.forwards + 1
        owner := fun j => if j = s.forwards then some x else s.owner j }, .fwd s.forwards)

/-- module.py:66-79 `__setattr__`; a type that is no forward has no `define` (79). -/
def set (contains : Contains) (s : State) (x : String) (t : Ty) : Option State :=
  if !named x then none
  else if s.frozen then none
  else match s.items.lookup x with
    | none => some { s with items := store x t s.items }
    | some (.con _ _) => none
    | some (.fwd i) => match define contains s i t with
      | none => none
      | some (s', u) => some { s' with items := store x u s'.items }

def isForward : Ty → Bool
  | .fwd _ => true
  | .con _ _ => false

/-- module.py:85-90 `freeze`. -/
def freeze (s : State) : Option State := if s.items.any fun p => isForward p.2 then none else some { s with frozen := true }

/-- What a program does with a module: read a member, assign to one, define a class (module.py:81-83), freeze; and it may make a forward of its own
or define one itself. -/
inductive Op
  | get (x : String)
  | set (x : String) (t : Ty)
  | define (x : String) (t : Ty)
  | freeze
  | forward
  | resolve (i : Nat) (t : Ty)

/-- One step; an exception changes nothing.  module.py:81-83 `define` is an assignment and a reading. -/
def step (contains : Contains) (s : State) : Op → State
  | .get x => match get s x with
    | some (s', _) => s'
    | none => s
  | .set x t => (set contains s x t).getD s
  | .define x t => match set contains s x t with
    | none => s
    | some s' => match get s' x with
      | some (s'', _) => s''
      | none => s'
  | .freeze => (freeze s).getD s
  | .forward => { s with forwards := s.forwards + 1 }
  | .resolve i t => match define contains s i t with
    | some (s', _) => s'
    | none => s

/-- A history. -/
def run (contains : Contains) (s : State) (ops : List Op) : State := ops.foldl (step contains) s

end Verif.ModuleOf
