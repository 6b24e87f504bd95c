/-
Types and their merge: a model of /repo/typed_python/compiler/merge_type_wrappers.py, and of
`FunctionStackState` in /repo/typed_python/compiler/function_stack_state.py.

A type is the list of its alternatives: `[a]` is the type `a` itself and a longer list is
`OneOf(a, b, ...)`, which is how the code reads it (merge_type_wrappers.py:97-99).
-/
namespace Verif.Flow

/-- A literal that can be the content of a `Value(...)` type. The text of a string, the digits of a
float and the content of a bytes object are represented by a number; only equality matters here. -/
inductive Const where
  | int (i : Int)
  | bool (b : Bool)
  | float (k : Nat)
  | str (k : Nat)
  | bytes (k : Nat)
  deriving DecidableEq, Repr

/-- A type that is not a `OneOf`. `cls c` is a `Class` (or an exception class), `const c` is
`Value(c)`, `other k` any other type (`ListOf(int)`, ...), which has no subclasses. -/
inductive Atom where
  | int | float | bool | str | bytes | none | object
  | cls (c : Nat)
  | const (c : Const)
  | other (k : Nat)
  deriving DecidableEq, Repr

/-- A value a variable can hold. -/
inductive Val where
  | prim (c : Const)
  | none
  | inst (c : Nat) (id : Nat)
  | other (k : Nat) (id : Nat)
  deriving DecidableEq, Repr

/-- The class hierarchy: `sub c d` when `c` is `d` or a subclass of it. -/
structure Hier where
  sub : Nat → Nat → Bool
  refl : ∀ c, sub c c = true
  trans : ∀ a b c, sub a b = true → sub b c = true → sub a c = true

/-- A type: the list of its alternatives. -/
abbrev Ty := List Atom

/-- The values a type describes. A typed_python `int` variable holds integers only: a bool is a
value of `bool`, not of `int` (they have different representations). -/
def inAtom (H : Hier) (v : Val) : Atom → Bool
  | .int => match v with | .prim (.int _) => true | _ => false
  | .float => match v with | .prim (.float _) => true | _ => false
  | .bool => match v with | .prim (.bool _) => true | _ => false
  | .str => match v with | .prim (.str _) => true | _ => false
  | .bytes => match v with | .prim (.bytes _) => true | _ => false
  | .none => v == .none
  | .object => true
  | .cls c => match v with | .inst d _ => H.sub d c | _ => false
  | .const k => v == .prim k
  | .other k => match v with | .other j _ => j == k | _ => false

def inTy (H : Hier) (v : Val) (t : Ty) : Bool := t.any (inAtom H v)

/-- Python's `isinstance(v, T)`: in Python, `bool` is a subclass of `int`. -/
def pyIsInst (H : Hier) (v : Val) (a : Atom) : Bool :=
  inAtom H v a || (a == .int && inAtom H v .bool)

/-- merge_type_wrappers.py:70-84 `typeSubsumes(bigType, smallType)` -/
def typeSubsumes (H : Hier) (big small : Atom) : Bool :=
  big == small
  || big == .object
  || (match small, big with | .cls c, .cls d => H.sub c d | _, _ => false)
  || (match small with | .const k => pyIsInst H (.prim k) big | _ => false)

/-- merge_type_wrappers.py:102-111: the scan over the types collected so far when `t` is added.
Returns the types left and `shouldAdd`. -/
def addScan (H : Hier) (t : Atom) : List Atom → List Atom × Bool
  | [] => ([], true)
  | a :: rest =>
    if typeSubsumes H a t then (a :: rest, false)
    else if typeSubsumes H t a then addScan H t rest
    else
      let r := addScan H t rest
      (a :: r.1, r.2)

/-- merge_type_wrappers.py:101-114 -/
def addType (H : Hier) (types : List Atom) (t : Atom) : List Atom :=
  let r := addScan H t types
  if r.2 then r.1 ++ [t] else r.1

/-- merge_type_wrappers.py:87-88 `typeSortKey`: literals first, then by name. The printed name is
represented by a number that differs for different types. -/
def typeSortKey : Atom → Nat × Nat × Nat
  | .const (.int i) => (0, 0, 2 * i.natAbs + (if i < 0 then 1 else 0))
  | .const (.bool b) => (0, 1, if b then 1 else 0)
  | .const (.float k) => (0, 2, k)
  | .const (.str k) => (0, 3, k)
  | .const (.bytes k) => (0, 4, k)
  | .bool => (1, 0, 0)
  | .bytes => (1, 1, 0)
  | .float => (1, 2, 0)
  | .int => (1, 3, 0)
  | .none => (1, 4, 0)
  | .object => (1, 5, 0)
  | .str => (1, 6, 0)
  | .cls c => (1, 7, c)
  | .other k => (1, 8, k)

def keyLe (a b : Nat × Nat × Nat) : Bool :=
  a.1 < b.1 || (a.1 == b.1 && (a.2.1 < b.2.1 || (a.2.1 == b.2.1 && a.2.2 ≤ b.2.2)))

/-- merge_type_wrappers.py:121 `sorted(types, key=typeSortKey)`: one insertion -/
def insertType (t : Atom) : List Atom → List Atom
  | [] => [t]
  | a :: rest =>
    if keyLe (typeSortKey t) (typeSortKey a) then t :: a :: rest else a :: insertType t rest

/-- merge_type_wrappers.py:121 -/
def sortTypes : List Atom → List Atom
  | [] => []
  | a :: rest => insertType a (sortTypes rest)

/-- merge_type_wrappers.py:91-121 `_mergeTypeWrappers` -/
def mergeAll (H : Hier) (ts : List Ty) : Ty :=
  let types := ts.flatten.foldl (addType H) []
  if types.length = 1 then types else sortTypes types

/-- merge_type_wrappers.py:14-29 `mergeTypes` with :32-67 `mergeTypeWrappers`, on a list of types
some of which may be `None`. The cache of line 62 is not modelled: it only remembers results. -/
def mergeTypes (H : Hier) (types : List (Option Ty)) : Option Ty :=
  match types.filterMap id with
  | [] => none
  | [t] => some t
  | [a, b] => if a = b then some a else some (mergeAll H [a, b])
  | ts => some (mergeAll H ts)

/-- function_stack_state.py:17-26: what is known about the variables of a function, of which there
are `n`. `types` is the dict `_types` (`none`: not a key; `some none`: the key maps to `None`) and
`maybe` the set `_maybeUninitialized`. -/
structure VS (n : Nat) where
  types : Fin n → Option (Option Ty)
  maybe : Fin n → Bool

variable {n : Nat}

/-- function_stack_state.py:34-35 -/
def VS.defInit (A : VS n) (x : Fin n) : Bool := (A.types x).isSome && !A.maybe x

/-- function_stack_state.py:59-60 -/
def VS.current (A : VS n) (x : Fin n) : Option Ty := (A.types x).join

/-- function_stack_state.py:47-50 `variableAssigned` -/
def VS.assigned (A : VS n) (x : Fin n) (t : Ty) : VS n :=
  { types := fun y => if y = x then some (some t) else A.types y
    maybe := fun y => if y = x then false else A.maybe y }

/-- function_stack_state.py:52-54 `markVariableStateUnknown` -/
def VS.unknown (A : VS n) (x : Fin n) (t : Ty) : VS n :=
  { types := fun y => if y = x then some (some t) else A.types y
    maybe := fun y => if y = x then true else A.maybe y }

/-- function_stack_state.py:56-57 `variableUninitialized` -/
def VS.uninit (A : VS n) (x : Fin n) : VS n :=
  { A with maybe := fun y => if y = x then true else A.maybe y }

/-- function_stack_state.py:102-117: the merge of two states that are both reached. A name in
neither state stays unknown; for any other name the types are merged, and it may be uninitialised
unless both states have it initialised. -/
def VS.merge2 (H : Hier) (L R : VS n) : VS n :=
  { types := fun x =>
      if (L.types x).isSome || (R.types x).isSome || L.maybe x || R.maybe x
      then some (mergeTypes H [L.current x, R.current x]) else none
    maybe := fun x =>
      if (L.types x).isSome || (R.types x).isSome || L.maybe x || R.maybe x
      then L.maybe x || R.maybe x || !((L.types x).isSome && (R.types x).isSome) else false }

/-- function_stack_state.py:78-117 `becomeMerge(left, right)`: `None` is a path that is not reached -/
def VS.becomeMerge (H : Hier) : Option (VS n) → Option (VS n) → VS n
  | none, none => { types := fun _ => none, maybe := fun _ => false }
  | none, some R => R
  | some L, none => L
  | some L, some R => L.merge2 H R

/-- function_stack_state.py:65-76 `becomeMergeOf` -/
def VS.becomeMergeOf (H : Hier) : VS n → List (VS n) → VS n
  | A, [] => A
  | A, B :: rest => VS.becomeMergeOf H (VS.becomeMerge H (some A) (some B)) rest

/-- function_stack_state.py:4-14 `removeTypeFrom`: only a `OneOf` loses an alternative -/
def removeTypeFrom (H : Hier) (t : Ty) (toRemove : Atom) : Option Ty :=
  if t.length = 1 then some t
  else
    match t.filter (· ≠ toRemove) with
    | [] => none
    | [a] => some [a]
    | ts => mergeTypes H (ts.map (fun a => some [a]))

/-- function_stack_state.py:122-133 `restrictTypeFor` -/
def VS.restrict (H : Hier) (A : VS n) (x : Fin n) (toType : Atom) (should : Bool) : VS n :=
  match A.types x with
  | none => A
  | some cur =>
    if should then { A with types := fun y => if y = x then some (some [toType]) else A.types y }
    else
      match cur with
      | none => A
      | some t =>
        match removeTypeFrom H t toType with
        | none => A
        | some t' => { A with types := fun y => if y = x then some (some t') else A.types y }

/-- function_stack_state.py:135-139 `__eq__` -/
def VS.eqv (A B : VS n) : Bool :=
  decide (∀ x, A.types x = B.types x) && decide (∀ x, A.maybe x = B.maybe x)

end Verif.Flow
