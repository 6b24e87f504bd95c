/-
What type the result of a method call has: the interpreter's check of an overriding method against the methods that it overrides
(PyFunctionInstance.cpp), the question whether one type is trivially another (Type.cpp), and the type that the compiler expects
(compiler/type_wrappers/function_signature_calculator.py).
-/
namespace Verif.Returns

/-! ### Types -/

/-- A type that is not a OneOf: a type with a name (classes among them), the type of one value (number `k`, an instance of the type `c`), the
type of the subclasses of a class. -/
inductive Atom where
  | named (c : Nat)
  | value (k c : Nat)
  | subclassOf (c : Nat)
deriving DecidableEq, Repr

/-- OneOfType.cpp:159-175: the alternatives of a OneOf are never OneOfs themselves. -/
inductive Ty where
  | atom (a : Atom)
  | oneOf (ts : List Atom)
deriving DecidableEq, Repr

/-- Type.cpp:248-269 `canConvertToTrivially` between types that are not OneOf; `sub` is Type.hpp:619-631 `isSubclassOf` of the types with names.
The four tests are made in the order of the code: the same type, a subclass, a value by its type, subclasses by their class. -/
def trivialAtom (sub : Nat → Nat → Bool) (a b : Atom) : Bool :=
  if a = b then true
  else match a, b with
    | .named c, .named d => sub c d
    | .value _ c, .named d => c = d || sub c d
    | .subclassOf c, .subclassOf d => sub c d
    | .subclassOf c, .named d => sub c d
    | _, _ => false

/-- Type.cpp:248-289 `canConvertToTrivially`.  Values (257-259) and subclasses (267-269) return before OneOf is looked at (271-286), and the
loop over the alternatives of the first OneOf ends in its first round (277). -/
def trivial (sub : Nat → Nat → Bool) (a b : Ty) : Bool :=
  if a = b then true
  else match a, b with
    | .atom a, .atom b => trivialAtom sub a b
    | .atom (.named c), .oneOf bs => bs.any (trivialAtom sub (.named c))
    | .atom (.value _ c), .oneOf bs => bs.any (trivialAtom sub (.named c))
    | .atom (.subclassOf _), .oneOf _ => false
    | .oneOf (.named c :: _), .oneOf bs => bs.any (trivialAtom sub (.named c))
    | .oneOf (.value _ c :: _), .oneOf bs => bs.any (trivialAtom sub (.named c))
    | .oneOf _, _ => false

/-! ### Overloads -/

/-- compiler/conversion_level.py:53-61 `functionConversionSequence` and PyFunctionInstance.cpp:281-287: the levels that a call is tried at. -/
inductive Level where
  | signature | upcast | upcastContainers | implicit | implicitContainers
deriving DecidableEq, Repr

def levels : List Level := [.signature, .upcast, .upcastContainers, .implicit, .implicitContainers]

/-- function_signature_calculator.py:107-110: what is known before the call. -/
inductive Tri where
  | no | maybe | yes
deriving DecidableEq, Repr

/-- function_signature_calculator.py:481-547 `singleReturnTypeFor`: what is known of the type that one overload states. -/
inductive Single where
  | unspecified
  | cannot
  | type (t : Ty)
deriving DecidableEq, Repr

/-- An overload, for one call.  `known` and `couldMatch` (function_signature_calculator.py:104-144 `overloadMatchesSignature`) are computed from
the types of the arguments; `stated` (PyFunctionInstance.cpp:194-228 `getOverloadReturnType`) and `matched` (290-298) from the arguments
themselves.  Signature functions that raise are left out. -/
structure Overload where
  known : Single
  couldMatch : Level → Tri
  stated : Option Ty
  matched : Level → Bool

/-- The overloads of one class; function_signature_calculator.py:161-167 and PyFunctionInstance.cpp:262-268. -/
abbrev Block := List Overload

/-! ### The interpreter -/

/-- PyFunctionInstance.cpp:281-312: the first overload of a class that matches, at the strictest level. -/
def firstMatch (b : Block) : Option Overload := levels.findSome? fun l => b.find? fun o => o.matched l

/-- PyFunctionInstance.cpp:274-316: what the classes above state, nearest first. -/
def statedAbove : List Block → List (Option Ty)
  | [] => []
  | b :: bs => match firstMatch b with
    | some o => o.stated :: statedAbove bs
    | none => statedAbove bs

/-- A result type, no result type, or a TypeError. -/
inductive Outcome where
  | error
  | anything
  | type (t : Ty)
deriving DecidableEq, Repr

/-- PyFunctionInstance.cpp:318-356: from the highest class down, every stated type must be trivially the one above. -/
def narrow (sub : Nat → Nat → Bool) : List (Option Ty) → Outcome
  | [] => .anything
  | x :: above => match narrow sub above with
    | .error => .error
    | .anything => match x with
      | none => .anything
      | some t => .type t
    | .type u => match x with
      | none => .type u
      | some t => if trivial sub t u then .type t else .error

/-- PyFunctionInstance.cpp:230-357 `determineReturnTypeForMatchedCall`: the overload `o` was called, `bs` are the classes above its own. -/
def interpreted (sub : Nat → Nat → Bool) (o : Overload) (bs : List Block) : Outcome := narrow sub (o.stated :: statedAbove bs)

/-! ### The compiler -/

/-- function_signature_calculator.py:384-393: what one pathway gives. -/
inductive Ret where
  | unspecified
  | cannot
  | invalid
  | type (t : Ty)
deriving DecidableEq, Repr

/-- function_signature_calculator.py:414-444: an overload that states no type, between what is above it; the index that a pathway carries is left out. -/
def unstatedPaths (above : List Ret) : List Ret :=
  if Ret.cannot ∈ above then [.cannot]
  else
    let bad := above.filter (· = .invalid)
    let good := above.filter (· ≠ .invalid)
    if bad ≠ [] ∧ good = [] then [.invalid]
    else good

/-- function_signature_calculator.py:455-470: what is above the type `t` is good. -/
def goodAbove (sub : Nat → Nat → Bool) (t : Ty) : Ret → Bool
  | .type u => trivial sub t u
  | _ => false

/-- function_signature_calculator.py:370-479 `returnTypesForOverload`; `above` and `sure` are what `returnTypesForLevel` gives for the classes
above.  A pathway that says `unspecified` is compared as if it were a type (467), which is not modelled: there are none (`never_unspecified`). -/
def pathsOf (sub : Nat → Nat → Bool) (o : Overload) (above : List Ret) (sure : Bool) : List Ret :=
  match o.known with
  | .cannot => [.cannot]
  | .unspecified => unstatedPaths above
  | .type t =>
    if !sure then [.type t]
    else if Ret.cannot ∈ above then [.type t]
    else if above ≠ [] ∧ above.any (goodAbove sub t) = false then [.invalid]
    else [.type t]

/-- function_signature_calculator.py:349-359: the overloads of a class, level by level, up to the first that matches for certain. -/
def scan (paths : Overload → List Ret) : List (Level × Overload) → List Ret × Bool
  | [] => ([], false)
  | (l, o) :: rest => match o.couldMatch l with
    | .yes => (paths o, true)
    | .maybe => ((paths o) ++ (scan paths rest).1, (scan paths rest).2)
    | .no => scan paths rest

/-- The order in which the overloads of a class are tried. -/
def tries (b : Block) : List (Level × Overload) := levels.flatMap fun l => b.map fun o => (l, o)

/-- function_signature_calculator.py:331-368 `returnTypesForLevel`; a set of pathways is a list. -/
def pathsAbove (sub : Nat → Nat → Bool) : List Block → List Ret × Bool
  | [] => ([], false)
  | b :: bs =>
    let above := pathsAbove sub bs
    let here := scan (fun o => pathsOf sub o above.1 above.2) (tries b)
    if here.2 then here else (here.1 ++ above.1, above.2)

/-- The types among pathways. -/
def typesIn (paths : List Ret) : List Ty := paths.filterMap fun
  | .type t => some t
  | _ => none

/-- function_signature_calculator.py:196-221 `mergeReturnTypes`; `merge` stands for `mergeTypeWrappers`. -/
def mergeReturns (merge : List Ty → Ty) (paths : List Ret) : Ret :=
  match paths.find? (fun p => p = .unspecified || p = .cannot) with
  | some p => p
  | none =>
    if paths = [] then .unspecified
    else if typesIn paths ≠ [] then .type (merge (typesIn paths))
    else .invalid

/-- function_signature_calculator.py:172-182 `returnTypeForOverload`. -/
def expected (sub : Nat → Nat → Bool) (merge : List Ty → Ty) (o : Overload) (bs : List Block) : Ret :=
  mergeReturns merge (pathsOf sub o (pathsAbove sub bs).1 (pathsAbove sub bs).2)

/-! ### Signature functions -/

/-- function_signature_calculator.py:514-525: the arguments that a signature function is given; `none` is the error that `arg` has no value.  523 uses
`arg`, the last positional argument, for every keyword. -/
def signatureArguments {α : Type} (args : List α) (kwargs : List (String × α)) : Option (List α × List (String × α)) :=
  match args.getLast? with
  | some arg => some (args, kwargs.map fun p => (p.1, arg))
  | none => if kwargs = [] then some ([], []) else none

end Verif.Returns
