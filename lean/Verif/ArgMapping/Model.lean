import Verif.Common
/-
Model of how a typed Function binds call arguments: typed_python/FunctionCallArgMapping.hpp,
typed_python/internals.py `makeFunctionType` (signature extraction) and typed_python/PyFunctionInstance.cpp
`tryToCallAnyOverload` (overload choice).

Values `V` and type filters `T` are abstract; converting a value to a type is the function `coerce`, which may fail
(C++ exceptions there only make the overload invalid). Reference counts are not modelled.
-/
namespace Verif.ArgMapping

/-- Failures: building a signature, or internal errors of the mapping class. -/
inductive Err | kwOnlyUnsupported | emptyArg | notPopulated
  deriving DecidableEq, Repr

/-- What `inspect.getfullargspec(f)` reports (internals.py 186), plus `posOnly`, the number of leading parameters
before a `/` (which `getfullargspec` does not report and the code never sees). -/
structure PySig (V T : Type) where
  args : List String
  anns : String → Option T
  defaults : List V
  varargs : Option String
  kwonly : List String
  varkw : Option String
  posOnly : Nat

/-- `Function::FunctionArg` (FunctionType.hpp 379-460). -/
structure Param (V T : Type) where
  name : String
  filter : Option T
  default : Option V
  isStar : Bool
  isKw : Bool

section
variable {V T : Type}

def Param.isNormal (p : Param V T) : Bool := !p.isKw && !p.isStar      -- FunctionType.hpp 411-413

/-- `getDefault` (internals.py 202-212). -/
def getDefault (s : PySig V T) (idx : Nat) : Option V :=
  if idx + s.defaults.length ≥ s.args.length then s.defaults[idx + s.defaults.length - s.args.length]? else none

/-- The loop building the normal arguments (internals.py 214-218). -/
def normalArgs (s : PySig V T) : Nat → List String → List (Param V T)
  | _, [] => []
  | i, n :: ns => ⟨n, s.anns n, getDefault s i, false, false⟩ :: normalArgs s (i + 1) ns

/-- `makeFunctionType`'s argument tuple (internals.py 214-248). -/
def makeArgs (s : PySig V T) : Except Err (List (Param V T)) :=
  if s.kwonly ≠ [] then .error .kwOnlyUnsupported
  else .ok (normalArgs s 0 s.args
    ++ (match s.varargs with | some n => [⟨n, s.anns n, none, true, false⟩] | none => [])
    ++ (match s.varkw with | some n => [⟨n, s.anns n, none, false, true⟩] | none => []))

/-- The fields of `FunctionCallArgMapping` (FunctionCallArgMapping.hpp 487-498). -/
structure St (V T : Type) where
  args : List (Param V T)
  single : List (Option V)
  star : List V
  kw : List (String × V)
  valid : Bool
  cur : Nat

/-- Constructor (78-84). -/
def St.init (args : List (Param V T)) : St V T := ⟨args, List.replicate args.length none, [], [], true, 0⟩

/-- `pushPositionalArg` (143-168). -/
def pushPos (s : St V T) (v : V) : St V T :=
  if !s.valid then s
  else match s.args[s.cur]? with
    | none => { s with valid := false }
    | some a =>
      if a.isNormal then { s with single := s.single.set s.cur (some v), cur := s.cur + 1 }
      else if a.isStar then { s with star := s.star ++ [v] }
      else if a.isKw then { s with valid := false }
      else s

/-- The loop of `pushKeywordArg` (175-194), from parameter number `k` on. -/
def kwLoop (name : String) (v : V) : List (Param V T) → Nat → St V T → St V T
  | [], _, s => { s with valid := false }
  | a :: as, k, s =>
    if a.isNormal && a.name == name then
      match s.single[k]? with
      | some (some _) => { s with valid := false }
      | _ => { s with single := s.single.set k (some v) }
    else if a.isStar then kwLoop name v as (k + 1) s
    else if a.isKw then { s with kw := s.kw ++ [(name, v)] }
    else kwLoop name v as (k + 1) s

/-- `pushKeywordArg` (170-195). -/
def pushKw (s : St V T) (nv : String × V) : St V T :=
  if !s.valid then s else kwLoop nv.1 nv.2 s.args 0 s

/-- The loop of `finishedPushing` (202-211). -/
def finishLoop : List (Param V T) → Nat → St V T → St V T
  | [], _, s => s
  | a :: as, k, s =>
    if a.isNormal && (match s.single[k]? with | some (some _) => false | _ => true) then
      match a.default with
      | some d => finishLoop as (k + 1) { s with single := s.single.set k (some d) }
      | none => { s with valid := false }
    else finishLoop as (k + 1) s

/-- `finishedPushing` (197-212). -/
def finish (s : St V T) : St V T := if !s.valid then s else finishLoop s.args 0 s

/-- `pushArguments` (214-238). A method's `self` is one more positional argument (215-217). Keyword names are strings
(the check at 228-231 is Python's own). -/
def pushArguments (s : St V T) (self : Option V) (pos : List V) (kws : List (String × V)) : St V T :=
  let s := match self with | some v => pushPos s v | none => s
  finish (kws.foldl pushKw (pos.foldl pushPos s))

/-- `buildPositionalArgTuple` (296-325). -/
def buildPositional (s : St V T) : List (Param V T) → Nat → Except Err (List V)
  | [], _ => .ok []
  | a :: as, k =>
    if a.isNormal then
      match s.single[k]? with
      | some (some v) => (buildPositional s as (k + 1)).map (v :: ·)
      | _ => .error .notPopulated
    else if a.isStar then (buildPositional s as (k + 1)).map (s.star ++ ·)
    else buildPositional s as (k + 1)

/-- `buildKeywordArgTuple` (342-358): `none` is the null pointer (no `**kwargs` parameter). -/
def buildKeyword (s : St V T) : List (Param V T) → Option (List (String × V))
  | [] => none
  | a :: as => if a.isKw then some s.kw else buildKeyword s as

/-- What one parameter receives. -/
inductive Arg (V : Type) | one (v : V) | star (vs : List V) | kw (kvs : List (String × V))
  deriving DecidableEq, Repr

/-- `extractFunctionArgumentValues` (360-376), with `buildStarArgTuple` (327-340). -/
def extract (s : St V T) : List (Param V T) → Nat → Except Err (List (Arg V))
  | [], _ => .ok []
  | a :: as, k =>
    if a.isNormal then
      match s.single[k]? with
      | some (some v) => (extract s as (k + 1)).map (.one v :: ·)
      | _ => .error .notPopulated
    else if a.isStar then (extract s as (k + 1)).map (.star s.star :: ·)
    else (extract s as (k + 1)).map (.kw s.kw :: ·)

/-- Binding a call to one signature (PyFunctionInstance.cpp 108-116): `none` when the overload does not accept it. -/
def bindCall (args : List (Param V T)) (self : Option V) (pos : List V) (kws : List (String × V)) :
    Except Err (Option (List (Arg V))) :=
  let s := pushArguments (St.init args) self pos kws
  if !s.valid then .ok none else (extract s s.args 0).map some

/-! ### Conversion of the arguments and overload choice -/

/-- The conversion levels tried, in order (PyFunctionInstance.cpp 67-73). -/
inductive Level | signature | upcast | upcastContainers | implicit | implicitContainers
  deriving DecidableEq, Repr

def levels : List Level := [.signature, .upcast, .upcastContainers, .implicit, .implicitContainers]

variable (coerce : T → Level → V → Option V) (couldBe : T → Level → V → Bool)

/-- `definitelyDoesntMatch` (242-277). `couldBe` is `pyValCouldBeOfType`. -/
def definitelyDoesnt (l : Level) (s : St V T) : List (Param V T) → Nat → Except Err Bool
  | [], _ => .ok false
  | a :: as, k =>
    match a.isNormal, a.filter with
    | true, some t =>
      match s.single[k]? with
      | none => .ok false
      | some none => .error .emptyArg
      | some (some v) => if !couldBe t l v then .ok true else definitelyDoesnt l s as (k + 1)
    | _, _ => definitelyDoesnt l s as (k + 1)

/-- Converting a list of values; a failed conversion makes the mapping invalid (`coerceToType`, 92-123). -/
def coerceAll (l : Level) (t : T) : List V → Option (List V)
  | [] => some []
  | v :: vs => match coerce t l v, coerceAll l t vs with
    | some w, some ws => some (w :: ws)
    | _, _ => none

/-- Converting the values of the `**kwargs`, keeping the names. -/
def coerceKw (l : Level) (t : T) : List (String × V) → Option (List (String × V))
  | [] => some []
  | (n, v) :: vs => match coerce t l v, coerceKw l t vs with
    | some w, some ws => some ((n, w) :: ws)
    | _, _ => none

/-- `applyTypeCoercion` (125-141). (The C++ keeps converting after a failure; the mapping is discarded anyway.) -/
def applyCoercion (l : Level) : List (Param V T) → Nat → St V T → St V T
  | [], _, s => s
  | a :: as, k, s =>
    match a.filter with
    | none => applyCoercion l as (k + 1) s
    | some t =>
      if a.isNormal then
        match s.single[k]? with
        | some (some v) =>
          match coerce t l v with
          | some w => applyCoercion l as (k + 1) { s with single := s.single.set k (some w) }
          | none => { s with valid := false }
        | _ => { s with valid := false }
      else if a.isStar then
        match coerceAll coerce l t s.star with
        | some ws => applyCoercion l as (k + 1) { s with star := ws }
        | none => { s with valid := false }
      else
        match coerceKw coerce l t s.kw with
        | some ws => applyCoercion l as (k + 1) { s with kw := ws }
        | none => { s with valid := false }

/-- The matching part of `tryToCallOverload` (PyFunctionInstance.cpp 108-129): the arguments the body is called with. -/
def tryOverload (l : Level) (args : List (Param V T)) (self : Option V) (pos : List V) (kws : List (String × V)) :
    Except Err (Option (List (Arg V))) :=
  let s := pushArguments (St.init args) self pos kws
  if !s.valid then .ok none
  else (definitelyDoesnt couldBe l s s.args 0).bind fun no =>
    if no then .ok none
    else
      let s := applyCoercion coerce l s.args 0 s
      if !s.valid then .ok none else (extract s s.args 0).map some

/-- The inner loop over the overloads (74-84): index and arguments of the first that accepts. -/
def tryOverloads (l : Level) (self : Option V) (pos : List V) (kws : List (String × V)) :
    List (List (Param V T)) → Nat → Except Err (Option (Nat × List (Arg V)))
  | [], _ => .ok none
  | o :: os, ix => (tryOverload coerce couldBe l o self pos kws).bind fun r =>
    match r with
    | some b => .ok (some (ix, b))
    | none => tryOverloads l self pos kws os (ix + 1)

/-- `tryToCallAnyOverload` (67-96): `none` is the TypeError "Cannot find a valid overload". -/
def dispatch (overloads : List (List (Param V T))) (self : Option V) (pos : List V) (kws : List (String × V)) :
    List Level → Except Err (Option (Level × Nat × List (Arg V)))
  | [] => .ok none
  | l :: ls => (tryOverloads coerce couldBe l self pos kws overloads 0).bind fun r =>
    match r with
    | some (ix, b) => .ok (some (l, ix, b))
    | none => dispatch overloads self pos kws ls

end
end Verif.ArgMapping
