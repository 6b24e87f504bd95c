import Verif.ArgMapping.Model
/-
Python's calling convention, stated declaratively (Python Language Reference, 6.3.4 "Calls").
-/
namespace Verif.ArgMapping.Spec
open Verif.ArgMapping
variable {V T : Type}

/-- The default of parameter `i`: defaults belong to the last parameters. -/
def defaultOf (s : PySig V T) (i : Nat) : Option V :=
  if s.args.length ≤ i + s.defaults.length then s.defaults[i + s.defaults.length - s.args.length]? else none

/-- The value passed by keyword for a name. -/
def byKeyword (kws : List (String × V)) (n : String) : Option V := (kws.find? (fun e => e.1 == n)).map (·.2)

/-- `n` can be passed by keyword to a declared parameter. -/
def keywordParam (s : PySig V T) (n : String) : Prop := ∃ i, s.posOnly ≤ i ∧ s.args[i]? = some n

/-- The call is legal. -/
structure Accepts (s : PySig V T) (pos : List V) (kws : List (String × V)) : Prop where
  /-- surplus positional arguments need `*args` -/
  positional : pos.length ≤ s.args.length ∨ s.varargs.isSome = true
  /-- no parameter is passed twice -/
  once : ∀ (i : Nat) (n : String), s.args[i]? = some n → s.posOnly ≤ i → i < pos.length → ∀ e ∈ kws, e.1 ≠ n
  /-- unknown keywords need `**kwargs` -/
  known : ∀ e ∈ kws, keywordParam s e.1 ∨ s.varkw.isSome = true
  /-- every parameter gets a value -/
  complete : ∀ (i : Nat) (n : String), s.args[i]? = some n → pos.length ≤ i →
    (s.posOnly ≤ i ∧ ∃ e ∈ kws, e.1 = n) ∨ (defaultOf s i).isSome = true

/-- The value of parameter `i`, named `n`. -/
def valueOf (s : PySig V T) (pos : List V) (kws : List (String × V)) (i : Nat) (n : String) : Option V :=
  if i < pos.length then pos[i]?
  else if s.posOnly ≤ i ∧ (byKeyword kws n).isSome = true then byKeyword kws n
  else defaultOf s i

/-- `b` is what the parameters receive: one value per declared parameter, then the surplus positional arguments (if
there is `*args`), then the surplus keywords (if there is `**kwargs`). -/
def Receives (s : PySig V T) (pos : List V) (kws : List (String × V)) (b : List (Arg V)) : Prop :=
  ∃ vals : List V, vals.length = s.args.length ∧
    (∀ (i : Nat) (n : String), s.args[i]? = some n → vals[i]? = valueOf s pos kws i n) ∧
    b = vals.map .one
      ++ (if s.varargs.isSome then [Arg.star (pos.drop s.args.length)] else [])
      ++ (if s.varkw.isSome then [Arg.kw (kws.filter fun e => !(s.args.drop s.posOnly).contains e.1)] else [])

/-- Names are distinct, and there are no more defaults than parameters (Python's syntax guarantees both). -/
structure WellFormed (s : PySig V T) : Prop where
  nodup : s.args.Nodup
  defaults : s.defaults.length ≤ s.args.length
  posOnly : s.posOnly ≤ s.args.length

/-! ### Overloads -/

/-- Converting what a parameter received to the parameter's annotation (element by element for `*args`/`**kwargs`). -/
def convertArg (coerce : T → Level → V → Option V) (l : Level) : Option T → Arg V → Option (Arg V)
  | none, a => some a
  | some t, .one v => (coerce t l v).map .one
  | some t, .star vs => (vs.mapM (coerce t l)).map .star
  | some t, .kw kvs => (kvs.mapM fun e => (coerce t l e.2).map fun w => (e.1, w)).map .kw

/-- The annotations of all parameters, in order. -/
def annotations (s : PySig V T) : List (Option T) :=
  s.args.map s.anns ++ s.varargs.toList.map s.anns ++ s.varkw.toList.map s.anns

/-- The overload `s` accepts the call at conversion level `l`, its body receiving `b`. -/
def Matches (coerce : T → Level → V → Option V) (l : Level) (s : PySig V T) (pos : List V) (kws : List (String × V))
    (b : List (Arg V)) : Prop :=
  Accepts s pos kws ∧ ∃ b0, Receives s pos kws b0 ∧
    ((annotations s).zip b0).mapM (fun p => convertArg coerce l p.1 p.2) = some b

/-- Overload number `ix` at level `l` is the right choice: it accepts, no earlier overload accepts at that level, and
no overload at all accepts at an earlier level. -/
def Chosen (coerce : T → Level → V → Option V) (sigs : List (PySig V T)) (pos : List V) (kws : List (String × V))
    (l : Level) (ix : Nat) (b : List (Arg V)) : Prop :=
  (∃ s, sigs[ix]? = some s ∧ Matches coerce l s pos kws b) ∧
  (∀ j s, j < ix → sigs[j]? = some s → ∀ b', ¬ Matches coerce l s pos kws b') ∧
  ∃ before after, levels = before ++ l :: after ∧
    ∀ l' ∈ before, ∀ s ∈ sigs, ∀ b', ¬ Matches coerce l' s pos kws b'

end Verif.ArgMapping.Spec
