import Verif.TypeFn.Model
/-
What is said about type functions: which forwards a type mentions, and what a function may do with them.
-/
namespace Verif.TypeFn

mutual
/-- The forwards a type mentions. -/
def Ty.fwds : Ty → List Nat
  | .fwd i => [i]
  | .con _ args => Ty.fwdsAll args
/-- The forwards mentioned in a list of types. -/
def Ty.fwdsAll : List Ty → List Nat
  | [] => []
  | t :: ts => t.fwds ++ Ty.fwdsAll ts
end

mutual
/-- The forwards an argument mentions. -/
def Arg.fwds : Arg → List Nat
  | .ty t => t.fwds
  | .tuple xs => Arg.fwdsAll xs
  | .list xs => Arg.fwdsAll xs
  | .dict xs => Arg.fwdsItems xs
  | _ => []
termination_by structural a => a
/-- The forwards mentioned in a list of arguments. -/
def Arg.fwdsAll : List Arg → List Nat
  | [] => []
  | a :: as => a.fwds ++ Arg.fwdsAll as
termination_by structural as => as
/-- The forwards mentioned in named arguments. -/
def Arg.fwdsItems : List (String × Arg) → List Nat
  | [] => []
  | (_, a) :: as => a.fwds ++ Arg.fwdsItems as
termination_by structural as => as
end

/-- The forwards mentioned in a call. -/
def Call.fwds (c : Call) : List Nat := Arg.fwdsAll c.args ++ Arg.fwdsItems c.kwargs

/-- The forwards mentioned in what a call gave. -/
def Outcome.fwds : Outcome → List Nat
  | .ty t => t.fwds
  | _ => []

/-- The keyword arguments of a call have different names, as in Python they always do. -/
def Call.Proper (c : Call) : Prop := (c.kwargs.map (·.1)).Nodup

/-- A function that knows the forwards in `known` mentions no others: it gets forwards only as arguments and from its calls. -/
def Honest (known : Nat → Prop) : Prog → Prop
  | .done o => ∀ i ∈ o.fwds, known i
  | .call c next => c.Proper ∧ (∀ i ∈ c.fwds, known i) ∧ ∀ o, Honest (fun i => known i ∨ i ∈ o.fwds) (next o)

/-- All functions are like this. -/
def World.Honest (w : World) : Prop :=
  ∀ fn args kwargs, TypeFn.Honest (fun i => i ∈ Arg.fwdsAll args ∨ i ∈ Arg.fwdsItems kwargs) (w.body fn args kwargs)

end Verif.TypeFn
