import Verif.Scope.Model
/-
Python's rules of scope (The Python Language Reference, 4.2.1 and 4.2.2), over the same syntax.
Nothing here mentions the analyses.
-/
namespace Verif.Scope

/-- All parameters of a function. -/
def Params.all (p : Params) : List Name :=
  p.posonly ++ p.args ++ p.vararg.toList ++ p.kwonly ++ p.kwarg.toList

/-- "The following constructs bind names": targets of assignments, `del`, `for` and `with`, import
statements, class and function definitions, and the names in `except ... as name`. Nothing inside a
lambda, a comprehension or the body of a definition binds a name of this scope. -/
def Binds : Tree → Name → Prop
  | .node a b, x => Binds a x ∨ Binds b x
  | .name y c, x => x = y ∧ (c = .store ∨ c = .del ∨ c = .augStore)
  | .bind y v, x => x = y ∨ Binds v x
  | .hidden t, x => Binds t x
  | .alias top asname, x => x = asname.getD top
  | .handler ty nm body, x => nm = some x ∨ Binds ty x ∨ Binds body x
  | .funDef nm _ _ _ _ _ _ _ _, x => x = nm
  | .classDef nm _ _ _ _, x => x = nm
  | _, _ => False

/-- The names bound by the targets of the clauses of a comprehension. -/
def BindsG : Gens → Name → Prop
  | .nil, _ => False
  | .cons t _ _ more, x => Binds t x ∨ BindsG more x

/-- `nonlocal` statements of this scope. -/
def Outer : Tree → Name → Prop
  | .node a b, x => Outer a x ∨ Outer b x
  | .bind _ v, x => Outer v x
  | .hidden t, x => Outer t x
  | .handler ty _ body, x => Outer ty x ∨ Outer body x
  | .nonlocal xs, x => x ∈ xs
  | _, _ => False

/-- "If a name is bound in a block, it is a local variable of that block, unless declared as
nonlocal." -/
def Local (body : Tree) (x : Name) : Prop := Binds body x ∧ ¬ Outer body x

/-- Code running in this scope itself reads the name: decorators, default values, annotations,
bases of a class and the first iterable of a comprehension are evaluated here. -/
def Direct : Tree → Name → Prop
  | .node a b, x => Direct a x ∨ Direct b x
  | .name y c, x => x = y ∧ (c = .load ∨ c = .augLoad)
  | .bind _ v, x => Direct v x
  | .selfVar _ _, x => x = selfName
  | .hidden t, x => Direct t x
  | .handler ty _ body, x => Direct ty x ∨ Direct body x
  | .lam _ d k _, x => Direct d x ∨ Direct k x
  | .comp _ _ i _ _, x => Direct i x
  | .funDef _ _ ap ao d k _ decorators returns, x =>
      Direct ap x ∨ Direct ao x ∨ Direct d x ∨ Direct k x ∨ Direct decorators x ∨ Direct returns x
  | .classDef _ bases keywords decorators _, x =>
      Direct bases x ∨ Direct keywords x ∨ Direct decorators x
  | _, _ => False

mutual
/-- A scope nested in this one takes the name from this scope (or from one around it).
* A function takes the names its code mentions that are neither parameters nor local.
* A comprehension takes the names it mentions that are not bound by any of its clauses.
* The body of a class takes the names it reads and does not bind; what it binds is not visible in
  the functions nested in it, so these take their names from outside the class. -/
def Captured : Tree → Name → Prop
  | .node a b, x => Captured a x ∨ Captured b x
  | .bind _ v, x => Captured v x
  | .hidden t, x => Captured t x
  | .handler ty _ body, x => Captured ty x ∨ Captured body x
  | .lam p d k body, x =>
      Captured d x ∨ Captured k x
        ∨ (x ∉ p.all ∧ (Direct body x ∨ Captured body x))
  | .comp elt t i f more, x =>
      Captured i x
        ∨ (¬ Binds t x ∧ ¬ BindsG more x
            ∧ ((Direct elt x ∨ Captured elt x) ∨ (Direct t x ∨ Captured t x)
                ∨ (Direct f x ∨ Captured f x) ∨ UsesG more x))
  | .funDef _ p ap ao d k body decorators returns, x =>
      Captured ap x ∨ Captured ao x ∨ Captured d x ∨ Captured k x ∨ Captured decorators x
        ∨ Captured returns x
        ∨ (x ∉ p.all ∧ ¬ Local body x ∧ (Direct body x ∨ Captured body x ∨ Binds body x))
  | .classDef _ bases keywords decorators body, x =>
      Captured bases x ∨ Captured keywords x ∨ Captured decorators x
        ∨ (Direct body x ∧ ¬ Binds body x) ∨ Captured body x
  | _, _ => False
/-- The names mentioned by the further clauses of a comprehension. -/
def UsesG : Gens → Name → Prop
  | .nil, _ => False
  | .cons t i f more, x =>
      (Direct t x ∨ Captured t x) ∨ (Direct i x ∨ Captured i x) ∨ (Direct f x ∨ Captured f x)
        ∨ UsesG more x
end

/-- The name is looked up in this scope, by its own code or for a scope nested in it. -/
def Uses (t : Tree) (x : Name) : Prop := Direct t x ∨ Captured t x

/-- `x` is the name of a `def` in this scope. -/
def Defines : Tree → Name → Prop
  | .node a b, x => Defines a x ∨ Defines b x
  | .bind _ v, x => Defines v x
  | .hidden t, x => Defines t x
  | .handler ty _ body, x => Defines ty x ∨ Defines body x
  | .funDef nm _ _ _ _ _ _ _ _, x => x = nm
  | _, _ => False

end Verif.Scope
