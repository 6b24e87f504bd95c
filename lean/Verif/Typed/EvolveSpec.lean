import Verif.Typed.Spec
/-
Two versions of a program: what one wrote, the other reads.  `E t t'` says that a place which has type `t` in the program
that writes has type `t'` in the program that reads.
-/
namespace Verif.Typed

/-- The relation `E` between the types of two versions: fields may be added or dropped at the end of a tuple, cases may be
added at the end of a `OneOf` or an `Alternative`, at any depth; names of types may be bound to different types (`env`
and `env'`).  Elements of a list that are plain data (numbers and tuples of numbers) must be the same in both versions.
A field that exists in only one of the versions may be of any type; a place that exists in both is not a `ListOf`, `Dict`
or `Set`. -/
structure Versions (env env' : Nat → Ty) (E : Ty → Ty → Prop) : Prop where
  reg : ∀ r t', E (.reg r) t' → t' = .reg r
  unit : ∀ t', E .unit t' → t' = .unit
  bytes : ∀ t', E .bytes t' → t' = .bytes
  str : ∀ t', E .str t' → t' = .str
  tuple : ∀ ts t', E (.tuple ts) t' → ∃ ts', t' = .tuple ts' ∧
    ∀ (i : Nat) u u', ts[i]? = some u → ts'[i]? = some u' → E u u'
  oneOf : ∀ ts t', E (.oneOf ts) t' → ∃ ts', t' = .oneOf ts' ∧ ts.length ≤ ts'.length ∧
    ∀ (i : Nat) u u', ts[i]? = some u → ts'[i]? = some u' → E u u'
  alt : ∀ ts t', E (.alt ts) t' → ∃ ts', t' = .alt ts' ∧ ts.length ≤ ts'.length ∧
    ∀ (i : Nat) u u', ts[i]? = some u → ts'[i]? = some u' → E u u'
  tupleOf : ∀ u t', E (.tupleOf u) t' → ∃ u', t' = .tupleOf u' ∧ E u u' ∧ (podSize u ≠ none → u' = u)
  constDict : ∀ k w t', E (.constDict k w) t' → ∃ k' w', t' = .constDict k' w' ∧ E k k' ∧ E w w'
  named : ∀ n t', E (.named n) t' → ∃ n', t' = .named n' ∧ E (env n) (env' n')
  listOf : ∀ u t', ¬ E (.listOf u) t'
  dict : ∀ k w t', ¬ E (.dict k w) t'
  set : ∀ k t', ¬ E (.set k) t'

/-- The value `v` of type `t` in the one version is `v'` of type `t'` in the other: what both know is the same, what the
other does not know is gone, and what only the other knows has a default value.  `D t v`: the value is a default of the
type. -/
inductive Migrates (env env' : Nat → Ty) (D : Ty → Val → Prop) : Ty → Ty → Val → Val → Prop
  | reg (r x) : Migrates env env' D (.reg r) (.reg r) (.reg x) (.reg x)
  | unit : Migrates env env' D .unit .unit .unit .unit
  | bytes (b) : Migrates env env' D .bytes .bytes (.bytes b) (.bytes b)
  | str (s) : Migrates env env' D .str .str (.str s) (.str s)
  | tuple {ts ts' vs vs'} : vs.length = ts.length → vs'.length = ts'.length →
      (∀ (i : Nat) u u' x x', ts[i]? = some u → ts'[i]? = some u' → vs[i]? = some x → vs'[i]? = some x' →
        Migrates env env' D u u' x x') →
      (∀ (i : Nat) u' x', ts.length ≤ i → ts'[i]? = some u' → vs'[i]? = some x' → D u' x') →
      Migrates env env' D (.tuple ts) (.tuple ts') (.seq vs) (.seq vs')
  | oneOf {ts ts' i u u' x x'} : ts[i]? = some u → ts'[i]? = some u' → Migrates env env' D u u' x x' →
      Migrates env env' D (.oneOf ts) (.oneOf ts') (.tag i x) (.tag i x')
  | alt {ts ts' i u u' x x'} : ts[i]? = some u → ts'[i]? = some u' → Migrates env env' D u u' x x' →
      Migrates env env' D (.alt ts) (.alt ts') (.tag i x) (.tag i x')
  | plain {u vs} : podSize u ≠ none → Migrates env env' D (.tupleOf u) (.tupleOf u) (.seq vs) (.seq vs)
  | tupleOf {u u' vs vs'} : vs'.length = vs.length →
      (∀ (i : Nat) x x', vs[i]? = some x → vs'[i]? = some x' → Migrates env env' D u u' x x') →
      Migrates env env' D (.tupleOf u) (.tupleOf u') (.seq vs) (.seq vs')
  | constDict {k w k' w' vs vs'} : vs'.length = vs.length →
      (∀ (i : Nat) x x', i % 2 = 0 → vs[i]? = some x → vs'[i]? = some x' → Migrates env env' D k k' x x') →
      (∀ (i : Nat) x x', i % 2 = 1 → vs[i]? = some x → vs'[i]? = some x' → Migrates env env' D w w' x x') →
      Migrates env env' D (.constDict k w) (.constDict k' w') (.seq vs) (.seq vs')
  | named {n n' v v'} : Migrates env env' D (env n) (env' n') v v' → Migrates env env' D (.named n) (.named n') v v'

end Verif.Typed
