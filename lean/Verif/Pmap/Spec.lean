import Verif.Pmap.Model
/-
What `pmap` should do: `pmap(lst, f, OutT)` is `ListOf(OutT)([f(x) for x in lst])`.
-/
namespace Verif.Pmap

variable {V E : Type}

/-- `[f(x) for x in lst]` where `f i` is what the call on element `i` returns or raises: the results in
order, or the exception of the first element that raises. -/
def listComp (f : Nat → Except E V) (n : Nat) : Except E (List V) := (List.range n).mapM f

/-- What a program does when every `pmap` in it is a list comprehension. -/
def seq : Comp V E → Except E V
  | .ret v => .ok v
  | .exc e => .error e
  | .base e => .error e
  | .pmap n _ xs k => seq (k (listComp (fun i => seq (xs i)) n))

/-- No function called raises a `BaseException` that is not an `Exception`. -/
def NoBase : Comp V E → Prop
  | .ret _ => True
  | .exc _ => True
  | .base _ => False
  | .pmap n _ xs k => (∀ i, i < n → NoBase (xs i)) ∧ ∀ r, NoBase (k r)

theorem listComp_succ (f : Nat → Except E V) (n : Nat) :
    listComp f (n + 1) =
      match listComp f n with
      | .error e => .error e
      | .ok vs =>
        match f n with
        | .error e => .error e
        | .ok v => .ok (vs ++ [v]) := by
  simp only [listComp, List.range_succ, List.mapM_append, List.mapM_cons, List.mapM_nil]
  cases List.mapM f (List.range n) with
  | error e => rfl
  | ok vs => cases h : f n <;> simp [bind, Except.bind, pure, Except.pure]

end Verif.Pmap
