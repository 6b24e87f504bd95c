/-
What Python's `any`, `all`, `min` and `max` do. Elements, keys, truth values and comparisons are those of any program: they may
read and change a state `σ` and raise any exception.
-/
namespace Verif.Builtins

/-- Exceptions: that of an empty sequence, or one of the program's own. -/
inductive Err (ε : Type) where
  | empty
  | own (e : ε)
  deriving DecidableEq, Repr

/-- Something that runs in a state and gives a value or an exception. -/
abbrev Run (σ ε : Type) := ExceptT (Err ε) (StateM σ)

variable {σ ε α κ : Type}

/-- `any(xs)`: true at the first element that is true; later ones are not looked at. -/
def pyAny (truth : α → Run σ ε Bool) : List α → Run σ ε Bool
  | [] => pure false
  | x :: xs => do if ← truth x then pure true else pyAny truth xs

/-- `all(xs)`. -/
def pyAll (truth : α → Run σ ε Bool) : List α → Run σ ε Bool
  | [] => pure true
  | x :: xs => do if ← truth x then pyAll truth xs else pure false

/-- The rest of `min(xs, key=...)` after an element `best` with key `k`: the key of the next element is computed and compared,
`better new old`, and the element replaces `best` if that is true. -/
def pyBest (key : α → Run σ ε κ) (better : κ → κ → Run σ ε Bool) (best : α) (k : κ) : List α → Run σ ε α
  | [] => pure best
  | x :: xs => do
      let k' ← key x
      if ← better k' k then pyBest key better x k' xs else pyBest key better best k xs

/-- `min(xs, key=key, default=default)`, with `better` being `<`; `max` is the same with `>`. -/
def pyMin (key : α → Run σ ε κ) (better : κ → κ → Run σ ε Bool) (default : Option α) : List α → Run σ ε α
  | [] => match default with
    | some d => pure d
    | none => throw .empty
  | x :: xs => do
      let k ← key x
      pyBest key better x k xs

/-- The result is the first of the elements that nothing is better than. -/
def IsFirstBest (better : κ → κ → Bool) (key : α → κ) (xs : List α) (r : α) : Prop :=
  ∃ (i : Nat) (h : i < xs.length), xs[i] = r ∧
    (∀ (j : Nat) (_ : j < xs.length), better (key xs[j]) (key r) = false) ∧
    ∀ (j : Nat) (_ : j < i), better (key r) (key xs[j]) = true

/-- A strict order up to ties. -/
structure WeakOrder (better : κ → κ → Bool) : Prop where
  irrefl : ∀ a, better a a = false
  trans : ∀ a b c, better a b = true → better b c = true → better a c = true
  /-- not being better is transitive -/
  ntrans : ∀ a b c, better a b = false → better b c = false → better a c = false

end Verif.Builtins
