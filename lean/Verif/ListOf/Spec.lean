import Mathlib.Data.List.Basic
/-
What Python's `list` does: the specification ListOf is compared with.
-/
namespace Verif.ListOf.Spec

variable {α : Type}

inductive PyErr
  | indexError
  | typeError
  | valueError
  /-- "returned a result with an exception set" -/
  | systemError
  deriving DecidableEq, Repr

/-- Calls on a list; an element argument is `none` if it cannot be converted to the element type. -/
inductive Op (α : Type)
  | append (v : Option α)
  /-- extend by another ListOf/TupleOf with the same element type -/
  | extend (vs : List α)
  /-- extend by itself -/
  | extendSelf
  /-- extend by any other iterable -/
  | extendIter (vs : List (Option α))
  | clear
  | reserve (n : Int)
  | resize (n : Int)
  | resizeWith (n : Int) (v : Option α)
  | pop (i : Int)
  | get (i : Int)
  | set (i : Int) (v : Option α)
  | slice (start stop step : Option Int)
  /-- `self + vs` for another list of the same type -/
  | concat (vs : List α)
  /-- `self + vs` and `vs + self` for any other sequence -/
  | concatSeq (vs : List (Option α)) (reversed : Bool)
  | copy

/-- What a call returns. `new` is a new list. -/
inductive Ret (α L : Type)
  | unit
  | val (a : α)
  | new (l : L)

/-- The position an index means, if any: negative indices count from the end. -/
def position (n : Nat) (i : Int) : Option Nat :=
  if 0 ≤ i ∧ i < n then some i.toNat
  else if i < 0 ∧ 0 ≤ i + n then some (i + n).toNat
  else none

/-- Where a slice starts: given, relative to the end if negative, and moved inside the sequence; else the first or the last
position, by the sign of the step. -/
def sliceStart (n : Nat) (start : Option Int) (step : Int) : Int :=
  match start with
  | none => if step > 0 then 0 else n - 1
  | some i =>
    let i := if i < 0 then i + n else i
    if step > 0 then max i 0 else min i (n - 1)

/-- Where it ends (exclusive): given, relative to the end if negative; else after the last or before the first position. -/
def sliceStop (n : Nat) (stop : Option Int) (step : Int) : Int :=
  match stop with
  | none => if step > 0 then n else -1
  | some j => if j < 0 then j + n else j

/-- The positions a slice picks, in order. -/
def slicePositions (n : Nat) (start stop : Option Int) (step : Int) : List Nat :=
  let i := sliceStart n start step
  let j := sliceStop n stop step
  if step > 0 then (List.range n).filter (fun x : Nat => decide (i ≤ x ∧ (x : Int) < j ∧ ((x : Int) - i) % step = 0))
  else (List.range n).reverse.filter (fun x : Nat => decide ((x : Int) ≤ i ∧ j < x ∧ (i - (x : Int)) % (-step) = 0))

/-- `xs[start:stop:step]`. -/
def slice (xs : List α) (start stop step : Option Int) : Except PyErr (List α) :=
  if step.getD 1 = 0 then .error .valueError
  else .ok ((slicePositions xs.length start stop (step.getD 1)).filterMap (xs[·]?))

/-- The values before the first that cannot be converted, and whether there is one. -/
def convertible : List (Option α) → List α × Bool
  | [] => ([], true)
  | none :: _ => ([], false)
  | some v :: t => (v :: (convertible t).1, (convertible t).2)

/-- The effect and result of a call on a list with the elements `xs`; `d` is the default value of the element type. -/
def step (d : α) (xs : List α) : Op α → List α × Except PyErr (Ret α (List α))
  | .append none => (xs, .error .typeError)
  | .append (some v) => (xs ++ [v], .ok .unit)
  | .extend vs => (xs ++ vs, .ok .unit)
  | .extendSelf => (xs ++ xs, .ok .unit)
  | .extendIter vs => (xs ++ (convertible vs).1, if (convertible vs).2 then .ok .unit else .error .typeError)
  | .clear => ([], .ok .unit)
  | .reserve _ => (xs, .ok .unit)
  | .resize n => (xs.take n.toNat ++ List.replicate (n.toNat - xs.length) d, .ok .unit)
  | .resizeWith n none => if n < xs.length then (xs.take n.toNat, .ok .unit) else (xs, .error .typeError)
  | .resizeWith n (some v) => (xs.take n.toNat ++ List.replicate (n.toNat - xs.length) v, .ok .unit)
  | .pop i =>
    match position xs.length i with
    | none => (xs, .error .indexError)
    | some k =>
      match xs[k]? with
      | none => (xs, .error .indexError)
      | some v => (xs.eraseIdx k, .ok (.val v))
  | .get i =>
    match position xs.length i with
    | none => (xs, .error .indexError)
    | some k =>
      match xs[k]? with
      | none => (xs, .error .indexError)
      | some v => (xs, .ok (.val v))
  | .set i v =>
    match position xs.length i with
    | none => (xs, .error .indexError)
    | some k =>
      match v with
      | none => (xs, .error .typeError)
      | some v => (xs.set k v, .ok .unit)
  | .slice a b c =>
    match slice xs a b c with
    | .error e => (xs, .error e)
    | .ok ys => (xs, .ok (.new ys))
  | .concat vs => (xs, .ok (.new (xs ++ vs)))
  | .concatSeq vs reversed =>
    if (convertible vs).2 then (xs, .ok (.new (if reversed then (convertible vs).1 ++ xs else xs ++ (convertible vs).1)))
    else (xs, .error .typeError)
  | .copy => (xs, .ok (.new xs))

/-- The contents after a sequence of calls on an empty list. -/
def contents (d : α) (ops : List (Op α)) : List α := ops.foldl (fun xs op => (step d xs op).1) []

/-- Python's list iterator: a position, or nothing once it is exhausted. -/
def iterNext (xs : List α) : Option Nat → Option Nat × Option α
  | none => (none, none)
  | some i =>
    match xs[i]? with
    | none => (none, none)
    | some v => (some (i + 1), some v)

end Verif.ListOf.Spec
