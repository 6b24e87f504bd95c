/-
What a concurrent first-in first-out queue is, independently of the code: an abstract machine whose labels are the calls,
the moments at which they take effect, and their returns.
-/
namespace Verif.TypedQueue.Spec

variable {T : Type}

/-- A call of the queue's API. -/
inductive Call (T : Type)
  | put (x : T)
  | putMany (xs : List T)
  | getNonblocking
  | get
  | getMany (minCount maxCount : Int)
  | peek
  | len

/-- What a call returns: nothing, one optional element, a list, or a number. -/
inductive Result (T : Type)
  | unit
  | one (x : Option T)
  | many (xs : List T)
  | num (n : Nat)

/-- Thread `t` calls, takes effect, or returns. -/
inductive Label (T : Type)
  | call (t : Nat) (c : Call T)
  | put (t : Nat) (x : T)
  | take (t : Nat) (x : T)
  | sawEmpty (t : Nat)
  | observe (t : Nat) (r : Result T)
  | ret (t : Nat) (r : Result T)

/-- What a call in progress has done so far. -/
structure Pending (T : Type) where
  call : Call T
  taken : List T
  given : List T
  empty : Bool
  obs : Option (Result T)

/-- The queue's content and the calls in progress. -/
structure State (T : Type) where
  q : List T
  pend : Nat → Option (Pending T)

/-- The elements a call is to put. -/
def puts : Call T → List T
  | .put x => [x]
  | .putMany xs => xs
  | _ => []

/-- A call that has taken `n` elements may take another. -/
def MayTake (n : Nat) : Call T → Prop
  | .getNonblocking => n = 0
  | .get => n = 0
  | .getMany _ maxCount => (n : Int) < maxCount
  | _ => False

/-- A call may return `r`: `put` after putting everything; `get` with the one element it took; `getNonblocking` with the
element it took, or `None` after finding the queue empty; `getMany` with what it took, `maxCount` elements or, after finding
the queue empty, fewer but at least `minCount`; `peek` and `len` with what they saw. -/
def Finished (p : Pending T) (r : Result T) : Prop :=
  match p.call with
  | .put _ | .putMany _ => r = .unit ∧ p.given = puts p.call
  | .get => ∃ x, p.taken = [x] ∧ r = .one (some x)
  | .getNonblocking => (∃ x, p.taken = [x] ∧ r = .one (some x)) ∨ (p.taken = [] ∧ p.empty = true ∧ r = .one none)
  | .getMany minCount maxCount => r = .many p.taken ∧
      ((p.taken.length : Int) = maxCount ∨ (maxCount ≤ 0 ∧ p.taken = []) ∨
        (p.empty = true ∧ minCount ≤ p.taken.length ∧ (p.taken.length : Int) < maxCount))
  | .peek | .len => p.obs = some r

/-- Replace the call in progress of one thread. -/
def State.set (a : State T) (t : Nat) (p : Option (Pending T)) : State T := { a with pend := fun u => if u = t then p else a.pend u }

/-- The abstract machine. -/
inductive Step : State T → Label T → State T → Prop
  | call {a t c} : a.pend t = none → Step a (.call t c) (a.set t (some ⟨c, [], [], false, none⟩))
  | put {a t p x} : a.pend t = some p → p.given ++ [x] <+: puts p.call →
      Step a (.put t x) ({ a with q := a.q ++ [x] }.set t (some { p with given := p.given ++ [x] }))
  | take {a t p x q} : a.pend t = some p → a.q = x :: q → MayTake p.taken.length p.call →
      Step a (.take t x) ({ a with q := q }.set t (some { p with taken := p.taken ++ [x] }))
  | sawEmpty {a t p} : a.pend t = some p → a.q = [] → Step a (.sawEmpty t) (a.set t (some { p with empty := true }))
  | len {a t p} : a.pend t = some p → p.call = .len →
      Step a (.observe t (.num a.q.length)) (a.set t (some { p with obs := some (.num a.q.length) }))
  | peek {a t p} : a.pend t = some p → p.call = .peek →
      Step a (.observe t (.one a.q.head?)) (a.set t (some { p with obs := some (.one a.q.head?) }))
  | ret {a t p r} : a.pend t = some p → Finished p r → Step a (.ret t r) (a.set t none)

/-- Sequences of labels from the empty queue. -/
inductive Run : List (Label T) → State T → Prop
  | init : Run [] ⟨[], fun _ => none⟩
  | step {ls a l b} : Run ls a → Step a l b → Run (ls ++ [l]) b

/-- The elements put, in order. -/
def putsOf : List (Label T) → List T
  | [] => []
  | .put _ x :: ls => x :: putsOf ls
  | _ :: ls => putsOf ls

/-- The elements taken, in order. -/
def takesOf : List (Label T) → List T
  | [] => []
  | .take _ x :: ls => x :: takesOf ls
  | _ :: ls => takesOf ls

/-- The elements a thread took since its last call, in a history with the newest label first. -/
def takenSince (t : Nat) : List (Label T) → List T
  | [] => []
  | .take u x :: ls => if u = t then takenSince t ls ++ [x] else takenSince t ls
  | .call u _ :: ls => if u = t then [] else takenSince t ls
  | _ :: ls => takenSince t ls

/-- The call a thread made last, in a history with the newest label first. -/
def lastCall (t : Nat) : List (Label T) → Option (Call T)
  | [] => none
  | .call u c :: ls => if u = t then some c else lastCall t ls
  | _ :: ls => lastCall t ls

end Verif.TypedQueue.Spec
