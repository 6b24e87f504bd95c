/-
C129: releasing and acquiring the interpreter lock around compiled code.

Simplifications: what is done while `gilReleaseMutex` is held is one step, since nothing blocks there; waiting for the interpreter lock is not.  A thread
has at most one `ReleaseableThreadState` at a time, so that a pointer to one is the thread.  Python threads may give the lock to others between two
instructions and take it again (`switch`, `take`); a thread that has promised not to use Python does not.
-/
namespace Verif.Gil

abbrev Thread := Nat

/-- What a thread does: it waits for the lock in Python, it runs, or it is in `PyEval_RestoreThread` (PyGilState.cpp:110). -/
inductive Phase where
  | waits | runs | restores
  deriving DecidableEq, Repr

/-- The scoped objects, PyGilState.hpp:24-49: `PyEnsureGilReleased` with `m_should_reacquire`, and `PyEnsureGilAcquired` with `m_should_rerelease`. -/
inductive Scope where
  | released (reacquire : Bool)
  | acquired (rerelease : Bool)
  deriving DecidableEq, Repr

structure State where
  /-- The thread whose thread state is current: it has the lock. -/
  gil : Option Thread
  /-- `curPyThreadState` of each thread with its `isReleased`, PyGilState.cpp:28, 115. -/
  cur : Thread → Option Bool
  phase : Thread → Phase
  /-- The scopes that a thread is in, the innermost first. -/
  scopes : Thread → List Scope
  /-- `waitingPyThreadState` -/
  waiting : Option Thread
  /-- `gilReleaseThreadLoopActive` -/
  active : Bool
  /-- The process was ended by an error of its own (`asm("int3")`) or by a null pointer. -/
  fatal : Bool

def upd {α : Type} (f : Thread → α) (t : Thread) (x : α) : Thread → α := fun u => if u = t then x else f u

/-- PyGilState.cpp:47-59: the constructor of `ReleaseableThreadState`. -/
def construct (t : Thread) (s : State) : State :=
  if !s.active then { s with gil := none, cur := upd s.cur t (some true) }
  else { s with cur := upd s.cur t (some false), waiting := some t }

/-- PyGilState.cpp:88-111 `acquire`, up to where it waits for the lock, with the `delete` after it (131-132, 141-142). -/
def acquire (t : Thread) (s : State) : State := match s.cur t with
  | none => { s with fatal := true }
  | some true => { s with cur := upd s.cur t (some false), phase := upd s.phase t .restores }
  | some false =>
    if s.waiting ≠ some t then { s with fatal := true }
    else { s with waiting := none, cur := upd s.cur t none }

/-- PyGilState.cpp:73-85 `release_`, called for `waitingPyThreadState` in the loop (179-182, 198-201). -/
def releaseWaiting (s : State) : State := match s.waiting with
  | none => s
  | some t => if s.gil ≠ some t then { s with fatal := true }
    else { s with gil := none, cur := upd s.cur t (some true), waiting := none }

def push (t : Thread) (x : Scope) (s : State) : State := { s with scopes := upd s.scopes t (x :: s.scopes t) }

/-- PyGilState.cpp:122-125. -/
def enterReleased (t : Thread) (s : State) : State :=
  if (s.cur t).isNone then push t (.released true) (construct t s) else push t (.released false) s

/-- PyGilState.cpp:139-145. -/
def enterAcquired (t : Thread) (s : State) : State :=
  if (s.cur t).isSome then push t (.acquired true) (acquire t s) else push t (.acquired false) s

/-- PyGilState.cpp:128-134 and 148-152: scopes are left in the reverse order, also by exceptions. -/
def leave (t : Thread) (s : State) : State := match s.scopes t with
  | [] => s
  | x :: rest =>
    let s := { s with scopes := upd s.scopes t rest }
    match x with
    | .released true => acquire t s
    | .acquired true => construct t s
    | _ => s

inductive Action where
  | enterReleased (t : Thread)
  | enterAcquired (t : Thread)
  | leave (t : Thread)
  /-- The lock is there for a thread in `PyEval_RestoreThread`. -/
  | restore (t : Thread)
  /-- Python gives the lock up in a thread that runs Python, and takes it. -/
  | switch (t : Thread)
  | take (t : Thread)
  /-- The loop: PyGilState.cpp:167-168 and 190-191, 196-202, 173-183. -/
  | activate
  | tick
  | deactivate
  deriving DecidableEq, Repr

/-- One step of the process; `none` if it is not possible. -/
def step (s : State) : Action → Option State
  | .enterReleased t => if s.phase t = .runs then some (enterReleased t s) else none
  | .enterAcquired t => if s.phase t = .runs then some (enterAcquired t s) else none
  | .leave t => if s.phase t = .runs ∧ s.scopes t ≠ [] then some (leave t s) else none
  | .restore t => if s.phase t = .restores ∧ s.gil = none then
      some { s with gil := some t, cur := upd s.cur t none, phase := upd s.phase t .runs } else none
  | .switch t => if s.phase t = .runs ∧ s.cur t = none then some { s with gil := none, phase := upd s.phase t .waits } else none
  | .take t => if s.phase t = .waits ∧ s.gil = none then some { s with gil := some t, phase := upd s.phase t .runs } else none
  | .activate => some { s with active := true }
  | .tick => some (releaseWaiting s)
  | .deactivate => some (releaseWaiting { s with active := false })

/-- At first all threads wait for the lock. -/
def init : State := ⟨none, fun _ => none, fun _ => .waits, fun _ => [], none, false, false⟩

def run (s : State) : List Action → Option State
  | [] => some s
  | a :: as => match step s a with
    | none => none
    | some s' => run s' as

end Verif.Gil
