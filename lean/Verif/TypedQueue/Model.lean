import Verif.TypedQueue.Spec
/-
Model of /repo/typed_python/typed_queue.py: any number of threads run the methods of one TypedQueue; each step of a thread
is one access to the shared state (a lock operation, a list operation or a test).  Labels mark calls, effects and returns.

Simplifications: a Python `Lock` is a flag; the owner recorded here is not used by any step (any thread may release a
lock, and releasing a free one is an error).  Exceptions other than those of the queue itself (running out of memory,
asynchronous interrupts in `acquire`) are not modelled.  The conversion of elements to `T` is not modelled.
-/
namespace Verif.TypedQueue
open Spec

variable {T : Type}

/-- The three kinds of consumer; `many` carries the local `res` of getMany. -/
inductive Kind (T : Type)
  | nb
  | get
  | many (res : List T) (minCount maxCount : Int)

/-- Program points (line numbers in typed_queue.py: getNonblocking / get / getMany, put, putMany, peek, __len__). -/
inductive PC (T : Type)
  | idle
  /-- 31 / 54 / 87: about to acquire `_lock` -/
  | enter (k : Kind T)
  /-- 91-93: head of getMany's outer loop -/
  | outer (k : Kind T)
  /-- 56 / 95: test of the waiting loop -/
  | inner (k : Kind T)
  /-- 58 / 98: release `_lock` before waiting -/
  | relWait (k : Kind T)
  /-- 59 / 100: acquire `_isEmptyLock` -/
  | acqE (k : Kind T)
  /-- 60 / 102: release `_isEmptyLock` -/
  | relE (k : Kind T)
  /-- 61 / 104: acquire `_lock` again -/
  | relock (k : Kind T)
  /-- 33 / 63 / 106 -/
  | xferTest (k : Kind T)
  /-- 34-35 / 64-65 / 107-108: iteration `i` of `n` -/
  | xfer (k : Kind T) (i n : Nat)
  /-- 36 / 66 / 109 -/
  | clear (k : Kind T)
  /-- 38-39 / 68-69 / 111-112 -/
  | popTest (k : Kind T)
  /-- 41 / 71 / 114, the popped element in hand -/
  | lenTest (k : Kind T) (x : T)
  /-- 43 / 73 / 116 -/
  | acqEmpty (k : Kind T) (x : T)
  /-- 45-46 / 75-76 / back to 91 -/
  | done (k : Kind T) (x : T)
  /-- 48-49 / 93 and 118 with 120: release `_lock` and return -/
  | finish (k : Kind T)
  /-- 124 -/
  | pEnter (x : T)
  /-- 126 -/
  | pAppend (x : T)
  /-- 128 -/
  | pTest (x : T)
  /-- 130 -/
  | pRelE (x : T)
  /-- 132 -/
  | pRel (x : T)
  /-- 136 -/
  | mEnter (xs : List T)
  /-- 137 -/
  | mRead (xs : List T)
  /-- 139-140: `xs` not yet put, `given` already put -/
  | mLoop (given xs : List T) (curLen : Nat)
  /-- 142-144 -/
  | mTest (given xs : List T) (curLen : Nat)
  /-- 146 -/
  | mRelE (given xs : List T) (curLen : Nat)
  /-- end of the `with` block of 136 -/
  | mRel (given : List T)
  /-- 150 -/
  | peekEnter
  /-- 151-154 -/
  | peekRead
  /-- end of the `with` block of 150 -/
  | peekRel (r : Option T)
  /-- 158 -/
  | lenEnter
  /-- 159 -/
  | lenRead
  /-- end of the `with` block of 158 -/
  | lenRel (n : Nat)

/-- Who holds `_isEmptyLock`: the emptiness of the queue (lines 26, 43, 73, 116) or a waiting thread (lines 59, 100). -/
inductive Holder
  | token
  | thread (t : Nat)

/-- The queue's members (lines 10-13) and the threads. -/
structure State (T : Type) where
  pushable : List T
  poppable : List T
  lock : Option Nat
  empty : Option Holder
  pc : Nat → PC T

/-- Lines 15-26: `__init__`. -/
def init : State T := ⟨[], [], none, some .token, fun _ => .idle⟩

/-- Lines 161-163: `_len`. -/
def len (s : State T) : Nat := s.pushable.length + s.poppable.length

/-- Move a thread. -/
def goto (s : State T) (t : Nat) (p : PC T) : State T := { s with pc := fun u => if u = t then p else s.pc u }

/-- The result of trying one step of a thread. -/
inductive Outcome (T : Type)
  | blocked
  | fail (msg : String)
  | next (ls : List (Label T)) (s : State T)

/-- Acquire `_lock` and go on. -/
def acquireLock (s : State T) (t : Nat) (p : PC T) : Outcome T :=
  match s.lock with
  | some _ => .blocked
  | none => .next [] (goto { s with lock := some t } t p)

/-- Release `_lock` and go on. -/
def releaseLock (s : State T) (t : Nat) (ls : List (Label T)) (p : PC T) : Outcome T :=
  match s.lock with
  | none => .fail "release unlocked lock"
  | some _ => .next ls (goto { s with lock := none } t p)

/-- Acquire `_isEmptyLock` and go on. -/
def acquireEmpty (s : State T) (h : Holder) (t : Nat) (p : PC T) : Outcome T :=
  match s.empty with
  | some _ => .blocked
  | none => .next [] (goto { s with empty := some h } t p)

/-- Release `_isEmptyLock` and go on. -/
def releaseEmpty (s : State T) (t : Nat) (p : PC T) : Outcome T :=
  match s.empty with
  | none => .fail "release unlocked lock"
  | some _ => .next [] (goto { s with empty := none } t p)

/-- Where an idle thread goes when it makes a call. -/
def startOf : Call T → PC T
  | .put x => .pEnter x
  | .putMany xs => .mEnter xs
  | .getNonblocking => .enter .nb
  | .get => .enter .get
  | .getMany mn mx => .enter (.many [] mn mx)
  | .peek => .peekEnter
  | .len => .lenEnter

/-- The step after acquiring `_lock` at the start of a consumer: 33, 56 or 91. -/
def afterEnter : Kind T → PC T
  | .nb => .xferTest .nb
  | .get => .inner .get
  | .many res mn mx => .outer (.many res mn mx)

/-- Lines 151-154: the last of `_poppable`, else the first of `_pushable`, else None. -/
def peekValue (s : State T) : Option T :=
  match s.poppable.getLast? with
  | some x => some x
  | none => s.pushable.head?

/-- One step of thread `t`; `c` is the call it makes if it is idle. -/
def step (s : State T) (t : Nat) (c : Call T) : Outcome T :=
  match s.pc t with
  | .idle => .next [.call t c] (goto s t (startOf c))
  | .enter k => acquireLock s t (afterEnter k)
  | .outer (.many res mn mx) =>
    if (res.length : Int) < mx then
      if len s = 0 ∧ (res.length : Int) ≥ mn then .next [.sawEmpty t] (goto s t (.finish (.many res mn mx)))
      else .next [] (goto s t (.inner (.many res mn mx)))
    else .next [] (goto s t (.finish (.many res mn mx)))
  | .outer k => .next [] (goto s t (.inner k))
  | .inner k => .next [] (goto s t (if len s = 0 then .relWait k else .xferTest k))
  | .relWait k => releaseLock s t [] (.acqE k)
  | .acqE k => acquireEmpty s (.thread t) t (.relE k)
  | .relE k => releaseEmpty s t (.relock k)
  | .relock k => acquireLock s t (.inner k)
  | .xferTest k =>
    .next [] (goto s t (if s.poppable.length = 0 ∧ s.pushable.length ≠ 0 then .xfer k 0 s.pushable.length else .popTest k))
  | .xfer k i n =>
    if i < n then
      match s.pushable[s.pushable.length - 1 - i]? with
      | none => .fail "IndexError"
      | some x => .next [] (goto { s with poppable := s.poppable ++ [x] } t (.xfer k (i + 1) n))
    else .next [] (goto s t (.clear k))
  | .clear k => .next [] (goto { s with pushable := [] } t (.popTest k))
  | .popTest k =>
    match s.poppable.getLast? with
    | some x => .next [.take t x] (goto { s with poppable := s.poppable.dropLast } t (.lenTest k x))
    | none =>
      match k with
      | .nb => .next [.sawEmpty t] (goto s t (.finish .nb))
      | .get => .fail "impossible"
      | .many res mn mx => .next [] (goto s t (.outer (.many res mn mx)))
  | .lenTest k x => .next [] (goto s t (if len s = 0 then .acqEmpty k x else .done k x))
  | .acqEmpty k x => acquireEmpty s .token t (.done k x)
  | .done .nb x => releaseLock s t [.ret t (.one (some x))] .idle
  | .done .get x => releaseLock s t [.ret t (.one (some x))] .idle
  | .done (.many res mn mx) x => .next [] (goto s t (.outer (.many (res ++ [x]) mn mx)))
  | .finish (.many res _ _) => releaseLock s t [.ret t (.many res)] .idle
  | .finish _ => releaseLock s t [.ret t (.one none)] .idle
  | .pEnter x => acquireLock s t (.pAppend x)
  | .pAppend x => .next [.put t x] (goto { s with pushable := s.pushable ++ [x] } t (.pTest x))
  | .pTest x => .next [] (goto s t (if len s = 1 then .pRelE x else .pRel x))
  | .pRelE x => releaseEmpty s t (.pRel x)
  | .pRel _ => releaseLock s t [.ret t .unit] .idle
  | .mEnter xs => acquireLock s t (.mRead xs)
  | .mRead xs => .next [] (goto s t (.mLoop [] xs (len s)))
  | .mLoop given [] _ => .next [] (goto s t (.mRel given))
  | .mLoop given (x :: xs) n => .next [.put t x] (goto { s with pushable := s.pushable ++ [x] } t (.mTest (given ++ [x]) xs (n + 1)))
  | .mTest given xs n => .next [] (goto s t (if n = 1 then .mRelE given xs n else .mLoop given xs n))
  | .mRelE given xs n => releaseEmpty s t (.mLoop given xs n)
  | .mRel _ => releaseLock s t [.ret t .unit] .idle
  | .peekEnter => acquireLock s t .peekRead
  | .peekRead =>
    .next [.observe t (.one (peekValue s))] (goto s t (.peekRel (peekValue s)))
  | .peekRel r => releaseLock s t [.ret t (.one r)] .idle
  | .lenEnter => acquireLock s t .lenRead
  | .lenRead => .next [.observe t (.num (len s))] (goto s t (.lenRel (len s)))
  | .lenRel n => releaseLock s t [.ret t (.num n)] .idle

/-- The executions of the threads: any thread may take any step it can at any time. -/
inductive Run : List (Label T) → State T → Prop
  | init : Run [] init
  | step {ls s t c ls' s'} : Run ls s → step s t c = .next ls' s' → Run (ls ++ ls') s'

end Verif.TypedQueue
