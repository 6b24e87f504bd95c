import Verif.TypedQueue.Props
/-
Concrete executions meeting the hypotheses of the theorems in Props.lean.
-/
namespace Verif.TypedQueue
open Spec

variable {T : Type}

/-- Run a schedule: each entry names a thread and the call it makes if it is idle. -/
def exec (s : State T) : List (Nat × Call T) → Option (List (Label T) × State T)
  | [] => some ([], s)
  | (t, c) :: sched =>
    match step s t c with
    | .next ls s' => (exec s' sched).map fun r => (ls ++ r.1, r.2)
    | _ => none

theorem exec_run {ls₀ : List (Label T)} {s : State T} (h : Run ls₀ s) (sched : List (Nat × Call T)) {ls : List (Label T)} {s' : State T}
    (he : exec s sched = some (ls, s')) : Run (ls₀ ++ ls) s' := by
  induction sched generalizing ls₀ s ls with
  | nil =>
    simp only [exec, Option.some.injEq, Prod.mk.injEq] at he
    obtain ⟨rfl, rfl⟩ := he
    simpa using h
  | cons p sched ih =>
    obtain ⟨t, c⟩ := p
    simp only [exec] at he
    cases hst : step s t c with
    | blocked => simp [hst] at he
    | fail _ => simp [hst] at he
    | next l1 s1 =>
      simp only [hst, Option.map_eq_some_iff] at he
      obtain ⟨⟨l2, s2⟩, h1, h2⟩ := he
      cases h2
      rw [← List.append_assoc]
      exact ih (.step h hst) h1

/-- Thread 1 calls `get` on an empty queue and waits; thread 0 puts 5 and 6; thread 1 returns 5. -/
def waitThenGet : List (Nat × Call Nat) :=
  [(1, .get), (1, .get), (1, .get), (1, .get)] ++
  [(0, .putMany [5, 6]), (0, .get), (0, .get), (0, .get), (0, .get), (0, .get), (0, .get), (0, .get), (0, .get), (0, .get)] ++
  List.replicate 12 (1, .get)

/-- The labels and the shared state after a schedule. -/
def outcome (sched : List (Nat × Call T)) : Option (List (Label T) × List T × List T × Bool × Bool) :=
  (exec init sched).map fun r => (r.1, r.2.pushable, r.2.poppable, r.2.lock.isSome, r.2.empty.isSome)

example : outcome waitThenGet =
    some ([.call 1 .get, .call 0 (.putMany [5, 6]), .put 0 5, .put 0 6, .ret 0 .unit, .take 1 5, .ret 1 (.one (some 5))], [], [6], false, false) :=
  rfl

/-- The hypotheses of `get_returns` are met by that execution. -/
example : ∃ s : State Nat, Run ([.call 1 .get, .call 0 (.putMany [5, 6]), .put 0 5, .put 0 6, .ret 0 .unit, .take 1 5] ++
    .ret 1 (.one (some 5)) :: []) s :=
  ⟨_, exec_run .init waitThenGet rfl⟩

/-- A waiter holds `_isEmptyLock` while another consumer, having taken the last element, wants it: `holder_proceeds` is not
vacuous.  Thread 2 is blocked inside the queue until thread 1 takes its next step. -/
def waiterInTheWay : List (Nat × Call Nat) :=
  [(1, .get), (1, .get), (1, .get), (1, .get)] ++
  [(0, .put 7), (0, .get), (0, .get), (0, .get), (0, .get), (0, .get)] ++
  [(1, .get)] ++
  List.replicate 8 (2, .getNonblocking)

example : (exec (init : State Nat) waiterInTheWay).map (fun r => (match step r.2 2 .get with | .blocked => true | _ => false,
    r.2.lock, r.2.pushable ++ r.2.poppable, match r.2.pc 1 with | .relE _ => true | _ => false)) =
    some (true, some 2, [], true) := rfl

/-- With that waiter gone, both go on: `getNonblocking` returns 7 and the waiter waits again. -/
example : ((exec (init : State Nat) (waiterInTheWay ++ [(1, .get), (2, .get), (2, .get), (1, .get), (1, .get), (1, .get)])).map
    fun r => (r.1.getLast?, match r.2.pc 1 with | .acqE _ => true | _ => false, match step r.2 1 .get with | .blocked => true | _ => false)) =
    some (some (.ret 2 (.one (some 7))), true, true) := rfl

/-- `getMany(1, 3)` takes what there is once there is one. -/
example : (outcome ([((0 : Nat), Call.putMany [1, 2])] ++ List.replicate 9 (0, .peek) ++
    [(0, .getMany 1 3)] ++ List.replicate 20 (0, .peek))).map (fun r => r.1.getLast?) =
    some (some (.ret 0 (.many [1, 2]))) := rfl

end Verif.TypedQueue
