import Verif.Gen.Calls
import Verif.Common
/-
C65: a compiled generator yields what the Python generator yields.

`nthNext` (`Spec.lean`) is what Python does, `nthCompiled` (`Model.lean`) what the transformed
function does.  `between` is what the consumer does between the calls of `next`, so the
theorem speaks about every call of every history.
-/
namespace Verif.Gen

variable {σ E V : Type}

/-- **C65** (partial).  For every body in the fragment `Good`, every number of calls of
`next`, everything the consumer does to the shared state in between and every initial
state: the last call returns the same value, raises `StopIteration` with the same argument,
or raises the same exception, in the same state -- or neither ever returns.

Missing: what `Good` excludes, for which the claim is false (`Refute.lean`); `send`,
`throw` and `close`, which compiled generators do not have. -/
theorem generator_next_partial (body : Block σ E V) (good : body.Good false)
    (between : List (σ → σ)) (s : σ) (r : Obs E V × σ) :
    (∃ N, nthNext N body between s = some r) ↔ (∃ N, nthCompiled N body between s = some r) := by
  rw [nthNext_iff, nthCompiled_iff, nth_eq good]
where
  nthCompiled_iff : (∃ N, nthCompiled N body between s = some r) ↔
      callsL body between (fresh s) = some r := calls_iff

/-- **C65.**  Whatever the body is, a generator object that has finished stays finished:
every further call of `next` raises `StopIteration` and changes nothing. -/
theorem generator_finished_stays (body : Block σ E V) (value : Option V) (s : σ) (N : Nat) :
    next N body ⟨-2, value, s⟩ = some (.stop none, ⟨-2, value, s⟩) := by
  unfold next
  have h : execB N none (fastnextBody body) (⟨-2, value, s⟩, []) =
      some (.ret none, (⟨-2, value, s⟩, [])) := by
    simp only [fastnextBody, one, execB, exec, condR, act, slotTest]
    rfl
  rw [h]
  rfl

/-! ### A generator in the fragment

```
def f(i, log):
    while i < 4:
        try:
            yield i
            if i == 2: raise X
        except X:
            yield 100
        else:
            log.append(i)
        finally:
            log.append(-i)
        i += 1
    return i
```
-/

/-- An assignment. -/
def assign (f : σ → σ) : Act σ E V Unit := fun s => (f s, .ok ())
/-- An expression without effect. -/
def pureE {α : Type} (f : σ → α) : Act σ E V α := fun s => (s, .ok (f s))
/-- `raise`. -/
def throwE {α : Type} (e : Exc E V) : Act σ E V α := fun s => (s, .error e)

theorem assign_noStop (f : σ → σ) : NoStop (assign (E := E) (V := V) f) := by
  intro s s' e h; cases h
theorem pure_noStop {α : Type} (f : σ → α) : NoStop (pureE (E := E) (V := V) f) := by
  intro s s' e h; cases h
theorem throw_noStop (e : E) : NoStop (throwE (σ := σ) (V := V) (α := Unit) (.other e)) := by
  intro s s' e h; cases h; rfl
theorem pure_safe {α : Type} (f : σ → α) : Safe (pureE (E := E) (V := V) f) :=
  fun s => ⟨s, f s, rfl⟩

/-- The generator above, over the variable `i` and the list `log`. -/
def demo : Block (Int × List Int) Unit Int :=
  .cons (.whl (pureE (fun s => decide (s.1 < 4)))
    (.cons (.tri
      (.cons (.yld (pureE (fun s => s.1)))
        (one (.ite (pureE (fun s => decide (s.1 = 2))) (one (.prim (throwE (.other ())))) .nil)))
      (.cons (fun e => e == .other ()) (fun _ s => s) (one (.yld (pureE (fun _ => 100)))) .nil)
      (one (.prim (assign (fun s => (s.1, s.2 ++ [s.1])))))
      (one (.prim (assign (fun s => (s.1, s.2 ++ [-s.1]))))))
      (one (.prim (assign (fun s => (s.1 + 1, s.2))))))
    .nil)
  (one (.ret (some (pureE (fun s => s.1)))))

theorem demo_good : demo.Good false := by
  simp only [demo, one, Block.Good, Stmt.Good, Handlers.Good, Block.noRaise, Stmt.noRaise,
    Block.yields, Stmt.yields, Handlers.isNil, true_and, and_true, pure_noStop, assign_noStop,
    throw_noStop, pure_safe, implies_true, or_true]
  simp

/-- The fifth call, when the consumer appends 1000 to the list after the third, on both
sides: the generator has yielded 0, 1, 2, 100 and now yields 3. -/
example : nthNext 10 demo [id, id, fun s => (s.1, s.2 ++ [1000]), id] (0, []) =
    some (.value 3, (3, [0, 0, 1, -1, 1000, -2])) := by decide +kernel
example : nthCompiled 10 demo [id, id, fun s => (s.1, s.2 ++ [1000]), id] (0, []) =
    some (.value 3, (3, [0, 0, 1, -1, 1000, -2])) := by decide +kernel
/-- The sixth call ends it, with the value of `return`; the seventh just says that it has
ended. -/
example : nthCompiled 10 demo [id, id, id, id, id] (0, []) =
    some (.stop (some 4), (4, [0, 0, 1, -1, -2, 3, -3])) := by decide +kernel
example : nthCompiled 10 demo [id, id, id, id, id, id] (0, []) =
    some (.stop none, (4, [0, 0, 1, -1, -2, 3, -3])) := by decide +kernel

end Verif.Gen
