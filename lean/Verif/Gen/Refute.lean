import Verif.Gen.Props
/-
C65 outside the fragment `Good`: for each exclusion a generator that the transformation gets
wrong.  Every theorem gives what Python does (`nthNext`) and what the transformed function does
(`nthCompiled`).
-/
namespace Verif.Gen

/-- Bodies over one list, with integer values and one exception. -/
abbrev B := Block (List Int) Unit Int
/-- Statements over one list. -/
abbrev S := Stmt (List Int) Unit Int

/-- `log.append(i)`. -/
def log (i : Int) : S := .prim (assign (fun s => s ++ [i]))
/-- `yield i`. -/
def yieldC (i : Int) : S := .yld (pureE (fun _ => i))
/-- `yield f()`, where `f` raises. -/
def yieldRaise : S := .yld (throwE (.other ()))
/-- `raise X`. -/
def raiseX : S := .prim (throwE (.other ()))
/-- `except Exception:`. -/
def catchAll (b : B) : Handlers (List Int) Unit Int := .cons (fun _ => true) (fun _ s => s) b .nil

/-- The expression of a `yield` raises: Python's generator is finished, the compiled one goes
on after the `yield` (the slot is set before the expression is evaluated,
generator_codegen.py:247-256). -/
theorem yield_raises_resumes :
    nthNext 5 (.cons yieldRaise (one (yieldC 5))) [] [] = some (.raised (.other ()), []) ∧
    nthCompiled 5 (.cons yieldRaise (one (yieldC 5))) [] [] = some (.raised (.other ()), []) ∧
    nthNext 5 (.cons yieldRaise (one (yieldC 5))) [id] [] = some (.stop none, []) ∧
    nthCompiled 5 (.cons yieldRaise (one (yieldC 5))) [id] [] = some (.value 5, []) := by
  decide +kernel

/-- It raises inside `try`/`except`: in the handler, every `if` takes its `else` branch and no
`while` runs. -/
def yieldRaiseTry : B :=
  one (.tri (one yieldRaise)
    (catchAll (one (.ite (pureE (fun _ => true)) (one (log 1)) (one (log 2))))) .nil .nil)

theorem yield_raises_in_try :
    nthNext 5 yieldRaiseTry [] [] = some (.stop none, [1]) ∧
    nthCompiled 5 yieldRaiseTry [] [] = some (.stop none, [2]) := by decide +kernel

/-- It raises inside `try`/`finally`: the `finally` block does not run. -/
theorem yield_raises_skips_finally :
    nthNext 5 (one (.tri (one yieldRaise) .nil .nil (one (log 1)))) [] [] =
      some (.raised (.other ()), [1]) ∧
    nthCompiled 5 (one (.tri (one yieldRaise) .nil .nil (one (log 1)))) [] [] =
      some (.raised (.other ()), []) := by decide +kernel

/-- `return v` inside `try`/`finally`: the `finally` block does not run (the slot is already
-2, generator_codegen.py:466-478). -/
theorem return_value_skips_finally :
    nthNext 5 (one (.tri (one (.ret (some (pureE (fun _ => 7))))) .nil .nil (one (log 1))) : B)
      [] [] = some (.stop (some 7), [1]) ∧
    nthCompiled 5
      (one (.tri (one (.ret (some (pureE (fun _ => 7))))) .nil .nil (one (log 1))) : B)
      [] [] = some (.stop (some 7), []) := by decide +kernel

/-- `return v` inside `try`/`except`: the handler catches the `StopIteration` that `return` has
become, and the generator goes on. -/
def returnTry : B :=
  .cons (.tri (one (.ret (some (pureE (fun _ => 7))))) (catchAll (one (log 1))) .nil .nil)
    (one (log 2))

theorem return_value_is_caught :
    nthNext 5 returnTry [] [] = some (.stop (some 7), []) ∧
    nthCompiled 5 returnTry [] [] = some (.stop none, [1, 2]) := by decide +kernel

/-- `yield` in a `finally` block: the pending exception is lost. -/
theorem yield_in_finally_loses_exception :
    nthNext 5 (one (.tri (one raiseX) .nil .nil (one (yieldC 1)))) [id] [] =
      some (.raised (.other ()), []) ∧
    nthCompiled 5 (one (.tri (one raiseX) .nil .nil (one (yieldC 1)))) [id] [] =
      some (.stop none, []) := by decide +kernel

/-- `yield` in a `finally` block: the pending `return` is lost. -/
def returnFinallyYield : B :=
  .cons (.tri (one (.ret none)) .nil .nil (one (yieldC 1))) (one (yieldC 2))

theorem yield_in_finally_loses_return :
    nthNext 5 returnFinallyYield [id] [] = some (.stop none, []) ∧
    nthCompiled 5 returnFinallyYield [id] [] = some (.value 2, []) := by decide +kernel

/-- A bare `raise` after a `yield` in a handler: there is no exception left to raise. -/
def raiseAfterYield : B :=
  one (.tri (one raiseX) (catchAll (.cons (yieldC 1) (one .reraise))) .nil .nil)

theorem bare_raise_after_yield :
    nthNext 5 raiseAfterYield [id] [] = some (.raised (.other ()), []) ∧
    nthCompiled 5 raiseAfterYield [id] [] = some (.raised .noActive, []) := by decide +kernel

/-- A `StopIteration` raised in the body just ends the generator; Python turns it into a
`RuntimeError`. -/
theorem stopiteration_ends_quietly :
    nthNext 5 (one (.prim (throwE (.stop none))) : B) [] [] = some (.raised .runtime, []) ∧
    nthCompiled 5 (one (.prim (throwE (.stop none))) : B) [] [] = some (.stop none, []) := by
  decide +kernel

/-- `except X as e`: the body of the handler does not see `e`. -/
def exceptAs : B :=
  one (.tri (one raiseX)
    (.cons (fun _ => true) (fun _ s => s ++ [1]) (one (.yld (pureE (fun s => s.length)))) .nil)
    .nil .nil)

theorem except_as_not_bound :
    nthNext 5 exceptAs [] [] = some (.value 1, [1]) ∧
    nthCompiled 5 exceptAs [] [] = some (.value 0, []) := by decide +kernel

/-- A compiled `for` loop calls `__fastnext__` (function_conversion_context.py:2264-2300), for
which a null pointer is the end and an exception an exception: over a generator that ends with
`return v`, the loop ends with `StopIteration(v)` raised out of it. -/
theorem for_over_return_value_raises :
    execB 5 none (fastnextBody (one (.ret (some (pureE (fun _ => 7)))) : B)) (fresh [], []) =
      some (.exc (.stop (some 7)), (⟨-2, none, []⟩, [])) := by rfl

/-- So the claim without `Good` is false. -/
theorem generator_next_refuted :
    ¬ ∀ (body : B) (between : List (List Int → List Int)) (s : List Int)
      (r : Obs Unit Int × List Int),
      (∃ N, nthNext N body between s = some r) ↔
        (∃ N, nthCompiled N body between s = some r) := by
  intro h
  have h1 := (h (.cons yieldRaise (one (yieldC 5))) [id] [] (.value 5, [])).2
    ⟨5, yield_raises_resumes.2.2.2⟩
  obtain ⟨N, hN⟩ := h1
  have h2 : ∀ N, nthNext N (.cons yieldRaise (one (yieldC 5))) [id] [] =
      some (.stop none, []) := by intro N; rfl
  rw [h2] at hN
  cases hN

end Verif.Gen
