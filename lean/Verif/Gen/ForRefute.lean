import Verif.Gen.ForProps
/-
C65 for bodies with `for` and `with`, outside the conditions of
`generator_for_with_next_partial`: for each a generator that is compiled to something else.
Every theorem gives what Python does (`nthNextFor`) and what the compiled generator does
(`nthCompiledFor`).
-/
namespace Verif.Gen

/-- Nothing has happened yet. -/
def start : Heap := ⟨0, 0, [], []⟩

/-- `with 2: with 3: yield` in a generator: both `with` statements keep their manager in the same
variable, since rewriting the loops of the body loses their positions
(for_loop_codegen.py:155-160).  When the generator is run to its end, Python leaves 3 and then
2; the compiled generator leaves 3 twice and 2 never. -/
def nestedWith : FB := oneF (.withS 1 0 (item 5 2) [] (oneF (.withS 2 4 (item 9 3) [] (oneF yieldXY))))

theorem nested_with_leaves_inner_twice :
    nthNextFor world 5 nestedWith [id] start = some (.stop none, ⟨0, 0, [2, 3, -3, -2], []⟩) ∧
    nthCompiledFor world 5 nestedWith [id] start =
      some (.stop none, ⟨0, 0, [2, 3, -3, -3], []⟩) := by decide +kernel

/-- The same with an exception: `with 1: with 2: raise X`, where 1 would swallow it.  Python's
generator goes on, the compiled one raises. -/
def nestedRaise : FB :=
  .cons (.withS 1 0 (item 5 1) [] (oneF (.withS 2 4 (item 9 2) [] (oneF raiseF)))) (oneF yieldXY)

theorem nested_with_is_not_swallowed :
    nthNextFor world 5 nestedRaise [] start = some (.value 0, ⟨0, 0, [1, 2, -20, -10], []⟩) ∧
    nthCompiledFor world 5 nestedRaise [] start =
      some (.raised (.other ()), ⟨0, 0, [1, 2, -20, -20], []⟩) := by decide +kernel

/-- `with 2 as t`, where assigning to `t` raises: Python leaves the manager, the compiled
generator does not (the assignment is before the `try`, withblock_codegen.py:130-157). -/
def badTarget : FB :=
  oneF (.withS 1 0 ⟨5, pureE (fun _ => 2), some (fun _ => throwE (.other ()))⟩ [] (oneF yieldXY))

theorem with_target_raises :
    nthNextFor world 5 badTarget [] start = some (.raised (.other ()), ⟨0, 0, [2, -20], []⟩) ∧
    nthCompiledFor world 5 badTarget [] start =
      some (.raised (.other ()), ⟨0, 0, [2], []⟩) := by decide +kernel

/-- `with 1: return 5` in a generator: `return v` is `raise StopIteration(v)` with the slot at -2
(generator_codegen.py:466-478), where the handler takes every `else` branch and the `finally`
block does not run.  The manager is never left. -/
def returnInWith : FB := oneF (.withS 1 0 (item 5 1) [] (oneF (.ret (some (pureE (fun _ => 5))))))

theorem return_value_in_with :
    nthNextFor world 5 returnInWith [] start = some (.stop (some 5), ⟨0, 0, [1, -1], []⟩) ∧
    nthCompiledFor world 5 returnInWith [] start =
      some (.stop (some 5), ⟨0, 0, [1], []⟩) := by decide +kernel

/-- Two nested loops with the same line number.  Written by hand they have different ones, but
the loops made for a generator expression have none, that is 0
(python_ast.py:1454-1466): `(... for ... for ...)`.  The inner loop takes over the iterator of the
outer one, which ends with it. -/
def sameLine : FB := oneF (forX 0 [1, 2] (oneF (forY 0 [5, 6] (oneF yieldXY) .nil)) .nil)

theorem same_line_truncates :
    nthNextFor world 9 sameLine [id, id] start = some (.value 25, ⟨2, 5, [], [[], [], [6]]⟩) ∧
    nthCompiledFor world 9 sameLine [id, id] start =
      some (.stop none, ⟨1, 6, [], [[2], []]⟩) := by decide +kernel

theorem compiledFor_mono {σ E V T I X M Y : Type} {p : Proto σ E V T I X M Y} {N N' : Nat}
    (hm : N ≤ N') {body : FBlock σ E V T X M Y} {bt : List (σ → σ)} {s : σ} {r : Obs E V × σ}
    (h : nthCompiledFor p N body bt s = some r) : nthCompiledFor p N' body bt s = some r := by
  unfold nthCompiledFor at h ⊢
  cases hc : nthCompiled N (body.rewrite p false) (bt.map (fun a g => (a g.1, g.2)))
      (s, Hid.empty) with
  | none => rw [hc] at h; cases h
  | some g =>
    rw [hc] at h
    have : nthCompiled N' (body.rewrite p false) (bt.map (fun a g => (a g.1, g.2))) (s, Hid.empty) =
        some g := calls_mono hm hc
    rw [this]
    exact h

/-- So the unrestricted claim is false. -/
theorem generator_for_with_next_refuted :
    ¬ ∀ (body : FB) (between : List (Heap → Heap)) (s : Heap) (r : Obs Unit Int × Heap),
      body.Good false → (∃ N, nthNextFor world N body between s = some r) →
      ∃ N, nthCompiledFor world N body between s = some r := by
  intro h
  have good : nestedWith.Good false := by
    simp [nestedWith, oneF, item, yieldXY, FBlock.Good, FStmt.Good, WItem.NoStop, pure_noStop,
      pure_safe]
  obtain ⟨N, hN⟩ := h nestedWith [id] start _ good ⟨5, nested_with_leaves_inner_twice.1⟩
  have a := compiledFor_mono (Nat.le_max_left N 5) hN
  have b := compiledFor_mono (Nat.le_max_right N 5) nested_with_leaves_inner_twice.2
  rw [a] at b
  exact absurd b (by decide)

end Verif.Gen
