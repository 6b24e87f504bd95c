import Verif.Gen.ForProps
/-
C67: `with` in compiled functions that are not generators.

There `with` is expanded in place, with its position (function_conversion_context.py:2012-2015),
and the expansion is converted like any other statements, which is the subject of C62.
-/
namespace Verif.Gen

variable {σ E V T I X M Y : Type}

mutual
/-- No `for`, which such functions treat differently, and no `yield`. -/
def FStmt.plain : FStmt σ E V T X M Y → Prop
  | .yld _ => False
  | .ite _ b o => b.plain ∧ o.plain
  | .whl _ b o => b.plain ∧ o.plain
  | .forS _ _ _ _ _ => False
  | .withS _ _ _ _ b => b.plain
  | .tri b hs o f => b.plain ∧ hs.plain ∧ o.plain ∧ f.plain
  | _ => True
/-- `plain` for lists of statements. -/
def FBlock.plain : FBlock σ E V T X M Y → Prop
  | .nil => True
  | .cons s r => s.plain ∧ r.plain
/-- `plain` for handlers. -/
def FHandlers.plain : FHandlers σ E V T X M Y → Prop
  | .nil => True
  | .cons _ _ b r => b.plain ∧ r.plain
end

/-- **Specification.**  How a Python function with this body ends, and in which state. -/
def callPython (p : Proto σ E V T I X M Y) (N : Nat) (body : FBlock σ E V T X M Y) (s : σ) :
    Option (Out E V V × σ) :=
  (fexecB p N none body (s, [])).map (fun r => (r.1, r.2.1))

/-- How the function ends whose `with` statements have been expanded
(function_conversion_context.py:2012-2015), and in which state. -/
def callExpanded (p : Proto σ E V T I X M Y) (N : Nat) (body : FBlock σ E V T X M Y) (s : σ) :
    Option (Out E V V × σ) :=
  (execB N none (body.rewrite p true) ((s, Hid.empty), [])).map (fun r => (r.1, r.2.1.1))

/-- **C67** (partial).  A function with `with` statements ends in the same way and in the same
state as in Python, whatever its managers do and however its blocks are left.

Missing: targets of `with` that cannot be assigned to, for which the claim is false
(`with_target_raises_never_left`).  The other part of `Apart true`, that nested `with`
statements are at different positions, holds for all source code. -/
theorem with_statement_partial (p : Proto σ E V T I X M Y) (N : Nat)
    (body : FBlock σ E V T X M Y) (_plain : body.plain) (apart : body.Apart true) (s : σ) :
    callExpanded p N body s = callPython p N body s := by
  have := rewriteB_sim p true N body apart none (s, []) Hid.empty
  unfold callExpanded callPython
  rw [show (((s, Hid.empty), []) : World (σ × Hid E V T I X M)) = wup (s, []) Hid.empty from rfl]
  revert this
  generalize execB N none (body.rewrite p true) (wup (s, []) Hid.empty) = R
  generalize fexecB p N none body (s, []) = Q
  intro this
  match Q, this with
  | none, this => rw [show R = none from this]; rfl
  | some (o, w), ⟨h, e, _⟩ => subst e; rfl

/-- **C67** is false when assigning to the target raises: whatever the manager and the body are,
the function raises right then, and the manager is not left.  (In Python it is: `withR`.) -/
theorem with_target_raises_never_left (p : Proto σ E V T I X M Y) (N : Nat) (line col c : Nat)
    (mgr : Act σ E V M) (t : Y → Act σ E V Unit) (body : FBlock σ E V T X M Y)
    (s s1 s2 s3 : σ) (m : M) (y : Y) (e : Exc E V) (h1 : mgr s = (s1, .ok m))
    (h2 : p.enter m s1 = (s2, .ok y)) (h3 : t y s2 = (s3, .error e)) :
    callExpanded p N (.cons (.withS line col ⟨c, mgr, some t⟩ [] body) .nil) s =
      some (.exc e, s3) := by
  unfold callExpanded
  rw [FBlock.rewrite, FStmt.rewrite, execB_append]
  simp only [withsCode, withCode]
  rw [show (((s, Hid.empty), []) : World (σ × Hid E V T I X M)) = wup (s, []) Hid.empty from rfl]
  rw [execB, exec, hset_seq]
  change Option.map _ (seqR _ (execB _ _ _ (wup (s, []) _))) = _
  rw [execB, exec, hset_seq]
  simp only [act, h1]
  rw [execB, exec, prim_get]
  simp only [set_same, getOr, act, enterA, h2, h3]
  rfl

/-! ### A function

```
with 2 as y:
    with 3, 1:
        while True:
            with 4:
                raise X
    return y
```
-/

/-- The function above.  Manager 1 swallows the exception. -/
def withDemo : FB :=
  oneF (.withS 1 0 (itemY 5 2) []
    (.cons (.withS 2 4 (item 9 3) [item 12 1]
      (oneF (.whl (pureE (fun _ => true)) (oneF (.withS 4 12 (item 17 4) [] (oneF raiseF))) .nil)))
      (oneF (.ret (some (pureE (fun s => s.y)))))))

theorem withDemo_plain : withDemo.plain := by
  simp [withDemo, oneF, raiseF, FBlock.plain, FStmt.plain]

theorem withDemo_apart : withDemo.Apart true := by
  simp [withDemo, oneF, item, itemY, raiseF, FBlock.Apart, FStmt.Apart,
    FBlock.keys, FStmt.keys, withApart, withKeys, Safe, assign]

example : callExpanded world 5 withDemo ⟨0, 0, [], []⟩ =
    some (.ret (some 2), ⟨0, 2, [2, 3, 1, 4, -40, -10, -3, -2], []⟩) := by decide +kernel
example : callPython world 5 withDemo ⟨0, 0, [], []⟩ =
    some (.ret (some 2), ⟨0, 2, [2, 3, 1, 4, -40, -10, -3, -2], []⟩) := by decide +kernel

/-- The hypotheses of `with_target_raises_never_left` are met; what Python does is different. -/
example : callExpanded world 5
      (oneF (.withS 1 0 ⟨5, pureE (fun _ => 2), some (fun _ => throwE (.other ()))⟩ [] .nil))
      ⟨0, 0, [], []⟩ = some (.exc (.other ()), ⟨0, 0, [2], []⟩) :=
  with_target_raises_never_left world 5 1 0 5 _ _ _ _ ⟨0, 0, [], []⟩ ⟨0, 0, [2], []⟩ _ 2 2 _ rfl
    rfl rfl
example : callPython world 5
      (oneF (.withS 1 0 ⟨5, pureE (fun _ => 2), some (fun _ => throwE (.other ()))⟩ [] .nil))
      ⟨0, 0, [], []⟩ = some (.exc (.other ()), ⟨0, 0, [2, -20], []⟩) := by decide +kernel

end Verif.Gen
