import Verif.Gen.ForGood
/-
C65 for bodies with `for` and `with`: the composition of the rewriting of the two statements
with the transformation of the body.
-/
namespace Verif.Gen

variable {σ E V T I X M Y : Type}

/-- **C65** (partial).  The claim for bodies with `for` and `with`, for iterators and context
managers of any kind: every call of `next` of the compiled generator does what it does in
Python.

Missing, besides what is missing in `generator_next_partial`: a loop nested in another one
with the same line number, a `with` in the body of another `with` and a target of a `with`
that cannot be assigned to, for which the claim is false (`ForRefute.lean`). -/
theorem generator_for_with_next_partial (p : Proto σ E V T I X M Y) (hp : p.NoStop)
    (body : FBlock σ E V T X M Y) (apart : body.Apart false) (good : body.Good false)
    (between : List (σ → σ)) (s : σ) (r : Obs E V × σ) :
    (∃ N, nthNextFor p N body between s = some r) ↔
      (∃ N, nthCompiledFor p N body between s = some r) := by
  have key := fun g => generator_next_partial (body.rewrite p false) (rewriteB_good hp false body good)
    (between.map (fun a g => (a g.1, g.2))) (s, Hid.empty) g
  have e : ∀ N, nthCompiledFor p N body between s =
      (nthCompiled N (body.rewrite p false) (between.map (fun a g => (a g.1, g.2)))
        (s, Hid.empty)).map (fun r => (r.1, r.2.1)) := by
    intro N
    unfold nthCompiledFor
    cases nthCompiled N (body.rewrite p false) (between.map (fun a g => (a g.1, g.2)))
      (s, Hid.empty) <;> rfl
  constructor
  · rintro ⟨N, h⟩
    rw [← nthNext_rewrite p false N body apart between s Hid.empty, Option.map_eq_some_iff] at h
    obtain ⟨g, hg, hr⟩ := h
    obtain ⟨N', h'⟩ := (key g).1 ⟨N, hg⟩
    exact ⟨N', by rw [e, h', Option.map_some, hr]⟩
  · rintro ⟨N, h⟩
    rw [e, Option.map_eq_some_iff] at h
    obtain ⟨g, hg, hr⟩ := h
    obtain ⟨N', h'⟩ := (key g).2 ⟨N, hg⟩
    exact ⟨N', by rw [← nthNext_rewrite p false N' body apart between s Hid.empty, h', Option.map_some, hr]⟩

/-! ### A world with lists, iterators and managers -/

/-- The variables `x` and `y`, a log, and the rest of every iterator made so far. -/
structure Heap where
  x : Int
  y : Int
  log : List Int
  its : List (List Int)
deriving DecidableEq

/-- Iterating over a list makes a new iterator.  Entering manager `m` logs `m` and gives
`m`, leaving it logs `-m`, or `-10*m` if there is an exception, which the manager 1
swallows. -/
def world : Proto Heap Unit Int (List Int) Nat Int Int Int where
  start l := fun s => ({ s with its := s.its ++ [l] }, .ok s.its.length)
  step i := fun s =>
    match s.its[i]? with
    | some (a :: l) => ({ s with its := s.its.set i l }, .ok (some a))
    | _ => (s, .ok none)
  enter m := fun s => ({ s with log := s.log ++ [m] }, .ok m)
  exit m e := fun s => ({ s with log := s.log ++ [if e.isSome then -10 * m else -m] },
    .ok (decide (m = 1)))

theorem world_noStop : world.NoStop := by
  refine ⟨?_, ?_, ?_, ?_⟩
  · intro t s s' e h; cases h
  · intro i s s' e h
    simp only [world] at h
    split at h <;> cases h
  · intro m s s' e h; cases h
  · intro m x s s' e h; cases h

/-- Bodies over this world. -/
abbrev FB := FBlock Heap Unit Int (List Int) Int Int Int
/-- Statements over this world. -/
abbrev FS := FStmt Heap Unit Int (List Int) Int Int Int

/-- A list of one statement. -/
def oneF (s : FS) : FB := .cons s .nil
/-- `log.append(i)`. -/
def logF (i : Int) : FS := .prim (assign (fun s => { s with log := s.log ++ [i] }))
/-- `yield 10*x + y`. -/
def yieldXY : FS := .yld (pureE (fun s => 10 * s.x + s.y))
/-- `for x in l` on line `line`. -/
def forX (line : Nat) (l : List Int) (body orelse : FB) : FS :=
  .forS line (pureE (fun _ => l)) (fun a => assign (fun s => { s with x := a })) body orelse
/-- `for y in l` on line `line`. -/
def forY (line : Nat) (l : List Int) (body orelse : FB) : FS :=
  .forS line (pureE (fun _ => l)) (fun a => assign (fun s => { s with y := a })) body orelse
/-- `m` as an item of a `with`. -/
def item (col : Nat) (m : Int) : WItem Heap Unit Int Int Int :=
  ⟨col, pureE (fun _ => m), none⟩
/-- `m as y`. -/
def itemY (col : Nat) (m : Int) : WItem Heap Unit Int Int Int :=
  ⟨col, pureE (fun _ => m), some (fun v => assign (fun s => { s with y := v }))⟩
/-- `raise X`. -/
def raiseF : FS := .prim (throwE (.other ()))

/-- ```
1 for x in [1, 2, 3]:
2     for y in [5, 6]:
          if x == 2: break
          yield 10*x + y
      else:
          log.append(7)
3     with 1, 2 as y:
          yield 10*x + y
          if x == 3: raise X
  else:
      log.append(8)
``` -/
def forDemo : FB :=
  oneF (forX 1 [1, 2, 3]
    (.cons (forY 2 [5, 6]
        (.cons (.ite (pureE (fun s => decide (s.x = 2))) (oneF .brk) .nil) (oneF yieldXY))
        (oneF (logF 7)))
      (oneF (.withS 3 8 (item 13 1) [itemY 16 2]
        (.cons yieldXY
          (oneF (.ite (pureE (fun s => decide (s.x = 3))) (oneF raiseF) .nil))))))
    (oneF (logF 8)))

theorem forDemo_apart : forDemo.Apart false := by
  simp [forDemo, oneF, forX, forY, item, itemY, yieldXY, logF, raiseF, FBlock.Apart, FStmt.Apart,
    FBlock.keys, FStmt.keys, withApart, withKeys, Safe, assign]

theorem forDemo_good : forDemo.Good false := by
  simp [forDemo, oneF, forX, forY, item, itemY, yieldXY, logF, raiseF, FBlock.Good, FStmt.Good,
    WItem.NoStop, pure_noStop, assign_noStop, throw_noStop, pure_safe]

/-- The first, second, third, fourth and fifth values, and the log; and at the end the exception
raised in the third round has been swallowed by manager 1, so that `else` runs. -/
example : nthCompiledFor world 9 forDemo [] ⟨0, 0, [], []⟩ =
    some (.value 15, ⟨1, 5, [], [[2, 3], [6]]⟩) := by decide +kernel
example : nthCompiledFor world 9 forDemo [id, id] ⟨0, 0, [], []⟩ =
    some (.value 12, ⟨1, 2, [7, 1, 2], [[2, 3], []]⟩) := by decide +kernel
example : nthCompiledFor world 9 forDemo [id, id, id] ⟨0, 0, [], []⟩ =
    some (.value 22, ⟨2, 2, [7, 1, 2, -2, -1, 1, 2], [[3], [], [6]]⟩) := by decide +kernel
example : nthCompiledFor world 9 forDemo [id, id, id, id, id, id, id] ⟨0, 0, [], []⟩ =
    some (.stop none, ⟨3, 2, [7, 1, 2, -2, -1, 1, 2, -2, -1, 7, 1, 2, -20, -10, 8],
      [[], [], [6], []]⟩) := by decide +kernel
example : nthNextFor world 9 forDemo [id, id, id, id, id, id, id] ⟨0, 0, [], []⟩ =
    some (.stop none, ⟨3, 2, [7, 1, 2, -2, -1, 1, 2, -2, -1, 7, 1, 2, -20, -10, 8],
      [[], [], [6], []]⟩) := by decide +kernel

end Verif.Gen
