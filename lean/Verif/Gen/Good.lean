import Verif.Gen.Resume
/-
The bodies for which the transformation is proved correct, and what never happens when they
run.  Each exclusion is needed: see `Refute.lean`.
-/
namespace Verif.Gen

variable {σ E V : Type}

/-- `StopIteration`? -/
def Exc.isStop : Exc E V → Bool
  | .stop _ => true
  | _ => false

/-- Evaluating the expression never raises `StopIteration`. -/
def NoStop {α : Type} (f : Act σ E V α) : Prop :=
  ∀ s s' e, f s = (s', .error e) → e.isStop = false

/-- Evaluating the expression never raises. -/
def Safe {α : Type} (f : Act σ E V α) : Prop := ∀ s, ∃ s' v, f s = (s', .ok v)

mutual
/-- There is no bare `raise` that would raise the exception being handled outside the
statement, and nothing that looks at it.  (In the body of a handler inside it that is
fine.) -/
def Stmt.noRaise : Stmt σ E V → Prop
  | .reraise => False
  | .info _ => False
  | .ite _ b o => b.noRaise ∧ o.noRaise
  | .whl _ b o => b.noRaise ∧ o.noRaise
  | .tri b _ o f => b.noRaise ∧ o.noRaise ∧ f.noRaise
  | _ => True
/-- `noRaise` for lists of statements. -/
def Block.noRaise : Block σ E V → Prop
  | .nil => True
  | .cons s r => s.noRaise ∧ r.noRaise
end

mutual
/-- The statements for which the transformation is right; `inTry` says whether there is a
`try` around.
* `yield` expressions never raise; nothing raises `StopIteration`;
* `return e` is not inside a `try`;
* there is no `yield` in a `finally` block, no bare `raise` in a handler with a `yield`,
  and no `as name`;
* (syntax) `else` needs a handler. -/
def Stmt.Good (inTry : Bool) : Stmt σ E V → Prop
  | .prim f => NoStop f
  | .yld e => Safe e
  | .ite t b o => NoStop t ∧ b.Good inTry ∧ o.Good inTry
  | .whl t b o => NoStop t ∧ b.Good inTry ∧ o.Good inTry
  | .brk => True
  | .cont => True
  | .ret none => True
  | .ret (some e) => inTry = false ∧ NoStop e
  | .reraise => True
  | .info f => ∀ c, NoStop (f c)
  | .tri b hs o f => b.Good true ∧ hs.Good ∧ o.Good true ∧ f.Good true ∧ f.yields = 0 ∧
      (hs.isNil = true → o = .nil)
/-- `Good` for lists of statements. -/
def Block.Good (inTry : Bool) : Block σ E V → Prop
  | .nil => True
  | .cons s r => s.Good inTry ∧ r.Good inTry
/-- `Good` for handlers. -/
def Handlers.Good : Handlers σ E V → Prop
  | .nil => True
  | .cons _ bind b r => (∀ e s, bind e s = s) ∧ b.Good true ∧ (b.yields = 0 ∨ b.noRaise) ∧
      r.Good
end

/-- Not a `StopIteration`. -/
def NotStop {P : Type} : Out E V P → Prop
  | .exc e => e.isStop = false
  | _ => True

/-- Not `return v`. -/
def NotRet {P : Type} : Out E V P → Prop
  | .ret (some _) => False
  | _ => True

/-- The exception being handled, if any, is not a `StopIteration`. -/
def CurOk (cur : Option (Exc E V)) : Prop := ∀ e, cur = some e → e.isStop = false

theorem CurOk.getD {cur : Option (Exc E V)} (h : CurOk cur) :
    (cur.getD .noActive).isStop = false := by
  cases cur with
  | none => rfl
  | some e => exact h e rfl

theorem curOk_none : CurOk (none : Option (Exc E V)) := by intro e h; cases h

theorem curOk_some {e : Exc E V} (h : e.isStop = false) : CurOk (some e) := by
  intro e' h'; cases h'; exact h

mutual
theorem run_notStop : ∀ (x : Stmt σ E V) {i : Bool} (_ : x.Good i) {cur : Option (Exc E V)}
    (_ : CurOk cur) (b : Nat) (s : σ), Always NotStop (run cur b x s)
  | .prim f, i, g, cur, hc, b, s => by
    simp only [run, primP]
    split
    · next h => exact Always.some (g _ _ _ h) _
    · exact Always.some trivial _
  | .yld e, i, g, cur, hc, b, s => by
    obtain ⟨s', v, h⟩ := g s
    simp only [run, yldP, h]
    exact Always.some trivial _
  | .ite t body o, i, g, cur, hc, b, s => by
    simp only [run]
    simp only [Stmt.Good] at g
    exact Always.condR (fun s s' e h => g.1 s s' e h) (fun s' => runB_notStop body g.2.1 hc b s')
      (fun s' => runB_notStop o g.2.2 hc _ s') s
  | .whl t body o, i, g, cur, hc, b, s => by
    simp only [run]
    simp only [Stmt.Good] at g
    exact Always.loopL trivial (fun s s' e h => g.1 s s' e h) (fun s' => runB_notStop body g.2.1 hc b s')
      (fun s' => runB_notStop o g.2.2 hc _ s') s
  | .brk, i, g, cur, hc, b, s => by simp only [run]; exact Always.some trivial _
  | .cont, i, g, cur, hc, b, s => by simp only [run]; exact Always.some trivial _
  | .ret none, i, g, cur, hc, b, s => by simp only [run]; exact Always.some trivial _
  | .ret (some e), i, g, cur, hc, b, s => by
    simp only [Stmt.Good] at g
    simp only [run, retP]
    split
    · next h => exact Always.some (g.2 _ _ _ h) _
    · exact Always.some trivial _
  | .reraise, i, g, cur, hc, b, s => by simp only [run]; exact Always.some hc.getD _
  | .info f, i, g, cur, hc, b, s => by
    simp only [Stmt.Good] at g
    simp only [run, primP]
    split
    · next h => exact Always.some (g cur _ _ _ h) _
    · exact Always.some trivial _
  | .tri body hs o f, i, g, cur, hc, b, s => by
    simp only [run]
    simp only [Stmt.Good] at g
    refine Always.finR (fun s' => runB_notStop f g.2.2.2.1 hc _ s')
      (fun e s' he => runB_notStop f g.2.2.2.1 (curOk_some he) _ s') ?_
    exact Always.tryR (fun e s' he => runH_notStop hs g.2.1 hc _ he s')
      (fun s' => runB_notStop o g.2.2.1 hc _ s') (runB_notStop body g.1 hc b s)
theorem runB_notStop : ∀ (x : Block σ E V) {i : Bool} (_ : x.Good i) {cur : Option (Exc E V)}
    (_ : CurOk cur) (b : Nat) (s : σ), Always NotStop (runB cur b x s)
  | .nil, i, g, cur, hc, b, s => by simp only [runB]; exact Always.some trivial _
  | .cons x r, i, g, cur, hc, b, s => by
    simp only [runB]
    simp only [Block.Good] at g
    exact Always.seqR (fun s' => runB_notStop r g.2 hc _ s') (run_notStop x g.1 hc b s)
theorem runH_notStop : ∀ (x : Handlers σ E V) (_ : x.Good) {cur : Option (Exc E V)}
    (_ : CurOk cur) (b : Nat) {e : Exc E V} (_ : e.isStop = false) (s : σ),
    Always NotStop (runH cur b x e s)
  | .nil, g, cur, hc, b, e, he, s => by simp only [runH]; exact Always.some he _
  | .cons m bind body r, g, cur, hc, b, e, he, s => by
    simp only [runH]
    simp only [Handlers.Good] at g
    split
    · exact runB_notStop body g.2.1 (curOk_some he) b _
    · exact runH_notStop r g.2.2.2 hc _ he s
end

mutual
theorem resume_notStop : ∀ (x : Stmt σ E V) {i : Bool} (_ : x.Good i)
    {cur : Option (Exc E V)} (_ : CurOk cur) (b k : Nat) (s : σ),
    Always NotStop (resume cur b k x s)
  | .prim f, i, g, cur, hc, b, k, s => by simp only [resume]; exact Always.none
  | .yld e, i, g, cur, hc, b, k, s => by simp only [resume]; exact Always.some trivial _
  | .ite t body o, i, g, cur, hc, b, k, s => by
    simp only [resume]
    simp only [Stmt.Good] at g
    split
    · exact resumeB_notStop body g.2.1 hc b k s
    · exact resumeB_notStop o g.2.2 hc _ k s
  | .whl t body o, i, g, cur, hc, b, k, s => by
    simp only [resume]
    simp only [Stmt.Good] at g
    split
    · exact Always.againR trivial
        (fun s' => Always.loopL trivial (fun s s' e h => g.1 s s' e h) (fun s' => runB_notStop body g.2.1 hc b s')
          (fun s' => runB_notStop o g.2.2 hc _ s') s')
        (resumeB_notStop body g.2.1 hc b k s)
    · exact resumeB_notStop o g.2.2 hc _ k s
  | .brk, i, g, cur, hc, b, k, s => by simp only [resume]; exact Always.none
  | .cont, i, g, cur, hc, b, k, s => by simp only [resume]; exact Always.none
  | .ret e, i, g, cur, hc, b, k, s => by cases e <;> (simp only [resume]; exact Always.none)
  | .reraise, i, g, cur, hc, b, k, s => by simp only [resume]; exact Always.none
  | .info f, i, g, cur, hc, b, k, s => by simp only [resume]; exact Always.none
  | .tri body hs o f, i, g, cur, hc, b, k, s => by
    simp only [resume]
    simp only [Stmt.Good] at g
    refine Always.finR (fun s' => runB_notStop f g.2.2.2.1 hc _ s')
      (fun e s' he => runB_notStop f g.2.2.2.1 (curOk_some he) _ s') ?_
    split
    · exact Always.tryR (fun e s' he => runH_notStop hs g.2.1 hc _ he s')
        (fun s' => runB_notStop o g.2.2.1 hc _ s') (resumeB_notStop body g.1 hc b k s)
    · split
      · exact resumeH_notStop hs g.2.1 hc _ k s
      · exact resumeB_notStop o g.2.2.1 hc _ k s
theorem resumeB_notStop : ∀ (x : Block σ E V) {i : Bool} (_ : x.Good i)
    {cur : Option (Exc E V)} (_ : CurOk cur) (b k : Nat) (s : σ),
    Always NotStop (resumeB cur b k x s)
  | .nil, i, g, cur, hc, b, k, s => by simp only [resumeB]; exact Always.none
  | .cons x r, i, g, cur, hc, b, k, s => by
    simp only [resumeB]
    simp only [Block.Good] at g
    split
    · exact Always.seqR (fun s' => runB_notStop r g.2 hc _ s') (resume_notStop x g.1 hc b k s)
    · exact resumeB_notStop r g.2 hc _ k s
theorem resumeH_notStop : ∀ (x : Handlers σ E V) (_ : x.Good)
    {cur : Option (Exc E V)} (_ : CurOk cur) (b k : Nat) (s : σ),
    Always NotStop (resumeH cur b k x s)
  | .nil, g, cur, hc, b, k, s => by simp only [resumeH]; exact Always.none
  | .cons m bind body r, g, cur, hc, b, k, s => by
    simp only [resumeH]
    simp only [Handlers.Good] at g
    split
    · exact resumeB_notStop body g.2.1 hc b k s
    · exact resumeH_notStop r g.2.2.2 hc _ k s
end

mutual
theorem run_notRet : ∀ (x : Stmt σ E V) (_ : x.Good true) (cur : Option (Exc E V))
    (b : Nat) (s : σ), Always NotRet (run cur b x s)
  | .prim f, g, cur, b, s => by
    simp only [run, primP]
    split <;> exact Always.some trivial _
  | .yld e, g, cur, b, s => by
    obtain ⟨s', v, h⟩ := g s
    simp only [run, yldP, h]
    exact Always.some trivial _
  | .ite t body o, g, cur, b, s => by
    simp only [run]
    simp only [Stmt.Good] at g
    exact Always.condR (fun _ _ _ _ => trivial) (fun s' => runB_notRet body g.2.1 cur b s')
      (fun s' => runB_notRet o g.2.2 cur _ s') s
  | .whl t body o, g, cur, b, s => by
    simp only [run]
    simp only [Stmt.Good] at g
    exact Always.loopL trivial (fun _ _ _ _ => trivial)
      (fun s' => runB_notRet body g.2.1 cur b s') (fun s' => runB_notRet o g.2.2 cur _ s') s
  | .brk, g, cur, b, s => by simp only [run]; exact Always.some trivial _
  | .cont, g, cur, b, s => by simp only [run]; exact Always.some trivial _
  | .ret none, g, cur, b, s => by simp only [run]; exact Always.some trivial _
  | .ret (some e), g, cur, b, s => by
    simp only [Stmt.Good] at g
    cases g.1
  | .reraise, g, cur, b, s => by simp only [run]; exact Always.some trivial _
  | .info f, g, cur, b, s => by
    simp only [run, primP]
    split <;> exact Always.some trivial _
  | .tri body hs o f, g, cur, b, s => by
    simp only [run]
    simp only [Stmt.Good] at g
    refine Always.finR (fun s' => runB_notRet f g.2.2.2.1 cur _ s')
      (fun e s' _ => runB_notRet f g.2.2.2.1 (some e) _ s') ?_
    exact Always.tryR (fun e s' _ => runH_notRet hs g.2.1 cur _ e s')
      (fun s' => runB_notRet o g.2.2.1 cur _ s') (runB_notRet body g.1 cur b s)
theorem runB_notRet : ∀ (x : Block σ E V) (_ : x.Good true) (cur : Option (Exc E V))
    (b : Nat) (s : σ), Always NotRet (runB cur b x s)
  | .nil, g, cur, b, s => by simp only [runB]; exact Always.some trivial _
  | .cons x r, g, cur, b, s => by
    simp only [runB]
    simp only [Block.Good] at g
    exact Always.seqR (fun s' => runB_notRet r g.2 cur _ s') (run_notRet x g.1 cur b s)
theorem runH_notRet : ∀ (x : Handlers σ E V) (_ : x.Good) (cur : Option (Exc E V))
    (b : Nat) (e : Exc E V) (s : σ), Always NotRet (runH cur b x e s)
  | .nil, g, cur, b, e, s => by simp only [runH]; exact Always.some trivial _
  | .cons m bind body r, g, cur, b, e, s => by
    simp only [runH]
    simp only [Handlers.Good] at g
    split
    · exact runB_notRet body g.2.1 _ b _
    · exact runH_notRet r g.2.2.2 cur _ e s
end

mutual
theorem resume_notRet : ∀ (x : Stmt σ E V) (_ : x.Good true) (cur : Option (Exc E V))
    (b k : Nat) (s : σ), Always NotRet (resume cur b k x s)
  | .prim f, g, cur, b, k, s => by simp only [resume]; exact Always.none
  | .yld e, g, cur, b, k, s => by simp only [resume]; exact Always.some trivial _
  | .ite t body o, g, cur, b, k, s => by
    simp only [resume]
    simp only [Stmt.Good] at g
    split
    · exact resumeB_notRet body g.2.1 cur b k s
    · exact resumeB_notRet o g.2.2 cur _ k s
  | .whl t body o, g, cur, b, k, s => by
    simp only [resume]
    simp only [Stmt.Good] at g
    split
    · exact Always.againR trivial
        (fun s' => Always.loopL trivial (fun _ _ _ _ => trivial)
          (fun s' => runB_notRet body g.2.1 cur b s')
          (fun s' => runB_notRet o g.2.2 cur _ s') s')
        (resumeB_notRet body g.2.1 cur b k s)
    · exact resumeB_notRet o g.2.2 cur _ k s
  | .brk, g, cur, b, k, s => by simp only [resume]; exact Always.none
  | .cont, g, cur, b, k, s => by simp only [resume]; exact Always.none
  | .ret e, g, cur, b, k, s => by cases e <;> (simp only [resume]; exact Always.none)
  | .reraise, g, cur, b, k, s => by simp only [resume]; exact Always.none
  | .info f, g, cur, b, k, s => by simp only [resume]; exact Always.none
  | .tri body hs o f, g, cur, b, k, s => by
    simp only [resume]
    simp only [Stmt.Good] at g
    refine Always.finR (fun s' => runB_notRet f g.2.2.2.1 cur _ s')
      (fun e s' _ => runB_notRet f g.2.2.2.1 (some e) _ s') ?_
    split
    · exact Always.tryR (fun e s' _ => runH_notRet hs g.2.1 cur _ e s')
        (fun s' => runB_notRet o g.2.2.1 cur _ s') (resumeB_notRet body g.1 cur b k s)
    · split
      · exact resumeH_notRet hs g.2.1 cur _ k s
      · exact resumeB_notRet o g.2.2.1 cur _ k s
theorem resumeB_notRet : ∀ (x : Block σ E V) (_ : x.Good true) (cur : Option (Exc E V))
    (b k : Nat) (s : σ), Always NotRet (resumeB cur b k x s)
  | .nil, g, cur, b, k, s => by simp only [resumeB]; exact Always.none
  | .cons x r, g, cur, b, k, s => by
    simp only [resumeB]
    simp only [Block.Good] at g
    split
    · exact Always.seqR (fun s' => runB_notRet r g.2 cur _ s') (resume_notRet x g.1 cur b k s)
    · exact resumeB_notRet r g.2 cur _ k s
theorem resumeH_notRet : ∀ (x : Handlers σ E V) (_ : x.Good) (cur : Option (Exc E V))
    (b k : Nat) (s : σ), Always NotRet (resumeH cur b k x s)
  | .nil, g, cur, b, k, s => by simp only [resumeH]; exact Always.none
  | .cons m bind body r, g, cur, b, k, s => by
    simp only [resumeH]
    simp only [Handlers.Good] at g
    split
    · exact resumeB_notRet body g.2.1 cur b k s
    · exact resumeH_notRet r g.2.2.2 cur _ k s
end

/-! ### The exception being handled matters to a bare `raise` only -/

theorem finR_congr {S P : Type} {f f' : Option (Exc E V) → S → Res S E V P}
    {c c' : Option (Exc E V)} (h : f c = f' c') (he : ∀ e, f (some e) = f' (some e))
    (x : Res S E V P) : finR f c x = finR f' c' x := by
  rcases x with _ | ⟨o, s⟩
  · rfl
  · cases o <;> simp only [finR, h, he]

theorem runH_cur (hs : Handlers σ E V) (c c' : Option (Exc E V)) (b : Nat) :
    runH c b hs = runH c' b hs := by
  match hs with
  | .nil => funext e s; simp only [runH]
  | .cons m bind body r =>
    funext e s
    simp only [runH]
    rw [runH_cur r c c']

mutual
theorem run_cur : ∀ (x : Stmt σ E V) (_ : x.noRaise) (c c' : Option (Exc E V)) (b : Nat),
    run c b x = run c' b x
  | .prim f, g, c, c', b => by funext s; simp only [run]
  | .yld e, g, c, c', b => by funext s; simp only [run]
  | .ite t body o, g, c, c', b => by
    simp only [Stmt.noRaise] at g
    funext s
    simp only [run, runB_cur body g.1 c c', runB_cur o g.2 c c']
  | .whl t body o, g, c, c', b => by
    simp only [Stmt.noRaise] at g
    funext s
    simp only [run, runB_cur body g.1 c c', runB_cur o g.2 c c']
  | .brk, g, c, c', b => by funext s; simp only [run]
  | .cont, g, c, c', b => by funext s; simp only [run]
  | .ret none, g, c, c', b => by funext s; simp only [run]
  | .ret (some e), g, c, c', b => by funext s; simp only [run]
  | .reraise, g, c, c', b => by simp only [Stmt.noRaise] at g
  | .info f, g, c, c', b => by simp only [Stmt.noRaise] at g
  | .tri body hs o f, g, c, c', b => by
    simp only [Stmt.noRaise] at g
    funext s
    simp only [run, runB_cur body g.1 c c', runB_cur o g.2.1 c c', runH_cur hs c c']
    exact finR_congr (runB_cur f g.2.2 c c' _) (fun _ => rfl) _
theorem runB_cur : ∀ (x : Block σ E V) (_ : x.noRaise) (c c' : Option (Exc E V)) (b : Nat),
    runB c b x = runB c' b x
  | .nil, g, c, c', b => by funext s; simp only [runB]
  | .cons x r, g, c, c', b => by
    simp only [Block.noRaise] at g
    funext s
    simp only [runB, run_cur x g.1 c c', runB_cur r g.2 c c']
end

mutual
theorem resume_cur : ∀ (x : Stmt σ E V) {i : Bool} (_ : x.Good i) (_ : x.noRaise)
    (c c' : Option (Exc E V)) (b k : Nat) (_ : b ≤ k) (_ : k < b + x.yields),
    resume c b k x = resume c' b k x
  | .prim f, i, g, n, c, c', b, k, h1, h2 => by funext s; simp only [resume]
  | .yld e, i, g, n, c, c', b, k, h1, h2 => by funext s; simp only [resume]
  | .ite t body o, i, g, n, c, c', b, k, h1, h2 => by
    simp only [Stmt.noRaise] at n
    simp only [Stmt.Good] at g
    simp only [Stmt.yields] at h2
    funext s
    simp only [resume]
    split
    · rw [resumeB_cur body g.2.1 n.1 c c' b k h1 (by omega)]
    · rw [resumeB_cur o g.2.2 n.2 c c' _ k (by omega) (by omega)]
  | .whl t body o, i, g, n, c, c', b, k, h1, h2 => by
    simp only [Stmt.noRaise] at n
    simp only [Stmt.Good] at g
    simp only [Stmt.yields] at h2
    funext s
    simp only [resume]
    split
    · rw [resumeB_cur body g.2.1 n.1 c c' b k h1 (by omega), runB_cur body n.1 c c',
        runB_cur o n.2 c c']
    · rw [resumeB_cur o g.2.2 n.2 c c' _ k (by omega) (by omega)]
  | .brk, i, g, n, c, c', b, k, h1, h2 => by funext s; simp only [resume]
  | .cont, i, g, n, c, c', b, k, h1, h2 => by funext s; simp only [resume]
  | .ret e, i, g, n, c, c', b, k, h1, h2 => by funext s; cases e <;> simp only [resume]
  | .reraise, i, g, n, c, c', b, k, h1, h2 => by funext s; simp only [resume]
  | .info f, i, g, n, c, c', b, k, h1, h2 => by funext s; simp only [resume]
  | .tri body hs o f, i, g, n, c, c', b, k, h1, h2 => by
    simp only [Stmt.noRaise] at n
    simp only [Stmt.Good] at g
    simp only [Stmt.yields] at h2
    funext s
    simp only [resume, runB_cur o n.2.1 c c', runH_cur hs c c']
    rw [finR_congr (runB_cur f n.2.2 c c' _) (fun _ => rfl)]
    split
    · rw [resumeB_cur body g.1 n.1 c c' b k h1 (by omega)]
    · split
      · rw [resumeH_cur hs g.2.1 c c' _ k (by omega) (by omega)]
      · rw [resumeB_cur o g.2.2.1 n.2.1 c c' _ k (by omega) (by omega)]
theorem resumeB_cur : ∀ (x : Block σ E V) {i : Bool} (_ : x.Good i) (_ : x.noRaise)
    (c c' : Option (Exc E V)) (b k : Nat) (_ : b ≤ k) (_ : k < b + x.yields),
    resumeB c b k x = resumeB c' b k x
  | .nil, i, g, n, c, c', b, k, h1, h2 => by funext s; simp only [resumeB]
  | .cons x r, i, g, n, c, c', b, k, h1, h2 => by
    simp only [Block.noRaise] at n
    simp only [Block.Good] at g
    simp only [Block.yields] at h2
    funext s
    simp only [resumeB]
    split
    · rw [resume_cur x g.1 n.1 c c' b k h1 (by omega), runB_cur r n.2 c c']
    · rw [resumeB_cur r g.2 n.2 c c' _ k (by omega) (by omega)]
theorem resumeH_cur : ∀ (x : Handlers σ E V) (_ : x.Good)
    (c c' : Option (Exc E V)) (b k : Nat) (_ : b ≤ k) (_ : k < b + x.yields),
    resumeH c b k x = resumeH c' b k x
  | .nil, g, c, c', b, k, h1, h2 => by funext s; simp only [resumeH]
  | .cons m bind body r, g, c, c', b, k, h1, h2 => by
    simp only [Handlers.Good] at g
    simp only [Handlers.yields] at h2
    funext s
    simp only [resumeH]
    split
    · rcases g.2.2.1 with h | h
      · omega
      · rw [resumeB_cur body g.2.1 h c c' b k h1 (by omega)]
    · rw [resumeH_cur r g.2.2.2 c c' _ k (by omega) (by omega)]
end

end Verif.Gen
