import Verif.Gen.Limit
import Verif.Gen.Model
/-
Running a body up to its first `yield` (`run`), and going on from a `yield` (`resume`).
These are the two things a call of `next` does; yields are counted in program order.
Used in proofs only.
-/
namespace Verif.Gen

variable {σ E V : Type}

/-- Run a simple statement. -/
def primP (f : Act σ E V Unit) (s : σ) : Res σ E V (Nat × V) :=
  match f s with
  | (s', .error e) => some (.exc e, s')
  | (s', .ok _) => some (.norm, s')

/-- Run a `yield`: the body is suspended at yield number `b`. -/
def yldP (b : Nat) (e : Act σ E V V) (s : σ) : Res σ E V (Nat × V) :=
  match e s with
  | (s', .error x) => some (.exc x, s')
  | (s', .ok v) => some (.susp (b, v), s')

/-- Run `return e`. -/
def retP (e : Act σ E V V) (s : σ) : Res σ E V (Nat × V) :=
  match e s with
  | (s', .error x) => some (.exc x, s')
  | (s', .ok v) => some (.ret (some v), s')

mutual
/-- Run a statement up to its first `yield`; `b` yields come before it in the program. -/
noncomputable def run (cur : Option (Exc E V)) (b : Nat) : Stmt σ E V → σ → Res σ E V (Nat × V)
  | .prim f, s => primP f s
  | .yld e, s => yldP b e s
  | .ite t body o, s => condR t (runB cur b body) (runB cur (b + body.yields) o) s
  | .whl t body o, s => loopL t (runB cur b body) (runB cur (b + body.yields) o) s
  | .brk, s => some (.brk, s)
  | .cont, s => some (.cont, s)
  | .ret none, s => some (.ret none, s)
  | .ret (some e), s => retP e s
  | .reraise, s => some (.exc (cur.getD .noActive), s)
  | .info f, s => primP (f cur) s
  | .tri body hs o f, s =>
    finR (fun c => runB c (b + body.yields + hs.yields + o.yields) f) cur
      (tryR (runH cur (b + body.yields) hs) (runB cur (b + body.yields + hs.yields) o)
        (runB cur b body s))
/-- `run` for lists of statements. -/
noncomputable def runB (cur : Option (Exc E V)) (b : Nat) : Block σ E V → σ →
    Res σ E V (Nat × V)
  | .nil, s => some (.norm, s)
  | .cons x r, s => seqR (runB cur (b + x.yields) r) (run cur b x s)
/-- `run` for handlers. -/
noncomputable def runH (cur : Option (Exc E V)) (b : Nat) : Handlers σ E V → Exc E V → σ →
    Res σ E V (Nat × V)
  | .nil, e, s => some (.exc e, s)
  | .cons m bind body r, e, s =>
    if m e then runB (some e) b body (bind e s) else runH cur (b + body.yields) r e s
end

mutual
/-- Go on from yield number `k` inside the statement. -/
noncomputable def resume (cur : Option (Exc E V)) (b k : Nat) : Stmt σ E V → σ →
    Res σ E V (Nat × V)
  | .yld _, s => some (.norm, s)
  | .ite _ body o, s =>
    if k < b + body.yields then resumeB cur b k body s
    else resumeB cur (b + body.yields) k o s
  | .whl t body o, s =>
    if k < b + body.yields then
      againR (loopL t (runB cur b body) (runB cur (b + body.yields) o)) (resumeB cur b k body s)
    else resumeB cur (b + body.yields) k o s
  | .tri body hs o f, s =>
    finR (fun c => runB c (b + body.yields + hs.yields + o.yields) f) cur
      (if k < b + body.yields then
        tryR (runH cur (b + body.yields) hs) (runB cur (b + body.yields + hs.yields) o)
          (resumeB cur b k body s)
       else if k < b + body.yields + hs.yields then resumeH cur (b + body.yields) k hs s
       else resumeB cur (b + body.yields + hs.yields) k o s)
  | _, _ => none
/-- `resume` for lists of statements. -/
noncomputable def resumeB (cur : Option (Exc E V)) (b k : Nat) : Block σ E V → σ →
    Res σ E V (Nat × V)
  | .nil, _ => none
  | .cons x r, s =>
    if k < b + x.yields then seqR (runB cur (b + x.yields) r) (resume cur b k x s)
    else resumeB cur (b + x.yields) k r s
/-- `resume` for handlers. -/
noncomputable def resumeH (cur : Option (Exc E V)) (b k : Nat) : Handlers σ E V → σ →
    Res σ E V (Nat × V)
  | .nil, _ => none
  | .cons _ _ body r, s =>
    if k < b + body.yields then resumeB cur b k body s
    else resumeH cur (b + body.yields) k r s
end

/-! ### What a result is not -/

/-- `p` holds of the outcome, if there is one. -/
def Always {S P : Type} (p : Out E V P → Prop) (x : Res S E V P) : Prop :=
  ∀ o s, x = some (o, s) → p o

section always
variable {S P : Type} {p : Out E V P → Prop}

theorem Always.none : Always p (none : Res S E V P) := by intro o s h; cases h

theorem Always.some {o : Out E V P} (h : p o) (s : S) : Always p (some (o, s)) := by
  intro o' s' e; cases e; exact h

theorem Always.condR {t : S → S × Except (Exc E V) Bool} {b o : S → Res S E V P}
    (ht : ∀ s s' e, t s = (s', .error e) → p (.exc e))
    (hb : ∀ s, Always p (b s)) (ho : ∀ s, Always p (o s)) (s : S) :
    Always p (Gen.condR t b o s) := by
  unfold Gen.condR
  rcases h : t s with ⟨s', x⟩
  rcases x with e | x
  · exact Always.some (ht _ _ _ h) _
  · cases x
    · exact ho _
    · exact hb _

theorem Always.seqR {k : S → Res S E V P} (hk : ∀ s, Always p (k s)) {x : Res S E V P}
    (hx : Always p x) : Always p (Gen.seqR k x) := by
  rcases x with _ | ⟨o, s⟩
  · exact Always.none
  · cases o <;> first | exact hk s | exact hx

theorem Always.againR {k : S → Res S E V P} (hn : p .norm) (hk : ∀ s, Always p (k s))
    {x : Res S E V P} (hx : Always p x) : Always p (Gen.againR k x) := by
  rcases x with _ | ⟨o, s⟩
  · exact Always.none
  · cases o <;> first | exact hk s | exact Always.some hn s | exact hx

theorem Always.tryR {h : Exc E V → S → Res S E V P} {k : S → Res S E V P}
    (hh : ∀ e s, p (.exc e) → Always p (h e s)) (hk : ∀ s, Always p (k s)) {x : Res S E V P}
    (hx : Always p x) : Always p (Gen.tryR h k x) := by
  rcases x with _ | ⟨o, s⟩
  · exact Always.none
  · cases o <;> first | exact hk s | exact hh _ s (hx _ _ rfl) | exact hx

theorem Always.finR {f : Option (Exc E V) → S → Res S E V P} {cur : Option (Exc E V)}
    (hf : ∀ s, Always p (f cur s)) (hfe : ∀ e s, p (.exc e) → Always p (f (Option.some e) s))
    {x : Res S E V P} (hx : Always p x) : Always p (Gen.finR f cur x) := by
  rcases x with _ | ⟨o, s⟩
  · exact Always.none
  · have ho := hx o s rfl
    cases o with
    | norm => exact hf s
    | susp q => exact hx
    | exc e => exact Always.seqR (fun s' => Always.some ho s') (hfe e s ho)
    | brk => exact Always.seqR (fun s' => Always.some ho s') (hf s)
    | cont => exact Always.seqR (fun s' => Always.some ho s') (hf s)
    | ret v => exact Always.seqR (fun s' => Always.some ho s') (hf s)

theorem Always.loopL {t : S → S × Except (Exc E V) Bool} {b o : S → Res S E V P}
    (hn : p .norm) (ht : ∀ s s' e, t s = (s', .error e) → p (.exc e))
    (hb : ∀ s, Always p (b s)) (ho : ∀ s, Always p (o s)) (s : S) :
    Always p (Gen.loopL t b o s) := by
  have key : ∀ n s, Always p (loopN t b o n s) := by
    intro n
    induction n with
    | zero => intro s; exact Always.none
    | succ n ih =>
      intro s
      exact Always.condR ht (fun s' => Always.againR hn ih (hb s')) ho s
  intro ou s' h
  obtain ⟨n, hn⟩ := (loopL_eq_some _).1 h
  exact key n s ou s' hn

end always

/-- The outcome is not a suspension outside the range `[lo, hi)`. -/
def InR (lo hi : Nat) : Out E V (Nat × V) → Prop
  | .susp (k, _) => lo ≤ k ∧ k < hi
  | _ => True

theorem InR.weaken {lo hi lo' hi' : Nat} (h1 : lo' ≤ lo) (h2 : hi ≤ hi') {S : Type}
    {x : Res S E V (Nat × V)} (h : Always (InR lo hi) x) : Always (InR lo' hi') x := by
  intro o s hx
  have := h o s hx
  cases o with
  | susp p => exact ⟨Nat.le_trans h1 this.1, Nat.lt_of_lt_of_le this.2 h2⟩
  | _ => trivial

mutual
theorem run_inR : ∀ (x : Stmt σ E V) (cur : Option (Exc E V)) (b : Nat) (s : σ),
    Always (InR b (b + x.yields)) (run cur b x s)
  | .prim f, cur, b, s => by
    simp only [run, primP]
    split <;> exact Always.some trivial _
  | .yld e, cur, b, s => by
    simp only [run, yldP, Stmt.yields]
    split
    · exact Always.some trivial _
    · exact Always.some ⟨Nat.le_refl _, Nat.lt_succ_self _⟩ _
  | .ite t body o, cur, b, s => by
    simp only [run, Stmt.yields]
    exact Always.condR (fun _ _ _ _ => trivial)
      (fun s' => InR.weaken (Nat.le_refl _) (by omega) (runB_inR body cur b s'))
      (fun s' => InR.weaken (by omega) (by omega) (runB_inR o cur _ s')) s
  | .whl t body o, cur, b, s => by
    simp only [run, Stmt.yields]
    exact Always.loopL trivial (fun _ _ _ _ => trivial)
      (fun s' => InR.weaken (Nat.le_refl _) (by omega) (runB_inR body cur b s'))
      (fun s' => InR.weaken (by omega) (by omega) (runB_inR o cur _ s')) s
  | .brk, cur, b, s => by simp only [run]; exact Always.some trivial _
  | .cont, cur, b, s => by simp only [run]; exact Always.some trivial _
  | .ret none, cur, b, s => by simp only [run]; exact Always.some trivial _
  | .ret (some e), cur, b, s => by
    simp only [run, retP]
    split <;> exact Always.some trivial _
  | .reraise, cur, b, s => by simp only [run]; exact Always.some trivial _
  | .info f, cur, b, s => by
    simp only [run, primP]
    split <;> exact Always.some trivial _
  | .tri body hs o f, cur, b, s => by
    simp only [run, Stmt.yields]
    refine Always.finR (fun s' => InR.weaken (by omega) (by omega) (runB_inR f _ _ s'))
      (fun e s' _ => InR.weaken (by omega) (by omega) (runB_inR f _ _ s')) ?_
    exact Always.tryR
      (fun e s' _ => InR.weaken (by omega) (by omega) (runH_inR hs cur _ e s'))
      (fun s' => InR.weaken (by omega) (by omega) (runB_inR o cur _ s'))
      (InR.weaken (by omega) (by omega) (runB_inR body cur b s))
theorem runB_inR : ∀ (x : Block σ E V) (cur : Option (Exc E V)) (b : Nat) (s : σ),
    Always (InR b (b + x.yields)) (runB cur b x s)
  | .nil, cur, b, s => by simp only [runB]; exact Always.some trivial _
  | .cons x r, cur, b, s => by
    simp only [runB, Block.yields]
    exact Always.seqR (fun s' => InR.weaken (by omega) (by omega) (runB_inR r cur _ s'))
      (InR.weaken (by omega) (by omega) (run_inR x cur b s))
theorem runH_inR : ∀ (x : Handlers σ E V) (cur : Option (Exc E V)) (b : Nat) (e : Exc E V)
    (s : σ), Always (InR b (b + x.yields)) (runH cur b x e s)
  | .nil, cur, b, e, s => by simp only [runH]; exact Always.some trivial _
  | .cons m bind body r, cur, b, e, s => by
    simp only [runH, Handlers.yields]
    split
    · exact InR.weaken (by omega) (by omega) (runB_inR body _ b _)
    · exact InR.weaken (by omega) (by omega) (runH_inR r cur _ e s)
end

mutual
theorem resume_inR : ∀ (x : Stmt σ E V) (cur : Option (Exc E V)) (b k : Nat) (s : σ),
    Always (InR b (b + x.yields)) (resume cur b k x s)
  | .prim f, cur, b, k, s => by simp only [resume]; exact Always.none
  | .yld e, cur, b, k, s => by simp only [resume]; exact Always.some trivial _
  | .ite t body o, cur, b, k, s => by
    simp only [resume, Stmt.yields]
    split
    · exact InR.weaken (Nat.le_refl _) (by omega) (resumeB_inR body cur b k s)
    · exact InR.weaken (by omega) (by omega) (resumeB_inR o cur _ k s)
  | .whl t body o, cur, b, k, s => by
    simp only [resume, Stmt.yields]
    split
    · exact Always.againR trivial
        (fun s' => by
          have h := run_inR (.whl t body o) cur b s'
          simp only [run, Stmt.yields] at h
          exact h)
        (InR.weaken (Nat.le_refl _) (by omega) (resumeB_inR body cur b k s))
    · exact InR.weaken (by omega) (by omega) (resumeB_inR o cur _ k s)
  | .brk, cur, b, k, s => by simp only [resume]; exact Always.none
  | .cont, cur, b, k, s => by simp only [resume]; exact Always.none
  | .ret e, cur, b, k, s => by cases e <;> (simp only [resume]; exact Always.none)
  | .reraise, cur, b, k, s => by simp only [resume]; exact Always.none
  | .info f, cur, b, k, s => by simp only [resume]; exact Always.none
  | .tri body hs o f, cur, b, k, s => by
    simp only [resume, Stmt.yields]
    refine Always.finR (fun s' => InR.weaken (by omega) (by omega) (runB_inR f _ _ s'))
      (fun e s' _ => InR.weaken (by omega) (by omega) (runB_inR f _ _ s')) ?_
    split
    · exact Always.tryR
        (fun e s' _ => InR.weaken (by omega) (by omega) (runH_inR hs cur _ e s'))
        (fun s' => InR.weaken (by omega) (by omega) (runB_inR o cur _ s'))
        (InR.weaken (by omega) (by omega) (resumeB_inR body cur b k s))
    · split
      · exact InR.weaken (by omega) (by omega) (resumeH_inR hs cur _ k s)
      · exact InR.weaken (by omega) (by omega) (resumeB_inR o cur _ k s)
theorem resumeB_inR : ∀ (x : Block σ E V) (cur : Option (Exc E V)) (b k : Nat) (s : σ),
    Always (InR b (b + x.yields)) (resumeB cur b k x s)
  | .nil, cur, b, k, s => by simp only [resumeB]; exact Always.none
  | .cons x r, cur, b, k, s => by
    simp only [resumeB, Block.yields]
    split
    · exact Always.seqR (fun s' => InR.weaken (by omega) (by omega) (runB_inR r cur _ s'))
        (InR.weaken (by omega) (by omega) (resume_inR x cur b k s))
    · exact InR.weaken (by omega) (by omega) (resumeB_inR r cur _ k s)
theorem resumeH_inR : ∀ (x : Handlers σ E V) (cur : Option (Exc E V)) (b k : Nat) (s : σ),
    Always (InR b (b + x.yields)) (resumeH cur b k x s)
  | .nil, cur, b, k, s => by simp only [resumeH]; exact Always.none
  | .cons m bind body r, cur, b, k, s => by
    simp only [resumeH, Handlers.yields]
    split
    · exact InR.weaken (by omega) (by omega) (resumeB_inR body _ b k _)
    · exact InR.weaken (by omega) (by omega) (resumeH_inR r cur _ k s)
end

end Verif.Gen
