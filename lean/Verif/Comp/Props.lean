import Verif.Comp.Model
import Verif.Loops.Props
/-
C69: compiled comprehensions.
-/
namespace Verif.Comp
open Verif.Gen (Act Exc Out Res condR seqR againR loopN)
open Verif.Loops

variable {H E V W Q T I X Y A α : Type}

/-! ### Conditions -/

/-- The expression does not read these variables. -/
def Avoids (names : List String) (f : Vars W → α) : Prop :=
  ∀ ρ ρ' : Vars W, (∀ n, n ∉ names → ρ n = ρ' n) → f ρ = f ρ'

/-- The source does not read these variables. -/
def Source.Avoids (names : List String) : Source H E V W Q T I → Prop
  | .seq e => Comp.Avoids names e
  | .tup _ e => Comp.Avoids names e
  | .var _ read => Comp.Avoids names read
  | .iter e => Comp.Avoids names e

/-- A test that changes nothing and does not raise. -/
def Pure (t : Expr H E V W Bool) : Prop := ∃ f : Vars W → H → Bool, ∀ ρ h, t ρ h = (h, .ok (f ρ h))

/-- The expression leaves `P` true. -/
def Leaves (P : H → Prop) (e : Expr H E V W α) : Prop := ∀ ρ h, P h → P (e ρ h).1

/-- A sequence keeps its length while it is iterated over: there is an invariant `J q n h` ("`q` is
being iterated over and has length `n`") that the tests and the element leave true. -/
def Steady (p : Iter H E V Q T I X) (cl : Clause H E V W Q T I X) (elt : Expr H E V W Y) : Prop :=
  match cl.source with
  | .seq e => ∃ J : Q → Nat → H → Prop,
      (∀ ρ h h' q, e ρ h = (h', .ok q) → J q (p.size q h') h') ∧
      (∀ q n h, J q n h → p.size q h = n) ∧
      (∀ q n i h, J q n h → J q n (p.item q i h).1) ∧
      (∀ q n, ∀ t ∈ cl.ifs, Leaves (J q n) t) ∧
      (∀ q n, Leaves (J q n) elt)
  | _ => True

/-- The comprehension with one clause, whose parts are these, is compiled rightly:
* the iterable does not read the variables of the target;
* there is at most one test, or the tests change nothing and do not raise;
* a sequence keeps its length. -/
structure Good (p : Iter H E V Q T I X) (cl : Clause H E V W Q T I X) (elt : Expr H E V W Y) :
    Prop where
  avoids : cl.source.Avoids cl.names
  tests : cl.ifs.length ≤ 1 ∨ ∀ t ∈ cl.ifs, Pure t
  steady : Steady p cl elt

/-! ### Tests -/

/-- The blocks do the same. -/
def Same (p : Iter H E V Q T I X) (N : Nat) (b b' : Code H E V W Q T I X A) : Prop :=
  ∀ s, execB (lift p) N b s = execB (lift p) N b' s

theorem execB_one (p : Iter (St H W A) E V Q T I X) (N : Nat) (x : Stmt (St H W A) E V Q T I X)
    (s : St H W A) : execB p N (one x) s = exec p N x s := by
  rw [one, execB]
  rcases exec p N x s with _ | ⟨o, s'⟩
  · rfl
  · cases o <;> first | rfl | (simp only [seqR, execB])

/-- The tests hold. -/
def allTrue (ρ : St H W A → Vars W) (ts : List (Expr H E V W Bool)) (s : St H W A) : Prop :=
  ∀ t ∈ ts, (eval ρ t s).2 = .ok true

theorem ite_pure (p : Iter H E V Q T I X) (N : Nat) (ρ : St H W A → Vars W)
    (t : Expr H E V W Bool) (ht : Pure t) (b : Code H E V W Q T I X A) (s : St H W A) :
    ((eval ρ t s).2 = .ok true ∧
      execB (lift p) N (one (.ite (eval ρ t) b .nil)) s = execB (lift p) N b s) ∨
    ((eval ρ t s).2 = .ok false ∧
      execB (lift p) N (one (.ite (eval ρ t) b .nil)) s = some (.norm, s)) := by
  obtain ⟨f, hf⟩ := ht
  have he : eval ρ t s = (s, .ok (f (ρ s) s.heap)) := by simp only [eval, hf]
  rw [execB_one, exec, condR, he]
  cases f (ρ s) s.heap with
  | true => exact .inl ⟨rfl, rfl⟩
  | false => exact .inr ⟨rfl, rfl⟩

theorem ifsIn_pure (p : Iter H E V Q T I X) (N : Nat) (ρ : St H W A → Vars W)
    (b : Code H E V W Q T I X A) (s : St H W A) (ts : List (Expr H E V W Bool))
    (h : ∀ t ∈ ts, Pure t) :
    (allTrue ρ ts s → execB (lift p) N (ifsIn ρ ts b) s = execB (lift p) N b s) ∧
    (¬ allTrue ρ ts s → execB (lift p) N (ifsIn ρ ts b) s = some (.norm, s)) := by
  induction ts with
  | nil => exact ⟨fun _ => rfl, fun h' => absurd (fun _ h => nomatch h) h'⟩
  | cons t ts ih =>
    have ih := ih (fun t' h' => h t' (.tail _ h'))
    rw [ifsIn]
    rcases ite_pure p N ρ t (h t (.head _)) (ifsIn ρ ts b) s with ⟨h1, h2⟩ | ⟨h1, h2⟩ <;> rw [h2]
    · refine ⟨fun ha => ih.1 (fun t' h' => ha t' (.tail _ h')), fun ha => ih.2 (fun hb => ha ?_)⟩
      intro t' h'
      cases h' with
      | head => exact h1
      | tail _ h' => exact hb t' h'
    · refine ⟨fun ha => ?_, fun _ => rfl⟩
      have := ha t (.head _)
      rw [h1] at this
      cases this

theorem wrapIfs_pure (p : Iter H E V Q T I X) (N : Nat) (ρ : St H W A → Vars W)
    (s : St H W A) (ts : List (Expr H E V W Bool)) (h : ∀ t ∈ ts, Pure t) :
    ∀ b : Code H E V W Q T I X A,
    (allTrue ρ ts s → execB (lift p) N (wrapIfs ρ b ts) s = execB (lift p) N b s) ∧
    (¬ allTrue ρ ts s → execB (lift p) N (wrapIfs ρ b ts) s = some (.norm, s)) := by
  induction ts with
  | nil => exact fun b => ⟨fun _ => rfl, fun h' => absurd (fun _ h => nomatch h) h'⟩
  | cons t ts ih =>
    intro b
    have ih := ih (fun t' h' => h t' (.tail _ h')) (one (.ite (eval ρ t) b .nil))
    change (_ → execB (lift p) N (wrapIfs ρ (one (.ite (eval ρ t) b .nil)) ts) s = _) ∧
      (_ → execB (lift p) N (wrapIfs ρ (one (.ite (eval ρ t) b .nil)) ts) s = _)
    constructor
    · intro ha
      rw [ih.1 (fun t' h' => ha t' (.tail _ h'))]
      rcases ite_pure p N ρ t (h t (.head _)) b s with ⟨_, h2⟩ | ⟨h1, _⟩
      · exact h2
      · have := ha t (.head _)
        rw [h1] at this
        cases this
    · intro ha
      rcases Classical.em (allTrue ρ ts s) with hb | hb
      · rw [ih.1 hb]
        rcases ite_pure p N ρ t (h t (.head _)) b s with ⟨h1, _⟩ | ⟨_, h2⟩
        · refine absurd ?_ ha
          intro t' h'
          cases h' with
          | head => exact h1
          | tail _ h' => exact hb t' h'
        · exact h2
      · exact ih.2 hb

/-- The order of tests does not matter. -/
theorem ifs_same (p : Iter H E V Q T I X) (N : Nat) (ρ : St H W A → Vars W)
    (ts : List (Expr H E V W Bool)) (h : ts.length ≤ 1 ∨ ∀ t ∈ ts, Pure t)
    (b : Code H E V W Q T I X A) : Same p N (wrapIfs ρ b ts) (ifsIn ρ ts b) := by
  intro s
  rcases h with h | h
  · match ts, h with
    | [], _ => rfl
    | [t], _ => rfl
  · have h1 := wrapIfs_pure p N ρ s ts h b
    have h2 := ifsIn_pure p N ρ b s ts h
    rcases Classical.em (allTrue ρ ts s) with ha | ha
    · rw [h1.1 ha, h2.1 ha]
    · rw [h1.2 ha, h2.2 ha]

/-! ### The loop -/

theorem eval_avoids (names : List String) (outer : Vars W) (e : Expr H E V W α)
    (h : Avoids names e) :
    (eval (view names outer) e : Act (St H W A) E V α) = eval (fun _ => outer) e := by
  funext s
  have : e (view names outer s) = e outer := h _ _ (fun n hn => by simp [view, hn])
  simp only [eval, this]

/-- The same body, and a source that does not read what the comprehension binds. -/
theorem forStmt_same (p : Iter H E V Q T I X) (N : Nat) (outer : Vars W)
    (cl : Clause H E V W Q T I X) (hs : cl.source.Avoids cl.names)
    (b b' : Code H E V W Q T I X A) (h : Same p N b b') :
    Same p N (one (forStmt (view cl.names outer) 0 cl b)) (one (forStmt (fun _ => outer) 0 cl b')) := by
  intro s
  have hb : execB (lift p) N b = execB (lift p) N b' := funext h
  rw [execB_one, execB_one, forStmt, forStmt]
  rcases cl with ⟨names, assign, source, ifs⟩
  cases source with
  | seq e => simp only [exec, hb, eval_avoids names outer e hs]
  | tup n e => simp only [exec, hb, eval_avoids names outer e hs]
  | var n read =>
    have : ∀ s : St H W A, read (view names outer s) = read outer :=
      fun s => hs _ _ (fun n hn => by simp [view, hn])
    simp only [exec, hb, this]
  | iter e => simp only [exec, hb, eval_avoids names outer e hs]

/-- What the body of a loop leaves true of the heap. -/
def Kept (p : Iter H E V Q T I X) (P : H → Prop) (b : Code H E V W Q T I X A) : Prop :=
  ∀ N s o s', P s.heap → execB (lift p) N b s = some (o, s') → P s'.heap

theorem kept_put (p : Iter H E V Q T I X) (P : H → Prop) (ρ : St H W A → Vars W)
    (elt : Expr H E V W Y) (put : A → Y → Except (Exc E V) A) (h : Leaves P elt) :
    Kept p P (one (putStmt ρ elt put)) := by
  intro N s o s' hp he
  rw [execB_one, putStmt, exec, bindR] at he
  have h1 := h (ρ s) s.heap hp
  rcases h2 : elt (ρ s) s.heap with ⟨h', e | y⟩ <;> rw [h2] at h1 <;> simp only [eval, h2] at he
  · cases he; exact h1
  · rcases h3 : put s.acc y with e | a <;> rw [h3] at he <;> cases he <;> exact h1

theorem kept_ite (p : Iter H E V Q T I X) (P : H → Prop) (ρ : St H W A → Vars W)
    (t : Expr H E V W Bool) (b : Code H E V W Q T I X A) (ht : Leaves P t) (hb : Kept p P b) :
    Kept p P (one (.ite (eval ρ t) b .nil)) := by
  intro N s o s' hp he
  rw [execB_one, exec, condR] at he
  have h1 := ht (ρ s) s.heap hp
  rcases h2 : t (ρ s) s.heap with ⟨h', e | _ | _⟩ <;> rw [h2] at h1 <;> simp only [eval, h2] at he
  · cases he; exact h1
  · rw [execB] at he; cases he; exact h1
  · exact hb N _ o s' h1 he

theorem kept_ifs (p : Iter H E V Q T I X) (P : H → Prop) (ρ : St H W A → Vars W)
    (ts : List (Expr H E V W Bool)) (ht : ∀ t ∈ ts, Leaves P t) :
    ∀ b : Code H E V W Q T I X A, Kept p P b → Kept p P (wrapIfs ρ b ts) := by
  induction ts with
  | nil => exact fun b hb => hb
  | cons t ts ih =>
    intro b hb
    exact ih (fun t' h' => ht t' (.tail _ h')) _ (kept_ite p P ρ t b (ht t (.head _)) hb)

/-- The body of the loop is well-behaved. -/
theorem body_shape (p : Iter (St H W A) E V Q T I X) (ρ : St H W A → Vars W)
    (ts : List (Expr H E V W Bool)) :
    ∀ b : Code H E V W Q T I X A,
      (b.Good p ∧ b.lines = [] ∧ b.flows = true ∧ b.hasBrk = false) →
      (wrapIfs ρ b ts).Good p ∧ (wrapIfs ρ b ts).lines = [] ∧ (wrapIfs ρ b ts).flows = true ∧
        (wrapIfs ρ b ts).hasBrk = false := by
  induction ts with
  | nil => exact fun b hb => hb
  | cons t ts ih =>
    intro b hb
    refine ih _ ⟨⟨⟨hb.1, trivial⟩, trivial⟩, ?_, ?_, ?_⟩
    · simp [one, Block.lines, Stmt.lines, hb.2.1]
    · simp [one, Block.flows, Stmt.flows]
    · simp [one, Block.hasBrk, Stmt.hasBrk, hb.2.2.2]

theorem unassigned_of_avoids (p : Iter (St H W A) E V Q T I X) (n : Nat) (names : List String)
    (outer : Vars W) (read : Vars W → T) (h : Avoids names read)
    (target : X → Act (St H W A) E V Unit) (b : Code H E V W Q T I X A) :
    Unassigned p n (fun s => read (view names outer s)) target b := by
  intro N i s s₁ s₂ o _ _ _ _
  exact h _ _ (fun n hn => by simp [view, hn])

theorem loop_good (p : Iter H E V Q T I X) (outer : Vars W) (cl : Clause H E V W Q T I X)
    (elt : Expr H E V W Y) (put : A → Y → Except (Exc E V) A) (hg : Good p cl elt) :
    (one (forStmt (view cl.names outer) 0 cl
      (wrapIfs (view cl.names outer) (one (putStmt (view cl.names outer) elt put)) cl.ifs)) :
      Code H E V W Q T I X A).Good (lift p) := by
  obtain ⟨b1, b2, b3, b4⟩ := body_shape (lift p) (view cl.names outer) cl.ifs
    (one (putStmt (view cl.names outer) elt put) : Code H E V W Q T I X A)
    ⟨⟨trivial, trivial⟩, rfl, rfl, rfl⟩
  have hk := fun P h1 h2 => kept_ifs p P (view cl.names outer) cl.ifs h1
    (one (putStmt (view cl.names outer) elt put) : Code H E V W Q T I X A)
    (kept_put p P (view cl.names outer) elt put h2)
  generalize wrapIfs (view cl.names outer) (one (putStmt (view cl.names outer) elt put)) cl.ifs = b
    at b1 b2 b3 b4 hk
  obtain ⟨ha, _, hst⟩ := hg
  rcases cl with ⟨names, assign, source, ifs⟩
  refine ⟨?_, trivial⟩
  cases source with
  | seq e =>
    refine ⟨b1, (by rw [b2]; exact (fun h => nomatch h)), rfl, ?_⟩
    obtain ⟨J, j1, j2, j3, j4, j5⟩ := hst
    refine ⟨fun q n s => J q n s.heap, ?_, ?_, ?_⟩
    · intro s s' q he
      simp only [eval] at he
      have h2 := congrArg Prod.snd he
      have h1 := congrArg (fun x => x.1.heap) he
      dsimp only at h1 h2
      exact j1 (view names outer s) s.heap s'.heap q (Prod.ext h1 h2)
    · exact fun q n s hj => j2 q n s.heap hj
    · intro N q n i s x s₁ s₂ s₃ o hj _ hi ht hb _
      refine hk (J q n) (j4 q n) (j5 q n) N s₂ o s₃ ?_ hb
      have e1 : s₁.heap = (p.item q i s.heap).1 := congrArg (fun x => x.1.heap) hi.symm
      have e2 : s₂.heap = s₁.heap := by
        unfold bind at ht
        split at ht
        · exact congrArg (fun x => x.1.heap) ht.symm
        · cases ht
      rw [e2, e1]
      exact j3 q n i _ hj
  | tup n e => exact ⟨b1, trivial, rfl, .inl rfl, .inr (.inl b3)⟩
  | var n read =>
    exact ⟨b1, trivial, ⟨rfl, .inl rfl, .inr (.inl b3)⟩, unassigned_of_avoids _ n names outer read ha _ _⟩
  | iter e => exact ⟨b1, trivial, ⟨rfl, .inl b3⟩, by rw [b2]; exact fun h => nomatch h⟩

/-- C69 `comprehension_partial`.

A compiled comprehension with one `for` clause makes the container that it makes in Python, or raises
the exception that it raises in Python, and leaves the same heap, for every element, target, test
and iterable and every state, if `Good` holds of it and reading an item of a sequence is
right for the items that there are.

Missing: comprehensions of which `Good` does not hold, and all those with several `for` clauses;
`Verif.Comp.Demo` shows what these do. -/
theorem comprehension_partial (p : Iter H E V Q T I X) (value : Q → Nat → Act H E V X)
    (hv : ∀ q i h, i < p.size q h → value q i h = p.item q i h)
    (c : Comp H E V W Q T I X Y A) (hc : c.rest = []) (hg : Good p c.first c.elt)
    (N : Nat) (outer : Vars W) (h : H) :
    compiled p value N c outer h = python p N c outer h := by
  rcases c with ⟨cl, rest, elt, put, empty⟩
  subst hc
  have hb : Comp.bound (⟨cl, [], elt, put, empty⟩ : Comp H E V W Q T I X Y A) = cl.names := by
    simp [Comp.bound, Comp.clauses]
  unfold compiled python
  have e1 : compiledCode (⟨cl, [], elt, put, empty⟩ : Comp H E V W Q T I X Y A) outer =
      one (forStmt (view cl.names outer) 0 cl
        (wrapIfs (view cl.names outer) (one (putStmt (view cl.names outer) elt put)) cl.ifs)) := by
    unfold compiledCode
    rw [hb]
    rfl
  have e2 : pythonCode (⟨cl, [], elt, put, empty⟩ : Comp H E V W Q T I X Y A) outer =
      one (forStmt (fun _ => outer) 0 cl
        (ifsIn (view cl.names outer) cl.ifs (one (putStmt (view cl.names outer) elt put)))) := by
    unfold pythonCode
    rw [hb]
    rfl
  rw [e1, e2, loops_compiled_as_python_partial (lift p) (liftValue value) ?_ _
    (loop_good p outer cl elt put hg)]
  · refine congrArg outcome ?_
    unfold call
    rw [forStmt_same p N outer cl hg.avoids _ _
      (ifs_same p N (view cl.names outer) cl.ifs hg.tests _)]
  · intro q i s hi
    simp only [liftValue, lift, hv q i s.heap hi]

end Verif.Comp
