import Verif.Loops.Model
/-
When loops are converted rightly: the conditions, and the proof that native code then does what
Python does.
-/
namespace Verif.Loops
open Verif.Gen

variable {σ E V Q T I X P α : Type}

/-! ### Conditions -/

mutual
/-- There is a `break` that leaves the loop around this statement. -/
def Stmt.hasBrk : Stmt σ E V Q T I X → Bool
  | .brk => true
  | .ite _ b o => b.hasBrk || o.hasBrk
  | .whl _ _ o => o.hasBrk
  | .forSeq _ _ _ _ o => o.hasBrk
  | .forTup _ _ _ _ o => o.hasBrk
  | .forVar _ _ _ _ o => o.hasBrk
  | .forIter _ _ _ _ o => o.hasBrk
  | _ => false
/-- There is a `break` that leaves the loop around these statements. -/
def Block.hasBrk : Block σ E V Q T I X → Bool
  | .nil => false
  | .cons s r => s.hasBrk || r.hasBrk
end

mutual
/-- There is a `continue` for the loop around this statement. -/
def Stmt.hasCont : Stmt σ E V Q T I X → Bool
  | .cont => true
  | .ite _ b o => b.hasCont || o.hasCont
  | .whl _ _ o => o.hasCont
  | .forSeq _ _ _ _ o => o.hasCont
  | .forTup _ _ _ _ o => o.hasCont
  | .forVar _ _ _ _ o => o.hasCont
  | .forIter _ _ _ _ o => o.hasCont
  | _ => false
/-- There is a `continue` for the loop around these statements. -/
def Block.hasCont : Block σ E V Q T I X → Bool
  | .nil => false
  | .cons s r => s.hasCont || r.hasCont
end

mutual
/-- The lines of the loops in a statement. -/
def Stmt.lines : Stmt σ E V Q T I X → List Nat
  | .ite _ b o => b.lines ++ o.lines
  | .whl _ b o => b.lines ++ o.lines
  | .forSeq k _ _ b o => k :: (b.lines ++ o.lines)
  | .forTup _ _ _ b o => b.lines ++ o.lines
  | .forVar _ _ _ b o => b.lines ++ o.lines
  | .forIter k _ _ b o => k :: (b.lines ++ o.lines)
  | _ => []
/-- The lines of the loops in a list of statements. -/
def Block.lines : Block σ E V Q T I X → List Nat
  | .nil => []
  | .cons s r => s.lines ++ r.lines
end

/-- The sequence keeps its length in every round that another round may follow: there is an
invariant `J q n s` ("`q` is being iterated over and has length `n`") which holds when the
loop begins and is kept by every such round. -/
def Steady (p : Iter σ E V Q T I X) (it : Act σ E V Q) (target : X → Act σ E V Unit)
    (b : Block σ E V Q T I X) : Prop :=
  ∃ J : Q → Nat → σ → Prop,
    (∀ s s' q, it s = (s', .ok q) → J q (p.size q s') s') ∧
    (∀ q n s, J q n s → p.size q s = n) ∧
    (∀ N q n i s x s₁ s₂ s₃ o, J q n s → i < n → p.item q i s = (s₁, .ok x) →
      target x s₁ = (s₂, .ok ()) → execB p N b s₂ = some (o, s₃) → o = .norm ∨ o = .cont →
      J q n s₃)

/-- No round that another round may follow assigns another value to the variable. -/
def Unassigned (p : Iter σ E V Q T I X) (n : Nat) (read : σ → T) (target : X → Act σ E V Unit)
    (b : Block σ E V Q T I X) : Prop :=
  ∀ N i s s₁ s₂ o, i < n → target (p.elem (read s) i) s = (s₁, .ok ()) →
    execB p N b s₁ = some (o, s₂) → o = .norm ∨ o = .cont → read s₂ = read s

/-- `else` and `break` do not mislead the compiler about what comes after a `while` loop or a loop
over an iterator. -/
def plain (b o : Block σ E V Q T I X) : Prop :=
  o.hasBrk = false ∧ (b.flows = true ∨ o.flows = true ∨ b.hasBrk = false)

/-- `else`, `break` and `continue` do not mislead the compiler about what comes after a loop that
is unrolled. -/
def plainTup (n : Nat) (b o : Block σ E V Q T I X) : Prop :=
  o.hasBrk = false ∧ (o.flows = true ∨ b.hasBrk = false) ∧
    (n = 0 ∨ b.flows = true ∨ (b.hasBrk = false ∧ b.hasCont = false))

mutual
/-- The conditions under which a statement is converted rightly:
* no `break` in an `else` clause;
* a loop that contains `break` has a body, or an `else`, that may come to its end; if it is
  unrolled, its `else` may come to its end, and so may its body if it contains `break` or
  `continue`;
* a loop over a sequence has no `else`, and the sequence keeps its length;
* the variable that holds the tuple of an unrolled loop is not assigned;
* a loop is not on the line of a loop around it. -/
def Stmt.Good (p : Iter σ E V Q T I X) : Stmt σ E V Q T I X → Prop
  | .prim _ => True
  | .ite _ b o => b.Good p ∧ o.Good p
  | .whl _ b o => b.Good p ∧ o.Good p ∧ plain b o
  | .forSeq k it target b o => b.Good p ∧ k ∉ b.lines ∧ o = .nil ∧ Steady p it target b
  | .forTup n _ _ b o => b.Good p ∧ o.Good p ∧ plainTup n b o
  | .forVar n read target b o =>
    b.Good p ∧ o.Good p ∧ plainTup n b o ∧ Unassigned p n read target b
  | .forIter k _ _ b o => b.Good p ∧ o.Good p ∧ plain b o ∧ k ∉ b.lines
  | .brk => True
  | .cont => True
  | .ret _ => True
/-- The conditions for a list of statements. -/
def Block.Good (p : Iter σ E V Q T I X) : Block σ E V Q T I X → Prop
  | .nil => True
  | .cons s r => s.Good p ∧ r.Good p
end

/-! ### Outcomes that cannot be -/

/-- This outcome is not that of the result. -/
def Not {S : Type} (o : Out E V P) (r : Res S E V P) : Prop := ∀ s, r ≠ some (o, s)

theorem not_none {S : Type} (o : Out E V P) : Not o (none : Res S E V P) := by
  intro s h; cases h

theorem not_some {S : Type} {o o' : Out E V P} {s : S} (h : o' ≠ o) : Not o (some (o', s)) := by
  intro s' e; cases e; exact h rfl

theorem not_bindR {S : Type} {o : Out E V P} {f : S → S × Except (Exc E V) α}
    {k : α → S → Res S E V P} (ho : ∀ e, Out.exc e ≠ o) (hk : ∀ a s, Not o (k a s)) (s : S) :
    Not o (bindR f k s) := by
  unfold bindR
  rcases f s with ⟨s', e | a⟩
  · exact not_some (ho e)
  · exact hk a s'

theorem not_condR {S : Type} {o : Out E V P} {t : S → S × Except (Exc E V) Bool}
    {b c : S → Res S E V P} (ho : ∀ e, Out.exc e ≠ o) (hb : ∀ s, Not o (b s))
    (hc : ∀ s, Not o (c s)) (s : S) : Not o (condR t b c s) := by
  unfold condR
  rcases t s with ⟨s', e | _ | _⟩
  · exact not_some (ho e)
  · exact hc s'
  · exact hb s'

/-- The loop does not end normally if neither its `else` does nor its body breaks. -/
theorem not_againR {S : Type} {o : Out E V P} {k : S → Res S E V P} {r : Res S E V P}
    (hk : ∀ s, Not o (k s)) (hn : o ≠ .cont) (hr : o = .brk ∨ Not o r)
    (hb : o = .norm → Not .brk r) : Not o (againR k r) := by
  rcases r with _ | ⟨x, s⟩
  · exact not_none o
  · cases x with
    | norm => exact hk s
    | cont => exact hk s
    | brk =>
      intro s' e
      cases e
      exact hb rfl s rfl
    | ret v =>
      rcases hr with h | h
      · exact not_some (by rw [h]; intro e; cases e)
      · exact h
    | exc v =>
      rcases hr with h | h
      · exact not_some (by rw [h]; intro e; cases e)
      · exact h
    | susp v =>
      rcases hr with h | h
      · exact not_some (by rw [h]; intro e; cases e)
      · exact h

/-- The loop ends with `brk` or `cont` only if its `else` does. -/
theorem not_againR' {S : Type} {o : Out E V P} {k : S → Res S E V P} (r : Res S E V P)
    (ho : o = .brk ∨ o = .cont) (hk : ∀ s, Not o (k s)) : Not o (againR k r) := by
  rcases r with _ | ⟨x, s⟩
  · exact not_none o
  · cases x with
    | norm => exact hk s
    | cont => exact hk s
    | brk => exact not_some (by rcases ho with h | h <;> rw [h] <;> intro e <;> cases e)
    | ret v => exact not_some (by rcases ho with h | h <;> rw [h] <;> intro e <;> cases e)
    | exc v => exact not_some (by rcases ho with h | h <;> rw [h] <;> intro e <;> cases e)
    | susp v => exact not_some (by rcases ho with h | h <;> rw [h] <;> intro e <;> cases e)

/-- A jump. -/
def jump (o : Out E V P) : Prop := o = .brk ∨ o = .cont

theorem jump.exc {o : Out E V P} (h : jump o) (e : Exc E V) : Out.exc e ≠ o := by
  rcases h with h | h <;> rw [h] <;> intro e <;> cases e

theorem jump.norm {o : Out E V P} (h : jump o) : Out.norm ≠ o := by
  rcases h with h | h <;> rw [h] <;> intro e <;> cases e

theorem jump.ret {o : Out E V P} (h : jump o) (v : Option V) : Out.ret v ≠ o := by
  rcases h with h | h <;> rw [h] <;> intro e <;> cases e

/-- A kind of jump that a statement does not contain. -/
def Stmt.free (o : Out E V Empty) (x : Stmt σ E V Q T I X) : Prop :=
  (o = .brk → x.hasBrk = false) ∧ (o = .cont → x.hasCont = false)
/-- A kind of jump that a list of statements does not contain. -/
def Block.free (o : Out E V Empty) (x : Block σ E V Q T I X) : Prop :=
  (o = .brk → x.hasBrk = false) ∧ (o = .cont → x.hasCont = false)

theorem loopN_free {S : Type} {o : Out E V P} (ho : jump o) {t : S → S × Except (Exc E V) Bool}
    {b c : S → Res S E V P} (hc : ∀ s, Not o (c s)) : ∀ n s, Not o (loopN t b c n s)
  | 0, _ => not_none o
  | n + 1, s => not_condR ho.exc (fun s' => not_againR' (b s') ho (loopN_free ho hc n)) hc s

theorem seqFor_free {o : Out E V P} (ho : jump o) (p : Iter σ E V Q T I X) (q : Q)
    {target : X → Act σ E V Unit} {b c : σ → Res σ E V P} (hc : ∀ s, Not o (c s)) :
    ∀ n i s, Not o (seqFor p q target b c n i s)
  | 0, _, _ => not_none o
  | n + 1, i, s => by
    rw [seqFor]
    split
    · exact not_bindR ho.exc (fun x s => not_bindR ho.exc
        (fun _ s' => not_againR' (b s') ho (seqFor_free ho p q hc n (i + 1))) s) s
    · exact hc s

theorem listFor_free {o : Out E V P} (ho : jump o)
    {target : X → Act σ E V Unit} {b c : σ → Res σ E V P} (hc : ∀ s, Not o (c s)) :
    ∀ l s, Not o (listFor target b c l s)
  | [], s => hc s
  | _ :: l, s => not_bindR ho.exc (fun _ s' => not_againR' (b s') ho (listFor_free ho hc l)) s

theorem iterFor_free {o : Out E V P} (ho : jump o) (p : Iter σ E V Q T I X) (i : I)
    {target : X → Act σ E V Unit} {b c : σ → Res σ E V P} (hc : ∀ s, Not o (c s)) :
    ∀ n s, Not o (iterFor p i target b c n s)
  | 0, _ => not_none o
  | n + 1, s => not_bindR ho.exc (fun
      | none => hc
      | some _ => fun s => not_bindR ho.exc
          (fun _ s' => not_againR' (b s') ho (iterFor_free ho p i hc n)) s) s

mutual
/-- A statement without a jump does not jump. -/
theorem exec_free (p : Iter σ E V Q T I X) (N : Nat) {o : Out E V Empty} (ho : jump o) :
    ∀ (x : Stmt σ E V Q T I X), x.free o → ∀ s, Not o (exec p N x s)
  | .prim f, _, s => by
    rw [exec]; exact not_bindR ho.exc (fun _ s => not_some ho.norm) s
  | .ite t b c, h, s => by
    rw [exec]
    have hb : b.free o := ⟨fun e => by have := h.1 e; simp_all [Stmt.hasBrk],
      fun e => by have := h.2 e; simp_all [Stmt.hasCont]⟩
    have hc : c.free o := ⟨fun e => by have := h.1 e; simp_all [Stmt.hasBrk],
      fun e => by have := h.2 e; simp_all [Stmt.hasCont]⟩
    exact not_condR ho.exc (execB_free p N ho b hb) (execB_free p N ho c hc) s
  | .whl t b c, h, s => by
    rw [exec]; exact loopN_free ho (execB_free p N ho c h) N s
  | .forSeq _ it target b c, h, s => by
    rw [exec]
    exact not_bindR ho.exc (fun q => seqFor_free ho p q (execB_free p N ho c h) N 0) s
  | .forTup n it target b c, h, s => by
    rw [exec]
    exact not_bindR ho.exc (fun t => listFor_free ho (execB_free p N ho c h) (items p n t)) s
  | .forVar n read target b c, h, s => by
    rw [exec]; exact listFor_free ho (execB_free p N ho c h) _ s
  | .forIter _ it target b c, h, s => by
    rw [exec]
    exact not_bindR ho.exc (fun i => iterFor_free ho p i (execB_free p N ho c h) N) s
  | .brk, h, s => by
    rw [exec]; exact not_some (fun e => by have := h.1 e.symm; cases this)
  | .cont, h, s => by
    rw [exec]; exact not_some (fun e => by have := h.2 e.symm; cases this)
  | .ret e, _, s => by
    rw [exec]; exact not_bindR ho.exc (fun v s => not_some (ho.ret _)) s
/-- Statements without a jump do not jump. -/
theorem execB_free (p : Iter σ E V Q T I X) (N : Nat) {o : Out E V Empty} (ho : jump o) :
    ∀ (x : Block σ E V Q T I X), x.free o → ∀ s, Not o (execB p N x s)
  | .nil, _, s => by rw [execB]; exact not_some ho.norm
  | .cons x r, h, s => by
    rw [execB]
    have hx : x.free o := ⟨fun e => by have := h.1 e; simp_all [Block.hasBrk],
      fun e => by have := h.2 e; simp_all [Block.hasCont]⟩
    have hr : r.free o := ⟨fun e => by have := h.1 e; simp_all [Block.hasBrk],
      fun e => by have := h.2 e; simp_all [Block.hasCont]⟩
    have h1 := exec_free p N ho x hx s
    rcases hR : exec p N x s with _ | ⟨x', s'⟩
    · exact not_none o
    · rw [hR] at h1
      cases x' with
      | norm => exact execB_free p N ho r hr s'
      | _ => exact h1
end

theorem execB_noBrk (p : Iter σ E V Q T I X) (N : Nat) {b : Block σ E V Q T I X}
    (h : b.hasBrk = false) (s : σ) : Not .brk (execB p N b s) :=
  execB_free p N (.inl rfl) b ⟨fun _ => h, fun e => by cases e⟩ s

theorem execB_noCont (p : Iter σ E V Q T I X) (N : Nat) {b : Block σ E V Q T I X}
    (h : b.hasCont = false) (s : σ) : Not .cont (execB p N b s) :=
  execB_free p N (.inr rfl) b ⟨fun e => (by cases e), fun _ => h⟩ s

/-! ### The flag is right -/

theorem exc_norm (e : Exc E V) : (Out.exc e : Out E V P) ≠ .norm := by intro h; cases h

theorem loopN_ends {S : Type} {t : S → S × Except (Exc E V) Bool} {b c : S → Res S E V P}
    (hb : ∀ s, Not .norm (b s)) (hk : ∀ s, Not .brk (b s)) (hc : ∀ s, Not .norm (c s)) :
    ∀ n s, Not .norm (loopN t b c n s)
  | 0, _ => not_none _
  | n + 1, s => not_condR exc_norm (fun s' => not_againR (loopN_ends hb hk hc n)
      (by intro e; cases e) (.inr (hb s')) (fun _ => hk s')) hc s

theorem iterFor_ends (p : Iter σ E V Q T I X) (i : I) {target : X → Act σ E V Unit}
    {b c : σ → Res σ E V P} (hb : ∀ s, Not .norm (b s)) (hk : ∀ s, Not .brk (b s))
    (hc : ∀ s, Not .norm (c s)) : ∀ n s, Not .norm (iterFor p i target b c n s)
  | 0, _ => not_none _
  | n + 1, s => not_bindR exc_norm (fun
      | none => hc
      | some _ => fun s => not_bindR exc_norm
          (fun _ s' => not_againR (iterFor_ends p i hb hk hc n)
            (by intro e; cases e) (.inr (hb s')) (fun _ => hk s')) s) s

/-- An unrolled loop whose body neither ends nor jumps. -/
theorem listFor_stuck {target : X → Act σ E V Unit} {b c : σ → Res σ E V P}
    (hb : ∀ s, Not .norm (b s)) (hk : ∀ s, Not .brk (b s)) (hj : ∀ s, Not .cont (b s)) (x : X)
    (l : List X) (s : σ) : Not .norm (listFor target b c (x :: l) s) := by
  refine not_bindR exc_norm (fun _ s' => ?_) s
  have h1 := hb s'
  have h2 := hk s'
  have h3 := hj s'
  generalize b s' = r at h1 h2 h3
  rcases r with _ | ⟨o, s''⟩
  · exact not_none _
  · cases o with
    | norm => exact absurd rfl (h1 s'')
    | cont => exact absurd rfl (h3 s'')
    | brk => exact absurd rfl (h2 s'')
    | ret v => exact h1
    | exc v => exact h1
    | susp v => exact h1

/-- An unrolled loop without `break` ends as its `else` does, or as its body. -/
theorem againR_norm {S : Type} {k : S → Res S E V P} {r : Res S E V P}
    (hk : ∀ s, Not .norm (k s)) (hb : Not .brk r) : Not .norm (againR k r) := by
  rcases r with _ | ⟨o, s''⟩
  · exact not_none _
  · cases o with
    | norm => exact hk s''
    | cont => exact hk s''
    | brk => exact absurd rfl (hb s'')
    | ret v => exact not_some (by intro e; cases e)
    | exc v => exact not_some (by intro e; cases e)
    | susp v => exact not_some (by intro e; cases e)

theorem listFor_ends {target : X → Act σ E V Unit} {b c : σ → Res σ E V P}
    (hk : ∀ s, Not .brk (b s)) (hc : ∀ s, Not .norm (c s)) :
    ∀ l s, Not .norm (listFor target b c l s)
  | [], s => hc s
  | _ :: l, s => not_bindR exc_norm (fun _ s' => againR_norm (listFor_ends hk hc l) (hk s')) s

theorem items_succ (p : Iter σ E V Q T I X) (n : Nat) (t : T) :
    ∃ l, items p (n + 1) t = p.elem t 0 :: l := by
  unfold items
  rw [List.range_succ_eq_map]
  exact ⟨_, rfl⟩

theorem tup_ends (p : Iter σ E V Q T I X) (N : Nat) {n : Nat} {target : X → Act σ E V Unit}
    {b c : Block σ E V Q T I X} (hp : plainTup n b c)
    (h : ((n == 0 || b.flows) && c.flows) = false)
    (hb : b.flows = false → ∀ s, Not .norm (execB p N b s))
    (hc : c.flows = false → ∀ s, Not .norm (execB p N c s)) (t : T) (s : σ) :
    Not .norm (listFor target (execB p N b) (execB p N c) (items p n t) s) := by
  obtain ⟨_, h2, h3⟩ := hp
  by_cases hcf : c.flows = false
  · have hk : b.hasBrk = false := by
      rcases h2 with h2 | h2
      · rw [hcf] at h2; cases h2
      · exact h2
    exact listFor_ends (execB_noBrk p N hk) (hc hcf) _ s
  · have hcf' : c.flows = true := by simpa using hcf
    rw [hcf'] at h
    have h' : n ≠ 0 ∧ b.flows = false := by simpa using h
    obtain ⟨hn, hbf⟩ := h'
    have hj : b.hasBrk = false ∧ b.hasCont = false := by
      rcases h3 with h3 | h3 | h3
      · exact absurd h3 hn
      · rw [hbf] at h3; cases h3
      · exact h3
    obtain ⟨m, rfl⟩ : ∃ m, n = m + 1 := ⟨n - 1, by omega⟩
    obtain ⟨l, hl⟩ := items_succ p m t
    rw [hl]
    exact listFor_stuck (hb hbf) (execB_noBrk p N hj.1) (execB_noCont p N hj.2) _ _ s

mutual
/-- Where the compiler takes it that control does not come to the end of a statement, it does
not. -/
theorem exec_ends (p : Iter σ E V Q T I X) (N : Nat) :
    ∀ (x : Stmt σ E V Q T I X), x.Good p → x.flows = false → ∀ s, Not .norm (exec p N x s)
  | .prim _, _, h, _ => by cases h
  | .ite t b c, hg, h, s => by
    have h' : b.flows = false ∧ c.flows = false := by simpa [Stmt.flows] using h
    rw [exec]
    exact not_condR exc_norm (execB_ends p N b hg.1 h'.1) (execB_ends p N c hg.2 h'.2) s
  | .whl t b c, hg, h, s => by
    have h' : b.flows = false ∧ c.flows = false := by simpa [Stmt.flows] using h
    obtain ⟨g1, g2, g3, g4⟩ := hg
    have hk : b.hasBrk = false := by
      rcases g4 with g | g | g
      · rw [h'.1] at g; cases g
      · rw [h'.2] at g; cases g
      · exact g
    rw [exec]
    exact loopN_ends (execB_ends p N b g1 h'.1) (execB_noBrk p N hk) (execB_ends p N c g2 h'.2) N s
  | .forSeq _ _ _ _ _, _, h, _ => by cases h
  | .forTup n it target b c, hg, h, s => by
    rw [exec]
    exact not_bindR exc_norm (fun t s => tup_ends p N hg.2.2 h (execB_ends p N b hg.1)
      (execB_ends p N c hg.2.1) t s) s
  | .forVar n read target b c, hg, h, s => by
    rw [exec]
    exact tup_ends p N hg.2.2.1 h (execB_ends p N b hg.1) (execB_ends p N c hg.2.1) _ s
  | .forIter _ it target b c, hg, h, s => by
    have h' : b.flows = false ∧ c.flows = false := by simpa [Stmt.flows] using h
    obtain ⟨g1, g2, ⟨g3, g4⟩, _⟩ := hg
    have hk : b.hasBrk = false := by
      rcases g4 with g | g | g
      · rw [h'.1] at g; cases g
      · rw [h'.2] at g; cases g
      · exact g
    rw [exec]
    exact not_bindR exc_norm (fun i => iterFor_ends p i (execB_ends p N b g1 h'.1)
      (execB_noBrk p N hk) (execB_ends p N c g2 h'.2) N) s
  | .brk, _, h, _ => by cases h
  | .cont, _, h, _ => by cases h
  | .ret e, _, _, s => by
    rw [exec]; exact not_bindR exc_norm (fun v s => not_some (by intro e; cases e)) s
/-- The same for lists of statements. -/
theorem execB_ends (p : Iter σ E V Q T I X) (N : Nat) :
    ∀ (x : Block σ E V Q T I X), x.Good p → x.flows = false → ∀ s, Not .norm (execB p N x s)
  | .nil, _, h, _ => by cases h
  | .cons x r, hg, h, s => by
    rw [execB]
    rcases hR : exec p N x s with _ | ⟨x', s'⟩
    · exact not_none _
    · cases x' with
      | norm =>
        by_cases hx : x.flows = true
        · have hr : r.flows = false := by simpa [Block.flows, hx] using h
          exact execB_ends p N r hg.2 hr s'
        · have := exec_ends p N x hg.1 (by simpa using hx) s
          exact absurd hR (this s')
      | brk => exact not_some (by intro e; cases e)
      | cont => exact not_some (by intro e; cases e)
      | ret v => exact not_some (by intro e; cases e)
      | exc e => exact not_some (by intro e; cases e)
      | susp e => exact not_some (by intro e; cases e)
end

end Verif.Loops
