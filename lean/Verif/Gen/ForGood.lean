import Verif.Gen.ForProof
import Verif.Gen.Props
/-
The bodies with `for` and `with` for which the whole translation is proved correct, and the fact
that rewriting them gives bodies in the fragment `Good`.
-/
namespace Verif.Gen

variable {σ E V T I X M Y : Type}

mutual
/-- The number of `yield`s. -/
def FStmt.yields : FStmt σ E V T X M Y → Nat
  | .yld _ => 1
  | .ite _ b o => b.yields + o.yields
  | .whl _ b o => b.yields + o.yields
  | .forS _ _ _ b o => b.yields + o.yields
  | .withS _ _ _ _ b => b.yields
  | .tri b hs o f => b.yields + (hs.yields + (o.yields + f.yields))
  | _ => 0
/-- `yields` for lists of statements. -/
def FBlock.yields : FBlock σ E V T X M Y → Nat
  | .nil => 0
  | .cons s r => s.yields + r.yields
/-- `yields` for handlers. -/
def FHandlers.yields : FHandlers σ E V T X M Y → Nat
  | .nil => 0
  | .cons _ _ b r => b.yields + r.yields
end

mutual
/-- There is no bare `raise` that would raise the exception being handled outside the
statement. -/
def FStmt.noRaise : FStmt σ E V T X M Y → Prop
  | .reraise => False
  | .ite _ b o => b.noRaise ∧ o.noRaise
  | .whl _ b o => b.noRaise ∧ o.noRaise
  | .forS _ _ _ b o => b.noRaise ∧ o.noRaise
  | .withS _ _ _ _ b => b.noRaise
  | .tri b _ o f => b.noRaise ∧ o.noRaise ∧ f.noRaise
  | _ => True
/-- `noRaise` for lists of statements. -/
def FBlock.noRaise : FBlock σ E V T X M Y → Prop
  | .nil => True
  | .cons s r => s.noRaise ∧ r.noRaise
end

/-- Evaluating and entering the item never raises `StopIteration`. -/
def WItem.NoStop (item : WItem σ E V M Y) : Prop :=
  Verif.Gen.NoStop item.mgr ∧ ∀ t, item.target = some t → ∀ y, Verif.Gen.NoStop (t y)

/-- Iterators and managers never raise `StopIteration` (where an iterator ends, `step` gives
`none`). -/
def Proto.NoStop (p : Proto σ E V T I X M Y) : Prop :=
  (∀ t, Verif.Gen.NoStop (p.start t)) ∧ (∀ i, Verif.Gen.NoStop (p.step i)) ∧
  (∀ m, Verif.Gen.NoStop (p.enter m)) ∧ ∀ m e, Verif.Gen.NoStop (p.exit m e)

mutual
/-- The condition `Good` for statements with `for` and `with`; `with` counts as `try`. -/
def FStmt.Good (inTry : Bool) : FStmt σ E V T X M Y → Prop
  | .prim f => NoStop f
  | .yld e => Safe e
  | .ite t b o => NoStop t ∧ b.Good inTry ∧ o.Good inTry
  | .whl t b o => NoStop t ∧ b.Good inTry ∧ o.Good inTry
  | .forS _ e target b o => NoStop e ∧ (∀ x, NoStop (target x)) ∧ b.Good inTry ∧ o.Good inTry
  | .withS _ _ item more b => item.NoStop ∧ (∀ i ∈ more, i.NoStop) ∧ b.Good true
  | .brk => True
  | .cont => True
  | .ret none => True
  | .ret (some e) => inTry = false ∧ NoStop e
  | .reraise => True
  | .tri b hs o f => b.Good true ∧ hs.Good ∧ o.Good true ∧ f.Good true ∧ f.yields = 0 ∧
      (hs = .nil → o = .nil)
/-- `Good` for lists of statements. -/
def FBlock.Good (inTry : Bool) : FBlock σ E V T X M Y → Prop
  | .nil => True
  | .cons s r => s.Good inTry ∧ r.Good inTry
/-- `Good` for handlers. -/
def FHandlers.Good : FHandlers σ E V T X M Y → Prop
  | .nil => True
  | .cons _ bind b r => (∀ e s, bind e s = s) ∧ b.Good true ∧ (b.yields = 0 ∨ b.noRaise) ∧
      r.Good
end

theorem append_yields {S : Type} : ∀ (a b : Block S E V),
    (a.append b).yields = a.yields + b.yields
  | .nil, b => by simp [Block.append, Block.yields]
  | .cons s r, b => by
    simp only [Block.append, Block.yields, append_yields r b]
    omega

theorem append_noRaise {S : Type} : ∀ (a b : Block S E V),
    a.noRaise → b.noRaise → (a.append b).noRaise
  | .nil, b, _, h => h
  | .cons s r, b, ha, hb => by
    simp only [Block.append, Block.noRaise] at ha ⊢
    exact ⟨ha.1, append_noRaise r b ha.2 hb⟩

theorem append_good {S : Type} {i : Bool} : ∀ (a b : Block S E V),
    a.Good i → b.Good i → (a.append b).Good i
  | .nil, b, _, h => h
  | .cons s r, b, ha, hb => by
    simp only [Block.append, Block.Good] at ha ⊢
    exact ⟨ha.1, append_good r b ha.2 hb⟩

theorem withs_yields (p : Proto σ E V T I X M Y) (l : Nat) (body : Block (σ × Hid E V T I X M) E V) :
    ∀ (more : List (WItem σ E V M Y)) (c : Nat) (item : WItem σ E V M Y),
    (withsCode p l c item more body).yields = body.yields
  | [], c, item => by
    simp [withsCode, withCode, withHandler, withFinal, one, Block.yields, Stmt.yields,
      Handlers.yields]
  | i2 :: more, c, item => by
    have := withs_yields p l body more i2.col i2
    simp [withsCode, withCode, withHandler, withFinal, one, Block.yields, Stmt.yields,
      Handlers.yields, this]

theorem withs_noRaise (p : Proto σ E V T I X M Y) (l : Nat)
    (body : Block (σ × Hid E V T I X M) E V) (hb : body.noRaise) :
    ∀ (more : List (WItem σ E V M Y)) (c : Nat) (item : WItem σ E V M Y),
    (withsCode p l c item more body).noRaise
  | [], c, item => by
    simp [withsCode, withCode, withFinal, one, Block.noRaise, Stmt.noRaise, hb]
  | i2 :: more, c, item => by
    have := withs_noRaise p l body hb more i2.col i2
    simp [withsCode, withCode, withFinal, one, Block.noRaise, Stmt.noRaise, this]

theorem orelse_yields {S : Type} (t : Act S E V Bool) (o : Block S E V) :
    (if o.isNil then .nil else one (.ite t o .nil) : Block S E V).yields = o.yields := by
  cases o <;> simp [Block.isNil, one, Block.yields, Stmt.yields]

theorem orelse_noRaise {S : Type} (t : Act S E V Bool) (o : Block S E V) (h : o.noRaise) :
    (if o.isNil then .nil else one (.ite t o .nil) : Block S E V).noRaise := by
  cases o
  · exact h
  · simpa [Block.isNil, one, Block.noRaise, Stmt.noRaise] using h

mutual
theorem rewrite_yields (p : Proto σ E V T I X M Y) (keep : Bool) : ∀ x : FStmt σ E V T X M Y,
    (x.rewrite p keep).yields = x.yields
  | .prim f => by simp [FStmt.rewrite, FStmt.yields, one, Block.yields, Stmt.yields]
  | .yld e => by simp [FStmt.rewrite, FStmt.yields, one, Block.yields, Stmt.yields]
  | .ite t b o => by
    simp [FStmt.rewrite, FStmt.yields, one, Block.yields, Stmt.yields, rewriteB_yields p keep b,
      rewriteB_yields p keep o]
  | .whl t b o => by
    simp [FStmt.rewrite, FStmt.yields, one, Block.yields, Stmt.yields, rewriteB_yields p keep b,
      rewriteB_yields p keep o]
  | .forS l e target b o => by
    rw [FStmt.rewrite, FStmt.yields, forCode]
    simp only [Block.yields, Stmt.yields, orelse_yields]
    simp only [fetch, one, Block.yields, Stmt.yields]
    rw [rewriteB_yields p keep b, rewriteB_yields p keep o]
    omega
  | .withS l c item more b => by
    rw [FStmt.rewrite, FStmt.yields, withs_yields, rewriteB_yields p keep b]
  | .brk => by simp [FStmt.rewrite, FStmt.yields, one, Block.yields, Stmt.yields]
  | .cont => by simp [FStmt.rewrite, FStmt.yields, one, Block.yields, Stmt.yields]
  | .ret none => by simp [FStmt.rewrite, FStmt.yields, one, Block.yields, Stmt.yields]
  | .ret (some e) => by simp [FStmt.rewrite, FStmt.yields, one, Block.yields, Stmt.yields]
  | .reraise => by simp [FStmt.rewrite, FStmt.yields, one, Block.yields, Stmt.yields]
  | .tri b hs o f => by
    simp [FStmt.rewrite, FStmt.yields, one, Block.yields, Stmt.yields, rewriteB_yields p keep b,
      rewriteB_yields p keep o, rewriteB_yields p keep f, rewriteH_yields p keep hs]
theorem rewriteB_yields (p : Proto σ E V T I X M Y) (keep : Bool) : ∀ x : FBlock σ E V T X M Y,
    (x.rewrite p keep).yields = x.yields
  | .nil => by simp [FBlock.rewrite, FBlock.yields, Block.yields]
  | .cons s r => by
    rw [FBlock.rewrite, FBlock.yields, append_yields, rewrite_yields p keep s, rewriteB_yields p keep r]
theorem rewriteH_yields (p : Proto σ E V T I X M Y) (keep : Bool) : ∀ x : FHandlers σ E V T X M Y,
    (x.rewrite p keep).yields = x.yields
  | .nil => by simp [FHandlers.rewrite, FHandlers.yields, Handlers.yields]
  | .cons m bind b r => by
    rw [FHandlers.rewrite, FHandlers.yields, Handlers.yields, rewriteB_yields p keep b,
      rewriteH_yields p keep r]
end

mutual
theorem rewrite_noRaise (p : Proto σ E V T I X M Y) (keep : Bool) : ∀ x : FStmt σ E V T X M Y,
    x.noRaise → (x.rewrite p keep).noRaise
  | .prim f, _ => by simp [FStmt.rewrite, one, Block.noRaise, Stmt.noRaise]
  | .yld e, _ => by simp [FStmt.rewrite, one, Block.noRaise, Stmt.noRaise]
  | .ite t b o, h => by
    rw [FStmt.noRaise] at h
    simp [FStmt.rewrite, one, Block.noRaise, Stmt.noRaise, rewriteB_noRaise p keep b h.1,
      rewriteB_noRaise p keep o h.2]
  | .whl t b o, h => by
    rw [FStmt.noRaise] at h
    simp [FStmt.rewrite, one, Block.noRaise, Stmt.noRaise, rewriteB_noRaise p keep b h.1,
      rewriteB_noRaise p keep o h.2]
  | .forS l e target b o, h => by
    rw [FStmt.noRaise] at h
    rw [FStmt.rewrite, forCode]
    simp only [Block.noRaise, Stmt.noRaise, fetch, one, true_and, and_true]
    exact ⟨rewriteB_noRaise p keep b h.1, orelse_noRaise _ _ (rewriteB_noRaise p keep o h.2)⟩
  | .withS l c item more b, h => by
    rw [FStmt.noRaise] at h
    rw [FStmt.rewrite]
    exact withs_noRaise p _ _ (rewriteB_noRaise p keep b h) _ _ _
  | .brk, _ => by simp [FStmt.rewrite, one, Block.noRaise, Stmt.noRaise]
  | .cont, _ => by simp [FStmt.rewrite, one, Block.noRaise, Stmt.noRaise]
  | .ret none, _ => by simp [FStmt.rewrite, one, Block.noRaise, Stmt.noRaise]
  | .ret (some e), _ => by simp [FStmt.rewrite, one, Block.noRaise, Stmt.noRaise]
  | .reraise, h => by rw [FStmt.noRaise] at h; exact h.elim
  | .tri b hs o f, h => by
    rw [FStmt.noRaise] at h
    simp [FStmt.rewrite, one, Block.noRaise, Stmt.noRaise, rewriteB_noRaise p keep b h.1,
      rewriteB_noRaise p keep o h.2.1, rewriteB_noRaise p keep f h.2.2]
theorem rewriteB_noRaise (p : Proto σ E V T I X M Y) (keep : Bool) : ∀ x : FBlock σ E V T X M Y,
    x.noRaise → (x.rewrite p keep).noRaise
  | .nil, _ => by simp [FBlock.rewrite, Block.noRaise]
  | .cons s r, h => by
    rw [FBlock.noRaise] at h
    rw [FBlock.rewrite]
    exact append_noRaise _ _ (rewrite_noRaise p keep s h.1) (rewriteB_noRaise p keep r h.2)
end

/-! ## `Good` -/

theorem up_noStop {α : Type} {f : Act σ E V α} (h : NoStop f) :
    NoStop (up (T := T) (I := I) (X := X) (M := M) f) := by
  intro s s' e he
  unfold up at he
  injection he with h1 h2
  exact h s.1 (f s.1).1 e (Prod.ext rfl h2)

theorem up_safe {α : Type} {f : Act σ E V α} (h : Safe f) :
    Safe (up (T := T) (I := I) (X := X) (M := M) f) := by
  intro s
  obtain ⟨s', v, e⟩ := h s.1
  exact ⟨(s', s.2), v, by simp only [up, e]⟩

theorem hset_noStop {α : Type} {k : Key} {e : HVars E V T I X M → Act σ E V α}
    {put : α → HVars E V T I X M → HVars E V T I X M} (h : ∀ v, NoStop (e v)) :
    NoStop (hset k e put) := by
  intro s s' x hx
  unfold hset at hx
  split at hx
  · next s1 x1 h1 =>
    injection hx with _ hx
    injection hx with hx
    subst hx
    exact h _ _ _ _ h1
  · next h1 => injection hx with _ hx; cases hx

theorem hget_noStop {α : Type} {k : Key} {e : HVars E V T I X M → Act σ E V α}
    (h : ∀ v, NoStop (e v)) : NoStop (hget k e) := by
  intro s s' x hx
  exact up_noStop (h (s.2 k)) s s' x hx

theorem con_noStop {α : Type} (a : α) : NoStop (con (σ := σ) (E := E) (V := V) a) := by
  intro s s' e h; cases h

theorem getOr_noStop {α β : Type} {o : Option α} {f : α → Act σ E V β} (h : ∀ a, NoStop (f a)) :
    NoStop (getOr o f) := by
  intro s s' e he
  cases o with
  | none => cases he; rfl
  | some a => exact h a s s' e he

theorem enterA_noStop {p : Proto σ E V T I X M Y} (hp : p.NoStop) {item : WItem σ E V M Y}
    (hi : item.NoStop) (m : M) : NoStop (enterA p item m) := by
  intro s s' e he
  unfold enterA at he
  split at he
  · next h =>
    injection he with _ he
    injection he with he
    subst he
    exact hp.2.2.1 m _ _ _ h
  · next y h =>
    split at he
    · injection he with _ he; cases he
    · next t ht => exact hi.2 t ht y _ _ _ he

theorem exitA_noStop {p : Proto σ E V T I X M Y} (hp : p.NoStop) (m : M) :
    NoStop (exitA p m) := by
  intro s s' e he
  unfold exitA at he
  split at he
  · next h =>
    injection he with _ he
    injection he with he
    subst he
    exact hp.2.2.2 m none _ _ _ h
  · injection he with _ he; cases he

theorem withCode_good {p : Proto σ E V T I X M Y} (hp : p.NoStop) {item : WItem σ E V M Y}
    (hi : item.NoStop) (k : Key) {i : Bool} {body : Block (σ × Hid E V T I X M) E V}
    (hb : body.Good true) : (withCode p k item body).Good i := by
  simp only [withCode, withHandler, withFinal, one, Block.Good, Stmt.Good, Handlers.Good,
    Block.yields, Stmt.yields, Handlers.isNil]
  refine ⟨hset_noStop (fun _ => con_noStop _), hset_noStop (fun _ => hi.1),
    hget_noStop (fun v => getOr_noStop (enterA_noStop hp hi)), ⟨hb, ?_, trivial, ?_, trivial, ?_⟩,
    trivial⟩
  · refine ⟨fun _ _ => trivial, ⟨hset_noStop (fun _ => con_noStop _), fun c =>
      hset_noStop (fun _ => con_noStop _), ⟨?_, ⟨con_noStop _, trivial⟩, trivial, trivial⟩, trivial⟩,
      .inl trivial, trivial⟩
    exact hget_noStop (fun v => getOr_noStop (fun m => hp.2.2.2 m v.info))
  · exact ⟨⟨hget_noStop (fun v => con_noStop _),
      ⟨hget_noStop (fun v => getOr_noStop (exitA_noStop hp)), trivial⟩, trivial⟩, trivial⟩
  · intro h; cases h

theorem withs_good {p : Proto σ E V T I X M Y} (hp : p.NoStop) (l : Nat)
    {body : Block (σ × Hid E V T I X M) E V} (hb : body.Good true) :
    ∀ (more : List (WItem σ E V M Y)) (_ : ∀ i ∈ more, i.NoStop) (c : Nat)
      (item : WItem σ E V M Y) (_ : item.NoStop) (i : Bool),
    (withsCode p l c item more body).Good i
  | [], _, c, item, hi, i => withCode_good hp hi _ hb
  | i2 :: more, hm, c, item, hi, i =>
    withCode_good hp hi _ (withs_good hp l hb more (fun j hj => hm j (.tail _ hj)) i2.col i2
      (hm i2 (.head _)) true)

mutual
theorem rewrite_good {p : Proto σ E V T I X M Y} (hp : p.NoStop) (keep : Bool) :
    ∀ (x : FStmt σ E V T X M Y) {i : Bool}, x.Good i → (x.rewrite p keep).Good i
  | .prim f, i, g => by
    rw [FStmt.Good] at g
    simp only [FStmt.rewrite, one, Block.Good, Stmt.Good]
    exact ⟨up_noStop g, trivial⟩
  | .yld e, i, g => by
    rw [FStmt.Good] at g
    simp only [FStmt.rewrite, one, Block.Good, Stmt.Good]
    exact ⟨up_safe g, trivial⟩
  | .ite t b o, i, g => by
    rw [FStmt.Good] at g
    simp only [FStmt.rewrite, one, Block.Good, Stmt.Good]
    exact ⟨⟨up_noStop g.1, rewriteB_good hp keep b g.2.1, rewriteB_good hp keep o g.2.2⟩, trivial⟩
  | .whl t b o, i, g => by
    rw [FStmt.Good] at g
    simp only [FStmt.rewrite, one, Block.Good, Stmt.Good]
    exact ⟨⟨up_noStop g.1, rewriteB_good hp keep b g.2.1, rewriteB_good hp keep o g.2.2⟩, trivial⟩
  | .forS l e target b o, i, g => by
    rw [FStmt.Good] at g
    have hb := rewriteB_good hp keep b g.2.2.1
    have ho := rewriteB_good hp keep o g.2.2.2
    simp only [FStmt.rewrite, forCode, fetch, one, Block.Good, Stmt.Good]
    refine ⟨hset_noStop (fun _ => g.1), hset_noStop (fun v => getOr_noStop hp.1),
      hset_noStop (fun _ => con_noStop _),
      ⟨con_noStop true, ⟨hset_noStop (fun v => getOr_noStop hp.2.1),
        ⟨hget_noStop (fun _ => con_noStop _),
          ⟨hget_noStop (fun v => getOr_noStop g.2.1), trivial⟩,
          hset_noStop (fun _ => con_noStop _), trivial, trivial⟩, hb⟩, trivial⟩, ?_⟩
    split
    · trivial
    · simp only [Block.Good, Stmt.Good]
      exact ⟨⟨hget_noStop (fun _ => con_noStop _), ho, trivial⟩, trivial⟩
  | .withS l c item more b, i, g => by
    rw [FStmt.Good] at g
    rw [FStmt.rewrite]
    exact withs_good hp _ (rewriteB_good hp keep b g.2.2) more g.2.1 _ _ g.1 i
  | .brk, i, g => by simp [FStmt.rewrite, one, Block.Good, Stmt.Good]
  | .cont, i, g => by simp [FStmt.rewrite, one, Block.Good, Stmt.Good]
  | .ret none, i, g => by simp [FStmt.rewrite, one, Block.Good, Stmt.Good]
  | .ret (some e), i, g => by
    rw [FStmt.Good] at g
    simp only [FStmt.rewrite, one, Block.Good, Stmt.Good]
    exact ⟨⟨g.1, up_noStop g.2⟩, trivial⟩
  | .reraise, i, g => by simp [FStmt.rewrite, one, Block.Good, Stmt.Good]
  | .tri b hs o f, i, g => by
    rw [FStmt.Good] at g
    simp only [FStmt.rewrite, one, Block.Good, Stmt.Good]
    refine ⟨⟨rewriteB_good hp keep b g.1, rewriteH_good hp keep hs g.2.1, rewriteB_good hp keep o g.2.2.1,
      rewriteB_good hp keep f g.2.2.2.1, (rewriteB_yields p keep f).trans g.2.2.2.2.1, ?_⟩, trivial⟩
    intro hn
    cases hs with
    | nil => rw [g.2.2.2.2.2 rfl, FBlock.rewrite]
    | cons m bind b r => rw [FHandlers.rewrite] at hn; cases hn
theorem rewriteB_good {p : Proto σ E V T I X M Y} (hp : p.NoStop) (keep : Bool) :
    ∀ (x : FBlock σ E V T X M Y) {i : Bool}, x.Good i → (x.rewrite p keep).Good i
  | .nil, i, g => by simp [FBlock.rewrite, Block.Good]
  | .cons s r, i, g => by
    rw [FBlock.Good] at g
    rw [FBlock.rewrite]
    exact append_good _ _ (rewrite_good hp keep s g.1) (rewriteB_good hp keep r g.2)
theorem rewriteH_good {p : Proto σ E V T I X M Y} (hp : p.NoStop) (keep : Bool) :
    ∀ (x : FHandlers σ E V T X M Y), x.Good → (x.rewrite p keep).Good
  | .nil, g => by simp [FHandlers.rewrite, Handlers.Good]
  | .cons m bind b r, g => by
    rw [FHandlers.Good] at g
    rw [FHandlers.rewrite, Handlers.Good]
    refine ⟨fun e s => by rw [g.1], rewriteB_good hp keep b g.2.1, ?_, rewriteH_good hp keep r g.2.2.2⟩
    rcases g.2.2.1 with h | h
    · exact .inl ((rewriteB_yields p keep b).trans h)
    · exact .inr (rewriteB_noRaise p keep b h)
end

/-! ## The check around a whole `with`

`changeStatement` puts a check of `..slot` around the statements that a `with` becomes
(generator_codegen.py:225-239, 481-485), besides the ones around each of them.  The model
leaves it out, since it makes no difference: -/

theorem change_skips (N : Nat) (cur : Option (Exc E V)) : ∀ (c : Block σ E V) (b : Nat)
    (g : GS σ V) (bt : List (GS σ V → GS σ V)), ¬ g.slot < (b + c.yields : Nat) →
    execB N cur (c.change b) (g, bt) = some (.norm, (g, bt))
  | .nil, b, g, bt, _ => by simp [Block.change, execB]
  | .cons s r, b, g, bt, h => by
    have h1 : ¬ g.slot < ((b + s.yields : Nat) : Int) := by
      simp only [Block.yields] at h; omega
    have h2 : ¬ g.slot < ((b + s.yields + r.yields : Nat) : Int) := by
      simp only [Block.yields] at h; omega
    simp only [Block.change, execB, guarded, exec, condR, act, slotTest]
    rw [show decide (g.slot < ((b + s.yields : Nat) : Int)) = false from decide_eq_false h1]
    simp only [seqR]
    exact change_skips N cur r (b + s.yields) g bt h2

theorem guard_redundant (N : Nat) (cur : Option (Exc E V)) (c : Block σ E V) (b : Nat)
    (w : World (GS σ V)) :
    exec N cur (guarded (b + c.yields) (c.change b)) w = execB N cur (c.change b) w := by
  obtain ⟨g, bt⟩ := w
  by_cases h : g.slot < ((b + c.yields : Nat) : Int)
  · simp only [guarded, exec, condR, act, slotTest]
    rw [show decide (g.slot < ((b + c.yields : Nat) : Int)) = true from decide_eq_true h]
  · rw [change_skips N cur c b g bt h]
    simp only [guarded, exec, condR, act, slotTest]
    rw [show decide (g.slot < ((b + c.yields : Nat) : Int)) = false from decide_eq_false h]
    simp only [execB]

end Verif.Gen
