import Verif.Flow.Cover
/-
The generated code simulates Python: everything but `try`.
-/
namespace Verif.Flow

variable {n : Nat} {H : Hier} {σ : Slots n}

def Blocks.WF (b : Blocks) : Prop :=
  ∀ l, b.ret = some l → ∃ d, b.depth = d + 1 ∧ (l = .endTry d ∨ l = .endFin d)

/-- A `break` (or `continue`) that leaves the statement, in the generated code. -/
def Jumped (b : Blocks) (k : Deferred) (l : Label) (o : Out) (st : St n) : Prop :=
  b.inLoopEver = true ∧
    ((b.inLoop = true ∧ o = .jump l) ∨
     (b.inLoop = false ∧ ∃ r, b.ret = some r ∧ o = .jump r ∧ st.flow r.depth = k))

/-- How the generated code ends when Python ends in the given way. -/
def Matches (b : Blocks) (o : Out) (st : St n) : POut → Prop
  | .normal => o = .normal
  | .brk => Jumped b .brk .brk o st
  | .cont => Jumped b .cont .cont o st
  | .raised v => o = .raised v
  | .returned v => (b.ret = none ∧ o = .returned v) ∨
      ∃ r, b.ret = some r ∧ o = .jump r ∧ st.flow r.depth = .ret ∧ st.rv = some v
  | .timeout => o = .timeout

/-- Control leaves for the end of the `try` around. -/
def Leaves (b : Blocks) (o : Out) : Prop := ∃ l, b.ret = some l ∧ o = .jump l

/-- The state after, and the outcome, of code that started in `st`, compared with Python. -/
structure Res (H : Hier) (σ : Slots n) (b : Blocks) (V : Fin n → Prop) (A' : VS n) (r nt : Bool)
    (st : St n) (o : Out) (st' : St n) (po : POut) (p : PSt n) : Prop where
  py : st'.py = p
  slot : SlotOK H σ st'.env
  out : Matches b o st' po
  norm : po = .normal → r = true ∧ Cov H σ V A' st'.env
  flow : ∀ d, d < b.depth → (∀ l, b.ret = some l → o = .jump l → d ≠ l.depth) → st'.flow d = st.flow d
  noTry : nt = true → st'.exc = st.exc ∧ (¬ Leaves b o → st'.info = st.info ∧ st'.rv = st.rv)

def Rel (H : Hier) (σ : Slots n) (b : Blocks) (V : Fin n → Prop) (A' : VS n) (r nt : Bool)
    (st : St n) (x : Out × St n) (y : POut × PSt n) : Prop :=
  (y.1 = .timeout → x.1 = .timeout) ∧
  (y.1 ≠ .timeout → Res H σ b V A' r nt st x.1 x.2 y.1 y.2)

variable {b : Blocks} {V : Fin n → Prop} {A A' : VS n} {r nt : Bool}

theorem Matches.ne_normal {o : Out} {st : St n} {po : POut} (h : Matches b o st po)
    (hp : po ≠ .normal) : o ≠ .normal := by
  intro ho
  subst ho
  cases po with
  | normal => exact hp rfl
  | brk =>
    rcases h with ⟨_, ⟨_, h⟩ | ⟨_, _, _, h, _⟩⟩ <;> simp at h
  | cont =>
    rcases h with ⟨_, ⟨_, h⟩ | ⟨_, _, _, h, _⟩⟩ <;> simp at h
  | raised v => simp [Matches] at h
  | returned v =>
    rcases h with ⟨_, h⟩ | ⟨_, _, h, _⟩ <;> simp at h
  | timeout => simp [Matches] at h

/-- The code does not change the state: only the position in the oracle. -/
theorem Rel.raised {st : St n} {w : Val} {p : Nat} (hs : SlotOK H σ st.env) :
    Rel H σ b V A' r nt st (.raised w, { st with pos := p })
      (.raised w, { env := st.env, pos := p }) :=
  ⟨fun h => by simp at h, fun _ =>
    { py := rfl, slot := hs, out := rfl, norm := fun h => by simp at h, flow := fun _ _ _ => rfl
      noTry := fun _ => ⟨rfl, fun _ => ⟨rfl, rfl⟩⟩ }⟩

theorem Rel.normal {st : St n} {p : Nat} (hs : SlotOK H σ st.env) (hc : Cov H σ V A' st.env) :
    Rel H σ b V A' true nt st (.normal, { st with pos := p })
      (.normal, { env := st.env, pos := p }) :=
  ⟨fun h => by simp at h, fun _ =>
    { py := rfl, slot := hs, out := rfl, norm := fun _ => ⟨rfl, hc⟩, flow := fun _ _ _ => rfl
      noTry := fun _ => ⟨rfl, fun _ => ⟨rfl, rfl⟩⟩ }⟩

/-- The same from an earlier state. -/
theorem Res.prefix {st st₁ st' : St n} {o : Out} {po : POut} {p : PSt n}
    (h : Res H σ b V A' r nt st₁ o st' po p) (hf : ∀ d, d < b.depth → st₁.flow d = st.flow d)
    (hn : nt = true → st₁.exc = st.exc ∧ st₁.info = st.info ∧ st₁.rv = st.rv) :
    Res H σ b V A' r nt st o st' po p :=
  { py := h.py, slot := h.slot, out := h.out, norm := h.norm
    flow := fun d hd hl => (h.flow d hd hl).trans (hf d hd)
    noTry := fun e => ⟨((h.noTry e).1).trans (hn e).1, fun hl =>
      ⟨((h.noTry e).2 hl).1.trans (hn e).2.1, ((h.noTry e).2 hl).2.trans (hn e).2.2⟩⟩ }

theorem Rel.prefix {st st₁ : St n} {x : Out × St n} {y : POut × PSt n}
    (h : Rel H σ b V A' r nt st₁ x y) (hf : ∀ d, d < b.depth → st₁.flow d = st.flow d)
    (hn : nt = true → st₁.exc = st.exc ∧ st₁.info = st.info ∧ st₁.rv = st.rv) :
    Rel H σ b V A' r nt st x y :=
  ⟨h.1, fun e => (h.2 e).prefix hf hn⟩

theorem Rel.pos {st : St n} {q : Nat} {x : Out × St n} {y : POut × PSt n}
    (h : Rel H σ b V A' r nt { st with pos := q } x y) : Rel H σ b V A' r nt st x y :=
  h.prefix (fun _ _ => rfl) (fun _ => ⟨rfl, rfl, rfl⟩)

/-- A different claim about what holds afterwards, and about fewer statements. -/
theorem Rel.conseq {A₁ : VS n} {r₁ nt₁ : Bool} {st : St n} {x : Out × St n} {y : POut × PSt n}
    (h : Rel H σ b V A₁ r₁ nt₁ st x y) (hn : nt = true → nt₁ = true)
    (hA : y.1 = .normal → r₁ = true → Cov H σ V A₁ x.2.env → r = true ∧ Cov H σ V A' x.2.env) :
    Rel H σ b V A' r nt st x y :=
  ⟨h.1, fun e =>
    { py := (h.2 e).py, slot := (h.2 e).slot, out := (h.2 e).out
      norm := fun hp => hA hp ((h.2 e).norm hp).1 ((h.2 e).norm hp).2
      flow := (h.2 e).flow, noTry := fun e' => (h.2 e).noTry (hn e') }⟩

/-! ### Running -/

theorem run_seq_normal {ω : Nat → Nat} {N : Nat} {a c : Code n} {st st' : St n}
    (h : run H ω N a st = (.normal, st')) : run H ω N (.seq a c) st = run H ω N c st' := by
  simp only [run, h]

theorem run_seq_abn {ω : Nat → Nat} {N : Nat} {a c : Code n} {st st' : St n} {o : Out}
    (h : run H ω N a st = (o, st')) (ho : o ≠ .normal) :
    run H ω N (.seq a c) st = (o, st') := by
  simp only [run, h]
  cases o <;> first | rfl | exact absurd rfl ho

/-- What a block makes of an outcome. -/
def blockOut (l : Label) (x : Out × St n) : Out × St n :=
  match x.1 with
  | .jump k => if k = l then (.normal, x.2) else x
  | _ => x

theorem run_block {ω : Nat → Nat} {N : Nat} {l : Label} {c : Code n} {st : St n} :
    run H ω N (.block l c) st = blockOut l (run H ω N c st) := by
  simp only [run, blockOut]
  generalize run H ω N c st = x
  obtain ⟨o, st'⟩ := x
  cases o <;> rfl

theorem run_clear {ω : Nat → Nat} {N : Nat} (st : St n) :
    run H ω N (.ifExc .clearInfo .skip) st =
      (.normal, { st with info := if st.exc then none else st.info }) := by
  simp only [run]
  split <;> rfl

theorem doLoop_targets {l : Label} {test : St n → Except Out Bool × St n}
    {body orelse : St n → Out × St n} {p q : Prop}
    (ht : ∀ st st', test st ≠ (.error (.jump l), st'))
    (hb : ∀ st st', body st = (.jump l, st') → p) (ho : ∀ st st', orelse st = (.jump l, st') → q) :
    ∀ (k : Nat) (st st' : St n), doLoop test body orelse k st = (.jump l, st') → p ∨ q
  | 0, st, st', h => by simp [doLoop] at h
  | k + 1, st, st', h => by
    simp only [doLoop] at h
    split at h
    · rename_i o s1 h1
      simp only [Prod.mk.injEq] at h
      rw [h.1] at h1
      exact absurd h1 (ht _ _)
    · exact .inr (ho _ _ h)
    · split at h
      · exact doLoop_targets ht hb ho k _ _ h
      · exact .inl (hb _ _ h)

theorem doReads_no_jump {env : Fin n → Option Val} {l : Label} :
    ∀ rs : List (Read n), doReads H env rs ≠ .error (.jump l)
  | [] => by simp [doReads]
  | r :: rs => by
    simp only [doReads]
    split
    · split <;> simp
    · split
      · have := doReads_no_jump (env := env) (l := l) rs
        split
        · rename_i o h; intro hc; simp only [Except.error.injEq] at hc; rw [hc] at h; exact this h
        · simp
      · simp

theorem doEval_no_jump {ω : Nat → Nat} {e : Expr n} {rs : List (Read n)} {l : Label} (st st' : St n) :
    doEval H ω e rs st ≠ (.error (.jump l), st') := by
  simp only [doEval]
  split
  · rename_i o h
    intro hc
    simp only [Prod.mk.injEq, Except.error.injEq] at hc
    rw [hc.1] at h
    exact doReads_no_jump rs h
  · split <;> simp

theorem doTest_no_jump {ω : Nat → Nat} {t : Test n} {rs : List (Read n)} {l : Label} (st st' : St n) :
    doTest H ω t rs st ≠ (.error (.jump l), st') := by
  simp only [doTest]
  split
  · rename_i o h
    intro hc
    simp only [Prod.mk.injEq, Except.error.injEq] at hc
    rw [hc.1] at h
    exact doReads_no_jump rs h
  · split <;> simp

theorem doStore_no_jump {l : Label} {st st' : St n} {x : Fin n} {v : Val} {over pod : Bool} :
    doStore st x v over pod ≠ (.jump l, st') := by
  unfold doStore
  split
  · split <;> simp
  · simp

/-- Code that jumps to `l` contains a jump to `l`. -/
theorem run_targets {ω : Nat → Nat} {N : Nat} {l : Label} :
    ∀ (c : Code n) (st st' : St n), run H ω N c st = (.jump l, st') → c.targets l = true
  | .skip, _, _, h | .returnNone, _, _, h | .setExc _, _, _, h | .setFlow _ _, _, _, h
  | .catchExc, _, _, h | .clearInfo, _, _, h | .unreachable, _, _, h => by simp [run] at h
  | .seq a c, st, st', h => by
    simp only [run] at h
    simp only [Code.targets, Bool.or_eq_true]
    split at h
    · exact .inr (run_targets c _ _ h)
    · exact .inl (run_targets a _ _ h)
  | .eval e rs live, st, st', h => by
    simp only [run] at h
    split at h
    · rename_i o s h1; simp only [Prod.mk.injEq] at h; rw [h.1] at h1; exact absurd h1 (doEval_no_jump _ _)
    · split at h <;> simp at h
  | .store x e rs live over pod, st, st', h => by
    simp only [run] at h
    split at h
    · rename_i o s h1; simp only [Prod.mk.injEq] at h; rw [h.1] at h1; exact absurd h1 (doEval_no_jump _ _)
    · split at h
      · exact absurd h doStore_no_jump
      · simp at h
  | .ret e rs live, st, st', h => by
    simp only [run] at h
    split at h
    · rename_i o s h1; simp only [Prod.mk.injEq] at h; rw [h.1] at h1; exact absurd h1 (doEval_no_jump _ _)
    · split at h <;> simp at h
  | .saveRet e rs live, st, st', h => by
    simp only [run] at h
    split at h
    · rename_i o s h1; simp only [Prod.mk.injEq] at h; rw [h.1] at h1; exact absurd h1 (doEval_no_jump _ _)
    · split at h <;> simp at h
  | .retSaved, st, st', h => by
    simp only [run] at h
    split at h <;> simp at h
  | .raiseE e rs, st, st', h => by
    simp only [run] at h
    split at h
    · rename_i o s h1; simp only [Prod.mk.injEq] at h; rw [h.1] at h1; exact absurd h1 (doEval_no_jump _ _)
    · simp at h
  | .reraise clear, st, st', h => by
    simp only [run] at h
    split at h <;> simp at h
  | .assertC t rs, st, st', h => by
    simp only [run] at h
    split at h
    · rename_i o s h1; simp only [Prod.mk.injEq] at h; rw [h.1] at h1; exact absurd h1 (doTest_no_jump _ _)
    · simp at h
    · simp at h
  | .branch t rs a c, st, st', h => by
    simp only [run] at h
    simp only [Code.targets, Bool.or_eq_true]
    split at h
    · rename_i o s h1; simp only [Prod.mk.injEq] at h; rw [h.1] at h1; exact absurd h1 (doTest_no_jump _ _)
    · exact .inl (run_targets a _ _ h)
    · exact .inr (run_targets c _ _ h)
  | .loop t rs a c, st, st', h => by
    simp only [run] at h
    simp only [Code.targets, Bool.or_eq_true]
    exact doLoop_targets doTest_no_jump (fun s s' h => run_targets a s s' h)
      (fun s s' h => run_targets c s s' h) N st st' h
  | .jump k, st, st', h => by
    simp only [run, Prod.mk.injEq, Out.jump.injEq] at h
    simp [Code.targets, h.1]
  | .block k c, st, st', h => by
    simp only [run] at h
    simp only [Code.targets, Bool.and_eq_true, Bool.not_eq_true', beq_eq_false_iff_ne]
    split at h
    · rename_i j s1 h1
      split at h
      · simp at h
      · rename_i hk
        simp only [Prod.mk.injEq, Out.jump.injEq] at h
        rw [h.1] at h1 hk
        exact ⟨run_targets c _ _ h1, fun hc => hk hc.symm⟩
    · rename_i hne
      exact absurd h (hne _ _)
  | .ifExc a c, st, st', h => by
    simp only [run] at h
    simp only [Code.targets, Bool.or_eq_true]
    split at h
    · exact .inl (run_targets a _ _ h)
    · exact .inr (run_targets c _ _ h)
  | .ifFlow d k a, st, st', h => by
    simp only [run] at h
    split at h
    · exact run_targets a _ _ h
    · simp at h
  | .tryCatch c hd, st, st', h => by
    simp only [run] at h
    simp only [Code.targets, Bool.or_eq_true]
    split at h
    · exact .inr (run_targets hd _ _ h)
    · exact .inl (run_targets c _ _ h)
  | .matchExc c a d, st, st', h => by
    simp only [run] at h
    simp only [Code.targets, Bool.or_eq_true]
    split at h
    · split at h
      · exact .inl (run_targets a _ _ h)
      · exact .inr (run_targets d _ _ h)
    · simp at h
  | .storeExc x over pod, st, st', h => by
    simp only [run] at h
    split at h
    · exact absurd h doStore_no_jump
    · simp at h
  | .cleanup c x pod, st, st', h => by
    simp only [run] at h
    simp only [Code.targets]
    split at h
    · simp at h
    · simp at h
    · rename_i o s h1 h2 h3
      split at h
      · simp at h
      · simp only [Prod.mk.injEq] at h
        rw [h.1] at h3
        exact run_targets c _ _ h3

/-! ### Jumps -/

theorem WF.ret_ne {b : Blocks} (hw : b.WF) {l : Label} (h : b.ret = some l) :
    l ≠ .brk ∧ l ≠ .cont ∧ l.depth < b.depth := by
  obtain ⟨d, hd, hl | hl⟩ := hw l h
  · subst hl; exact ⟨by simp, by simp, by simp only [Label.depth]; omega⟩
  · subst hl; exact ⟨by simp, by simp, by simp only [Label.depth]; omega⟩

/-- the state after control is deferred to the end of the `try` at depth `d` -/
def deferSt (st : St n) (d : Nat) (k : Deferred) : St n :=
  { st with flow := fun j => if j = d then k else st.flow j
            info := if st.exc then none else st.info }

theorem run_defer {ω : Nat → Nat} {N : Nat} (st : St n) (d : Nat) (k : Deferred) (c : Code n) :
    run H ω N (.seq (.setFlow d k) (.seq (.ifExc .clearInfo .skip) c)) st =
      run H ω N c (deferSt st d k) := by
  rw [run_seq_normal (st' := { st with flow := fun j => if j = d then k else st.flow j }) rfl]
  rw [run_seq_normal (run_clear _)]
  rfl

/-- the jump of a `break` or `continue`: the code, and what is changed -/
theorem jumpCode_run {ω : Nat → Nat} {N : Nat} {l : Label} {k : Deferred} {j : Code n}
    (hj : jumpCode b l k = some j) (he : b.inLoopEver = true) (st : St n) :
    ∃ o st', run H ω N j st = (o, st') ∧ st'.env = st.env ∧ st'.pos = st.pos ∧
      Jumped b k l o st' ∧
      (∀ d, d < b.depth → (∀ l, b.ret = some l → o = .jump l → d ≠ l.depth) →
        st'.flow d = st.flow d) ∧
      st'.exc = st.exc ∧ (¬ Leaves b o → st'.info = st.info ∧ st'.rv = st.rv) := by
  unfold jumpCode at hj
  split at hj
  · rename_i hin
    simp only [Option.some.injEq] at hj
    subst hj
    exact ⟨.jump l, st, rfl, rfl, rfl, ⟨he, .inl ⟨hin, rfl⟩⟩, fun _ _ _ => rfl, rfl,
      fun _ => ⟨rfl, rfl⟩⟩
  · rename_i hin
    split at hj
    · simp at hj
    · rename_i rr hret
      simp only [Option.some.injEq] at hj
      subst hj
      refine ⟨.jump rr, deferSt st rr.depth k, ?_, ?_, ?_, ⟨he, .inr ⟨by simpa using hin, rr, hret, rfl, ?_⟩⟩, ?_, ?_, ?_⟩
      · rw [run_defer]; rfl
      · rfl
      · rfl
      · simp [deferSt]
      · intro d hd hl
        have := hl rr hret rfl
        simp [deferSt, this]
      · rfl
      · intro hl; exact absurd ⟨rr, hret, rfl⟩ hl

end Verif.Flow
