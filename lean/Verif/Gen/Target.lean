import Verif.Gen.Good
/-
One call of `__fastnext__`: the transformed statements, entered with `..slot` -1, do what
`run` does, and entered with the number of a `yield`, what `resume` does.
-/
namespace Verif.Gen

variable {σ E V : Type}

/-- The state of the transformed code. -/
def W (k : Int) (v0 : Option V) (s : σ) : World (GS σ V) := (⟨k, v0, s⟩, [])

/-- The end of the transformed code that corresponds to an end of the body. -/
def img (v0 : Option V) : Out E V (Nat × V) × σ → Out E V V × World (GS σ V)
  | (.norm, s) => (.norm, W (-1) v0 s)
  | (.brk, s) => (.brk, W (-1) v0 s)
  | (.cont, s) => (.cont, W (-1) v0 s)
  | (.ret none, s) => (.ret none, W (-1) v0 s)
  | (.ret (some v), s) => (.exc (.stop (some v)), W (-2) v0 s)
  | (.exc e, s) => (.exc e, W (-1) v0 s)
  | (.susp (k, v), s) => (.ret (some v), W k (some v) s)

/-- `img` for results. -/
def im (v0 : Option V) (x : Res σ E V (Nat × V)) : Res (World (GS σ V)) E V V :=
  x.map (img v0)

@[simp] theorem im_none (v0 : Option V) : im v0 (none : Res σ E V (Nat × V)) = none := rfl
@[simp] theorem im_some (v0 : Option V) (x : Out E V (Nat × V) × σ) :
    im v0 (some x) = some (img v0 x) := rfl

/-- The transformed code `Y` ends as `X` prescribes.  Outside of a `try` (`i = false`) an
exception may also be raised with slot -2: `return e` sets the slot before `e` is
evaluated. -/
def Sim (i : Bool) (v0 : Option V) (Y : Res (World (GS σ V)) E V V)
    (X : Res σ E V (Nat × V)) : Prop :=
  Y = im v0 X ∨
    (i = false ∧ ∃ e s, X = some (.exc e, s) ∧ Y = some (.exc e, W (-2) v0 s))

theorem Sim.exact {v0 : Option V} {Y : Res (World (GS σ V)) E V V} {X : Res σ E V (Nat × V)}
    (h : Sim true v0 Y X) : Y = im v0 X := by
  rcases h with h | ⟨h, _⟩
  · exact h
  · cases h

theorem Sim.none_iff {i : Bool} {v0 : Option V} {Y : Res (World (GS σ V)) E V V}
    {X : Res σ E V (Nat × V)} (h : Sim i v0 Y X) : Y = none ↔ X = none := by
  rcases h with h | ⟨_, e, s, rfl, rfl⟩
  · subst h; simp [im]
  · simp

theorem seq_im {v0 : Option V} {K' : World (GS σ V) → Res (World (GS σ V)) E V V}
    {K : σ → Res σ E V (Nat × V)} (h : ∀ s, K' (W (-1) v0 s) = im v0 (K s))
    (X : Res σ E V (Nat × V)) : seqR K' (im v0 X) = im v0 (seqR K X) := by
  rcases X with _ | ⟨o, s⟩
  · rfl
  · rcases o with _ | _ | _ | (_ | v) | e | ⟨k, v⟩ <;> first | exact h s | rfl

theorem try_im {v0 : Option V} {H' : Exc E V → World (GS σ V) → Res (World (GS σ V)) E V V}
    {O' : World (GS σ V) → Res (World (GS σ V)) E V V}
    {H : Exc E V → σ → Res σ E V (Nat × V)} {O : σ → Res σ E V (Nat × V)}
    (hh : ∀ e s, H' e (W (-1) v0 s) = im v0 (H e s))
    (ho : ∀ s, O' (W (-1) v0 s) = im v0 (O s))
    {X : Res σ E V (Nat × V)} (hX : Always NotRet X) :
    tryR H' O' (im v0 X) = im v0 (tryR H O X) := by
  rcases X with _ | ⟨o, s⟩
  · rfl
  · have := hX _ _ rfl
    rcases o with _ | _ | _ | (_ | v) | e | ⟨k, v⟩ <;>
      first | exact ho s | exact hh e s | exact this.elim | rfl

theorem fin_im {v0 : Option V}
    {F' : Option (Exc E V) → World (GS σ V) → Res (World (GS σ V)) E V V}
    {F : Option (Exc E V) → σ → Res σ E V (Nat × V)} {cur : Option (Exc E V)}
    (hf : ∀ c s, F' c (W (-1) v0 s) = im v0 (F c s))
    (hs : ∀ c (k : Nat) v s, F' c (W k v s) = some (.norm, W k v s))
    {X : Res σ E V (Nat × V)} (hX : Always NotRet X) :
    finR F' cur (im v0 X) = im v0 (finR F cur X) := by
  rcases X with _ | ⟨o, s⟩
  · rfl
  · have := hX _ _ rfl
    rcases o with _ | _ | _ | (_ | v) | e | ⟨k, v⟩
    · exact hf cur s
    · simp only [im_some, img, finR, hf]
      exact seq_im (fun s' => rfl) _
    · simp only [im_some, img, finR, hf]
      exact seq_im (fun s' => rfl) _
    · simp only [im_some, img, finR, hf]
      exact seq_im (fun s' => rfl) _
    · exact this.elim
    · simp only [im_some, img, finR, hf]
      exact seq_im (fun s' => rfl) _
    · simp only [im_some, img, finR, hs, seqR]

theorem seqR_norm {S P : Type} (x : Res S E V P) : seqR (fun s => some (.norm, s)) x = x := by
  rcases x with _ | ⟨o, s⟩
  · rfl
  · cases o <;> rfl

theorem execLB_one (cur : Option (Exc E V)) (x : Stmt σ E V) (w : World σ) :
    execLB cur (one x) w = execL cur x w := by
  have h : execLB cur (.nil : Block σ E V) = fun w => some (.norm, w) := by
    funext w; simp only [execLB]
  simp only [one, execLB, h, seqR_norm]

theorem execLB_nil (cur : Option (Exc E V)) (w : World σ) :
    execLB cur .nil w = some (.norm, w) := by simp only [execLB]

theorem execLB_append (cur : Option (Exc E V)) (a c : Block σ E V) (w : World σ) :
    execLB cur (a.append c) w = seqR (execLB cur c) (execLB cur a w) := by
  match a with
  | .nil => simp only [Block.append, execLB, seqR]
  | .cons x r =>
    simp only [Block.append, execLB]
    have h : execLB cur (r.append c) = fun w => seqR (execLB cur c) (execLB cur r w) := by
      funext w; exact execLB_append cur r c w
    rw [h]
    generalize execL cur x w = y
    rcases y with _ | ⟨o, s⟩
    · rfl
    · cases o <;> rfl

/-- A test on the slot. -/
theorem execL_slot (cur : Option (Exc E V)) (p : Int → Bool) (a c : Block (GS σ V) E V)
    (k : Int) (v0 : Option V) (s : σ) :
    execL cur (.ite (slotTest p) a c) (W k v0 s) =
      if p k then execLB cur a (W k v0 s) else execLB cur c (W k v0 s) := by
  simp only [execL, condR, act, slotTest, W]
  cases p k <;> rfl

theorem between_neg (k : Int) : between (-1) (-1) k = decide (k = -1) := by
  simp only [between]
  simp [eq_comm]

theorem between_iff (lo hi k : Int) : between lo hi k = true ↔ lo ≤ k ∧ k ≤ hi := by
  simp only [between]
  split
  · simp; omega
  · split
    · simp; omega
    · simp

theorem gate_neg (b y : Nat) (t : Act σ E V Bool) (v0 : Option V) (s : σ) :
    act (gate b y t) (W (-1) v0 s) = (W (-1) v0 (t s).1, (t s).2) := by
  have h : between (b : Int) (b + y - 1) (-1) = false := by
    rw [Bool.eq_false_iff, Ne, between_iff]; omega
  simp only [act, gate, orA, andA, slotTest, W, h, between_neg, onVars]
  rfl

theorem gate_in (b y k : Nat) (t : Act σ E V Bool) (v0 : Option V) (s : σ) (h1 : b ≤ k)
    (h2 : k < b + y) : act (gate b y t) (W k v0 s) = (W k v0 s, .ok true) := by
  have h : between (b : Int) (b + y - 1) k = true := by rw [between_iff]; omega
  simp only [act, gate, orA, slotTest, W, h]

theorem gate_out (b y k : Nat) (t : Act σ E V Bool) (v0 : Option V) (s : σ)
    (h2 : b + y ≤ k) : act (gate b y t) (W k v0 s) = (W k v0 s, .ok false) := by
  have h : between (b : Int) (b + y - 1) k = false := by
    rw [Bool.eq_false_iff, Ne, between_iff]; omega
  have h' : between (-1) (-1) (k : Int) = false := by
    rw [Bool.eq_false_iff, Ne, between_iff]; omega
  simp only [act, gate, orA, andA, slotTest, W, h, h']

theorem guarded_neg (cur : Option (Exc E V)) (u : Nat) (c : Block (GS σ V) E V)
    (v0 : Option V) (s : σ) :
    execL cur (guarded u c) (W (-1) v0 s) = execLB cur c (W (-1) v0 s) := by
  rw [guarded, execL_slot, if_pos]
  simp; omega

theorem guarded_in (cur : Option (Exc E V)) {u k : Nat} (c : Block (GS σ V) E V)
    (v0 : Option V) (s : σ) (h : k < u) :
    execL cur (guarded u c) (W k v0 s) = execLB cur c (W k v0 s) := by
  rw [guarded, execL_slot, if_pos]
  simpa using h

theorem guarded_out (cur : Option (Exc E V)) {u k : Nat} (c : Block (GS σ V) E V)
    (v0 : Option V) (s : σ) (h : u ≤ k) :
    execL cur (guarded u c) (W k v0 s) = some (.norm, W k v0 s) := by
  rw [guarded, execL_slot, if_neg, execLB_nil]
  simpa using h

/-- Past its last `yield`, transformed code does nothing. -/
theorem change_past (cur : Option (Exc E V)) (x : Block σ E V) (b k : Nat) (v0 : Option V)
    (s : σ) (h : b + x.yields ≤ k) :
    execLB cur (x.change b) (W k v0 s) = some (.norm, W k v0 s) := by
  match x with
  | .nil => simp only [Block.change, execLB]
  | .cons x r =>
    simp only [Block.yields] at h
    simp only [Block.change, execLB, guarded_out cur _ v0 s (show b + x.yields ≤ k by omega),
      seqR]
    exact change_past cur r _ k v0 s (by omega)

theorem seq_sim {i : Bool} {v0 : Option V}
    {K' : World (GS σ V) → Res (World (GS σ V)) E V V}
    {K : σ → Res σ E V (Nat × V)} (h : ∀ s, Sim i v0 (K' (W (-1) v0 s)) (K s))
    {Y : Res (World (GS σ V)) E V V} {X : Res σ E V (Nat × V)} (hy : Sim i v0 Y X) :
    Sim i v0 (seqR K' Y) (seqR K X) := by
  rcases hy with rfl | ⟨hi, e, s, rfl, rfl⟩
  · rcases X with _ | ⟨o, s⟩
    · exact Or.inl rfl
    · rcases o with _ | _ | _ | (_ | v) | e | ⟨k, v⟩ <;> first | exact h s | exact Or.inl rfl
  · exact Or.inr ⟨hi, e, s, rfl, rfl⟩

theorem again_sim {i : Bool} {v0 : Option V}
    {K' : World (GS σ V) → Res (World (GS σ V)) E V V}
    {K : σ → Res σ E V (Nat × V)} (h : ∀ s, Sim i v0 (K' (W (-1) v0 s)) (K s))
    {Y : Res (World (GS σ V)) E V V} {X : Res σ E V (Nat × V)} (hy : Sim i v0 Y X) :
    Sim i v0 (againR K' Y) (againR K X) := by
  rcases hy with rfl | ⟨hi, e, s, rfl, rfl⟩
  · rcases X with _ | ⟨o, s⟩
    · exact Or.inl rfl
    · rcases o with _ | _ | _ | (_ | v) | e | ⟨k, v⟩ <;> first | exact h s | exact Or.inl rfl
  · exact Or.inr ⟨hi, e, s, rfl, rfl⟩

theorem cond_neg {i : Bool} {v0 : Option V} {b y : Nat} {t : Act σ E V Bool}
    {B' O' : World (GS σ V) → Res (World (GS σ V)) E V V} {B O : σ → Res σ E V (Nat × V)}
    (hb : ∀ s, Sim i v0 (B' (W (-1) v0 s)) (B s))
    (ho : ∀ s, Sim i v0 (O' (W (-1) v0 s)) (O s))
    (s : σ) : Sim i v0 (condR (act (gate b y t)) B' O' (W (-1) v0 s)) (condR t B O s) := by
  simp only [condR, gate_neg]
  rcases t s with ⟨s', e | (_ | _)⟩
  · exact Or.inl rfl
  · exact ho s'
  · exact hb s'

theorem loop_neg {i : Bool} {v0 : Option V} {b y : Nat} {t : Act σ E V Bool}
    {B' O' : World (GS σ V) → Res (World (GS σ V)) E V V} {B O : σ → Res σ E V (Nat × V)}
    (hb : ∀ s, Sim i v0 (B' (W (-1) v0 s)) (B s))
    (ho : ∀ s, Sim i v0 (O' (W (-1) v0 s)) (O s))
    (s : σ) : Sim i v0 (loopL (act (gate b y t)) B' O' (W (-1) v0 s)) (loopL t B O s) := by
  have key : ∀ n s, Sim i v0 (loopN (act (gate b y t)) B' O' n (W (-1) v0 s))
      (loopN t B O n s) := by
    intro n
    induction n with
    | zero => intro s; exact Or.inl rfl
    | succ n ih =>
      intro s
      simp only [loopN]
      exact cond_neg (fun s' => again_sim ih (hb s')) ho s
  rcases hx : loopL t B O s with _ | r
  · rcases hy : loopL (act (gate b y t)) B' O' (W (-1) v0 s) with _ | r'
    · exact Or.inl rfl
    · obtain ⟨n, hn⟩ := (loopL_eq_some _).1 hy
      rcases hm : loopN t B O n s with _ | q
      · rw [((key n s).none_iff).2 hm] at hn; cases hn
      · rw [loopN_le_loopL _ _ _ n s q hm] at hx; cases hx
  · obtain ⟨n, hn⟩ := (loopL_eq_some _).1 hx
    have k := key n s
    rw [hn] at k
    rcases hm : loopN (act (gate b y t)) B' O' n (W (-1) v0 s) with _ | q
    · rw [k.none_iff] at hm; cases hm
    · rw [hm] at k
      rw [loopN_le_loopL _ _ _ n _ q hm]
      exact k

/-- The code of a `finally` block, with its test. -/
theorem finCode_neg (c : Option (Exc E V)) (f : Block (GS σ V) E V) (v0 : Option V) (s : σ) :
    execLB c (if f.isNil then .nil
      else one (.ite (slotTest (between (-1) (-1))) f .nil)) (W (-1) v0 s) =
      execLB c f (W (-1) v0 s) := by
  cases f with
  | nil => rfl
  | cons x r =>
    simp only [Block.isNil, Bool.false_eq_true, if_false]
    rw [execLB_one, execL_slot, if_pos]
    rw [between_neg]; simp

theorem finCode_pos (c : Option (Exc E V)) (f : Block (GS σ V) E V) (k : Nat) (v0 : Option V)
    (s : σ) :
    execLB c (if f.isNil then .nil
      else one (.ite (slotTest (between (-1) (-1))) f .nil)) (W k v0 s) =
      some (.norm, W k v0 s) := by
  cases f with
  | nil => exact execLB_nil c _
  | cons x r =>
    simp only [Block.isNil, Bool.false_eq_true, if_false]
    rw [execLB_one, execL_slot, if_neg, execLB_nil]
    rw [between_neg]; simp

/-- The code of a `try`, entered in the `try`. -/
theorem tryCode_neg {cur : Option (Exc E V)} {b y : Nat} {body o f cl : Block (GS σ V) E V}
    {hs : Handlers (GS σ V) E V} {v0 : Option V}
    {H : Exc E V → σ → Res σ E V (Nat × V)} {B O : σ → Res σ E V (Nat × V)}
    {F : Option (Exc E V) → σ → Res σ E V (Nat × V)}
    (hb : ∀ s, execLB cur body (W (-1) v0 s) = im v0 (B s))
    (hh : ∀ e s, execLH cur hs e (W (-1) v0 s) = im v0 (H e s))
    (ho : ∀ s, execLB cur o (W (-1) v0 s) = im v0 (O s))
    (hf : ∀ c s, execLB c f (W (-1) v0 s) = im v0 (F c s))
    (nB : ∀ s, Always NotRet (B s)) (nH : ∀ e s, Always NotRet (H e s))
    (nO : ∀ s, Always NotRet (O s)) (s : σ) :
    execL cur (tryCode b y body hs o f cl) (W (-1) v0 s) =
      im v0 (finR F cur (tryR H O (B s))) := by
  rw [tryCode, execL_slot, if_pos (by rw [between_iff]; omega), execLB_one]
  simp only [execL]
  rw [hb, try_im hh ho (nB s)]
  exact fin_im (fun c s' => by rw [finCode_neg, hf]) (fun c k v s' => finCode_pos c f k v s')
    (Always.tryR (fun e s' _ => nH e s') nO (nB s))

theorem tryCode_in {cur : Option (Exc E V)} {b y k : Nat} {body o f cl : Block (GS σ V) E V}
    {hs : Handlers (GS σ V) E V} {v0 : Option V}
    {H : Exc E V → σ → Res σ E V (Nat × V)} {O : σ → Res σ E V (Nat × V)}
    {X : Res σ E V (Nat × V)} {F : Option (Exc E V) → σ → Res σ E V (Nat × V)} {s : σ}
    (hk : k < b + y)
    (hb : execLB cur body (W k v0 s) = im v0 X)
    (hh : ∀ e s, execLH cur hs e (W (-1) v0 s) = im v0 (H e s))
    (ho : ∀ s, execLB cur o (W (-1) v0 s) = im v0 (O s))
    (hf : ∀ c s, execLB c f (W (-1) v0 s) = im v0 (F c s))
    (nX : Always NotRet X) (nH : ∀ e s, Always NotRet (H e s))
    (nO : ∀ s, Always NotRet (O s)) :
    execL cur (tryCode b y body hs o f cl) (W k v0 s) =
      im v0 (finR F cur (tryR H O X)) := by
  rw [tryCode, execL_slot, if_pos (by rw [between_iff]; omega), execLB_one]
  simp only [execL]
  rw [hb, try_im hh ho nX]
  exact fin_im (fun c s' => by rw [finCode_neg, hf]) (fun c k v s' => finCode_pos c f k v s')
    (Always.tryR (fun e s' _ => nH e s') nO nX)

theorem tryCode_out {cur : Option (Exc E V)} {b y k : Nat} {body o f cl : Block (GS σ V) E V}
    {hs : Handlers (GS σ V) E V} {v0 : Option V} {s : σ} (hk : b + y ≤ k) :
    execL cur (tryCode b y body hs o f cl) (W k v0 s) = execLB cur cl (W k v0 s) := by
  rw [tryCode, execL_slot, if_neg (by rw [between_iff]; omega)]

theorem tryR_none_norm {S P : Type} (x : Res S E V P) :
    tryR (fun e s => some (.exc e, s)) (fun s => some (.norm, s)) x = x := by
  rcases x with _ | ⟨o, s⟩
  · rfl
  · cases o <;> rfl

theorem finR_norm {S P : Type} (cur : Option (Exc E V)) (x : Res S E V P) :
    finR (fun _ s => some (.norm, s)) cur x = x := by
  rcases x with _ | ⟨o, s⟩
  · rfl
  · cases o <;> rfl

theorem Handlers.isNil_eq {hs : Handlers σ E V} (h : hs.isNil = true) : hs = .nil := by
  cases hs with
  | nil => rfl
  | cons => cases h

theorem Block.isNil_eq {x : Block σ E V} (h : x.isNil = true) : x = .nil := by
  cases x with
  | nil => rfl
  | cons => cases h

theorem runB_nil_eq (c : Option (Exc E V)) (b : Nat) :
    runB c b (.nil : Block σ E V) = fun s => some (.norm, s) := by
  funext s; simp only [runB]

theorem runH_nil_eq (c : Option (Exc E V)) (b : Nat) :
    runH c b (.nil : Handlers σ E V) = fun e s => some (.exc e, s) := by
  funext e s; simp only [runH]

mutual
/-- Entered with slot -1, a transformed statement does what `run` does. -/
theorem changeInner_run : ∀ (x : Stmt σ E V) {i : Bool} (_ : x.Good i)
    (cur : Option (Exc E V)) (b : Nat) (v0 : Option V) (s : σ),
    Sim i v0 (execLB cur (x.changeInner b) (W (-1) v0 s)) (run cur b x s)
  | .prim f, i, g, cur, b, v0, s => by
    simp only [Stmt.changeInner, execLB_one, execL, run, primR, primP, act, onVars, W]
    rcases f s with ⟨s', e | u⟩ <;> exact Or.inl rfl
  | .yld e, i, g, cur, b, v0, s => by
    obtain ⟨s', v, h⟩ := g s
    refine Or.inl ?_
    simp only [Stmt.changeInner, run, yldP, h, execLB_one, im_some, img]
    rw [execL_slot, if_neg (by simp)]
    simp only [execLB, execL, setSlot, setValue, retValue, primR, act, W, onVars, h, seqR, one,
      retR]
  | .ite t body o, i, g, cur, b, v0, s => by
    simp only [Stmt.Good] at g
    simp only [Stmt.changeInner, execLB_one, execL, run]
    exact cond_neg (fun s' => change_run body g.2.1 cur b v0 s')
      (fun s' => change_run o g.2.2 cur _ v0 s') s
  | .whl t body o, i, g, cur, b, v0, s => by
    simp only [Stmt.Good] at g
    simp only [Stmt.changeInner, execLB_one, execL, run]
    exact loop_neg (fun s' => change_run body g.2.1 cur b v0 s')
      (fun s' => change_run o g.2.2 cur _ v0 s') s
  | .brk, i, g, cur, b, v0, s => by
    simp only [Stmt.changeInner, execLB_one, execL, run]; exact Or.inl rfl
  | .cont, i, g, cur, b, v0, s => by
    simp only [Stmt.changeInner, execLB_one, execL, run]; exact Or.inl rfl
  | .ret none, i, g, cur, b, v0, s => by
    simp only [Stmt.changeInner, execLB_one, execL, run]; exact Or.inl rfl
  | .ret (some e), i, g, cur, b, v0, s => by
    simp only [Stmt.Good] at g
    simp only [Stmt.changeInner, execLB, execL, run, retP, setSlot, raiseStop, primR, act, W,
      onVars, seqR, execLB_one]
    rcases he : e s with ⟨s', x | v⟩
    · exact Or.inr ⟨g.1, x, s', rfl, rfl⟩
    · exact Or.inl rfl
  | .info f, i, g, cur, b, v0, s => by
    simp only [Stmt.changeInner, execLB_one, execL, run, primR, primP, act, onVars, W]
    rcases f cur s with ⟨s', e | u⟩ <;> exact Or.inl rfl
  | .reraise, i, g, cur, b, v0, s => by
    simp only [Stmt.changeInner, execLB_one, execL, run]; exact Or.inl rfl
  | .tri body hs o f, i, g, cur, b, v0, s => by
    simp only [Stmt.Good] at g
    obtain ⟨gb, gh, go, gf, hf0, hsyn⟩ := g
    have hB := fun s' => (change_run body gb cur b v0 s').exact
    have hH := fun e s' => change_runH hs gh cur (b + body.yields) v0 e s'
    have hO := fun s' => (change_run o go cur (b + body.yields + hs.yields) v0 s').exact
    have hF := fun c s' =>
      (change_run f gf c (b + body.yields + hs.yields + o.yields) v0 s').exact
    have nB := fun s' => runB_notRet body gb cur b s'
    have nH := fun e s' => runH_notRet hs gh cur (b + body.yields) e s'
    have nO := fun s' => runB_notRet o go cur (b + body.yields + hs.yields) s'
    refine Or.inl ?_
    simp only [Stmt.changeInner, run]
    split
    · rw [execLB_one, guarded_neg, execLB_one]
      rw [tryCode_neg (F := fun c => runB c (b + body.yields + hs.yields + o.yields) f)
        (H := fun e s => some (.exc e, s)) (O := fun s => some (.norm, s))
        (B := fun s => tryR (runH cur (b + body.yields) hs)
          (runB cur (b + body.yields + hs.yields) o) (runB cur b body s))]
      · rw [tryR_none_norm]
      · intro s'
        rw [execLB_one, guarded_neg, execLB_one,
          tryCode_neg hB hH hO (F := fun _ s => some (.norm, s))
            (fun c s' => by rw [execLB_nil]; rfl) nB nH nO, finR_norm]
      · intro e s'; simp only [execLH]; rfl
      · intro s'; rw [execLB_nil]; rfl
      · exact hF
      · exact fun s' => Always.tryR (fun e s' _ => nH e s') nO (nB s')
      · exact fun e s' => Always.some trivial s'
      · exact fun s' => Always.some trivial s'
    · rw [execLB_one]
      exact tryCode_neg hB hH hO hF nB nH nO s
theorem change_run : ∀ (x : Block σ E V) {i : Bool} (_ : x.Good i)
    (cur : Option (Exc E V)) (b : Nat) (v0 : Option V) (s : σ),
    Sim i v0 (execLB cur (x.change b) (W (-1) v0 s)) (runB cur b x s)
  | .nil, i, g, cur, b, v0, s => by
    simp only [Block.change, execLB, runB]; exact Or.inl rfl
  | .cons x r, i, g, cur, b, v0, s => by
    simp only [Block.Good] at g
    simp only [Block.change, execLB, runB]
    rw [guarded_neg]
    exact seq_sim (fun s' => change_run r g.2 cur _ v0 s') (changeInner_run x g.1 cur b v0 s)
theorem change_runH : ∀ (x : Handlers σ E V) (_ : x.Good)
    (cur : Option (Exc E V)) (b : Nat) (v0 : Option V) (e : Exc E V) (s : σ),
    execLH cur (x.change b) e (W (-1) v0 s) = im v0 (runH cur b x e s)
  | .nil, g, cur, b, v0, e, s => by simp only [Handlers.change, execLH, runH]; rfl
  | .cons m bind body r, g, cur, b, v0, e, s => by
    simp only [Handlers.Good] at g
    simp only [Handlers.change, execLH, runH, g.1]
    split
    · exact (change_run body g.2.1 (some e) b v0 s).exact
    · exact change_runH r g.2.2.2 cur _ v0 e s
end

/-! ### Entered with the number of a `yield` -/

theorem matcher_neg (cur : Option (Exc E V)) (st y : Nat) (code rest : Block (GS σ V) E V)
    (v0 : Option V) (s : σ) :
    execLB cur (matcher st y code rest) (W (-1) v0 s) = execLB cur rest (W (-1) v0 s) := by
  unfold matcher
  split
  · rfl
  · simp only [execLB]
    rw [execL_slot, if_neg (by rw [between_iff]; omega), execLB_nil]
    rfl

theorem matcher_out (cur : Option (Exc E V)) (st y k : Nat) (code rest : Block (GS σ V) E V)
    (v0 : Option V) (s : σ) (h : st + y ≤ k) :
    execLB cur (matcher st y code rest) (W k v0 s) = execLB cur rest (W k v0 s) := by
  unfold matcher
  split
  · rfl
  · simp only [execLB]
    rw [execL_slot, if_neg (by rw [between_iff]; omega), execLB_nil]
    rfl

theorem matcher_in {cur : Option (Exc E V)} {st y k : Nat} {code rest : Block (GS σ V) E V}
    {v0 : Option V} {s : σ} {X : Res σ E V (Nat × V)} (h1 : st ≤ k) (h2 : k < st + y)
    (hc : execLB cur code (W k v0 s) = im v0 X)
    (hr : ∀ s, execLB cur rest (W (-1) v0 s) = some (.norm, W (-1) v0 s)) :
    execLB cur (matcher st y code rest) (W k v0 s) = im v0 X := by
  unfold matcher
  rw [if_neg (by omega)]
  simp only [execLB]
  rw [execL_slot, if_pos (by rw [between_iff]; omega), hc]
  rw [seq_im (K := fun s => some (.norm, s)) (fun s' => by rw [hr]; rfl), seqR_norm]

theorem cleanup_neg (cur : Option (Exc E V)) (hs : Handlers σ E V) (b : Nat)
    (rest : Block (GS σ V) E V) (v0 : Option V) (s : σ) :
    execLB cur (hs.cleanup b rest) (W (-1) v0 s) = execLB cur rest (W (-1) v0 s) := by
  match hs with
  | .nil => simp only [Handlers.cleanup]
  | .cons m bind body r =>
    simp only [Handlers.cleanup]
    rw [matcher_neg]
    exact cleanup_neg cur r _ rest v0 s

theorem cleanup_out (cur : Option (Exc E V)) (hs : Handlers σ E V) (b k : Nat)
    (rest : Block (GS σ V) E V) (v0 : Option V) (s : σ) (h : b + hs.yields ≤ k) :
    execLB cur (hs.cleanup b rest) (W k v0 s) = execLB cur rest (W k v0 s) := by
  match hs with
  | .nil => simp only [Handlers.cleanup]
  | .cons m bind body r =>
    simp only [Handlers.yields] at h
    simp only [Handlers.cleanup]
    rw [matcher_out _ _ _ _ _ _ _ _ (by omega)]
    exact cleanup_out cur r _ k rest v0 s (by omega)

mutual
/-- Entered with the number of one of its `yield`s, a transformed statement does what
`resume` does. -/
theorem changeInner_resume : ∀ (x : Stmt σ E V) {i : Bool} (_ : x.Good i)
    (cur : Option (Exc E V)) (b k : Nat) (_ : b ≤ k) (_ : k < b + x.yields) (v0 : Option V)
    (s : σ), Sim i v0 (execLB cur (x.changeInner b) (W k v0 s)) (resume cur b k x s)
  | .prim f, i, g, cur, b, k, h1, h2, v0, s => by simp only [Stmt.yields] at h2; omega
  | .yld e, i, g, cur, b, k, h1, h2, v0, s => by
    simp only [Stmt.yields] at h2
    have hk : k = b := by omega
    subst hk
    refine Or.inl ?_
    simp only [Stmt.changeInner, resume, execLB_one, im_some, img]
    rw [execL_slot, if_pos (by simp), execLB_one]
    simp only [execL, setSlot, primR, act, W]
  | .ite t body o, i, g, cur, b, k, h1, h2, v0, s => by
    simp only [Stmt.Good] at g
    simp only [Stmt.yields] at h2
    simp only [Stmt.changeInner, execLB_one, execL, resume]
    split
    · next h =>
      simp only [condR, gate_in b body.yields k t v0 s h1 h]
      exact change_resume body g.2.1 cur b k h1 h v0 s
    · next h =>
      simp only [condR, gate_out b body.yields k t v0 s (by omega)]
      exact change_resume o g.2.2 cur _ k (by omega) (by omega) v0 s
  | .whl t body o, i, g, cur, b, k, h1, h2, v0, s => by
    simp only [Stmt.Good] at g
    simp only [Stmt.yields] at h2
    simp only [Stmt.changeInner, execLB_one, execL, resume]
    rw [loopL_unfold]
    split
    · next h =>
      simp only [condR, gate_in b body.yields k t v0 s h1 h]
      exact again_sim
        (fun s' => loop_neg (fun s' => change_run body g.2.1 cur b v0 s')
          (fun s' => change_run o g.2.2 cur _ v0 s') s')
        (change_resume body g.2.1 cur b k h1 h v0 s)
    · next h =>
      simp only [condR, gate_out b body.yields k t v0 s (by omega)]
      exact change_resume o g.2.2 cur _ k (by omega) (by omega) v0 s
  | .brk, i, g, cur, b, k, h1, h2, v0, s => by simp only [Stmt.yields] at h2; omega
  | .cont, i, g, cur, b, k, h1, h2, v0, s => by simp only [Stmt.yields] at h2; omega
  | .ret e, i, g, cur, b, k, h1, h2, v0, s => by simp only [Stmt.yields] at h2; omega
  | .reraise, i, g, cur, b, k, h1, h2, v0, s => by simp only [Stmt.yields] at h2; omega
  | .info f, i, g, cur, b, k, h1, h2, v0, s => by simp only [Stmt.yields] at h2; omega
  | .tri body hs o f, i, g, cur, b, k, h1, h2, v0, s => by
    simp only [Stmt.Good] at g
    simp only [Stmt.yields] at h2
    obtain ⟨gb, gh, go, gf, hf0, hsyn⟩ := g
    have hH := fun e s' => change_runH hs gh cur (b + body.yields) v0 e s'
    have hO := fun s' => (change_run o go cur (b + body.yields + hs.yields) v0 s').exact
    have hF := fun c s' =>
      (change_run f gf c (b + body.yields + hs.yields + o.yields) v0 s').exact
    have nH := fun e s' => runH_notRet hs gh cur (b + body.yields) e s'
    have nO := fun s' => runB_notRet o go cur (b + body.yields + hs.yields) s'
    have nX := resumeB_notRet body gb cur b k s
    -- the `try` without `finally`, or whose `finally` is `f'`
    have inner : ∀ (f' : Block (GS σ V) E V) (rest : Block (GS σ V) E V)
        (F : Option (Exc E V) → σ → Res σ E V (Nat × V)),
        (∀ c s, execLB c f' (W (-1) v0 s) = im v0 (F c s)) →
        (∀ s, execLB cur rest (W (-1) v0 s) = some (.norm, W (-1) v0 s)) →
        (b + body.yields ≤ k → F = fun _ s => some (.norm, s)) →
        execL cur (tryCode b body.yields (body.change b) (hs.change (b + body.yields))
          (o.change (b + body.yields + hs.yields)) f'
          (hs.cleanup (b + body.yields) (matcher (b + body.yields + hs.yields) o.yields
            (o.change (b + body.yields + hs.yields)) rest))) (W k v0 s) =
        im v0 (finR F cur
          (if k < b + body.yields then
            tryR (runH cur (b + body.yields) hs) (runB cur (b + body.yields + hs.yields) o)
              (resumeB cur b k body s)
           else if k < b + body.yields + hs.yields then resumeH cur (b + body.yields) k hs s
           else resumeB cur (b + body.yields + hs.yields) k o s)) := by
      intro f' rest F hf' hr hF'
      split
      · next h =>
        exact tryCode_in h (change_resume body gb cur b k h1 h v0 s).exact hH hO hf' nX nH nO
      · next h =>
        rw [tryCode_out (by omega), hF' (by omega), finR_norm]
        split
        · next h' =>
          exact cleanup_resume hs gh cur (b + body.yields) k (by omega) h' v0 s _
            (fun s' => by rw [matcher_neg]; exact hr s')
        · next h' =>
          rw [cleanup_out _ _ _ _ _ _ _ (by omega)]
          exact matcher_in (by omega) (by omega)
            (change_resume o go cur (b + body.yields + hs.yields) k (by omega) (by omega)
              v0 s).exact hr
    refine Or.inl ?_
    simp only [Stmt.changeInner, resume]
    split
    · rw [execLB_one, guarded_in _ _ _ _ (by omega), execLB_one]
      rw [tryCode_in (F := fun c => runB c (b + body.yields + hs.yields + o.yields) f)
        (H := fun e s => some (.exc e, s)) (O := fun s => some (.norm, s)) (by omega)
        (X := (if k < b + body.yields then
            tryR (runH cur (b + body.yields) hs) (runB cur (b + body.yields + hs.yields) o)
              (resumeB cur b k body s)
           else if k < b + body.yields + hs.yields then resumeH cur (b + body.yields) k hs s
           else resumeB cur (b + body.yields + hs.yields) k o s))]
      · rw [tryR_none_norm]
      · rw [execLB_one, guarded_in _ _ _ _ (by omega), execLB_one,
          inner .nil .nil (fun _ s => some (.norm, s)) (fun c s => by rw [execLB_nil]; rfl)
            (fun s => execLB_nil _ _) (fun _ => rfl), finR_norm]
      · intro e s'; simp only [execLH]; rfl
      · intro s'; rw [execLB_nil]; rfl
      · exact hF
      · split
        · exact Always.tryR (fun e s' _ => nH e s') nO nX
        · split
          · exact resumeH_notRet hs gh cur _ k s
          · exact resumeB_notRet o go cur _ k s
      · exact fun e s' => Always.some trivial s'
      · exact fun s' => Always.some trivial s'
    · next hsp =>
      rw [execLB_one]
      have hm : matcher (b + body.yields + hs.yields + o.yields) f.yields
          (f.change (b + body.yields + hs.yields + o.yields)) .nil = .nil := by
        rw [matcher, if_pos hf0]
      rw [hm]
      refine inner _ .nil _ hF (fun s => execLB_nil _ _) ?_
      intro hk
      rcases hn : hs.isNil with _ | _
      · rcases hfn : f.isNil with _ | _
        · simp [hn, hfn] at hsp
        · rw [Block.isNil_eq hfn]
          funext c s'
          simp only [runB]
      · have e1 := Handlers.isNil_eq hn
        have e2 := hsyn hn
        subst e1; subst e2
        simp only [Handlers.yields, Block.yields, hf0] at h2
        omega
theorem change_resume : ∀ (x : Block σ E V) {i : Bool} (_ : x.Good i)
    (cur : Option (Exc E V)) (b k : Nat) (_ : b ≤ k) (_ : k < b + x.yields) (v0 : Option V)
    (s : σ), Sim i v0 (execLB cur (x.change b) (W k v0 s)) (resumeB cur b k x s)
  | .nil, i, g, cur, b, k, h1, h2, v0, s => by simp only [Block.yields] at h2; omega
  | .cons x r, i, g, cur, b, k, h1, h2, v0, s => by
    simp only [Block.Good] at g
    simp only [Block.yields] at h2
    simp only [Block.change, execLB, resumeB]
    split
    · next h =>
      rw [guarded_in _ _ _ _ h]
      exact seq_sim (fun s' => change_run r g.2 cur _ v0 s')
        (changeInner_resume x g.1 cur b k h1 h v0 s)
    · next h =>
      rw [guarded_out _ _ _ _ (by omega)]
      exact change_resume r g.2 cur _ k (by omega) (by omega) v0 s
theorem cleanup_resume : ∀ (x : Handlers σ E V) (_ : x.Good)
    (cur : Option (Exc E V)) (b k : Nat) (_ : b ≤ k) (_ : k < b + x.yields) (v0 : Option V)
    (s : σ) (rest : Block (GS σ V) E V)
    (_ : ∀ s, execLB cur rest (W (-1) v0 s) = some (.norm, W (-1) v0 s)),
    execLB cur (x.cleanup b rest) (W k v0 s) = im v0 (resumeH cur b k x s)
  | .nil, g, cur, b, k, h1, h2, v0, s, rest, hr => by
    simp only [Handlers.yields] at h2; omega
  | .cons m bind body r, g, cur, b, k, h1, h2, v0, s, rest, hr => by
    simp only [Handlers.Good] at g
    simp only [Handlers.yields] at h2
    simp only [Handlers.cleanup, resumeH]
    split
    · next h =>
      exact matcher_in h1 h (change_resume body g.2.1 cur b k h1 h v0 s).exact
        (fun s' => by rw [cleanup_neg]; exact hr s')
    · next h =>
      rw [matcher_out _ _ _ _ _ _ _ _ (by omega)]
      exact cleanup_resume r g.2.2.2 cur _ k (by omega) (by omega) v0 s rest hr
end

end Verif.Gen
