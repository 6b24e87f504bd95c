import Verif.Gen.Target
import Verif.Gen.Replay
/-
Many calls of `next`: the transformed body, called again and again, replays the body.
-/
namespace Verif.Gen

variable {σ E V : Type}

/-- `next` without fuel. -/
noncomputable def nextL (body : Block σ E V) (g : GS σ V) : Option (Obs E V × GS σ V) :=
  match execLB none (fastnextBody body) (g, []) with
  | none => none
  | some (o, w) => some (nextOf o, w.1)

/-- `callsFrom` without fuel. -/
noncomputable def callsL (body : Block σ E V) : List (σ → σ) → GS σ V → Option (Obs E V × σ)
  | [], g =>
    match nextL body g with
    | none => none
    | some (r, g') => some (r, g'.vars)
  | a :: rest, g =>
    match nextL body g with
    | none => none
    | some (_, g') => callsL body rest (g'.touch a)

theorem next_below {N : Nat} {body : Block σ E V} {g : GS σ V} {r : Obs E V × GS σ V}
    (h : next N body g = some r) : nextL body g = some r := by
  unfold next at h
  unfold nextL
  rcases hx : execB N none (fastnextBody body) (g, []) with _ | q
  · rw [hx] at h; cases h
  · rw [hx] at h
    rw [(execB_isLim _ _).below N _ q hx]
    exact h

theorem next_mono {N M : Nat} (hm : N ≤ M) {body : Block σ E V} {g : GS σ V}
    {r : Obs E V × GS σ V} (h : next N body g = some r) : next M body g = some r := by
  unfold next at h ⊢
  rcases hx : execB N none (fastnextBody body) (g, []) with _ | q
  · rw [hx] at h; cases h
  · rw [hx] at h
    have := (execB_isLim (fastnextBody body) none).mono hm _ q hx
    rw [this]
    exact h

theorem next_reach {body : Block σ E V} {g : GS σ V} {r : Obs E V × GS σ V}
    (h : nextL body g = some r) : ∃ N, next N body g = some r := by
  unfold nextL at h
  rcases hx : execLB none (fastnextBody body) (g, []) with _ | q
  · rw [hx] at h; cases h
  · rw [hx] at h
    obtain ⟨N, hN⟩ := (execB_isLim _ _).reach _ q hx
    exact ⟨N, by unfold next; rw [hN]; exact h⟩

theorem calls_mono {N M : Nat} (hm : N ≤ M) {body : Block σ E V} :
    ∀ {bt : List (σ → σ)} {g : GS σ V} {r : Obs E V × σ},
    callsFrom N body bt g = some r → callsFrom M body bt g = some r := by
  intro bt
  induction bt with
  | nil =>
    intro g r h
    unfold callsFrom at h ⊢
    rcases hx : next N body g with _ | q
    · rw [hx] at h; cases h
    · rw [hx] at h; rw [next_mono hm hx]; exact h
  | cons a rest ih =>
    intro g r h
    unfold callsFrom at h ⊢
    rcases hx : next N body g with _ | ⟨q, g'⟩
    · rw [hx] at h; cases h
    · rw [hx] at h; rw [next_mono hm hx]; exact ih h

theorem calls_iff {body : Block σ E V} :
    ∀ {bt : List (σ → σ)} {g : GS σ V} {r : Obs E V × σ},
    (∃ N, callsFrom N body bt g = some r) ↔ callsL body bt g = some r := by
  intro bt
  induction bt with
  | nil =>
    intro g r
    constructor
    · rintro ⟨N, h⟩
      unfold callsFrom at h
      unfold callsL
      rcases hx : next N body g with _ | q
      · rw [hx] at h; cases h
      · rw [hx] at h; rw [next_below hx]; exact h
    · intro h
      unfold callsL at h
      rcases hx : nextL body g with _ | q
      · rw [hx] at h; cases h
      · rw [hx] at h
        obtain ⟨N, hN⟩ := next_reach hx
        exact ⟨N, by unfold callsFrom; rw [hN]; exact h⟩
  | cons a rest ih =>
    intro g r
    constructor
    · rintro ⟨N, h⟩
      unfold callsFrom at h
      unfold callsL
      rcases hx : next N body g with _ | ⟨q, g'⟩
      · rw [hx] at h; cases h
      · rw [hx] at h; rw [next_below hx]; exact ih.1 ⟨N, h⟩
    · intro h
      unfold callsL at h
      rcases hx : nextL body g with _ | ⟨q, g'⟩
      · rw [hx] at h; cases h
      · rw [hx] at h
        obtain ⟨N, hN⟩ := next_reach hx
        obtain ⟨M, hM⟩ := ih.2 h
        refine ⟨max N M, ?_⟩
        unfold callsFrom
        rw [next_mono (Nat.le_max_left N M) hN]
        exact calls_mono (Nat.le_max_right N M) hM

/-! ### One call -/

/-- What `__next__` returns, and the object after it, when the body ends with `X`. -/
def endOf (v0 : Option V) : Res σ E V (Nat × V) → Option (Obs E V × GS σ V)
  | none => none
  | some (.susp (k, v), s) => some (.value v, ⟨k, some v, s⟩)
  | some (.ret v, s) => some (.stop v, ⟨-2, v0, s⟩)
  | some (.exc e, s) => some (.raised e, ⟨-2, v0, s⟩)
  | some (.norm, s) => some (.stop none, ⟨-2, v0, s⟩)
  | some (.brk, s) => some (.stop none, ⟨-2, v0, s⟩)
  | some (.cont, s) => some (.stop none, ⟨-2, v0, s⟩)

theorem tryNil {S : Type} (cur : Option (Exc E V)) (x : Res (World S) E V V) :
    tryR (execLH cur (.nil : Handlers S E V)) (execLB cur .nil) x = x := by
  rcases x with _ | ⟨o, s⟩
  · rfl
  · cases o <;> simp only [tryR, execLH, execLB]

/-- The last statement of `__fastnext__`. -/
theorem lastFin (c : Option (Exc E V)) (k : Int) (v0 : Option V) (s : σ) :
    execLB c (one (.ite (slotTest (between (-1) (-1))) (one (setSlot (-2))) .nil))
      (W k v0 s) = some (.norm, W (if k = -1 then -2 else k) v0 s) := by
  rw [execLB_one, execL_slot, between_neg]
  by_cases h : k = -1
  · simp only [h, decide_true, if_true, execLB_one, setSlot, execL, primR, act, W]
  · simp only [h, decide_false, if_false, execLB_nil, Bool.false_eq_true]

theorem fastnext_live (body : Block σ E V) (k : Int) (hk : k ≠ -2) (v0 : Option V) (s : σ) :
    execLB none (fastnextBody body) (W k v0 s) =
      finR (fun c => execLB c
        (one (.ite (slotTest (between (-1) (-1))) (one (setSlot (-2))) .nil))) none
        (seqR (fun w => some (.ret none, w)) (execLB none (body.change 0) (W k v0 s))) := by
  have hb : between (-2) (-2) k = false := by
    rw [Bool.eq_false_iff, Ne, between_iff]; omega
  have hr : execLB none (one (.ret none) : Block (GS σ V) E V) = fun w => some (.ret none, w) := by
    funext w; rw [execLB_one]; simp only [execL]
  simp only [fastnextBody]
  rw [execLB_one]
  simp only [execL]
  rw [tryNil]
  congr 1
  simp only [execLB]
  rw [execL_slot, hb]
  simp only [Bool.false_eq_true, if_false, execLB_nil]
  change execLB none ((body.change 0).append (one (.ret none))) (W k v0 s) = _
  rw [execLB_append, hr]

theorem next_live {body : Block σ E V} {k : Int} (hk : k ≠ -2) {v0 : Option V} {s : σ}
    {X : Res σ E V (Nat × V)}
    (h : Sim false v0 (execLB none (body.change 0) (W k v0 s)) X) (hX : Always NotStop X) :
    nextL body ⟨k, v0, s⟩ = endOf v0 X := by
  have h0 := fastnext_live body k hk v0 s
  simp only [W] at h0 h
  unfold nextL
  rw [h0]
  rcases h with h | ⟨_, e, s', rfl, h⟩
  · rw [h]
    rcases X with _ | ⟨_ | _ | _ | (_ | v) | e | ⟨j, v⟩, s'⟩
    · rfl
    · simp only [im_some, img, seqR, finR, lastFin]; rfl
    · simp only [im_some, img, seqR, finR, lastFin]; rfl
    · simp only [im_some, img, seqR, finR, lastFin]; rfl
    · simp only [im_some, img, seqR, finR, lastFin]; rfl
    · simp only [im_some, img, seqR, finR, lastFin]; rfl
    · have := hX _ _ rfl
      simp only [im_some, img, seqR, finR, lastFin]
      cases e with
      | stop a => cases this
      | noActive => rfl
      | runtime => rfl
      | other x => rfl
    · simp only [im_some, img, seqR, finR, lastFin, nextOf, endOf]
      rw [if_neg (by omega)]
      rfl
  · rw [h]
    have := hX _ _ rfl
    simp only [seqR, finR]
    rw [lastFin]
    cases e with
    | stop a => cases this
    | noActive => rfl
    | runtime => rfl
    | other x => rfl

theorem next_done (body : Block σ E V) (v0 : Option V) (s : σ) :
    nextL body ⟨-2, v0, s⟩ = some (.stop none, ⟨-2, v0, s⟩) := by
  have h : execLB none (fastnextBody body) (W (-2) v0 s) =
      some (.ret none, W (-2) v0 s) := by
    simp only [fastnextBody]
    rw [execLB_one]
    simp only [execL]
    rw [tryNil]
    simp only [execLB]
    rw [execL_slot, if_pos (by rw [between_iff]; omega), execLB_one]
    simp only [execL, seqR, finR]
    rw [lastFin]
    rfl
  unfold nextL
  simp only [W] at h
  rw [h]
  rfl

theorem calls_done (body : Block σ E V) : ∀ (bt : List (σ → σ)) (v0 : Option V) (s : σ),
    callsL body bt ⟨-2, v0, s⟩ = some (.stop none, bt.foldl (fun x f => f x) s) := by
  intro bt
  induction bt with
  | nil => intro v0 s; unfold callsL; rw [next_done]; rfl
  | cons a rest ih =>
    intro v0 s
    unfold callsL
    rw [next_done]
    simp only [GS.touch, List.foldl_cons]
    exact ih v0 (a s)

/-- `nthNext`, from the result of the body. -/
def lastOf : Res (World σ) E V V → Option (Obs E V × σ)
  | none => none
  | some (o, (s', [])) => some (obsOf o, s')
  | some (_, (s', a :: rest)) => some (.stop none, (a :: rest).foldl (fun x f => f x) s')

theorem calls_drive {body : Block σ E V} (g : body.Good false) :
    ∀ (bt : List (σ → σ)) (k : Int) (v0 : Option V) (s : σ) (X : Res σ E V (Nat × V)),
    k ≠ -2 → Sim false v0 (execLB none (body.change 0) (W k v0 s)) X → Always NotStop X →
    Always (InR 0 (0 + body.yields)) X →
    callsL body bt ⟨k, v0, s⟩ = lastOf (drive (fun k => resumeB none 0 k body) bt X) := by
  intro bt
  induction bt with
  | nil =>
    intro k v0 s X hk hS hX hI
    unfold callsL
    rw [next_live hk hS hX]
    rcases X with _ | ⟨_ | _ | _ | v | e | ⟨j, v⟩, s'⟩ <;> try rfl
    have := hX _ _ rfl
    cases e with
    | stop a => cases this
    | noActive => rfl
    | runtime => rfl
    | other x => rfl
  | cons a rest ih =>
    intro k v0 s X hk hS hX hI
    unfold callsL
    rw [next_live hk hS hX]
    rcases X with _ | ⟨_ | _ | _ | v | e | ⟨j, v⟩, s'⟩
    · rfl
    · exact calls_done body rest v0 (a s')
    · exact calls_done body rest v0 (a s')
    · exact calls_done body rest v0 (a s')
    · exact calls_done body rest v0 (a s')
    · exact calls_done body rest v0 (a s')
    · have hj := hI _ _ rfl
      simp only [endOf, GS.touch, drive]
      exact ih j (some v) (a s') _ (by omega)
        (change_resume body g none 0 j hj.1 hj.2 (some v) (a s'))
        (resumeB_notStop body g curOk_none 0 j _) (resumeB_inR body none 0 j _)

theorem nth_eq {body : Block σ E V} (g : body.Good false) (bt : List (σ → σ)) (s : σ) :
    callsL body bt (fresh s) = lastOf (execLB none body (s, bt)) := by
  rw [replayB body g none 0 s bt]
  exact calls_drive g bt (-1) none s _ (by omega) (change_run body g none 0 none s)
    (runB_notStop body g curOk_none 0 s) (runB_inR body none 0 s)

theorem nthNext_iff {body : Block σ E V} {bt : List (σ → σ)} {s : σ} {r : Obs E V × σ} :
    (∃ N, nthNext N body bt s = some r) ↔ lastOf (execLB none body (s, bt)) = some r := by
  have e : ∀ N, nthNext N body bt s = lastOf (execB N none body (s, bt)) := by
    intro N
    unfold nthNext lastOf
    rcases execB N none body (s, bt) with _ | ⟨o, s', _ | ⟨a, rest⟩⟩ <;> rfl
  constructor
  · rintro ⟨N, h⟩
    rw [e] at h
    rcases hx : execB N none body (s, bt) with _ | q
    · rw [hx] at h; cases h
    · rw [hx] at h
      rw [(execB_isLim _ _).below N _ q hx]
      exact h
  · intro h
    rcases hx : execLB none body (s, bt) with _ | q
    · rw [hx] at h; cases h
    · rw [hx] at h
      obtain ⟨N, hN⟩ := (execB_isLim body none).reach _ q hx
      exact ⟨N, by rw [e, hN]; exact h⟩

end Verif.Gen
