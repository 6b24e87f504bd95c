import Verif.Gil.Model
/-
Specification and proofs for C129.
-/
namespace Verif.Gil

/-! ### Specification -/

/-- The innermost scope says that Python is not used. -/
def promised : List Scope → Bool
  | .released _ :: _ => true
  | _ => false

/-- The thread runs code that may use Python: it is in no scope, or the innermost one ensures that the lock is acquired. -/
def UsesPython (s : State) (t : Thread) : Prop := s.phase t = .runs ∧ promised (s.scopes t) = false

/-- A history that the process can have. -/
def Reachable (s : State) : Prop := ∃ as, run init as = some s

/-! ### Proofs -/

/-- The flags of scopes say whether they changed something. -/
def WellFormed : List Scope → Prop
  | [] => True
  | .released b :: rest => b = !promised rest ∧ WellFormed rest
  | .acquired b :: rest => b = promised rest ∧ WellFormed rest

/-- What is true of a thread. -/
structure Good (s : State) (t : Thread) : Prop where
  wf : WellFormed (s.scopes t)
  waits : s.phase t = .waits → s.cur t = none ∧ promised (s.scopes t) = false ∧ s.gil ≠ some t ∧ s.waiting ≠ some t
  restores : s.phase t = .restores → s.cur t = some false ∧ promised (s.scopes t) = false ∧ s.gil ≠ some t ∧ s.waiting ≠ some t
  uses : s.phase t = .runs → promised (s.scopes t) = false → s.cur t = none ∧ s.gil = some t ∧ s.waiting ≠ some t
  promises : s.phase t = .runs → promised (s.scopes t) = true →
    (s.cur t = some true ∧ s.gil ≠ some t ∧ s.waiting ≠ some t) ∨ (s.cur t = some false ∧ s.gil = some t ∧ s.waiting = some t ∧ s.active = true)

structure Inv (s : State) : Prop where
  ok : s.fatal = false
  good : ∀ t, Good s t

theorem init_inv : Inv init := ⟨rfl, fun _ => ⟨trivial, fun _ => ⟨rfl, rfl, by simp [init], by simp [init]⟩, fun h => by simp [init] at h, fun h => by simp [init] at h,
  fun h => by simp [init] at h⟩⟩

@[simp] theorem upd_same {α : Type} (f : Thread → α) (t : Thread) (x : α) : upd f t x t = x := by simp [upd]
theorem upd_other {α : Type} (f : Thread → α) {t u : Thread} (x : α) (h : u ≠ t) : upd f t x u = f u := by simp [upd, h]

/-- What another thread does leaves a thread good: the lock and the pointer to the waiting thread did not and do not belong to it, or are left. -/
theorem good_other {s s' : State} {u : Thread} (h : Good s u) (h1 : s'.cur u = s.cur u) (h2 : s'.phase u = s.phase u) (h3 : s'.scopes u = s.scopes u)
    (h4 : s'.gil = some u ↔ s.gil = some u) (h5 : s'.waiting = some u ↔ s.waiting = some u) (h6 : s'.waiting = some u → s'.active = s.active) : Good s' u := by
  obtain ⟨a, b, c, d, e⟩ := h
  refine ⟨by rw [h3]; exact a, ?_, ?_, ?_, ?_⟩
  · rw [h1, h2, h3, Ne, Ne, h4, h5]; exact b
  · rw [h1, h2, h3, Ne, Ne, h4, h5]; exact c
  · rw [h1, h2, h3, Ne, h4, h5]; exact d
  · rw [h1, h2, h3, Ne, Ne, h4, h5]
    intro x y
    rcases e x y with z | z
    · exact .inl z
    · exact .inr ⟨z.1, z.2.1, z.2.2.1, by rw [h6 (h5.mpr z.2.2.1)]; exact z.2.2.2⟩

/-- The thread that waits to be released has the lock. -/
theorem waiting_has {s : State} (h : Inv s) {t : Thread} (hw : s.waiting = some t) : s.gil = some t ∧ s.phase t = .runs ∧ promised (s.scopes t) = true ∧
    s.cur t = some false ∧ s.active = true := by
  have g := h.good t
  cases hp : s.phase t with
  | waits => exact absurd hw (g.waits hp).2.2.2
  | restores => exact absurd hw (g.restores hp).2.2.2
  | runs =>
    cases hq : promised (s.scopes t) with
    | false => exact absurd hw (g.uses hp hq).2.2
    | true =>
      rcases g.promises hp hq with z | z
      · exact absurd hw z.2.2
      · exact ⟨z.2.1, rfl, rfl, z.1, z.2.2.2⟩

/-- Constructing a released state in a thread that has the lock. -/
theorem construct_inv {s : State} {t : Thread} {sc : List Scope} (h : Inv s) (hp : s.phase t = .runs) (hu : promised (s.scopes t) = false)
    (hsc : promised sc = true) (hwf : WellFormed sc) : Inv { construct t s with scopes := upd s.scopes t sc } := by
  obtain ⟨hc, hg, hw⟩ := (h.good t).uses hp hu
  have hno : s.waiting = none := by
    cases hw' : s.waiting with
    | none => rfl
    | some u =>
      have := (waiting_has h hw').1
      rw [hg] at this
      cases this
      exact absurd hw' hw
  unfold construct
  split
  · refine ⟨h.ok, fun u => ?_⟩
    by_cases hut : u = t
    · subst hut
      refine ⟨by simpa using hwf, ?_, ?_, ?_, ?_⟩ <;> simp [hp, hsc, hno]
    · refine good_other (h.good u) (upd_other _ _ hut) rfl (upd_other _ _ hut) ?_ Iff.rfl (fun _ => rfl)
      simp [hg, Ne.symm hut]
  · next ha =>
    refine ⟨h.ok, fun u => ?_⟩
    by_cases hut : u = t
    · subst hut
      refine ⟨by simpa using hwf, ?_, ?_, ?_, ?_⟩ <;> simp [hp, hsc, hg]
      simpa using ha
    · refine good_other (h.good u) (upd_other _ _ hut) rfl (upd_other _ _ hut) Iff.rfl ?_ (fun _ => rfl)
      simp [hno, Ne.symm hut]

/-- Acquiring in a thread that promised not to use Python. -/
theorem acquire_inv {s : State} {t : Thread} {sc : List Scope} (h : Inv s) (hp : s.phase t = .runs) (hu : promised (s.scopes t) = true)
    (hsc : promised sc = false) (hwf : WellFormed sc) : Inv { acquire t s with scopes := upd s.scopes t sc } := by
  rcases (h.good t).promises hp hu with ⟨hc, hg, hw⟩ | ⟨hc, hg, hw, ha⟩
  · unfold acquire
    rw [hc]
    refine ⟨h.ok, fun u => ?_⟩
    by_cases hut : u = t
    · subst hut
      refine ⟨by simpa using hwf, ?_, ?_, ?_, ?_⟩ <;> simp [hsc, hg, hw]
    · exact good_other (h.good u) (upd_other _ _ hut) (upd_other _ _ hut) (upd_other _ _ hut) Iff.rfl Iff.rfl (fun _ => rfl)
  · unfold acquire
    rw [hc]
    simp only [hw, ne_eq, not_true_eq_false, if_false]
    refine ⟨h.ok, fun u => ?_⟩
    by_cases hut : u = t
    · subst hut
      refine ⟨by simpa using hwf, ?_, ?_, ?_, ?_⟩ <;> simp [hsc, hg, hp]
    · refine good_other (h.good u) (upd_other _ _ hut) rfl (upd_other _ _ hut) Iff.rfl ?_ (fun _ => rfl)
      simp [hw, Ne.symm hut]

theorem scopes_inv {s : State} {t : Thread} {sc : List Scope} (h : Inv s) (hsc : promised sc = promised (s.scopes t)) (hwf : WellFormed sc) :
    Inv { s with scopes := upd s.scopes t sc } := by
  refine ⟨h.ok, fun u => ?_⟩
  by_cases hut : u = t
  · subst hut
    obtain ⟨a, b, c, d, e⟩ := h.good u
    refine ⟨by simpa using hwf, ?_, ?_, ?_, ?_⟩ <;> simp only [upd_same, hsc] <;> assumption
  · exact good_other (h.good u) rfl rfl (upd_other _ _ hut) Iff.rfl Iff.rfl (fun _ => rfl)

theorem releaseWaiting_inv {s : State} (h : Inv s) : Inv (releaseWaiting s) ∧ (releaseWaiting s).waiting = none := by
  unfold releaseWaiting
  cases hw : s.waiting with
  | none => exact ⟨h, hw⟩
  | some t =>
    obtain ⟨hg, hp, hq, hc, ha⟩ := waiting_has h hw
    simp only [hg, ne_eq, not_true_eq_false, if_false]
    refine ⟨⟨h.ok, fun u => ?_⟩, trivial⟩
    by_cases hut : u = t
    · subst hut
      refine ⟨(h.good u).wf, ?_, ?_, ?_, ?_⟩ <;> simp [hp, hq]
    · refine good_other (h.good u) (upd_other _ _ hut) rfl rfl ?_ ?_ (fun h => by cases h)
      · simp [hg, Ne.symm hut]
      · simp [hw, Ne.symm hut]

theorem cur_promised {s : State} (h : Inv s) {t : Thread} (hp : s.phase t = .runs) : (s.cur t).isSome = promised (s.scopes t) := by
  cases hq : promised (s.scopes t) with
  | false => rw [((h.good t).uses hp hq).1]; rfl
  | true => rcases (h.good t).promises hp hq with z | z <;> rw [z.1] <;> rfl

theorem step_inv {s s' : State} {a : Action} (h : Inv s) (hs : step s a = some s') : Inv s' := by
  cases a with
  | enterReleased t =>
    simp only [step] at hs
    split at hs <;> cases hs
    next hp =>
    have hc := cur_promised h hp
    unfold enterReleased push
    split
    · next hn =>
      have hq : promised (s.scopes t) = false := by rw [← hc]; simpa using hn
      have hcs : (construct t s).scopes = s.scopes := by unfold construct; split <;> rfl
      simp only [hcs]
      exact construct_inv h hp hq rfl ⟨by simp [hq], (h.good t).wf⟩
    · next hn =>
      have hq : promised (s.scopes t) = true := by rw [← hc]; cases hx : s.cur t <;> simp_all
      exact scopes_inv h hq.symm ⟨by simp [hq], (h.good t).wf⟩
  | enterAcquired t =>
    simp only [step] at hs
    split at hs <;> cases hs
    next hp =>
    have hc := cur_promised h hp
    unfold enterAcquired push
    split
    · next hn =>
      have hq : promised (s.scopes t) = true := by rw [← hc]; exact hn
      have hcs : (acquire t s).scopes = s.scopes := by unfold acquire; split <;> first | rfl | (split <;> rfl)
      simp only [hcs]
      exact acquire_inv h hp hq rfl ⟨by simp [hq], (h.good t).wf⟩
    · next hn =>
      have hq : promised (s.scopes t) = false := by rw [← hc]; simpa using hn
      exact scopes_inv h hq.symm ⟨by simp [hq], (h.good t).wf⟩
  | leave t =>
    simp only [step] at hs
    split at hs <;> cases hs
    next hp =>
    obtain ⟨hp, hne⟩ := hp
    have hwf := (h.good t).wf
    unfold leave
    cases hsc : s.scopes t with
    | nil => exact absurd hsc hne
    | cons x rest =>
      rw [hsc] at hwf
      cases x with
      | released b =>
        obtain ⟨hb, hwf⟩ := hwf
        cases b with
        | true =>
          have hr : promised rest = false := by cases hr : promised rest with | false => rfl | true => rw [hr] at hb; cases hb
          have := acquire_inv (sc := rest) h hp (by rw [hsc]; rfl) hr hwf
          have he : acquire t { s with scopes := upd s.scopes t rest } = { acquire t s with scopes := upd s.scopes t rest } := by
            unfold acquire; dsimp only; split <;> first | rfl | (split <;> rfl)
          dsimp only
          rw [he]
          exact this
        | false =>
          have hr : promised rest = true := by cases hr : promised rest with | true => rfl | false => rw [hr] at hb; cases hb
          exact scopes_inv h (by rw [hsc, hr]; rfl) hwf
      | acquired b =>
        obtain ⟨hb, hwf⟩ := hwf
        cases b with
        | true =>
          have := construct_inv (sc := rest) h hp (by rw [hsc]; rfl) hb.symm hwf
          have he : construct t { s with scopes := upd s.scopes t rest } = { construct t s with scopes := upd s.scopes t rest } := by
            unfold construct; dsimp only; split <;> rfl
          dsimp only
          rw [he]
          exact this
        | false => exact scopes_inv h (by rw [hsc, ← hb]; rfl) hwf
  | restore t =>
    simp only [step] at hs
    split at hs <;> cases hs
    next hp =>
    obtain ⟨hp, hg⟩ := hp
    obtain ⟨_, hq, _, hw⟩ := (h.good t).restores hp
    refine ⟨h.ok, fun u => ?_⟩
    by_cases hut : u = t
    · subst hut
      refine ⟨(h.good u).wf, ?_, ?_, ?_, ?_⟩ <;> simp [hq, hw]
    · refine good_other (h.good u) (upd_other _ _ hut) (upd_other _ _ hut) rfl ?_ Iff.rfl (fun _ => rfl)
      simp [hg, Ne.symm hut]
  | switch t =>
    simp only [step] at hs
    split at hs <;> cases hs
    next hp =>
    obtain ⟨hp, hc⟩ := hp
    have hq : promised (s.scopes t) = false := by rw [← cur_promised h hp, hc]; rfl
    obtain ⟨_, hg, hw⟩ := (h.good t).uses hp hq
    refine ⟨h.ok, fun u => ?_⟩
    by_cases hut : u = t
    · subst hut
      refine ⟨(h.good u).wf, ?_, ?_, ?_, ?_⟩ <;> simp [hq, hw, hc]
    · refine good_other (h.good u) rfl (upd_other _ _ hut) rfl ?_ Iff.rfl (fun _ => rfl)
      simp [hg, Ne.symm hut]
  | take t =>
    simp only [step] at hs
    split at hs <;> cases hs
    next hp =>
    obtain ⟨hp, hg⟩ := hp
    obtain ⟨hc, hq, _, hw⟩ := (h.good t).waits hp
    refine ⟨h.ok, fun u => ?_⟩
    by_cases hut : u = t
    · subst hut
      refine ⟨(h.good u).wf, ?_, ?_, ?_, ?_⟩ <;> simp [hq, hw, hc]
    · refine good_other (h.good u) rfl (upd_other _ _ hut) rfl ?_ Iff.rfl (fun _ => rfl)
      simp [hg, Ne.symm hut]
  | activate =>
    cases hs
    refine ⟨h.ok, fun u => ?_⟩
    refine good_other (h.good u) rfl rfl rfl Iff.rfl Iff.rfl (fun hw => ?_)
    exact (waiting_has h hw).2.2.2.2.symm
  | tick => cases hs; exact (releaseWaiting_inv h).1
  | deactivate =>
    cases hs
    have hr := (releaseWaiting_inv h)
    -- the flag is used by no thread once nothing waits
    have he : releaseWaiting { s with active := false } = { releaseWaiting s with active := false } := by
      unfold releaseWaiting; dsimp only; split <;> first | rfl | (split <;> rfl)
    rw [he]
    refine ⟨hr.1.ok, fun u => ?_⟩
    refine good_other (hr.1.good u) rfl rfl rfl Iff.rfl Iff.rfl (fun hw => ?_)
    have hw : (releaseWaiting s).waiting = some u := hw
    rw [hr.2] at hw
    cases hw

theorem run_inv (as : List Action) : ∀ {s s' : State}, Inv s → run s as = some s' → Inv s' := by
  induction as with
  | nil => intro s s' h hs; cases hs; exact h
  | cons a as ih =>
    intro s s' h hs
    simp only [run] at hs
    split at hs
    · cases hs
    · next h' => exact ih (step_inv h h') hs

theorem reachable_inv {s : State} (h : Reachable s) : Inv s := let ⟨as, ha⟩ := h; run_inv as init_inv ha

/-- C129: in no schedule does the process end itself or use a null pointer. -/
theorem never_fatal (s : State) (h : Reachable s) : s.fatal = false := (reachable_inv h).ok

/-- C129: code that may use Python has the lock, in every schedule and in scopes nested in any way. -/
theorem uses_with_lock (s : State) (h : Reachable s) (t : Thread) (hu : UsesPython s t) : s.gil = some t := ((reachable_inv h).good t).uses hu.1 hu.2 |>.2.1

/-- C129: so only one thread at a time runs code that may use Python. -/
theorem one_at_a_time (s : State) (h : Reachable s) (t u : Thread) (ht : UsesPython s t) (hu : UsesPython s u) : t = u := by
  have a := uses_with_lock s h t ht
  rw [uses_with_lock s h u hu] at a
  exact (Option.some.inj a).symm

/-- C129: a thread that has promised not to use Python does not have the lock after the next round of the loop, or at all if the loop is off. -/
theorem gives_up (s : State) (h : Reachable s) (t : Thread) (hp : s.phase t = .runs) (hq : promised (s.scopes t) = true) :
    (s.active = false → s.gil ≠ some t) ∧ (∀ s', step s .tick = some s' → s'.gil ≠ some t) := by
  have hi := reachable_inv h
  constructor
  · intro ha hg
    rcases (hi.good t).promises hp hq with z | z
    · exact z.2.1 hg
    · rw [ha] at z; cases z.2.2.2
  · intro s' hs hg
    cases hs
    obtain ⟨hr, hw⟩ := releaseWaiting_inv hi
    have hpp : (releaseWaiting s).phase = s.phase ∧ (releaseWaiting s).scopes = s.scopes := by
      unfold releaseWaiting; split <;> first | exact ⟨rfl, rfl⟩ | (split <;> exact ⟨rfl, rfl⟩)
    rcases (hr.good t).promises (by rw [hpp.1]; exact hp) (by rw [hpp.2]; exact hq) with z | z
    · exact z.2.1 hg
    · rw [hw] at z; cases z.2.2.1

/-- C129: no thread is stuck: whoever waits for the lock after compiled code, the loop's next round, or Python's next switch in the thread that has the
lock, makes it free. -/
theorem can_return (s : State) (h : Reachable s) (t : Thread) (hp : s.phase t = .restores) :
    ∃ as s', run s as = some s' ∧ as.length ≤ 2 ∧ (∀ a ∈ as, a = .tick ∨ a = .restore t ∨ ∃ u, a = .switch u) ∧ UsesPython s' t ∧ s'.gil = some t := by
  have hi := reachable_inv h
  have hq := ((hi.good t).restores hp).2.1
  have fin : ∀ s1 : State, s1.phase t = .restores → s1.gil = none → s1.scopes = s.scopes →
      ∃ s', step s1 (.restore t) = some s' ∧ UsesPython s' t ∧ s'.gil = some t := by
    intro s1 h1 h2 h3
    refine ⟨{ s1 with gil := some t, cur := upd s1.cur t none, phase := upd s1.phase t .runs }, ?_, ⟨upd_same .., ?_⟩, rfl⟩
    · simp only [step, h1, h2, and_self, if_true]
    · show promised (s1.scopes t) = false
      rw [h3]
      exact hq
  cases hg : s.gil with
  | none =>
    obtain ⟨s', h1, h2, h3⟩ := fin s hp hg rfl
    exact ⟨[.restore t], s', by simp only [run, h1], by simp, by simp, h2, h3⟩
  | some u =>
    have hut : u ≠ t := by
      rintro rfl
      exact ((hi.good u).restores hp).2.2.1 hg
    have hpu : s.phase u = .runs := by
      cases hpu : s.phase u with
      | runs => rfl
      | waits => exact absurd hg ((hi.good u).waits hpu).2.2.1
      | restores => exact absurd hg ((hi.good u).restores hpu).2.2.1
    cases hqu : promised (s.scopes u) with
    | false =>
      have hcu := ((hi.good u).uses hpu hqu).1
      have h0 : step s (.switch u) = some { s with gil := none, phase := upd s.phase u .waits } := by simp only [step, hpu, hcu, and_self, if_true]
      obtain ⟨s', h1, h2, h3⟩ := fin { s with gil := none, phase := upd s.phase u .waits } (by simp only [upd_other _ _ (Ne.symm hut), hp]) rfl rfl
      exact ⟨[.switch u, .restore t], s', by simp only [run, h0, h1], by simp, by simp, h2, h3⟩
    | true =>
      rcases (hi.good u).promises hpu hqu with z | z
      · exact absurd hg z.2.1
      · have h0 : step s .tick = some { s with gil := none, cur := upd s.cur u (some true), waiting := none } := by
          simp only [step, releaseWaiting, z.2.2.1, hg, ne_eq, not_true_eq_false, if_false]
        obtain ⟨s', h1, h2, h3⟩ := fin { s with gil := none, cur := upd s.cur u (some true), waiting := none } hp rfl rfl
        exact ⟨[.tick, .restore t], s', by simp only [run, h0, h1], by simp, by simp, h2, h3⟩

/-! ### Where it is not -/

/-- An action of the loop. -/
def OfLoop : Action → Prop
  | .activate | .tick | .deactivate => True
  | _ => False

/-- An action of the thread. -/
def OfThread (t : Thread) : Action → Prop
  | .enterReleased u | .enterAcquired u | .leave u | .restore u | .switch u | .take u => u = t
  | _ => False

theorem starves_aux (t : Thread) (as : List Action) (has : ∀ a ∈ as, ¬ OfLoop a ∧ ¬ OfThread t a) : ∀ (s s' : State), Inv s → s.waiting = some t →
    run s as = some s' → s'.gil = some t ∧ ∀ u, ¬ UsesPython s' u := by
  induction as with
  | nil =>
    intro s s' h hw hs
    cases hs
    obtain ⟨hg, hp, hq, _⟩ := waiting_has h hw
    refine ⟨hg, fun u hu => ?_⟩
    have := ((h.good u).uses hu.1 hu.2).2.1
    rw [hg] at this
    cases this
    rw [hu.2] at hq
    cases hq
  | cons a as ih =>
    intro s s' h hw hs
    simp only [run] at hs
    split at hs
    · cases hs
    · next s1 h1 =>
      refine ih (fun b hb => has b (.tail _ hb)) s1 s' (step_inv h h1) ?_ hs
      obtain ⟨hl, ht⟩ := has a (.head _)
      obtain ⟨hg, _⟩ := waiting_has h hw
      -- no other thread has the lock, so none can construct a state or take the lock
      have hno : ∀ u, u ≠ t → s.phase u = .runs → promised (s.scopes u) = true ∧ s.cur u = some true := by
        intro u hu hp
        cases hq : promised (s.scopes u) with
        | false =>
          have := ((h.good u).uses hp hq).2.1
          rw [hg] at this
          exact absurd (Option.some.inj this).symm hu
        | true =>
          rcases (h.good u).promises hp hq with z | z
          · exact ⟨rfl, z.1⟩
          · rw [hg] at z
            exact absurd (Option.some.inj z.2.1).symm hu
      cases a with
      | enterReleased u =>
        simp only [step] at h1
        split at h1 <;> cases h1
        next hp =>
        simp only [enterReleased, (hno u ht hp).2, Option.isNone_some, Bool.false_eq_true, if_false, push]
        exact hw
      | enterAcquired u =>
        simp only [step] at h1
        split at h1 <;> cases h1
        next hp =>
        simp only [enterAcquired, (hno u ht hp).2, Option.isSome_some, if_true, push, acquire]
        exact hw
      | leave u =>
        simp only [step] at h1
        split at h1 <;> cases h1
        next hp =>
        obtain ⟨hp, _⟩ := hp
        obtain ⟨hq, hc⟩ := hno u ht hp
        unfold leave
        split
        · exact hw
        · next x rest hsc =>
          rw [hsc] at hq
          cases x with
          | acquired b => cases hq
          | released b =>
            cases b with
            | true => simp only [acquire, hc]; exact hw
            | false => exact hw
      | restore u =>
        simp only [step, hg] at h1
        split at h1 <;> cases h1
        next hp => exact hw
      | switch u =>
        simp only [step] at h1
        split at h1 <;> cases h1
        exact hw
      | take u =>
        simp only [step] at h1
        split at h1 <;> cases h1
        exact hw
      | activate => exact absurd trivial hl
      | tick => exact absurd trivial hl
      | deactivate => exact absurd trivial hl

/-- C129: without the loop, as in a forked process, to which only the forking thread is copied while the loop still counts as active, a thread in
compiled code keeps the lock: whatever the other threads do, none of them ever gets it before the thread itself goes on. -/
theorem fork_starves (s s' : State) (h : Reachable s) (t : Thread) (hw : s.waiting = some t) (as : List Action) (has : ∀ a ∈ as, ¬ OfLoop a ∧ ¬ OfThread t a)
    (hs : run s as = some s') : s'.gil = some t ∧ ∀ u, ¬ UsesPython s' u := starves_aux t as has s s' (reachable_inv h) hw hs

/-- While the loop counts as active, every thread that begins compiled code waits for it. -/
theorem waits_for_loop (s s' : State) (h : Reachable s) (t : Thread) (hu : UsesPython s t) (ha : s.active = true) (hs : step s (.enterReleased t) = some s') :
    s'.waiting = some t ∧ s'.gil = some t := by
  obtain ⟨hc, hg, _⟩ := ((reachable_inv h).good t).uses hu.1 hu.2
  simp only [step, hu.1, if_true] at hs
  cases hs
  simp [enterReleased, hc, construct, ha, push, hg]

/-- Two threads: the first runs compiled code that calls Python in between, with the loop on; the second gets the lock meanwhile. -/
def story : List Action := [.activate, .take 0, .enterReleased 0, .tick, .take 1, .enterAcquired 0, .enterReleased 1, .tick, .restore 0, .leave 0, .leave 0]
example : ((run init story).map fun s => (s.gil, s.cur 0, s.phase 0, s.scopes 0, s.waiting)) = some (some 0, none, .runs, [], none) := by decide +kernel
/-- The hypotheses of `can_return` and of `fork_starves`. -/
example : ((run init (story.take 7)).map fun s => (s.phase 0, s.gil, s.waiting)) = some (.restores, some 1, some 1) := by decide +kernel
example : run init [.activate, .take 0, .enterReleased 0, .take 1] = none := rfl

end Verif.Gil
