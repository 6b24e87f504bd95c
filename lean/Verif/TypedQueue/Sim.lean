import Verif.TypedQueue.Steps
/-
Every step of the threads is a step, or no step, of the abstract queue.
-/
namespace Verif.TypedQueue
open Spec

variable {T : Type}

/-- The call a consumer is executing. -/
def callOf : Kind T → Call T
  | .nb => .getNonblocking
  | .get => .get
  | .many _ mn mx => .getMany mn mx

/-- What it has taken so far. -/
def resOf : Kind T → List T
  | .nb => []
  | .get => []
  | .many res _ _ => res

/-- It is about to take one more. -/
def Room : Kind T → Prop
  | .many res _ mx => (res.length : Int) < mx
  | _ => True

/-- The call in progress at a program point. -/
def Match (p : PC T) (o : Option (Pending T)) : Prop :=
  match p with
  | .idle => o = none
  | .enter k => o = some ⟨callOf k, [], [], false, none⟩ ∧ resOf k = []
  | .outer k => (∃ e, o = some ⟨callOf k, resOf k, [], e, none⟩) ∧
      match k with
      | .many res _ mx => res = [] ∨ (res.length : Int) ≤ mx
      | _ => True
  | .inner k | .relWait k | .acqE k | .relE k | .relock k | .xferTest k | .xfer k _ _ | .clear k | .popTest k =>
      (∃ e, o = some ⟨callOf k, resOf k, [], e, none⟩) ∧ Room k
  | .lenTest k x | .acqEmpty k x | .done k x => (∃ e, o = some ⟨callOf k, resOf k ++ [x], [], e, none⟩) ∧ Room k
  | .finish k => ∃ p, o = some p ∧ Finished p (match k with | .many res _ _ => .many res | _ => .one none)
  | .pEnter x | .pAppend x => o = some ⟨.put x, [], [], false, none⟩
  | .pTest x | .pRelE x | .pRel x => o = some ⟨.put x, [], [x], false, none⟩
  | .mEnter xs | .mRead xs => o = some ⟨.putMany xs, [], [], false, none⟩
  | .mLoop given xs _ | .mTest given xs _ | .mRelE given xs _ => o = some ⟨.putMany (given ++ xs), [], given, false, none⟩
  | .mRel given => o = some ⟨.putMany given, [], given, false, none⟩
  | .peekEnter | .peekRead => o = some ⟨.peek, [], [], false, none⟩
  | .peekRel r => o = some ⟨.peek, [], [], false, some (.one r)⟩
  | .lenEnter | .lenRead => o = some ⟨.len, [], [], false, none⟩
  | .lenRel n => o = some ⟨.len, [], [], false, some (.num n)⟩

structure Sim (s : State T) (a : Spec.State T) : Prop where
  q : a.q = content s
  pend : ∀ t, Match (s.pc t) (a.pend t)

/-- At most one abstract step. -/
def AbsStep (a : Spec.State T) (ls : List (Label T)) (b : Spec.State T) : Prop :=
  match ls with
  | [] => b = a
  | [l] => Spec.Step a l b
  | _ => False

/-- What is to be shown of a step. -/
def Simulates (a : Spec.State T) (o : Outcome T) : Prop :=
  match o with
  | .next ls s' => ∃ b, AbsStep a ls b ∧ Sim s' b
  | _ => True

theorem content_hold {s : State T} {t : Nat} (hl : s.lock = some t) (p : PC T) (push pop : List T) (e : Option Holder) :
    content (goto { s with pushable := push, poppable := pop, empty := e } t p) = contentOf p push pop := by
  simp [content, owner, goto, hl]

theorem content_free {s : State T} (h : Inv s) {t : Nat} (ht : holds (s.pc t) = false) (p : PC T) (e : Option Holder) :
    content (goto { s with empty := e } t p) = content s := by
  have hne : ∀ u, s.lock = some u → u ≠ t := by
    intro u hu hut
    subst hut
    rw [(h.own u).mpr hu] at ht
    cases ht
  cases hl : s.lock with
  | none => simp [content, owner, goto, hl]
  | some u => simp [content, owner, goto, hl, hne u hl]

theorem content_at {s : State T} (h : Inv s) {t : Nat} {p : PC T} (hpc : s.pc t = p) (ht : holds p = true) :
    content s = contentOf p s.pushable s.poppable := by
  subst hpc
  simp [content, owner, h.lock ht]

/-- The pending calls after moving thread `t`. -/
theorem pend_set {s : State T} {a : Spec.State T} (hs : Sim s a) (t : Nat) (p : PC T) (o : Option (Pending T))
    (hm : Match p o) (push pop : List T) (l : Option Nat) (e : Option Holder) (q : List T) :
    ∀ u, Match ((goto { s with pushable := push, poppable := pop, lock := l, empty := e } t p).pc u)
      ((Spec.State.set { a with q := q } t o).pend u) := by
  intro u
  by_cases hu : u = t
  · simpa [goto, Spec.State.set, hu] using hm
  · simpa [goto, Spec.State.set, hu] using hs.pend u

theorem pend_same {s : State T} {a : Spec.State T} (hs : Sim s a) (t : Nat) (p : PC T) (hm : Match p (a.pend t))
    (push pop : List T) (l : Option Nat) (e : Option Holder) :
    ∀ u, Match ((goto { s with pushable := push, poppable := pop, lock := l, empty := e } t p).pc u) (a.pend u) := by
  intro u
  by_cases hu : u = t
  · simpa [goto, hu] using hm
  · simpa [goto, hu] using hs.pend u

/-- A silent step of the holder of `_lock` keeping the content. -/
theorem sim_hold {s : State T} {a : Spec.State T} (h : Inv s) (hs : Sim s a) {t : Nat} {p : PC T} (hpc : s.pc t = p)
    (ht : holds p = true) (p' : PC T) (push pop : List T) (e : Option Holder)
    (hc : contentOf p' push pop = contentOf p s.pushable s.poppable) (hm : Match p' (a.pend t)) :
    Simulates a (.next [] (goto { s with pushable := push, poppable := pop, empty := e } t p')) := by
  refine ⟨a, rfl, ?_, pend_same hs t p' hm push pop s.lock e⟩
  rw [hs.q, content_at h hpc ht, content_hold (h.lock (by rw [hpc]; exact ht)), hc]

/-- A labelled step of the holder of `_lock`. -/
theorem sim_hold_label {s : State T} {a : Spec.State T} (h : Inv s) (hs : Sim s a) {t : Nat} {p : PC T} (hpc : s.pc t = p)
    (ht : holds p = true) (l : Label T) (p' : PC T) (push pop : List T) (e : Option Holder) (q : List T) (o : Option (Pending T))
    (hc : q = contentOf p' push pop) (hm : Match p' o)
    (ha : a.q = contentOf p s.pushable s.poppable → Spec.Step a l (Spec.State.set { a with q := q } t o)) :
    Simulates a (.next [l] (goto { s with pushable := push, poppable := pop, empty := e } t p')) := by
  refine ⟨_, ha ?_, ?_, pend_set hs t p' o hm push pop s.lock e q⟩
  · rw [hs.q, content_at h hpc ht]
  · rw [content_hold (h.lock (by rw [hpc]; exact ht))]
    exact hc

theorem sim_acquireLock {s : State T} {a : Spec.State T} (hs : Sim s a) {t : Nat} (p' : PC T)
    (hc : ∀ push pop : List T, contentOf p' push pop = pop.reverse ++ push) (hm : Match p' (a.pend t)) :
    Simulates a (acquireLock s t p') := by
  unfold acquireLock
  cases hl : s.lock with
  | some _ => trivial
  | none =>
    refine ⟨a, rfl, ?_, pend_same hs t p' hm s.pushable s.poppable (some t) s.empty⟩
    rw [hs.q]
    simp [content, owner, hl, goto, hc]
    rfl

theorem sim_releaseLock {s : State T} {a : Spec.State T} (h : Inv s) (hs : Sim s a) {t : Nat} {p : PC T} (hpc : s.pc t = p)
    (ht : holds p = true) (p' : PC T) (hc : contentOf p s.pushable s.poppable = s.poppable.reverse ++ s.pushable)
    (hm : Match p' (a.pend t)) : Simulates a (releaseLock s t [] p') := by
  unfold releaseLock
  rw [h.lock (by rw [hpc]; exact ht)]
  refine ⟨a, rfl, ?_, pend_same hs t p' hm s.pushable s.poppable none s.empty⟩
  rw [hs.q, content_at h hpc ht, hc]
  rfl

theorem sim_return {s : State T} {a : Spec.State T} (h : Inv s) (hs : Sim s a) {t : Nat} {p : PC T} (hpc : s.pc t = p)
    (ht : holds p = true) (r : Result T) (hc : contentOf p s.pushable s.poppable = s.poppable.reverse ++ s.pushable)
    (pe : Pending T) (hpe : a.pend t = some pe) (hf : Finished pe r) :
    Simulates a (releaseLock s t [.ret t r] .idle) := by
  unfold releaseLock
  rw [h.lock (by rw [hpc]; exact ht)]
  refine ⟨_, .ret hpe hf, ?_, pend_set hs t .idle none rfl s.pushable s.poppable none s.empty a.q⟩
  show a.q = _
  rw [hs.q, content_at h hpc ht, hc]
  rfl

theorem sim_free {s : State T} {a : Spec.State T} (h : Inv s) (hs : Sim s a) {t : Nat} {p : PC T} (hpc : s.pc t = p)
    (ht : holds p = false) (p' : PC T) (e : Option Holder) (hm : Match p' (a.pend t)) :
    Simulates a (.next [] (goto { s with empty := e } t p')) := by
  refine ⟨a, rfl, ?_, pend_same hs t p' hm s.pushable s.poppable s.lock e⟩
  rw [hs.q, content_free h (by rw [hpc]; exact ht)]

theorem step_sim {s : State T} {a : Spec.State T} (h : Inv s) (hs : Sim s a) (t : Nat) (c : Call T) :
    Simulates a (step s t c) := by
  have hm := hs.pend t
  cases hpc : s.pc t with
  | idle =>
    simp only [hpc, Match] at hm
    simp only [step, hpc]
    refine ⟨_, .call hm, ?_, pend_set hs t (startOf c) _ ?_ s.pushable s.poppable s.lock s.empty a.q⟩
    · show a.q = _
      rw [hs.q]
      exact (content_free h (by rw [hpc]; rfl) _ s.empty).symm
    · cases c <;> simp [startOf, Match, callOf, resOf]
  | enter k =>
    simp only [hpc, Match] at hm
    simp only [step, hpc]
    refine sim_acquireLock hs _ (by cases k <;> intro _ _ <;> rfl) ?_
    cases k with
    | nb => exact ⟨⟨_, hm.1⟩, trivial⟩
    | get => exact ⟨⟨_, hm.1⟩, trivial⟩
    | many res mn mx =>
      have : res = [] := hm.2
      subst this
      exact ⟨⟨_, hm.1⟩, .inl rfl⟩
  | outer k =>
    have hd := h.dat' hpc rfl
    simp only [hpc, Match] at hm
    cases k with
    | nb => exact hd.elim
    | get => exact hd.elim
    | many res mn mx =>
      obtain ⟨⟨e, he⟩, hr⟩ := hm
      simp only [step, hpc]
      split
      · rename_i hlt
        split
        · rename_i hz
          obtain ⟨h1, h2⟩ := len_zero hz.1
          refine sim_hold_label (push := s.pushable) (pop := s.poppable) (e := s.empty) (q := a.q) h hs hpc rfl _ _
            (some ⟨.getMany mn mx, res, [], true, none⟩) ?_ ⟨_, rfl, rfl, .inr (.inr ⟨rfl, hz.2, hlt⟩)⟩ ?_
          · rw [hs.q, content_at h hpc rfl]
            rfl
          · intro hq
            refine Step.sawEmpty he ?_
            rw [hq]
            simp [contentOf, h1, h2]
        · exact sim_hold (push := s.pushable) (pop := s.poppable) (e := s.empty) h hs hpc rfl _ rfl ⟨⟨e, he⟩, hlt⟩
      · rename_i hlt
        refine sim_hold (push := s.pushable) (pop := s.poppable) (e := s.empty) h hs hpc rfl _ rfl ⟨_, he, rfl, ?_⟩
        rcases hr with hr | hr
        · subst hr
          exact .inr (.inl ⟨by simpa [resOf] using hlt, rfl⟩)
        · exact .inl (by simp only [resOf]; omega)
  | inner k =>
    simp only [hpc, Match] at hm
    simp only [step, hpc]
    split
    · exact sim_hold (push := s.pushable) (pop := s.poppable) (e := s.empty) h hs hpc rfl _ rfl hm
    · exact sim_hold (push := s.pushable) (pop := s.poppable) (e := s.empty) h hs hpc rfl _ rfl hm
  | relWait k =>
    simp only [hpc, Match] at hm
    simp only [step, hpc]
    exact sim_releaseLock h hs hpc rfl _ rfl hm
  | acqE k =>
    simp only [hpc, Match] at hm
    simp only [step, hpc, acquireEmpty]
    split
    · trivial
    · exact sim_free h hs hpc rfl _ _ hm
  | relE k =>
    simp only [hpc, Match] at hm
    simp only [step, hpc, releaseEmpty]
    split
    · trivial
    · exact sim_free h hs hpc rfl _ _ hm
  | relock k =>
    simp only [hpc, Match] at hm
    simp only [step, hpc]
    exact sim_acquireLock hs _ (by intro _ _; rfl) hm
  | xferTest k =>
    simp only [hpc, Match] at hm
    simp only [step, hpc]
    split
    · rename_i hz
      have hp : s.poppable = [] := List.eq_nil_of_length_eq_zero hz.1
      refine sim_hold (push := s.pushable) (pop := s.poppable) (e := s.empty) h hs hpc rfl _ ?_ hm
      simp [contentOf, hp]
    · exact sim_hold (push := s.pushable) (pop := s.poppable) (e := s.empty) h hs hpc rfl _ rfl hm
  | xfer k i n =>
    simp only [hpc, Match] at hm
    simp only [step, hpc]
    split
    · split
      · trivial
      · exact sim_hold (push := s.pushable) (e := s.empty) h hs hpc rfl _ _ rfl hm
    · exact sim_hold (push := s.pushable) (pop := s.poppable) (e := s.empty) h hs hpc rfl _ rfl hm
  | clear k =>
    have hd := h.dat' hpc rfl
    simp only [hpc, Match] at hm
    simp only [step, hpc]
    refine sim_hold (pop := s.poppable) (e := s.empty) h hs hpc rfl _ _ ?_ hm
    simp [contentOf, hd.2]
  | popTest k =>
    have hd := h.dat' hpc rfl
    simp only [hpc, Match] at hm
    obtain ⟨⟨e, he⟩, hr⟩ := hm
    simp only [step, hpc]
    cases hl : s.poppable.getLast? with
    | some x =>
      obtain ⟨ys, hys⟩ := List.getLast?_eq_some_iff.mp hl
      refine sim_hold_label (push := s.pushable) (e := s.empty) (q := s.poppable.dropLast.reverse ++ s.pushable) h hs hpc rfl _ _ _
        (some ⟨callOf k, resOf k ++ [x], [], e, none⟩) rfl ⟨⟨e, rfl⟩, hr⟩ ?_
      intro hq
      refine Step.take he ?_ ?_
      · rw [hq]
        simp [contentOf, hys]
      · cases k with
        | nb => rfl
        | get => rfl
        | many _ _ _ => exact hr
    | none =>
      have hp : s.poppable = [] := by simpa using hl
      cases k with
      | nb =>
        refine sim_hold_label (push := s.pushable) (pop := s.poppable) (e := s.empty) (q := a.q) h hs hpc rfl _ _
          (some ⟨.getNonblocking, [], [], true, none⟩) ?_ ⟨_, rfl, .inr ⟨rfl, rfl, rfl⟩⟩ ?_
        · rw [hs.q, content_at h hpc rfl]
          rfl
        · intro hq
          refine Step.sawEmpty he ?_
          rw [hq]
          simp [contentOf, hp, hd hp]
      | get => trivial
      | many _ _ _ => exact (hd hp).elim
  | lenTest k x =>
    simp only [hpc, Match] at hm
    simp only [step, hpc]
    split
    · exact sim_hold (push := s.pushable) (pop := s.poppable) (e := s.empty) h hs hpc rfl _ rfl hm
    · exact sim_hold (push := s.pushable) (pop := s.poppable) (e := s.empty) h hs hpc rfl _ rfl hm
  | acqEmpty k x =>
    simp only [hpc, Match] at hm
    simp only [step, hpc, acquireEmpty]
    split
    · trivial
    · exact sim_hold (push := s.pushable) (pop := s.poppable) h hs hpc rfl _ _ rfl hm
  | done k x =>
    simp only [hpc, Match] at hm
    obtain ⟨⟨e, he⟩, hr⟩ := hm
    simp only [step, hpc]
    cases k with
    | nb => exact sim_return h hs hpc rfl _ rfl _ he (.inl ⟨x, rfl, rfl⟩)
    | get => exact sim_return h hs hpc rfl _ rfl _ he ⟨x, rfl, rfl⟩
    | many res mn mx =>
      refine sim_hold (push := s.pushable) (pop := s.poppable) (e := s.empty) h hs hpc rfl _ rfl ⟨⟨e, he⟩, .inr ?_⟩
      have : (res.length : Int) < mx := hr
      simp
      omega
  | finish k =>
    have hd := h.dat' hpc rfl
    simp only [hpc, Match] at hm
    obtain ⟨p, hp, hf⟩ := hm
    simp only [step, hpc]
    cases k with
    | nb => exact sim_return h hs hpc rfl _ rfl _ hp hf
    | get => exact hd.elim
    | many res mn mx => exact sim_return h hs hpc rfl _ rfl _ hp hf
  | pEnter x =>
    simp only [hpc, Match] at hm
    simp only [step, hpc]
    exact sim_acquireLock hs _ (by intro _ _; rfl) hm
  | pAppend x =>
    simp only [hpc, Match] at hm
    simp only [step, hpc]
    refine sim_hold_label (pop := s.poppable) (e := s.empty) (q := a.q ++ [x]) h hs hpc rfl _ _ _
      (some ⟨.put x, [], [x], false, none⟩) ?_ rfl ?_
    · rw [hs.q, content_at h hpc rfl]
      simp [contentOf]
    · intro _
      exact Step.put hm (by simp [puts])
  | pTest x =>
    simp only [hpc, Match] at hm
    simp only [step, hpc]
    split
    · exact sim_hold (push := s.pushable) (pop := s.poppable) (e := s.empty) h hs hpc rfl _ rfl hm
    · exact sim_hold (push := s.pushable) (pop := s.poppable) (e := s.empty) h hs hpc rfl _ rfl hm
  | pRelE x =>
    simp only [hpc, Match] at hm
    simp only [step, hpc, releaseEmpty]
    split
    · trivial
    · exact sim_hold (push := s.pushable) (pop := s.poppable) h hs hpc rfl _ _ rfl hm
  | pRel x =>
    simp only [hpc, Match] at hm
    simp only [step, hpc]
    exact sim_return h hs hpc rfl _ rfl _ hm ⟨rfl, rfl⟩
  | mEnter xs =>
    simp only [hpc, Match] at hm
    simp only [step, hpc]
    exact sim_acquireLock hs _ (by intro _ _; rfl) hm
  | mRead xs =>
    simp only [hpc, Match] at hm
    simp only [step, hpc]
    exact sim_hold (push := s.pushable) (pop := s.poppable) (e := s.empty) h hs hpc rfl _ rfl hm
  | mLoop given xs n =>
    simp only [hpc, Match] at hm
    cases xs with
    | nil =>
      simp only [step, hpc]
      refine sim_hold (push := s.pushable) (pop := s.poppable) (e := s.empty) h hs hpc rfl _ rfl ?_
      simpa [Match] using hm
    | cons x xs =>
      simp only [step, hpc]
      refine sim_hold_label (pop := s.poppable) (e := s.empty) (q := a.q ++ [x]) h hs hpc rfl _ _ _
        (some ⟨.putMany (given ++ x :: xs), [], given ++ [x], false, none⟩) ?_ ?_ ?_
      · rw [hs.q, content_at h hpc rfl]
        simp [contentOf]
      · simp [Match]
      · intro _
        exact Step.put hm (by simp [puts])
  | mTest given xs n =>
    simp only [hpc, Match] at hm
    simp only [step, hpc]
    split
    · exact sim_hold (push := s.pushable) (pop := s.poppable) (e := s.empty) h hs hpc rfl _ rfl hm
    · exact sim_hold (push := s.pushable) (pop := s.poppable) (e := s.empty) h hs hpc rfl _ rfl hm
  | mRelE given xs n =>
    simp only [hpc, Match] at hm
    simp only [step, hpc, releaseEmpty]
    split
    · trivial
    · exact sim_hold (push := s.pushable) (pop := s.poppable) h hs hpc rfl _ _ rfl hm
  | mRel given =>
    simp only [hpc, Match] at hm
    simp only [step, hpc]
    exact sim_return h hs hpc rfl _ rfl _ hm ⟨rfl, rfl⟩
  | peekEnter =>
    simp only [hpc, Match] at hm
    simp only [step, hpc]
    exact sim_acquireLock hs _ (by intro _ _; rfl) hm
  | peekRead =>
    simp only [hpc, Match] at hm
    simp only [step, hpc]
    have hr : peekValue s = a.q.head? := by
      rw [hs.q, content_at h hpc rfl, peekValue]
      cases hl : s.poppable.getLast? with
      | none =>
        have hp : s.poppable = [] := by simpa using hl
        simp [contentOf, hp]
      | some x => simp [contentOf, hl]
    rw [hr]
    refine sim_hold_label (push := s.pushable) (pop := s.poppable) (e := s.empty) (q := a.q) h hs hpc rfl _ _
      (some ⟨.peek, [], [], false, some (.one a.q.head?)⟩) ?_ rfl ?_
    · rw [hs.q, content_at h hpc rfl]
      rfl
    · intro _
      exact Step.peek hm rfl
  | peekRel r =>
    simp only [hpc, Match] at hm
    simp only [step, hpc]
    exact sim_return h hs hpc rfl _ rfl _ hm rfl
  | lenEnter =>
    simp only [hpc, Match] at hm
    simp only [step, hpc]
    exact sim_acquireLock hs _ (by intro _ _; rfl) hm
  | lenRead =>
    simp only [hpc, Match] at hm
    simp only [step, hpc]
    have hr : len s = a.q.length := by
      rw [hs.q, content_at h hpc rfl]
      simp [contentOf, len]
      omega
    rw [hr]
    refine sim_hold_label (push := s.pushable) (pop := s.poppable) (e := s.empty) (q := a.q) h hs hpc rfl _ _
      (some ⟨.len, [], [], false, some (.num a.q.length)⟩) ?_ rfl ?_
    · rw [hs.q, content_at h hpc rfl]
      rfl
    · intro _
      exact Step.len hm rfl
  | lenRel n =>
    simp only [hpc, Match] at hm
    simp only [step, hpc]
    exact sim_return h hs hpc rfl _ rfl _ hm rfl

end Verif.TypedQueue
