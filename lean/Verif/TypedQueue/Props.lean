import Verif.TypedQueue.Sim
import Mathlib.Data.List.Induction
import Mathlib.Tactic.Ring
import Mathlib.Tactic.Linarith
/-
C41 and C42 for TypedQueue.
-/
namespace Verif.TypedQueue
open Spec

variable {T : Type}

theorem run_inv {ls : List (Label T)} {s : State T} (h : Run ls s) : Inv s := by
  induction h with
  | init => exact inv_init
  | @step ls s t c ls' s' hr hst ih =>
    have := step_good ih t c
    rw [hst] at this
    exact this

theorem run_sim {ls : List (Label T)} {s : State T} (h : Run ls s) : ∃ a, Spec.Run ls a ∧ Sim s a := by
  induction h with
  | init =>
    refine ⟨_, .init, ?_, ?_⟩
    · simp [init, content, owner, contentOf]
    · intro t
      simp [init, Match]
  | @step ls s t c ls' s' hr hst ih =>
    obtain ⟨a, ha, hs⟩ := ih
    have := step_sim (run_inv hr) hs t c
    rw [hst] at this
    obtain ⟨b, hb, hs'⟩ := this
    match ls', hb with
    | [], hb =>
      have : b = a := hb
      subst this
      exact ⟨b, by simpa using ha, hs'⟩
    | [l], hb => exact ⟨b, .step ha hb, hs'⟩

/-- C41: whatever the threads do and however they are scheduled, the calls, their effects and their results are those of a
first-in first-out queue whose effects happen one at a time between call and return; with no thread inside, its content is what
the two lists hold. -/
theorem refines_fifo {ls : List (Label T)} {s : State T} (h : Run ls s) :
    ∃ a, Spec.Run ls a ∧ (s.lock = none → a.q = s.poppable.reverse ++ s.pushable) := by
  obtain ⟨a, ha, hs⟩ := run_sim h
  refine ⟨a, ha, fun hl => ?_⟩
  rw [hs.q]
  simp [content, owner, hl, contentOf]

theorem putsOf_append (xs ys : List (Label T)) : putsOf (xs ++ ys) = putsOf xs ++ putsOf ys := by
  induction xs with
  | nil => rfl
  | cons x xs ih => cases x <;> simp [putsOf, ih]

theorem takesOf_append (xs ys : List (Label T)) : takesOf (xs ++ ys) = takesOf xs ++ takesOf ys := by
  induction xs with
  | nil => rfl
  | cons x xs ih => cases x <;> simp [takesOf, ih]

theorem spec_conserves {ls : List (Label T)} {a : Spec.State T} (h : Spec.Run ls a) : putsOf ls = takesOf ls ++ a.q := by
  induction h with
  | init => rfl
  | @step ls a l b hr hst ih =>
    rw [putsOf_append, takesOf_append, ih]
    cases hst with
    | call _ => simp [putsOf, takesOf, Spec.State.set]
    | put _ _ => simp [putsOf, takesOf, Spec.State.set]
    | take _ hq _ => simp [putsOf, takesOf, Spec.State.set, hq]
    | sawEmpty _ _ => simp [putsOf, takesOf, Spec.State.set]
    | len _ _ => simp [putsOf, takesOf, Spec.State.set]
    | peek _ _ => simp [putsOf, takesOf, Spec.State.set]
    | ret _ _ => simp [putsOf, takesOf, Spec.State.set]

/-- C41: the elements removed are a prefix of the elements put: nothing is lost, duplicated or reordered. -/
theorem removed_prefix_of_put {ls : List (Label T)} {s : State T} (h : Run ls s) : takesOf ls <+: putsOf ls := by
  obtain ⟨a, ha, _⟩ := refines_fifo h
  exact ⟨a.q, (spec_conserves ha).symm⟩

/-- C41: with no thread inside, `len` is the number of elements put less the number removed. -/
theorem len_is_difference {ls : List (Label T)} {s : State T} (h : Run ls s) (hl : s.lock = none) :
    (takesOf ls).length + len s = (putsOf ls).length := by
  obtain ⟨a, ha, hq⟩ := refines_fifo h
  rw [spec_conserves ha, hq hl]
  simp [len]
  omega

theorem spec_taken {ls : List (Label T)} {a : Spec.State T} (h : Spec.Run ls a) (t : Nat) (p : Pending T) (hp : a.pend t = some p) :
    p.taken = takenSince t ls.reverse := by
  induction h generalizing t p with
  | init => cases hp
  | @step ls a l b hr hst ih =>
    rw [List.reverse_append, List.reverse_singleton, List.singleton_append]
    cases hst with
    | @call t' c hn =>
      simp only [Spec.State.set] at hp
      split at hp
      · rename_i e
        cases hp
        simp [takenSince, e]
      · rename_i e
        simp [takenSince, Ne.symm e, ih t p hp]
    | @put t' p' x hn _ =>
      simp only [Spec.State.set] at hp
      split at hp
      · rename_i e
        cases hp
        simp [takenSince, ← ih _ _ hn, e]
      · simp [takenSince, ih t p hp]
    | @take t' p' x q hn hq _ =>
      simp only [Spec.State.set] at hp
      split at hp
      · rename_i e
        cases hp
        simp [takenSince, ← ih _ _ hn, e]
      · rename_i e
        simp [takenSince, Ne.symm e, ih t p hp]
    | @sawEmpty t' p' hn _ =>
      simp only [Spec.State.set] at hp
      split at hp
      · rename_i e
        cases hp
        simp [takenSince, ← ih _ _ hn, e]
      · simp [takenSince, ih t p hp]
    | @len t' p' hn _ =>
      simp only [Spec.State.set] at hp
      split at hp
      · rename_i e
        cases hp
        simp [takenSince, ← ih _ _ hn, e]
      · simp [takenSince, ih t p hp]
    | @peek t' p' hn _ =>
      simp only [Spec.State.set] at hp
      split at hp
      · rename_i e
        cases hp
        simp [takenSince, ← ih _ _ hn, e]
      · simp [takenSince, ih t p hp]
    | @ret t' p' r hn _ =>
      simp only [Spec.State.set] at hp
      split at hp
      · cases hp
      · simp [takenSince, ih t p hp]

theorem spec_lastCall {ls : List (Label T)} {a : Spec.State T} (h : Spec.Run ls a) (t : Nat) (p : Pending T) (hp : a.pend t = some p) :
    lastCall t ls.reverse = some p.call := by
  induction h generalizing t p with
  | init => cases hp
  | @step ls a l b hr hst ih =>
    rw [List.reverse_append, List.reverse_singleton, List.singleton_append]
    cases hst with
    | @call t' c hn =>
      simp only [Spec.State.set] at hp
      split at hp
      · rename_i e
        cases hp
        simp [lastCall, e]
      · rename_i e
        simp [lastCall, Ne.symm e, ih t p hp]
    | @put t' p' x hn _ =>
      simp only [Spec.State.set] at hp
      split at hp
      · rename_i e
        cases hp
        simp [lastCall, ← ih _ _ hn, e]
      · simp [lastCall, ih t p hp]
    | @take t' p' x q hn hq _ =>
      simp only [Spec.State.set] at hp
      split at hp
      · rename_i e
        cases hp
        simp [lastCall, ← ih _ _ hn, e]
      · rename_i e
        simp [lastCall, ih t p hp]
    | @sawEmpty t' p' hn _ =>
      simp only [Spec.State.set] at hp
      split at hp
      · rename_i e
        cases hp
        simp [lastCall, ← ih _ _ hn, e]
      · simp [lastCall, ih t p hp]
    | @len t' p' hn _ =>
      simp only [Spec.State.set] at hp
      split at hp
      · rename_i e
        cases hp
        simp [lastCall, ← ih _ _ hn, e]
      · simp [lastCall, ih t p hp]
    | @peek t' p' hn _ =>
      simp only [Spec.State.set] at hp
      split at hp
      · rename_i e
        cases hp
        simp [lastCall, ← ih _ _ hn, e]
      · simp [lastCall, ih t p hp]
    | @ret t' p' r hn _ =>
      simp only [Spec.State.set] at hp
      split at hp
      · cases hp
      · simp [lastCall, ih t p hp]

theorem spec_split {ls : List (Label T)} {l : Label T} {b : Spec.State T} (h : Spec.Run (ls ++ [l]) b) :
    ∃ a, Spec.Run ls a ∧ Spec.Step a l b := by
  generalize hm : ls ++ [l] = m at h
  cases h with
  | init => simp at hm
  | step h1 h2 =>
    obtain ⟨rfl, hl⟩ := List.append_inj' hm rfl
    cases hl
    exact ⟨_, h1, h2⟩

theorem spec_prefix {ls ms : List (Label T)} {b : Spec.State T} (h : Spec.Run (ls ++ ms) b) : ∃ a, Spec.Run ls a := by
  induction ms using List.reverseRecOn generalizing b with
  | nil => exact ⟨b, by simpa using h⟩
  | append_singleton ms m ih =>
    rw [← List.append_assoc] at h
    obtain ⟨a, ha, _⟩ := spec_split h
    exact ih ha

/-- C41: when `getMany(minCount, maxCount)` returns, it returns what its thread removed since the call, at most `maxCount`
elements, and at least `minCount` or `maxCount` of them. -/
theorem getMany_returns {ls ms : List (Label T)} {s : State T} {t : Nat} {mn mx : Int} {xs : List T}
    (h : Run (ls ++ .ret t (.many xs) :: ms) s) (hc : lastCall t ls.reverse = some (.getMany mn mx)) :
    xs = takenSince t ls.reverse ∧ (xs.length : Int) ≤ max mx 0 ∧ min mn mx ≤ xs.length := by
  obtain ⟨a, ha, _⟩ := refines_fifo h
  rw [show ls ++ Label.ret t (.many xs) :: ms = (ls ++ [Label.ret t (.many xs)]) ++ ms by simp] at ha
  obtain ⟨b, hb⟩ := spec_prefix ha
  obtain ⟨a', ha', hst⟩ := spec_split hb
  cases hst with
  | @ret _ p _ hp hf =>
    have h1 := spec_lastCall ha' t p hp
    rw [hc] at h1
    cases h1' : p.call with
    | getMany mn' mx' =>
      rw [h1'] at h1
      cases h1
      rw [Finished, h1'] at hf
      obtain ⟨h2, h3⟩ := hf
      cases h2
      refine ⟨spec_taken ha' t p hp, ?_⟩
      rcases h3 with h3 | ⟨h3, h4⟩ | ⟨_, h3, h4⟩
      · omega
      · rw [h4]
        simp
        omega
      · omega
    | _ => rw [h1'] at h1; cases h1

/-- C41: when `get` returns, it returns the one element its thread removed since the call. -/
theorem get_returns {ls ms : List (Label T)} {s : State T} {t : Nat} {r : Result T}
    (h : Run (ls ++ .ret t r :: ms) s) (hc : lastCall t ls.reverse = some .get) :
    ∃ x, r = .one (some x) ∧ takenSince t ls.reverse = [x] := by
  obtain ⟨a, ha, _⟩ := refines_fifo h
  rw [show ls ++ Label.ret t r :: ms = (ls ++ [Label.ret t r]) ++ ms by simp] at ha
  obtain ⟨b, hb⟩ := spec_prefix ha
  obtain ⟨a', ha', hst⟩ := spec_split hb
  cases hst with
  | @ret _ p _ hp hf =>
    have h1 := spec_lastCall ha' t p hp
    rw [hc] at h1
    cases h1' : p.call with
    | get =>
      rw [Finished, h1'] at hf
      obtain ⟨x, h2, h3⟩ := hf
      exact ⟨x, h3, by rw [← spec_taken ha' t p hp]; exact h2⟩
    | _ => rw [h1'] at h1; cases h1

/-- C41: when `getNonblocking` returns, it returns the one element its thread removed since the call, or `None` and removed
nothing. -/
theorem getNonblocking_returns {ls ms : List (Label T)} {s : State T} {t : Nat} {r : Result T}
    (h : Run (ls ++ .ret t r :: ms) s) (hc : lastCall t ls.reverse = some .getNonblocking) :
    ∃ o : Option T, r = .one o ∧ takenSince t ls.reverse = o.toList := by
  obtain ⟨a, ha, _⟩ := refines_fifo h
  rw [show ls ++ Label.ret t r :: ms = (ls ++ [Label.ret t r]) ++ ms by simp] at ha
  obtain ⟨b, hb⟩ := spec_prefix ha
  obtain ⟨a', ha', hst⟩ := spec_split hb
  cases hst with
  | @ret _ p _ hp hf =>
    have h1 := spec_lastCall ha' t p hp
    rw [hc] at h1
    cases h1' : p.call with
    | getNonblocking =>
      rw [Finished, h1'] at hf
      rw [← spec_taken ha' t p hp]
      rcases hf with ⟨x, h2, h3⟩ | ⟨h2, _, h3⟩
      · exact ⟨some x, h3, h2⟩
      · exact ⟨none, h3, h2⟩
    | _ => rw [h1'] at h1; cases h1

/-- C42: no step of any thread ever fails: no lock is released that is not held, and no empty list is popped or indexed. -/
theorem no_failure {ls : List (Label T)} {s : State T} (h : Run ls s) (t : Nat) (c : Call T) (msg : String) :
    step s t c ≠ .fail msg := by
  intro e
  have := step_good (run_inv h) t c
  rw [e] at this
  exact this

/-- C42: if no call in progress can take a step, then the queue is empty and every one of them is a `get` or `getMany` waiting
for an element. -/
theorem no_deadlock {ls : List (Label T)} {s : State T} (h : Run ls s)
    (hb : ∀ t, s.pc t ≠ .idle → ∀ c, step s t c = .blocked) :
    ∀ t, s.pc t ≠ .idle → s.poppable = [] ∧ s.pushable = [] ∧ ∃ k, k ≠ .nb ∧ s.pc t = .acqE k := by
  have hi := run_inv h
  have hnr : ∀ u k, s.pc u ≠ .relE k := by
    intro u k hu
    have h1 := hb u (by rw [hu]; intro e; cases e) .len
    have h2 : s.empty = some (.thread u) := (hi.emp u).mp (by rw [hu]; rfl)
    simp [step, hu, releaseEmpty, h2] at h1
  have hne : ∀ u, s.empty ≠ some (.thread u) := by
    intro u hu
    have := (hi.emp u).mpr hu
    cases hp : s.pc u <;> simp [hp, isRelE] at this
    exact hnr u _ hp
  have hlock : s.lock = none := by
    cases hl : s.lock with
    | none => rfl
    | some u =>
      exfalso
      have hh := (hi.own u).mpr hl
      have hst := hb u (by intro e; rw [e] at hh; cases hh) .len
      cases hp : s.pc u <;> simp [hp, holds] at hh
      case acqEmpty k x =>
        simp only [step, hp, acquireEmpty] at hst
        have htok := hi.tok' hp rfl
        cases he : s.empty with
        | none => simp [he] at hst
        | some o =>
          cases o with
          | token => simp [he, tokenPc] at htok
          | thread v => exact hne v he
      case outer k =>
        have hd := hi.dat' hp rfl
        cases k <;> simp [step, hp] at hst
        repeat (split at hst <;> try cases hst)
      case xfer k i n =>
        simp [step, hp] at hst
        repeat (split at hst <;> try cases hst)
      case popTest k =>
        simp [step, hp] at hst
        repeat (split at hst <;> try cases hst)
      case done k x => cases k <;> simp [step, hp, releaseLock, hl] at hst
      case finish k => cases k <;> simp [step, hp, releaseLock, hl] at hst
      case mLoop given xs n => cases xs <;> simp [step, hp] at hst
      case pRelE x =>
        have htok := (hi.tok' hp rfl).mpr rfl
        simp [step, hp, releaseEmpty, htok] at hst
      case mRelE given xs n =>
        have htok := (hi.tok' hp rfl).mpr rfl
        simp [step, hp, releaseEmpty, htok] at hst
      all_goals simp [step, hp, releaseLock, hl] at hst
  intro t ht
  have hst := hb t ht .len
  have hnh : holds (s.pc t) = false := by
    cases hh : holds (s.pc t)
    · rfl
    · have := (hi.own t).mp hh
      rw [hlock] at this
      cases this
  cases hp : s.pc t <;> simp [hp, holds] at hnh
  case idle => exact absurd hp ht
  case relE k => exact absurd hp (hnr t k)
  case acqE k =>
    have hk : NbOk (.acqE k) := hp ▸ hi.nb t
    simp only [step, hp, acquireEmpty] at hst
    cases he : s.empty with
    | none => simp [he] at hst
    | some o =>
      cases o with
      | thread v => exact absurd he (hne v)
      | token =>
        have htok := hi.tok.mp he
        simp [owner, hlock, content, contentOf, tokenPc] at htok
        refine ⟨htok.1, htok.2, k, ?_, rfl⟩
        intro e
        subst e
        exact hk
  all_goals simp [step, hp, acquireLock, hlock] at hst

/-- C42: with elements in the queue and no thread inside, a waiting `get` or `getMany` can go on at once, or after one step
of another thread that itself needs nothing. -/
theorem waiter_proceeds {ls : List (Label T)} {s : State T} (h : Run ls s) (hl : s.lock = none)
    (hq : s.poppable ≠ [] ∨ s.pushable ≠ []) {t : Nat} {k : Kind T} (ht : s.pc t = .acqE k) (c : Call T) :
    (∃ s', step s t c = .next [] s' ∧ s'.pc t = .relE k) ∨
      ∃ u k' s' s'', s.pc u = .relE k' ∧ step s u c = .next [] s' ∧ step s' t c = .next [] s'' ∧ s''.pc t = .relE k := by
  have hi := run_inv h
  cases he : s.empty with
  | none =>
    left
    refine ⟨goto { s with empty := some (.thread t) } t (.relE k), by simp only [step, ht, acquireEmpty, he], by simp [goto]⟩
  | some o =>
    cases o with
    | token =>
      have htok := hi.tok.mp he
      simp [owner, hl, content, contentOf, tokenPc] at htok
      rcases hq with hq | hq
      · exact absurd htok.1 hq
      · exact absurd htok.2 hq
    | thread u =>
      right
      have h1 := (hi.emp u).mpr he
      cases hp : s.pc u <;> simp [hp, isRelE] at h1
      case relE k' =>
        have hut : t ≠ u := by
          intro e
          subst e
          rw [hp] at ht
          cases ht
        refine ⟨u, k', goto { s with empty := none } u (.relock k'), goto { goto { s with empty := none } u (.relock k') with empty := some (.thread t) } t (.relE k), hp,
          by simp only [step, hp, releaseEmpty, he], ?_, by simp [goto]⟩
        have h2 : (goto { s with empty := none } u (.relock k')).pc t = .acqE k := by simp [goto, hut, ht]
        simp only [step, h2, acquireEmpty]
        rfl

/-- C42: a waiter that got through goes on once `_lock` is free: it finds an element if there is one. -/
theorem relock_proceeds {ls : List (Label T)} {s : State T} (_h : Run ls s) (hl : s.lock = none)
    {t : Nat} {k : Kind T} (ht : s.pc t = .relock k) (c : Call T) (hq : s.poppable ≠ [] ∨ s.pushable ≠ []) :
    ∃ s' s'', step s t c = .next [] s' ∧ step s' t c = .next [] s'' ∧ s''.pc t = .xferTest k := by
  refine ⟨goto { s with lock := some t } t (.inner k),
    goto (goto { s with lock := some t } t (.inner k)) t (.xferTest k), by simp [step, ht, acquireLock, hl], ?_, by simp [goto]⟩
  have h2 : (goto { s with lock := some t } t (.inner k)).pc t = .inner k := by simp [goto]
  have h3 : ¬ len (goto { s with lock := some t } t (.inner k)) = 0 := by
    intro e
    obtain ⟨h4, h5⟩ := len_zero e
    rcases hq with hq | hq
    · exact hq h5
    · exact hq h4
  simp only [step, h2, if_neg h3]

/-- C42: `getNonblocking` never waits for an element. -/
theorem getNonblocking_never_waits {ls : List (Label T)} {s : State T} (h : Run ls s) (t : Nat) :
    s.pc t ≠ .acqE .nb ∧ s.pc t ≠ .relE .nb ∧ s.pc t ≠ .relock .nb := by
  have := (run_inv h).nb t
  refine ⟨?_, ?_, ?_⟩ <;> (intro e; rw [e] at this; exact this)

/-- C42: a thread inside the queue cannot be blocked for good: it only waits for a thread that has nothing to wait for. -/
theorem holder_proceeds {ls : List (Label T)} {s : State T} (h : Run ls s) {t : Nat} (hl : s.lock = some t) (c : Call T)
    (hb : step s t c = .blocked) : ∃ u k s' ls' s'', s.pc u = .relE k ∧ step s u c = .next [] s' ∧ step s' t c = .next ls' s'' := by
  have hi := run_inv h
  have hh := (hi.own t).mpr hl
  cases hp : s.pc t <;> simp [hp, holds] at hh
  case acqEmpty k x =>
    simp only [step, hp, acquireEmpty] at hb
    have htok := hi.tok' hp rfl
    cases he : s.empty with
    | none => simp [he] at hb
    | some o =>
      cases o with
      | token => simp [he, tokenPc] at htok
      | thread u =>
        have h1 := (hi.emp u).mpr he
        cases hpu : s.pc u <;> simp [hpu, isRelE] at h1
        case relE k' =>
          have hut : t ≠ u := by
            intro e
            subst e
            rw [hpu] at hp
            cases hp
          refine ⟨u, k', goto { s with empty := none } u (.relock k'), [],
            goto { goto { s with empty := none } u (.relock k') with empty := some .token } t (.done k x), hpu,
            by simp only [step, hpu, releaseEmpty, he], ?_⟩
          have h2 : (goto { s with empty := none } u (.relock k')).pc t = .acqEmpty k x := by simp [goto, hut, hp]
          simp only [step, h2, acquireEmpty]
          rfl
  case outer k =>
    cases k <;> simp [step, hp] at hb
    repeat (split at hb <;> try cases hb)
  case xfer k i n =>
    simp [step, hp] at hb
    repeat (split at hb <;> try cases hb)
  case popTest k =>
    simp [step, hp] at hb
    repeat (split at hb <;> try cases hb)
  case done k x => cases k <;> simp [step, hp, releaseLock, hl] at hb
  case finish k => cases k <;> simp [step, hp, releaseLock, hl] at hb
  case mLoop given xs n => cases xs <;> simp [step, hp] at hb
  case pRelE x =>
    have htok := (hi.tok' hp rfl).mpr rfl
    simp [step, hp, releaseEmpty, htok] at hb
  case mRelE given xs n =>
    have htok := (hi.tok' hp rfl).mpr rfl
    simp [step, hp, releaseEmpty, htok] at hb
  all_goals simp [step, hp, releaseLock, hl] at hb

/-- An upper bound on the steps a thread inside the queue can still take before it leaves. -/
def work (p : PC T) (push pop : List T) : Nat :=
  let n := (contentOf p push pop).length
  let f := n * n + 12 * n
  match p with
  | .outer _ => f + n + 7
  | .inner _ => f + n + 6
  | .xferTest _ => f + n + 5
  | .xfer _ i m => f + 4 + (m - i)
  | .clear _ => f + 3
  | .popTest _ => f + 2
  | .lenTest _ _ => f + n + 10
  | .acqEmpty _ _ => f + n + 9
  | .done _ _ => f + n + 8
  | .pAppend _ => 4
  | .pTest _ => 3
  | .pRelE _ => 2
  | .mRead xs => 3 * xs.length + 3
  | .mLoop _ xs _ => 3 * xs.length + 2
  | .mTest _ xs _ => 3 * xs.length + 4
  | .mRelE _ xs _ => 3 * xs.length + 3
  | .peekRead => 2
  | .lenRead => 2
  | _ => 1

theorem work_pop (n : Nat) : n * n + 12 * n + n + 10 < (n + 1) * (n + 1) + 12 * (n + 1) + 2 := by
  nlinarith

theorem holder_step {s : State T} (hi : Inv s) {t : Nat} (hl : s.lock = some t) (c : Call T)
    {ls' : List (Label T)} {s' : State T} (hst : step s t c = .next ls' s') :
    s'.lock = none ∨ (s'.lock = some t ∧
      work (s'.pc t) s'.pushable s'.poppable < work (s.pc t) s.pushable s.poppable) := by
  have hh := (hi.own t).mpr hl
  cases hp : s.pc t <;> simp [hp, holds] at hh
  case outer k =>
    cases k <;> simp only [step, hp] at hst
    · cases hst; right; simp [goto, hl, work, contentOf]
    · cases hst; right; simp [goto, hl, work, contentOf]
    · split at hst
      · split at hst <;> (cases hst; right; simp [goto, hl, work, contentOf])
      · cases hst; right; simp [goto, hl, work, contentOf]
  case inner k =>
    simp only [step, hp] at hst
    cases hst
    right
    split <;> simp [goto, hl, work, contentOf]
  case relWait k =>
    simp only [step, hp, releaseLock, hl] at hst
    cases hst; left; rfl
  case xferTest k =>
    simp only [step, hp] at hst
    cases hst
    right
    split <;> simp [goto, hl, work, contentOf]
    · rename_i hz
      have hpn : s.poppable = [] := List.eq_nil_of_length_eq_zero hz.1
      simp [hpn]
      omega
    · omega
  case xfer k i n =>
    simp only [step, hp] at hst
    split at hst
    · rename_i hlt
      split at hst
      · cases hst
      · cases hst
        right
        simp [goto, hl, work, contentOf]
        omega
    · cases hst
      right
      simp [goto, hl, work, contentOf]
      omega
  case clear k =>
    have hd := hi.dat' hp rfl
    simp only [step, hp] at hst
    cases hst
    right
    simp [goto, hl, work, contentOf, hd.2]
  case popTest k =>
    have hd := hi.dat' hp rfl
    simp only [step, hp] at hst
    cases hg : s.poppable.getLast? with
    | some x =>
      obtain ⟨ys, hys⟩ := List.getLast?_eq_some_iff.mp hg
      simp only [hg] at hst
      cases hst
      right
      have hw := work_pop (ys.length + s.pushable.length)
      have : ys.length + (1 + s.pushable.length) = ys.length + s.pushable.length + 1 := by omega
      simp [goto, hl, work, contentOf, hys, this, Nat.add_assoc] at hw ⊢
      exact hw
    | none =>
      have hpn : s.poppable = [] := by simpa using hg
      simp only [hg] at hst
      cases k with
      | nb => cases hst; right; simp [goto, hl, work, contentOf]
      | get => cases hst
      | many _ _ _ => exact (hd hpn).elim
  case lenTest k x =>
    simp only [step, hp] at hst
    cases hst
    right
    split <;> simp [goto, hl, work, contentOf]
  case acqEmpty k x =>
    simp only [step, hp, acquireEmpty] at hst
    split at hst
    · cases hst
    · cases hst; right; simp [goto, hl, work, contentOf]
  case done k x =>
    cases k <;> simp only [step, hp, releaseLock, hl] at hst <;> cases hst
    · left; rfl
    · left; rfl
    · right; simp [goto, hl, work, contentOf]
  case finish k => cases k <;> simp only [step, hp, releaseLock, hl] at hst <;> (cases hst; left; rfl)
  case pAppend x =>
    simp only [step, hp] at hst
    cases hst; right; simp [goto, hl, work]
  case pTest x =>
    simp only [step, hp] at hst
    cases hst; right
    split <;> simp [goto, hl, work]
  case pRelE x =>
    simp only [step, hp, releaseEmpty] at hst
    split at hst
    · cases hst
    · cases hst; right; simp [goto, hl, work]
  case mRead xs =>
    simp only [step, hp] at hst
    cases hst; right; simp [goto, hl, work]
  case mLoop given xs n =>
    cases xs with
    | nil => simp only [step, hp] at hst; cases hst; right; simp [goto, hl, work]
    | cons x xs =>
      simp only [step, hp] at hst
      cases hst; right; simp [goto, hl, work]
      omega
  case mTest given xs n =>
    simp only [step, hp] at hst
    cases hst; right
    split <;> simp [goto, hl, work]
  case mRelE given xs n =>
    simp only [step, hp, releaseEmpty] at hst
    split at hst
    · cases hst
    · cases hst; right; simp [goto, hl, work]
  case peekRead =>
    simp only [step, hp] at hst
    cases hst; right; simp [goto, hl, work]
  case lenRead =>
    simp only [step, hp] at hst
    cases hst; right; simp [goto, hl, work]
  all_goals
    simp only [step, hp, releaseLock, hl] at hst
    cases hst
    left
    rfl

/-- `n` steps of thread `t` alone. -/
inductive Alone (t : Nat) (c : Call T) : Nat → State T → State T → Prop
  | zero {s} : Alone t c 0 s s
  | succ {n s ls s' s''} : step s t c = .next ls s' → Alone t c n s' s'' → Alone t c (n + 1) s s''

/-- C42: the steps a thread takes inside the queue without leaving it are bounded by its work; so it cannot stay inside for
ever (`holder_proceeds` says it is never blocked for good). -/
theorem holder_leaves {ls : List (Label T)} {s s' : State T} (h : Run ls s) {t : Nat} (hl : s.lock = some t) (c : Call T)
    {n : Nat} (ha : Alone t c n s s') (hin : ∀ m s'', m ≤ n → Alone t c m s s'' → s''.lock = some t) :
    n ≤ work (s.pc t) s.pushable s.poppable := by
  induction ha generalizing ls with
  | zero => exact Nat.zero_le _
  | @succ n s l1 s1 s2 hst hrest ih =>
    have h1 := hin 1 s1 (by omega) (.succ hst .zero)
    rcases holder_step (run_inv h) hl c hst with h2 | h2
    · rw [h1] at h2
      cases h2
    · have := ih (.step h hst) h1 (fun m s'' hm hma => hin (m + 1) s'' (by omega) (.succ hst hma))
      omega

end Verif.TypedQueue
