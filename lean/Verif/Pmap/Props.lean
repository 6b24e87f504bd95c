import Verif.Common
import Verif.Pmap.Measure
/-
C63, C64: `pmap` computes what a list comprehension computes, under every schedule of the threads, and
always ends.
-/
namespace Verif.Pmap.Props

open Verif.Pmap

variable {V E : Type} {N : Nat} [Inhabited V]

/-- C63: whatever the order in which the threads run, a program that has ended has returned or raised
what it returns or raises when every `pmap` in it, nested or not, is a list comprehension. So `pmap`
keeps the order of the elements, and raises the exception of the first element that raises. What is
missing: functions raising a `BaseException` that is no `Exception` (`base_exception_hangs`). -/
theorem pmap_is_list_comprehension_partial (progs : Fin N → Option (Comp V E))
    (hp : ∀ t p, progs t = some p → NoBase p) (schedule : List (Fin N)) (s : State N V E)
    (hs : run (init progs) schedule = some s) (t : Fin N) (r : Except E V) (ht : s.thr t = .done r) :
    ∃ p, progs t = some p ∧ r = seq p := by
  have h := (inv_run (inv_init progs hp) hs).threads t
  rw [ht] at h
  exact h

/-- C63: no element is initialised twice, none that was never written is returned, and no worker dies. -/
theorem pmap_memory_safe_partial (progs : Fin N → Option (Comp V E))
    (hp : ∀ t p, progs t = some p → NoBase p) (schedule : List (Fin N)) (s : State N V E)
    (hs : run (init progs) schedule = some s) (t : Fin N) : s.thr t ≠ .fault ∧ s.thr t ≠ .dead := by
  have h := (inv_run (inv_init progs hp) hs).threads t
  constructor <;> intro ht <;> rw [ht] at h <;> exact h

/-- C64: as long as a program has not ended, some thread can take a step: workers that wait for each
other's nested calls never deadlock. -/
theorem pmap_never_deadlocks_partial (progs : Fin N → Option (Comp V E))
    (hp : ∀ t p, progs t = some p → NoBase p) (hworker : ∃ w, progs w = none)
    (schedule : List (Fin N)) (s : State N V E) (hs : run (init progs) schedule = some s)
    (t : Fin N) (p : Comp V E) (ht : progs t = some p) (hnot : ∀ r, s.thr t ≠ .done r) :
    ∃ t', step s t' ≠ none := by
  by_contra hc
  push Not at hc
  exact hnot _ (all_done (inv_run (inv_init progs hp) hs) hworker hc t p ht)

/-- C64: there is a bound on the number of steps of every schedule. -/
theorem pmap_terminates_partial (progs : Fin N → Option (Comp V E))
    (hp : ∀ t p, progs t = some p → NoBase p) (schedule : List (Fin N)) (s : State N V E)
    (hs : run (init progs) schedule = some s) : schedule.length ≤ workload progs := by
  have h := work_run (inv_init progs hp) hs
  rw [work_init] at h
  omega

/-- C64: a schedule that cannot be continued has ended every program with its sequential result, left no
job in the work queue, and every output element that was initialised has been handed to the caller or
destroyed. -/
theorem pmap_completes_partial (progs : Fin N → Option (Comp V E))
    (hp : ∀ t p, progs t = some p → NoBase p) (hworker : ∃ w, progs w = none)
    (schedule : List (Fin N)) (s : State N V E) (hs : run (init progs) schedule = some s)
    (hend : ∀ t, step s t = none) :
    (∀ t p, progs t = some p → s.thr t = .done (seq p)) ∧ s.queue = [] ∧
      ∀ c x, (s.calls c).res x = none := by
  have h := inv_run (inv_init progs hp) hs
  have hno : ∀ c t, ¬ waitsFor c (s.thr t) := fun c t => no_worker_waits h hend _ c le_rfl t
  have hdone := all_done h hworker hend
  have hown : ∀ t, owns (s.thr t) = [] := by
    intro t
    have hth := h.threads t
    rcases stuck_shape h (hend t) with ⟨c', cnt, got, k, b, ht, hl, ho⟩ | ⟨ht, _⟩ | ⟨r, ht⟩
    · rw [ht] at hth
      cases b with
      | client =>
        obtain ⟨_, p', hp', _⟩ := hth
        have := hdone t p' hp'
        rw [ht] at this
        cases this
      | job _ _ _ _ => exact absurd (by rw [ht]; rfl) (hno c' t)
    · rw [ht]; rfl
    · rw [ht]; rfl
  have hzero : ∀ c, ownSum s c = 0 := by
    intro c
    refine Finset.sum_eq_zero fun t _ => ?_
    rw [hown]; rfl
  refine ⟨hdone, ?_, fun c => (h.closed c (hzero c)).1⟩
  rw [List.eq_nil_iff_forall_not_mem]
  intro z hz
  have h1 := h.own_of_total (total_queue s hz)
  rw [hzero] at h1
  omega

/-- While a call of `pmap` picks the exception to raise and cleans up or returns its storage, no other
thread has a job of this call, and none is in its queues: pmap.py:191-213 may be one step. -/
theorem pmap_collects_alone_partial (progs : Fin N → Option (Comp V E))
    (hp : ∀ t p, progs t = some p → NoBase p) (schedule : List (Fin N)) (s : State N V E)
    (hs : run (init progs) schedule = some s) (t : Fin N) (c cnt : Nat) (got : List Nat) (k : Cont V E)
    (b : Below V E) (ht : s.thr t = .comp (.wait c cnt got k) b) (hl : cnt ≤ got.length) :
    (∀ i, (c, i) ∉ s.queue) ∧ (s.calls c).out = [] ∧
      ∀ t' i, t' ≠ t → (∀ x rest, s.thr t' ≠ .next c i x rest) ∧ (∀ rest, s.thr t' ≠ .finish c i rest) ∧
        ∀ m x rest, s.thr t' ≠ .comp m (.job c i x rest) := by
  have h := inv_run (inv_init progs hp) hs
  obtain ⟨_, h1, h2, _, h3⟩ := h.collected ht (by omega)
  refine ⟨fun i hi => ?_, h3, fun t' i ht' => ⟨fun x rest he => ?_, fun rest he => ?_, fun m x rest he => ?_⟩⟩
  · exact absurd (h1 i) (by have : 0 < s.queue.count (c, i) := List.count_pos_iff.2 hi; omega)
  · have := h2 t' ht' i; rw [he] at this; simp [held] at this
  · have := h2 t' ht' i; rw [he] at this; simp [held] at this
  · have := h2 t' ht' i; rw [he, held_cnt] at this; simp [Below.items] at this

/-! ### Cases -/

/-- `f(x)` for `x < 3` calls `pmap` over `x` elements and adds them up; `f(3)` raises. -/
def inner (x : Nat) : Comp Nat String :=
  if x = 3 then .exc "three" else
    .pmap x 1 (fun y => .ret (10 * y + 1)) fun r => match r with
      | .ok vs => .ret vs.sum
      | .error e => .exc e

/-- the program of the user: `pmap([0, .., n-1], f)` with granularity `g`, encoded as one number -/
def outer (n g : Nat) : Comp Nat String :=
  .pmap n g inner fun r => match r with
    | .ok vs => .ret (vs.foldl (fun a v => 100 * a + v) 7)
    | .error e => .exc e

/-- two workers and two threads of the user -/
def demo : Fin 4 → Option (Comp Nat String)
  | 0 => none
  | 1 => none
  | 2 => some (outer 3 2)
  | 3 => some (outer 5 1)

theorem inner_noBase (x : Nat) : NoBase (inner x) := by
  unfold inner
  split
  · trivial
  · refine ⟨fun _ _ => trivial, fun r => ?_⟩
    cases r <;> trivial

example : (∀ t p, demo t = some p → NoBase p) ∧ ∃ w, demo w = none := by
  refine ⟨?_, 0, rfl⟩
  have key : ∀ n g, NoBase (outer n g) := by
    intro n g
    refine ⟨fun i _ => inner_noBase i, fun r => ?_⟩
    cases r <;> trivial
  intro t p h
  match t, h with
  | 2, h => simp only [demo, Option.some.injEq] at h; subst h; exact key 3 2
  | 3, h => simp only [demo, Option.some.injEq] at h; subst h; exact key 5 1

/-- A scheduler: the threads in the order of `turns`, again and again, each taking a step if it can. -/
def schedule {N : Nat} {V E : Type} : Nat → List (Fin N) → List (Fin N) → State N V E → State N V E
  | 0, _, _, s => s
  | n + 1, turns, [], s => schedule n turns turns s
  | n + 1, turns, t :: ts, s =>
    match step s t with
    | none => schedule n turns ts s
    | some s' => schedule n turns ts s'

def result (s : State 4 Nat String) (t : Fin 4) : Option (Except String Nat) :=
  match s.thr t with
  | .done r => some r
  | _ => none

-- two schedules, both with the sequential results
example : result (schedule 400 [0, 1, 2, 3] [] (init demo)) 2 = some (.ok 7000112) ∧
    result (schedule 400 [0, 1, 2, 3] [] (init demo)) 3 = some (.error "three") ∧
    result (schedule 1500 [3, 3, 2, 0, 2, 2, 1] [] (init demo)) 2 = some (.ok 7000112) ∧
    result (schedule 1500 [3, 3, 2, 0, 2, 2, 1] [] (init demo)) 3 = some (.error "three") ∧
    seq (outer 3 2) = .ok 7000112 ∧ seq (outer 5 1) = .error "three" := by decide +kernel

/-! ### What fails -/

/-- One worker, and a user who maps a function that raises `SystemExit`. -/
def exits : Fin 2 → Option (Comp Nat String)
  | 0 => none
  | 1 => some (.pmap 1 1 (fun _ => .base "SystemExit") fun r => match r with
    | .ok vs => .ret vs.length
    | .error e => .exc e)

/-- A `BaseException` that is no `Exception` is not caught in the worker: the worker dies, the job is never
reported, and `pmap` waits for ever instead of raising. -/
theorem base_exception_hangs :
    ∃ s, run (init exits) [1, 1, 1, 0, 0, 0] = some s ∧ (∀ t, step s t = none) ∧
      (∀ r, s.thr 1 ≠ .done r) ∧ s.thr 0 = .dead ∧
      ∀ p, exits 1 = some p → seq p = .error "SystemExit" := by
  refine ⟨_, rfl, ?_, ?_, rfl, ?_⟩
  · intro t
    match t with
    | 0 => rfl
    | 1 => rfl
  · intro r h
    exact absurd (show Thread.comp _ _ = _ from h) (by simp)
  · intro p h
    simp only [exits, Option.some.injEq] at h
    subst h
    rfl

end Verif.Pmap.Props
