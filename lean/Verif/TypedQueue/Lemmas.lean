import Verif.TypedQueue.Model
/-
The invariant of the queue's threads and its preservation by every step.
-/
namespace Verif.TypedQueue
open Spec

variable {T : Type}

/-- At these points the thread holds `_lock`. -/
def holds : PC T → Bool
  | .idle | .enter _ | .acqE _ | .relE _ | .relock _ | .pEnter _ | .mEnter _ | .peekEnter | .lenEnter => false
  | _ => true

/-- At this point the thread holds `_isEmptyLock` on its own account. -/
def isRelE : PC T → Bool
  | .relE _ => true
  | _ => false

/-- The queue's content, front first, when the thread holding `_lock` is at `p`. -/
def contentOf (p : PC T) (push pop : List T) : List T :=
  match p with
  | .xfer _ _ _ | .clear _ => push
  | _ => pop.reverse ++ push

/-- Whether emptiness holds `_isEmptyLock`. -/
def tokenPc (p : PC T) (q : List T) : Bool :=
  match p with
  | .lenTest _ _ | .acqEmpty _ _ => false
  | .pTest _ => decide (q.length = 1)
  | .mTest _ _ n => decide (n = 1)
  | .pRelE _ | .mRelE _ _ _ => true
  | _ => q.isEmpty

/-- What is known of the lists at `p`. -/
def DataOk (p : PC T) (push pop : List T) : Prop :=
  match p with
  | .xferTest .nb => True
  | .xferTest _ => push.length + pop.length ≠ 0
  | .xfer _ i n => n = push.length ∧ i ≤ n ∧ n ≠ 0 ∧ pop = push.reverse.take i
  | .clear _ => push ≠ [] ∧ pop = push.reverse
  | .popTest .nb => pop = [] → push = []
  | .popTest _ => pop ≠ []
  | .acqEmpty _ _ => push = [] ∧ pop = []
  | .relWait .nb => False
  | .relWait _ => push = [] ∧ pop = []
  | .pTest _ | .pRelE _ => push.length ≠ 0
  | .mTest _ _ n | .mRelE _ _ n => n = push.length + pop.length ∧ push.length ≠ 0
  | .mLoop _ _ n => n = push.length + pop.length
  | .outer .nb | .outer .get | .finish .get | .inner .nb => False
  | _ => True

/-- The point of the thread holding `_lock`. -/
def owner (s : State T) : PC T :=
  match s.lock with
  | none => .idle
  | some t => s.pc t

/-- The queue's content, front first. -/
def content (s : State T) : List T := contentOf (owner s) s.pushable s.poppable

structure Inv (s : State T) : Prop where
  own : ∀ t, holds (s.pc t) = true ↔ s.lock = some t
  emp : ∀ t, isRelE (s.pc t) = true ↔ s.empty = some (.thread t)
  tok : s.empty = some .token ↔ tokenPc (owner s) (content s) = true
  dat : DataOk (owner s) s.pushable s.poppable
  nbw : ∀ t, match s.pc t with
    | .acqE .nb | .relE .nb | .relock .nb => False
    | _ => True

theorem inv_init : Inv (init : State T) := by
  constructor
  · intro t; simp [init, holds]
  · intro t; simp [init, isRelE]
  · simp [init, owner, content, contentOf, tokenPc]
  · simp [init, owner, DataOk]
  · intro t; simp [init]

/-- Never waiting in getNonblocking. -/
def NbOk : PC T → Prop
  | .acqE .nb | .relE .nb | .relock .nb => False
  | _ => True

theorem Inv.nb {s : State T} (h : Inv s) (t : Nat) : NbOk (s.pc t) := by
  have := h.nbw t
  unfold NbOk
  split at this <;> simp_all

theorem Inv.mk' {s : State T} (own : ∀ t, holds (s.pc t) = true ↔ s.lock = some t)
    (emp : ∀ t, isRelE (s.pc t) = true ↔ s.empty = some (.thread t))
    (tok : s.empty = some .token ↔ tokenPc (owner s) (content s) = true)
    (dat : DataOk (owner s) s.pushable s.poppable) (nb : ∀ t, NbOk (s.pc t)) : Inv s := by
  refine ⟨own, emp, tok, dat, fun t => ?_⟩
  have := nb t
  unfold NbOk at this
  split at this <;> simp_all

theorem Inv.lock {s : State T} (h : Inv s) {t : Nat} (ht : holds (s.pc t) = true) : s.lock = some t := (h.own t).mp ht

/-- A step of the thread holding `_lock` that keeps it. -/
theorem inv_hold {s : State T} (h : Inv s) {t : Nat} (ht : holds (s.pc t) = true) (p : PC T) (push pop : List T)
    (e : Option Holder) (hp : holds p = true) (hr : isRelE p = false) (hnb : NbOk p)
    (he : ∀ u, e = some (.thread u) ↔ s.empty = some (.thread u))
    (htok : e = some .token ↔ tokenPc p (contentOf p push pop) = true) (hd : DataOk p push pop) :
    Inv (goto { s with pushable := push, poppable := pop, empty := e } t p) := by
  have hl := h.lock ht
  have ho : owner (goto { s with pushable := push, poppable := pop, empty := e } t p) = p := by simp [owner, goto, hl]
  refine Inv.mk' (fun u => ?_) (fun u => ?_) ?_ ?_ (fun u => ?_)
  · by_cases hu : u = t
    · simp [goto, hu, hl, hp]
    · have := h.own u
      simp [goto, hu, this, hl]
  · by_cases hu : u = t
    · subst hu
      have h1 := h.emp u
      have h2 : isRelE (s.pc u) = false := by
        cases hpc : s.pc u <;> simp_all [holds, isRelE]
      simp only [h2] at h1
      simp [goto, hr, he]
      simpa using h1
    · have := h.emp u
      simp [goto, hu, this, he]
  · simp only [content, ho]
    exact htok
  · rw [ho]
    exact hd
  · by_cases hu : u = t
    · simpa [goto, hu] using hnb
    · simpa [goto, hu] using h.nb u

/-- The lists and `_isEmptyLock` are as they were. -/
theorem inv_goto {s : State T} (h : Inv s) {t : Nat} (ht : holds (s.pc t) = true) (p : PC T)
    (hp : holds p = true) (hr : isRelE p = false) (hnb : NbOk p)
    (htok : tokenPc p (contentOf p s.pushable s.poppable) = tokenPc (s.pc t) (contentOf (s.pc t) s.pushable s.poppable))
    (hd : DataOk p s.pushable s.poppable) : Inv (goto s t p) := by
  have hl := h.lock ht
  refine inv_hold h ht p s.pushable s.poppable s.empty hp hr hnb (fun _ => Iff.rfl) ?_ hd
  rw [htok, h.tok]
  simp [content, owner, hl]

/-- A step of the thread holding `_lock` that releases it. -/
theorem inv_release {s : State T} (h : Inv s) {t : Nat} (ht : holds (s.pc t) = true) (p : PC T)
    (hp : holds p = false) (hr : isRelE p = false) (hnb : NbOk p)
    (htok : tokenPc (s.pc t) (contentOf (s.pc t) s.pushable s.poppable) = (s.poppable.reverse ++ s.pushable).isEmpty) :
    Inv (goto { s with lock := none } t p) := by
  have hl := h.lock ht
  have ho : owner (goto { s with lock := none } t p) = .idle := by simp [owner, goto]
  refine Inv.mk' (fun u => ?_) (fun u => ?_) ?_ ?_ (fun u => ?_)
  · by_cases hu : u = t
    · simp [goto, hu, hp]
    · have := h.own u
      simp only [hl, Option.some.injEq] at this
      have h2 : holds (s.pc u) = false := by
        cases hh : holds (s.pc u)
        · rfl
        · exact absurd (this.mp hh).symm hu
      simp [goto, hu, h2]
  · by_cases hu : u = t
    · subst hu
      have h1 := h.emp u
      have h2 : isRelE (s.pc u) = false := by
        cases hpc : s.pc u <;> simp_all [holds, isRelE]
      simp only [h2] at h1
      simp [goto, hr]
      simpa using h1
    · have := h.emp u
      simp [goto, hu, this]
  · have h1 := h.tok
    simp only [content, owner, hl, htok] at h1
    simp only [content, ho, contentOf, tokenPc]
    simpa [goto] using h1
  · rw [ho]
    simp [DataOk]
  · by_cases hu : u = t
    · simpa [goto, hu] using hnb
    · simpa [goto, hu] using h.nb u

/-- Acquiring `_lock`. -/
theorem inv_acquire {s : State T} (h : Inv s) {t : Nat} (hl : s.lock = none) (p : PC T) (hre : isRelE (s.pc t) = false)
    (hp : holds p = true) (hr : isRelE p = false) (hnb : NbOk p)
    (htok : tokenPc p (contentOf p s.pushable s.poppable) = (s.poppable.reverse ++ s.pushable).isEmpty)
    (hd : DataOk p s.pushable s.poppable) :
    Inv (goto { s with lock := some t } t p) := by
  have ho : owner (goto { s with lock := some t } t p) = p := by simp [owner, goto]
  refine Inv.mk' (fun u => ?_) (fun u => ?_) ?_ ?_ (fun u => ?_)
  · by_cases hu : u = t
    · simp [goto, hu, hp]
    · have := h.own u
      simp only [hl] at this
      have hu' : ¬ t = u := fun e => hu e.symm
      simp [goto, hu, hu']
      simpa using this
  · by_cases hu : u = t
    · subst hu
      have h1 := h.emp u
      simp only [hre] at h1
      simp [goto, hr]
      simpa using h1
    · have := h.emp u
      simp [goto, hu, this]
  · have h1 := h.tok
    simp only [content, owner, hl, contentOf, tokenPc] at h1
    simp only [content, ho]
    show s.empty = _ ↔ tokenPc p (contentOf p s.pushable s.poppable) = true
    rw [htok]
    exact h1
  · rw [ho]
    exact hd
  · by_cases hu : u = t
    · simpa [goto, hu] using hnb
    · simpa [goto, hu] using h.nb u

/-- A step of a thread not holding `_lock` that does not acquire it. -/
theorem inv_free {s : State T} (h : Inv s) {t : Nat} (ht : holds (s.pc t) = false) (p : PC T) (e : Option Holder)
    (hp : holds p = false) (hnb : NbOk p)
    (he : ∀ u, u ≠ t → (e = some (.thread u) ↔ s.empty = some (.thread u)))
    (het : e = some (.thread t) ↔ isRelE p = true)
    (htok : e = some .token ↔ s.empty = some .token) :
    Inv (goto { s with empty := e } t p) := by
  have hne : ∀ u, s.lock = some u → u ≠ t := by
    intro u hu hut
    subst hut
    rw [(h.own u).mpr hu] at ht
    cases ht
  have ho : owner (goto { s with empty := e } t p) = owner s := by
    cases hl : s.lock with
    | none => simp [owner, goto, hl]
    | some u => simp [owner, goto, hl, hne u hl]
  refine Inv.mk' (fun u => ?_) (fun u => ?_) ?_ ?_ (fun u => ?_)
  · by_cases hu : u = t
    · subst hu
      have := h.own u
      simp only [ht] at this
      simp [goto, hp]
      simpa using this
    · have := h.own u
      simp [goto, hu, this]
  · by_cases hu : u = t
    · subst hu
      simp [goto, het]
    · have := h.emp u
      simp [goto, hu, this, he u hu]
  · have h1 := h.tok
    simp only [content, ho]
    show e = _ ↔ tokenPc (owner s) (contentOf (owner s) s.pushable s.poppable) = true
    rw [htok]
    exact h1
  · rw [ho]
    exact h.dat
  · by_cases hu : u = t
    · simpa [goto, hu] using hnb
    · simpa [goto, hu] using h.nb u

end Verif.TypedQueue
