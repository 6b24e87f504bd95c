import Verif.TypedQueue.Lemmas
/-
Every step keeps the invariant and none fails.
-/
namespace Verif.TypedQueue
open Spec

variable {T : Type}

theorem Inv.dat' {s : State T} (h : Inv s) {t : Nat} {p : PC T} (hpc : s.pc t = p) (ht : holds p = true) :
    DataOk p s.pushable s.poppable := by
  subst hpc
  have := h.dat
  simpa [owner, h.lock ht] using this

theorem Inv.tok' {s : State T} (h : Inv s) {t : Nat} {p : PC T} (hpc : s.pc t = p) (ht : holds p = true) :
    s.empty = some .token ↔ tokenPc p (contentOf p s.pushable s.poppable) = true := by
  subst hpc
  have := h.tok
  simpa [content, owner, h.lock ht] using this

/-- Not failing, and keeping the invariant. -/
def Good (o : Outcome T) : Prop :=
  match o with
  | .blocked => True
  | .fail _ => False
  | .next _ s' => Inv s'

theorem good_acquireLock {s : State T} (h : Inv s) {t : Nat} (p : PC T) (hre : isRelE (s.pc t) = false)
    (hp : holds p = true) (hr : isRelE p = false) (hnb : NbOk p)
    (htok : tokenPc p (contentOf p s.pushable s.poppable) = (s.poppable.reverse ++ s.pushable).isEmpty)
    (hd : DataOk p s.pushable s.poppable) : Good (acquireLock s t p) := by
  unfold acquireLock
  cases hl : s.lock with
  | some u => trivial
  | none => exact inv_acquire h hl p hre hp hr hnb htok hd

theorem good_releaseLock {s : State T} (h : Inv s) {t : Nat} {q : PC T} (hpc : s.pc t = q) (ls : List (Label T)) (p : PC T)
    (ht : holds q = true)
    (hp : holds p = false) (hr : isRelE p = false) (hnb : NbOk p)
    (htok : tokenPc q (contentOf q s.pushable s.poppable) = (s.poppable.reverse ++ s.pushable).isEmpty) :
    Good (releaseLock s t ls p) := by
  subst hpc
  unfold releaseLock
  rw [h.lock ht]
  exact inv_release h ht p hp hr hnb htok

theorem good_goto {s : State T} (h : Inv s) {t : Nat} {q : PC T} (hpc : s.pc t = q) (ls : List (Label T)) (p : PC T)
    (ht : holds q = true) (hp : holds p = true) (hr : isRelE p = false) (hnb : NbOk p)
    (htok : tokenPc p (contentOf p s.pushable s.poppable) = tokenPc q (contentOf q s.pushable s.poppable))
    (hd : DataOk p s.pushable s.poppable) : Good (.next ls (goto s t p)) := by
  subst hpc
  exact inv_goto h ht p hp hr hnb htok hd

theorem take_succ_getLast (l : List T) (i : Nat) (hi : i < l.length) (x : T) (hx : l[l.length - 1 - i]? = some x) :
    l.reverse.take (i + 1) = l.reverse.take i ++ [x] := by
  rw [List.take_succ]
  congr 1
  rw [List.getElem?_reverse hi, hx]
  rfl

theorem len_zero {push pop : List T} (h : push.length + pop.length = 0) : push = [] ∧ pop = [] := by
  constructor <;> apply List.eq_nil_of_length_eq_zero <;> omega

theorem step_good {s : State T} (h : Inv s) (t : Nat) (c : Call T) : Good (step s t c) := by
  cases hpc : s.pc t with
  | idle =>
    simp only [step, hpc]
    have he := h.emp t
    simp only [hpc, isRelE] at he
    have hne : isRelE (startOf c) = false := by cases c <;> rfl
    refine inv_free (e := s.empty) h (by rw [hpc]; rfl) (startOf c) (by cases c <;> rfl) (by cases c <;> trivial)
      (fun u hu => Iff.rfl) ?_ Iff.rfl
    rw [hne]
    exact he.symm
  | enter k =>
    simp only [step, hpc]
    refine good_acquireLock h _ (by rw [hpc]; rfl) (by cases k <;> rfl) (by cases k <;> rfl) (by cases k <;> trivial)
      (by cases k <;> rfl) (by cases k <;> trivial)
  | outer k =>
    have hd := h.dat' hpc rfl
    cases k with
    | nb => exact hd.elim
    | get => exact hd.elim
    | many res mn mx =>
      simp only [step, hpc]
      split
      · split
        · exact good_goto h hpc _ _ rfl rfl rfl trivial rfl trivial
        · exact good_goto h hpc _ _ rfl rfl rfl trivial rfl trivial
      · exact good_goto h hpc _ _ rfl rfl rfl trivial rfl trivial
  | inner k =>
    have hd := h.dat' hpc rfl
    simp only [step, hpc]
    cases k with
    | nb => exact hd.elim
    | get =>
      split
      · rename_i hz
        exact good_goto h hpc _ _ rfl rfl rfl trivial rfl (len_zero hz)
      · rename_i hz
        exact good_goto h hpc _ _ rfl rfl rfl trivial rfl hz
    | many res mn mx =>
      split
      · rename_i hz
        exact good_goto h hpc _ _ rfl rfl rfl trivial rfl (len_zero hz)
      · rename_i hz
        exact good_goto h hpc _ _ rfl rfl rfl trivial rfl hz
  | relWait k =>
    have hd := h.dat' hpc rfl
    simp only [step, hpc]
    cases k with
    | nb => exact hd.elim
    | get => exact good_releaseLock h hpc _ _ rfl rfl rfl trivial rfl
    | many res mn mx => exact good_releaseLock h hpc _ _ rfl rfl rfl trivial rfl
  | acqE k =>
    have hk : NbOk (.acqE k) := hpc ▸ h.nb t
    simp only [step, hpc, acquireEmpty]
    cases he : s.empty with
    | some _ => trivial
    | none =>
      refine inv_free h (by rw [hpc]; rfl) _ _ rfl (by cases k <;> first | exact hk.elim | trivial) ?_ ?_ ?_
      · intro u hu
        simp [he, Ne.symm hu]
      · simp [isRelE]
      · simp [he]
  | relE k =>
    have hk : NbOk (.relE k) := hpc ▸ h.nb t
    have he : s.empty = some (.thread t) := (h.emp t).mp (by rw [hpc]; rfl)
    simp only [step, hpc, releaseEmpty, he]
    refine inv_free h (by rw [hpc]; rfl) _ _ rfl (by cases k <;> first | exact hk.elim | trivial) ?_ ?_ ?_
    · intro u hu
      simp [he, Ne.symm hu]
    · simp [isRelE]
    · simp [he]
  | relock k =>
    have hk : NbOk (.relock k) := hpc ▸ h.nb t
    simp only [step, hpc]
    exact good_acquireLock h _ (by rw [hpc]; rfl) rfl rfl trivial rfl (by cases k <;> first | exact hk.elim | trivial)
  | xferTest k =>
    have hd := h.dat' hpc rfl
    simp only [step, hpc]
    split
    · rename_i hz
      have hp : s.poppable = [] := List.eq_nil_of_length_eq_zero hz.1
      refine good_goto h hpc _ _ rfl rfl rfl trivial ?_ ⟨rfl, Nat.zero_le _, hz.2, by simp [hp]⟩
      simp [tokenPc, contentOf, hp]
    · rename_i hz
      refine good_goto h hpc _ _ rfl rfl rfl trivial rfl ?_
      have h1 : s.poppable = [] → s.pushable = [] := by
        intro hp
        apply List.eq_nil_of_length_eq_zero
        exact Decidable.byContradiction fun hne => hz ⟨by simp [hp], hne⟩
      have h2 : s.pushable.length + s.poppable.length ≠ 0 → s.poppable ≠ [] := by
        intro hne hp
        exact hne (by simp [hp, h1 hp])
      cases k with
      | nb => exact h1
      | get => exact h2 hd
      | many _ _ _ => exact h2 hd
  | xfer k i n =>
    have hd := h.dat' hpc rfl
    have ht := h.tok' hpc rfl
    obtain ⟨hn, hi, h0, hp⟩ := hd
    simp only [step, hpc]
    split
    · rename_i hlt
      have hx : s.pushable[s.pushable.length - 1 - i]? = some (s.pushable[s.pushable.length - 1 - i]'(by omega)) :=
        List.getElem?_eq_getElem _
      rw [hx]
      refine inv_hold (push := s.pushable) (e := s.empty) h (by rw [hpc]; rfl) _ _ rfl rfl trivial (fun _ => Iff.rfl) ht ?_
      exact ⟨hn, hlt, h0, by rw [take_succ_getLast _ _ (by omega) _ hx, hp]⟩
    · have : i = n := by omega
      subst this
      refine good_goto h hpc _ _ rfl rfl rfl trivial rfl ⟨?_, ?_⟩
      · intro hh
        simp [hh] at hn
        exact h0 hn
      · rw [hp, hn]
        exact List.take_of_length_le (by simp)
  | clear k =>
    have hd := h.dat' hpc rfl
    have ht := h.tok' hpc rfl
    simp only [step, hpc]
    refine inv_hold (pop := s.poppable) (e := s.empty) h (by rw [hpc]; rfl) _ _ rfl rfl trivial (fun _ => Iff.rfl) ?_ ?_
    · rw [ht]
      simp [tokenPc, contentOf, hd.2]
    · have : s.poppable ≠ [] := by
        rw [hd.2]
        simpa using hd.1
      cases k with
      | nb => exact fun _ => rfl
      | get => exact this
      | many _ _ _ => exact this
  | popTest k =>
    have hd := h.dat' hpc rfl
    have ht := h.tok' hpc rfl
    simp only [step, hpc]
    cases hl : s.poppable.getLast? with
    | some x =>
      refine inv_hold (push := s.pushable) (e := s.empty) h (by rw [hpc]; rfl) _ _ rfl rfl trivial (fun _ => Iff.rfl) ?_ ?_
      · rw [ht]
        have : s.poppable ≠ [] := by
          intro e
          simp [e] at hl
        simp [tokenPc, contentOf, this]
      · trivial
    | none =>
      have hp : s.poppable = [] := by simpa using hl
      cases k with
      | nb => exact good_goto h hpc _ _ rfl rfl rfl trivial rfl trivial
      | get => exact hd hp
      | many _ _ _ => exact (hd hp).elim
  | lenTest k x =>
    have ht := h.tok' hpc rfl
    simp only [step, hpc]
    split
    · rename_i hz
      exact good_goto h hpc _ _ rfl rfl rfl trivial rfl (len_zero hz)
    · rename_i hz
      refine good_goto h hpc _ _ rfl rfl rfl trivial ?_ trivial
      simp only [tokenPc, contentOf]
      rw [Bool.eq_false_iff]
      intro hh
      rw [List.isEmpty_iff, List.append_eq_nil_iff] at hh
      apply hz
      simp only [List.reverse_eq_nil_iff] at hh
      simp [len, hh.1, hh.2]
  | acqEmpty k x =>
    have hd := h.dat' hpc rfl
    simp only [step, hpc, acquireEmpty]
    cases he : s.empty with
    | some _ => trivial
    | none =>
      refine inv_hold (push := s.pushable) (pop := s.poppable) h (by rw [hpc]; rfl) _ _ rfl rfl trivial ?_ ?_ trivial
      · simp [he]
      · simp [tokenPc, contentOf, hd.1, hd.2]
  | done k x =>
    simp only [step, hpc]
    cases k with
    | nb => exact good_releaseLock h hpc _ _ rfl rfl rfl trivial rfl
    | get => exact good_releaseLock h hpc _ _ rfl rfl rfl trivial rfl
    | many _ _ _ => exact good_goto h hpc _ _ rfl rfl rfl trivial rfl trivial
  | finish k =>
    simp only [step, hpc]
    cases k with
    | nb => exact good_releaseLock h hpc _ _ rfl rfl rfl trivial rfl
    | get => exact good_releaseLock h hpc _ _ rfl rfl rfl trivial rfl
    | many _ _ _ => exact good_releaseLock h hpc _ _ rfl rfl rfl trivial rfl
  | pEnter x =>
    simp only [step, hpc]
    exact good_acquireLock h _ (by rw [hpc]; rfl) rfl rfl trivial rfl trivial
  | pAppend x =>
    have ht := h.tok' hpc rfl
    simp only [step, hpc]
    refine inv_hold (pop := s.poppable) (e := s.empty) h (by rw [hpc]; rfl) _ _ rfl rfl trivial (fun _ => Iff.rfl) ?_ ?_
    · rw [ht]
      cases hp : s.poppable <;> cases hq : s.pushable <;> simp [tokenPc, contentOf]
      omega
    · simp [DataOk]
  | pTest x =>
    have hd := h.dat' hpc rfl
    simp only [step, hpc]
    split
    · rename_i hz
      refine good_goto h hpc _ _ rfl rfl rfl trivial ?_ hd
      simp only [tokenPc, contentOf, len] at *
      symm
      simp
      omega
    · rename_i hz
      refine good_goto h hpc _ _ rfl rfl rfl trivial ?_ trivial
      have hne : s.pushable ≠ [] := by
        intro e
        simp [DataOk, e] at hd
      have h1 : ¬ (s.poppable.reverse ++ s.pushable).length = 1 := by
        simp only [len] at hz
        simp
        omega
      simp [tokenPc, contentOf, hne, -List.length_append, h1]
  | pRelE x =>
    have hd := h.dat' hpc rfl
    have he : s.empty = some .token := (h.tok' hpc rfl).mpr rfl
    simp only [step, hpc, releaseEmpty, he]
    refine inv_hold (push := s.pushable) (pop := s.poppable) h (by rw [hpc]; rfl) _ _ rfl rfl trivial ?_ ?_ trivial
    · simp [he]
    · have hne : s.pushable ≠ [] := by
        intro e
        simp [DataOk, e] at hd
      simp [tokenPc, contentOf, hne]
  | pRel x =>
    simp only [step, hpc]
    exact good_releaseLock h hpc _ _ rfl rfl rfl trivial rfl
  | mEnter xs =>
    simp only [step, hpc]
    exact good_acquireLock h _ (by rw [hpc]; rfl) rfl rfl trivial rfl trivial
  | mRead xs =>
    simp only [step, hpc]
    exact good_goto h hpc _ _ rfl rfl rfl trivial rfl rfl
  | mLoop given xs n =>
    have hd : n = s.pushable.length + s.poppable.length := h.dat' hpc rfl
    have ht := h.tok' hpc rfl
    cases xs with
    | nil =>
      simp only [step, hpc]
      exact good_goto h hpc _ _ rfl rfl rfl trivial rfl trivial
    | cons x xs =>
      simp only [step, hpc]
      refine inv_hold (pop := s.poppable) (e := s.empty) h (by rw [hpc]; rfl) _ _ rfl rfl trivial (fun _ => Iff.rfl) ?_ ?_
      · rw [ht]
        cases hp : s.poppable <;> cases hq : s.pushable <;> simp [tokenPc, contentOf, hd, hp, hq]
      · simp [DataOk]
        omega
  | mTest given xs n =>
    have hd := h.dat' hpc rfl
    simp only [step, hpc]
    split
    · rename_i hz
      refine good_goto h hpc _ _ rfl rfl rfl trivial ?_ hd
      simp [tokenPc, hz]
    · rename_i hz
      refine good_goto h hpc _ _ rfl rfl rfl trivial ?_ hd.1
      have hne : s.pushable ≠ [] := by
        intro e
        simp [DataOk, e] at hd
      simp [tokenPc, contentOf, hz, hne]
  | mRelE given xs n =>
    have hd := h.dat' hpc rfl
    have he : s.empty = some .token := (h.tok' hpc rfl).mpr rfl
    simp only [step, hpc, releaseEmpty, he]
    refine inv_hold (push := s.pushable) (pop := s.poppable) h (by rw [hpc]; rfl) _ _ rfl rfl trivial ?_ ?_ hd.1
    · simp [he]
    · have hne : s.pushable ≠ [] := by
        intro e
        simp [DataOk, e] at hd
      simp [tokenPc, contentOf, hne]
  | mRel given =>
    simp only [step, hpc]
    exact good_releaseLock h hpc _ _ rfl rfl rfl trivial rfl
  | peekEnter =>
    simp only [step, hpc]
    exact good_acquireLock h _ (by rw [hpc]; rfl) rfl rfl trivial rfl trivial
  | peekRead =>
    simp only [step, hpc]
    exact good_goto h hpc _ _ rfl rfl rfl trivial rfl trivial
  | peekRel r =>
    simp only [step, hpc]
    exact good_releaseLock h hpc _ _ rfl rfl rfl trivial rfl
  | lenEnter =>
    simp only [step, hpc]
    exact good_acquireLock h _ (by rw [hpc]; rfl) rfl rfl trivial rfl trivial
  | lenRead =>
    simp only [step, hpc]
    exact good_goto h hpc _ _ rfl rfl rfl trivial rfl trivial
  | lenRel n =>
    simp only [step, hpc]
    exact good_releaseLock h hpc _ _ rfl rfl rfl trivial rfl

end Verif.TypedQueue
