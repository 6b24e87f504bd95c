import Verif.Pmap.Steps
/-
There is no deadlock: a worker that blocks in a nested `pmap` waits for a job that another worker
executes, and what that worker blocks in was called later.
-/
namespace Verif.Pmap

variable {V E : Type} {N : Nat} {progs : Fin N → Option (Comp V E)} {s : State N V E}

/-- What a thread that cannot take a step is doing. -/
theorem stuck_shape (h : Inv progs s) {t : Fin N} (hs : step s t = none) :
    (∃ c cnt got k b, s.thr t = .comp (.wait c cnt got k) b ∧ got.length < cnt ∧ (s.calls c).out = []) ∨
    (s.thr t = .idle ∧ s.queue = []) ∨ ∃ r, s.thr t = .done r := by
  have hth := h.threads t
  unfold step at hs
  split at hs
  · rename_i m b ht
    cases m with
    | run p => cases p <;> simp [stepMode] at hs
    | put c cnt i k =>
      simp only [stepMode] at hs
      split at hs <;> simp at hs
    | drain c cnt k =>
      simp only [stepMode] at hs
      split at hs
      · simp at hs
      · simp at hs
      · rw [ht] at hth
        exact absurd rfl (hth.2.choose_spec.2.2 c cnt k)
    | wait c cnt got k =>
      simp only [stepMode] at hs
      split at hs
      · rename_i hl
        split at hs
        · rename_i ho; exact .inl ⟨c, cnt, got, k, b, ht, hl, ho⟩
        · simp at hs
      · simp at hs
  · split at hs <;> simp at hs
  · simp at hs
  · rename_i ht
    split at hs
    · rename_i hq; exact .inr (.inl ⟨ht, hq⟩)
    · simp at hs
  · rename_i r ht; exact .inr (.inr ⟨r, ht⟩)
  · rename_i ht; rw [ht] at hth; exact hth.elim
  · rename_i ht; rw [ht] at hth; exact hth.elim

theorem exists_missing {got : List Nat} {n : Nat} (h : got.length < n) : ∃ i, i < n ∧ got.count i = 0 := by
  by_contra hc
  push Not at hc
  have h1 : Finset.range n ⊆ got.toFinset := by
    intro i hi
    rw [List.mem_toFinset]
    by_contra hm
    exact hc i (Finset.mem_range.1 hi) (List.count_eq_zero.2 hm)
  have h2 := Finset.card_le_card h1
  have h3 := List.toFinset_card_le got
  rw [Finset.card_range] at h2
  omega

theorem below_lt {calls : Nat → Call V E} {nc : Nat} {p : Option (Comp V E)} {c' cnt : Nat} {got : List Nat}
    {k : Cont V E} {b : Below V E} (h : ThreadOK calls nc p (.comp (.wait c' cnt got k) b)) {c i : Nat}
    (hz : 0 < cntItem b.items c i) : c < c' ∧ waitsFor c' (.comp (.wait c' cnt got k) b) := by
  obtain ⟨ph, hm⟩ := exists_of_cntItem hz
  cases b with
  | client => simp [Below.items] at hm
  | job jc ji jx rest =>
    refine ⟨?_, rfl⟩
    have h7 := h.2.2.2.2.2.2 c' (by simp [Mode.calls])
    simp only [Below.items, List.mem_cons, Prod.mk.injEq, List.mem_map] at hm
    rcases hm with ⟨⟨rfl, _⟩, _⟩ | ⟨f, hf, he⟩
    · exact h7.1
    · simp only [Nest.item, Prod.mk.injEq] at he
      rw [← he.1.1]
      exact h7.2 f hf

/-- A thread blocked in `getMany` waits for a job that is in the work queue or on the stack of a
worker which is blocked in a later call. -/
theorem missing_job (h : Inv progs s) (hall : ∀ t, step s t = none) {t : Fin N} {c cnt : Nat}
    {got : List Nat} {k : Cont V E} {b : Below V E} (ht : s.thr t = .comp (.wait c cnt got k) b)
    (hl : got.length < cnt) (ho : (s.calls c).out = []) :
    (∃ i, (c, i) ∈ s.queue) ∨ ∃ t' c', c < c' ∧ waitsFor c' (s.thr t') := by
  have hth := h.threads t
  rw [ht] at hth
  have hcnt : cnt = cntOf (s.calls c) := by
    cases b with
    | client => exact hth.1.2.1
    | job _ _ _ _ => exact hth.1.2.1
  have hmem : c ∈ owns (s.thr t) := by rw [ht]; simp [owns, Mode.calls]
  have hown1 : ownSum s c = 1 := by
    have h1 := own_of_mem (s := s) (t := t) (c := c) hmem
    have h2 := h.own c
    omega
  obtain ⟨i, hi, hgot⟩ := exists_missing hl
  have htot := h.tot c i
  rw [if_pos (by omega), hown1] at htot
  unfold total at htot
  rw [ho, List.count_nil] at htot
  by_cases hq : 0 < s.queue.count (c, i)
  · exact .inl ⟨i, List.count_pos_iff.1 hq⟩
  · right
    obtain ⟨t', ht'⟩ := exists_of_sum_pos (f := fun th => cntItem (held th) c i) (thr := s.thr) (by omega)
    have hth' := h.threads t'
    rcases stuck_shape h (hall t') with ⟨c', cnt', got', k', b', hsh, _, _⟩ | ⟨hsh, _⟩ | ⟨r, hsh⟩
    · rw [hsh, held_cnt] at ht'
      simp only [Mode.items, cntItem_map_done] at ht'
      have hb : 0 < cntItem b'.items c i := by
        by_cases hcc : c' = c
        · subst hcc
          by_cases htt : t' = t
          · subst htt
            rw [ht] at hsh
            simp only [Thread.comp.injEq, Mode.wait.injEq] at hsh
            obtain ⟨⟨_, _, rfl, _⟩, rfl⟩ := hsh
            rw [if_pos rfl, hgot] at ht'
            omega
          · exact absurd (show c' ∈ owns (s.thr t') by rw [hsh]; simp [owns, Mode.calls])
              (h.notOwn htt hmem)
        · rw [if_neg hcc] at ht'
          omega
      rw [hsh] at hth'
      have := below_lt hth' hb
      exact ⟨t', c', this.1, by rw [hsh]; exact this.2⟩
    · rw [hsh] at ht'; simp [held] at ht'
    · rw [hsh] at ht'; simp [held] at ht'

/-- No worker is blocked in a nested call when nothing can move. -/
theorem no_worker_waits (h : Inv progs s) (hall : ∀ t, step s t = none) :
    ∀ (m c : Nat), s.ncalls - c ≤ m → ∀ t, ¬ waitsFor c (s.thr t) := by
  intro m
  induction m with
  | zero =>
    intro c hc t hw
    have := owns_lt (h.threads t) c (waitsFor_own hw)
    omega
  | succ m ih =>
    intro c hc t hw
    have hlt := owns_lt (h.threads t) c (waitsFor_own hw)
    have hsh := stuck_shape h (hall t)
    have hq := h.waits t c hw
    rcases hsh with ⟨c', cnt, got, k, b, ht, hl, ho⟩ | ⟨ht, _⟩ | ⟨r, ht⟩
    · have hcc : c' = c := by
        rw [ht] at hw
        cases b with
        | client => exact hw.elim
        | job _ _ _ _ => exact hw
      subst hcc
      rcases missing_job h hall ht hl ho with ⟨i, hi⟩ | ⟨t', c'', h1, h2⟩
      · exact hq i hi
      · exact ih c'' (by omega) t' h2
    · rw [ht] at hw; exact hw
    · rw [ht] at hw; exact hw

/-- With at least one worker, when no thread can take a step every program has ended. -/
theorem all_done (h : Inv progs s) (hworker : ∃ w, progs w = none) (hall : ∀ t, step s t = none)
    (t : Fin N) (p : Comp V E) (hp : progs t = some p) : s.thr t = .done (seq p) := by
  have hno : ∀ c t, ¬ waitsFor c (s.thr t) := fun c t => no_worker_waits h hall _ c le_rfl t
  obtain ⟨w, hw⟩ := hworker
  have hq : s.queue = [] := by
    have hth := h.threads w
    rw [hw] at hth
    rcases stuck_shape h (hall w) with ⟨c', cnt, got, k, b, ht, _, _⟩ | ⟨_, hq⟩ | ⟨r, ht⟩
    · rw [ht] at hth
      cases b with
      | client => exact absurd hth.2.choose_spec.1 (by simp)
      | job _ _ _ _ => exact absurd (by rw [ht]; rfl) (hno c' w)
    · exact hq
    · rw [ht] at hth
      exact absurd hth.choose_spec.1 (by simp)
  have hth := h.threads t
  rw [hp] at hth
  rcases stuck_shape h (hall t) with ⟨c', cnt, got, k, b, ht, hl, ho⟩ | ⟨ht, _⟩ | ⟨r, ht⟩
  · rcases missing_job h hall ht hl ho with ⟨i, hi⟩ | ⟨t', c'', _, h2⟩
    · rw [hq] at hi; simp at hi
    · exact absurd h2 (hno c'' t')
  · rw [ht] at hth
    exact absurd hth (by simp [ThreadOK])
  · rw [ht] at hth ⊢
    obtain ⟨p', h1, h2⟩ := hth
    simp only [Option.some.injEq] at h1
    subst h1
    rw [h2]

end Verif.Pmap
