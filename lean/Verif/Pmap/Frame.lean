import Verif.Pmap.Inv
/-
How the invariant is kept when one thread changes.
-/
namespace Verif.Pmap

variable {V E : Type} {N : Nat} {progs : Fin N → Option (Comp V E)} {s : State N V E}

/-- the parts of calls that never change agree -/
def Same (calls calls' : Nat → Call V E) (nc : Nat) : Prop :=
  ∀ c, c < nc → (calls' c).n = (calls c).n ∧ (calls' c).g = (calls c).g ∧ (calls' c).xs = (calls c).xs

theorem Same.seq {calls calls' : Nat → Call V E} {nc : Nat} (h : Same calls calls' nc) {c : Nat} (hc : c < nc) :
    callSeq (calls' c) = callSeq (calls c) := by
  obtain ⟨h1, h2, h3⟩ := h c hc
  simp only [callSeq, h1, h3]

theorem Same.cnt {calls calls' : Nat → Call V E} {nc : Nat} (h : Same calls calls' nc) {c : Nat} (hc : c < nc) :
    cntOf (calls' c) = cntOf (calls c) := by
  obtain ⟨h1, h2, h3⟩ := h c hc
  simp only [cntOf, h1, h2]

theorem Mode.OK.same {calls calls' : Nat → Call V E} {nc nc' : Nat} (h : Same calls calls' nc)
    (hn : nc ≤ nc') {m : Mode V E} (hm : m.OK calls nc) : m.OK calls' nc' := by
  cases m with
  | run p => exact hm
  | put c cnt i k =>
    obtain ⟨h1, h2, h3, h4⟩ := hm
    exact ⟨h1, by rw [h.cnt h3]; exact h2, by omega, h4⟩
  | drain c cnt k =>
    obtain ⟨h1, h2, h3⟩ := hm
    exact ⟨h1, by rw [h.cnt h3]; exact h2, by omega⟩
  | wait c cnt got k =>
    obtain ⟨h1, h2, h3⟩ := hm
    exact ⟨h1, by rw [h.cnt h3]; exact h2, by omega⟩

theorem Mode.val_same {calls calls' : Nat → Call V E} {nc : Nat} (h : Same calls calls' nc)
    {m : Mode V E} (hm : m.OK calls nc) : m.val calls' = m.val calls := by
  cases m with
  | run p => rfl
  | put c cnt i k => simp only [Mode.val, h.seq hm.2.2.1]
  | drain c cnt k => simp only [Mode.val, h.seq hm.2.2]
  | wait c cnt got k => simp only [Mode.val, h.seq hm.2.2]

theorem RestOK.same {calls calls' : Nat → Call V E} {nc nc' : Nat} (h : Same calls calls' nc)
    (hn : nc ≤ nc') : ∀ {rest : List (Nest V E)}, RestOK calls nc rest → RestOK calls' nc' rest
  | [], _ => trivial
  | f :: rest, hr => by
    obtain ⟨h1, h2, h3, h4, h5, h6, h7, h8⟩ := hr
    obtain ⟨g1, g2, g3⟩ := h f.jc (by omega)
    refine ⟨h1, by rw [h.cnt h3]; exact h2, by omega, h4, h5, ?_, ?_, RestOK.same h hn h8⟩
    · rw [g1, g2]; exact h6
    · rw [h.seq h3, g3]; exact h7

theorem ThreadOK.same {calls calls' : Nat → Call V E} {nc nc' : Nat} (h : Same calls calls' nc)
    (hn : nc ≤ nc') {p : Option (Comp V E)} {th : Thread V E} (ht : ThreadOK calls nc p th) :
    ThreadOK calls' nc' p th := by
  cases th with
  | comp m b =>
    cases b with
    | client =>
      obtain ⟨h1, p', h2, h3, h4⟩ := ht
      exact ⟨h1.same h hn, p', h2, by rw [m.val_same h h1]; exact h3, h4⟩
    | job c i x rest =>
      obtain ⟨h1, h2, h3, h4, h5, h6, h7⟩ := ht
      obtain ⟨g1, g2, g3⟩ := h c h3
      refine ⟨h1.same h hn, h2, by omega, by rw [g1, g2]; exact h4, ?_, h6.same h hn, h7⟩
      rw [m.val_same h h1, g3]; exact h5
  | next c i x rest => exact ⟨ht.1, by have := ht.2.1; omega, ht.2.2.same h hn⟩
  | finish c i rest => exact ⟨ht.1, by have := ht.2.1; omega, ht.2.2.same h hn⟩
  | idle => exact ht
  | done r => exact ht
  | dead => exact ht
  | fault => exact ht

theorem RestOK.lt {calls : Nat → Call V E} {nc : Nat} : ∀ {rest : List (Nest V E)}, RestOK calls nc rest →
    ∀ f ∈ rest, f.c < nc ∧ f.jc < nc
  | [], _, _, hf => by simp at hf
  | g :: rest, h, f, hf => by
    rcases List.mem_cons.1 hf with rfl | hf
    · have h1 := h.2.2.1; have h2 := h.2.2.2.1; constructor <;> omega
    · exact RestOK.lt h.2.2.2.2.2.2.2 f hf

theorem Mode.OK.lt {calls : Nat → Call V E} {nc : Nat} {m : Mode V E} (h : m.OK calls nc) :
    ∀ c ∈ m.calls, c < nc := by
  intro c hc
  cases m with
  | run p => simp [Mode.calls] at hc
  | put c' cnt i k => simp only [Mode.calls, List.mem_singleton] at hc; subst hc; exact h.2.2.1
  | drain c' cnt k => simp only [Mode.calls, List.mem_singleton] at hc; subst hc; exact h.2.2
  | wait c' cnt got k => simp only [Mode.calls, List.mem_singleton] at hc; subst hc; exact h.2.2

theorem owns_lt {calls : Nat → Call V E} {nc : Nat} {p : Option (Comp V E)} {th : Thread V E}
    (h : ThreadOK calls nc p th) : ∀ c ∈ owns th, c < nc := by
  intro c hc
  have hrest : ∀ rest : List (Nest V E), RestOK calls nc rest → c ∈ rest.map (·.c) → c < nc := by
    intro rest hr hm
    obtain ⟨f, hf, rfl⟩ := List.mem_map.1 hm
    exact (hr.lt f hf).1
  cases th with
  | comp m b =>
    simp only [owns, List.mem_append] at hc
    cases b with
    | client =>
      rcases hc with hc | hc
      · exact h.1.lt c hc
      · simp [Below.calls] at hc
    | job c' i x rest =>
      rcases hc with hc | hc
      · exact h.1.lt c hc
      · exact hrest rest h.2.2.2.2.2.1 hc
  | next c' i x rest => exact hrest rest h.2.2 hc
  | finish c' i rest => exact hrest rest h.2.2 hc
  | _ => simp [owns] at hc

theorem Inv.ownSum_lt (h : Inv progs s) {c : Nat} (hc : s.ncalls ≤ c) : ownSum s c = 0 := by
  refine Finset.sum_eq_zero fun t _ => ?_
  rw [List.count_eq_zero]
  intro hm
  have := owns_lt (h.threads t) c hm
  omega

theorem Inv.lt_of_total (h : Inv progs s) {c i : Nat} (hp : 0 < total s c i) :
    c < s.ncalls ∧ i < cntOf (s.calls c) := by
  rw [h.tot] at hp
  split at hp
  · refine ⟨?_, by assumption⟩
    by_contra hc
    have := h.ownSum_lt (c := c) (by omega)
    omega
  · omega

theorem Inv.total_le (h : Inv progs s) (c i : Nat) : total s c i ≤ 1 := by
  rw [h.tot]
  split
  · exact h.own c
  · omega

theorem total_held (s : State N V E) {t : Fin N} {z : Item} (hz : z ∈ held (s.thr t)) :
    0 < total s z.1.1 z.1.2 := by
  have h1 := cntItem_pos hz
  have h2 := le_sum (fun th => cntItem (held th) z.1.1 z.1.2) s.thr t
  unfold total
  omega

theorem total_queue (s : State N V E) {z : Nat × Nat} (hz : z ∈ s.queue) : 0 < total s z.1 z.2 := by
  have : 0 < s.queue.count (z.1, z.2) := List.count_pos_iff.2 hz
  unfold total
  omega

theorem total_out (s : State N V E) {c i : Nat} (hz : i ∈ (s.calls c).out) : 0 < total s c i := by
  have : 0 < (s.calls c).out.count i := List.count_pos_iff.2 hz
  unfold total
  omega

/-- Others do not hold a job that this thread holds. -/
theorem Inv.mine (h : Inv progs s) {t t' : Fin N} (ht : t' ≠ t) {z : Item} (hz : z ∈ held (s.thr t')) :
    cntItem (held (s.thr t)) z.1.1 z.1.2 = 0 := by
  have h1 := cntItem_pos hz
  have h2 := two_le_sum (fun th => cntItem (held th) z.1.1 z.1.2) s.thr ht
  have h3 := h.total_le z.1.1 z.1.2
  unfold total at h3
  omega

theorem Inv.mine_queue (h : Inv progs s) (t : Fin N) {z : Nat × Nat} (hz : z ∈ s.queue) :
    cntItem (held (s.thr t)) z.1 z.2 = 0 := by
  have h1 : 0 < s.queue.count (z.1, z.2) := List.count_pos_iff.2 hz
  have h2 := le_sum (fun th => cntItem (held th) z.1 z.2) s.thr t
  have h3 := h.total_le z.1 z.2
  unfold total at h3
  omega

theorem Inv.mine_out (h : Inv progs s) (t : Fin N) {c i : Nat} (hz : i ∈ (s.calls c).out) :
    cntItem (held (s.thr t)) c i = 0 := by
  have h1 : 0 < (s.calls c).out.count i := List.count_pos_iff.2 hz
  have h2 := le_sum (fun th => cntItem (held th) c i) s.thr t
  have h3 := h.total_le c i
  unfold total at h3
  omega

/-- Another thread is not in a call this thread is in. -/
theorem Inv.notOwn (h : Inv progs s) {t t' : Fin N} (ht : t' ≠ t) {c : Nat} (hc : c ∈ owns (s.thr t)) :
    c ∉ owns (s.thr t') := by
  intro hc'
  have h1 : 0 < (owns (s.thr t)).count c := List.count_pos_iff.2 hc
  have h2 : 0 < (owns (s.thr t')).count c := List.count_pos_iff.2 hc'
  have h3 := two_le_sum (fun th => (owns th).count c) s.thr ht
  have h4 := h.own c
  unfold ownSum at h4
  omega

theorem waitsFor_own {th : Thread V E} {c : Nat} (h : waitsFor c th) : c ∈ owns th := by
  unfold waitsFor at h
  split at h
  · subst h; simp [owns, Mode.calls]
  · exact h.elim

theorem forall_update {P : Fin N → Thread V E → Prop} {thr : Fin N → Thread V E} {t : Fin N}
    {th : Thread V E} (h1 : P t th) (h2 : ∀ t', t' ≠ t → P t' (thr t')) :
    ∀ t', P t' (Function.update thr t th t') := by
  intro t'
  by_cases ht : t' = t
  · subst ht; rw [Function.update_self]; exact h1
  · rw [Function.update_of_ne ht]; exact h2 t' ht

/-- Steps that change the work queue and one thread only. -/
theorem Inv.thread (h : Inv progs s) (t : Fin N) (th : Thread V E) (q : List (Nat × Nat))
    (hown : ∀ c, (owns th).count c = (owns (s.thr t)).count c)
    (htot : ∀ c i, q.count (c, i) + cntItem (held th) c i =
      s.queue.count (c, i) + cntItem (held (s.thr t)) c i)
    (hitems : ∀ z ∈ held th, PhaseOK (s.calls z.1.1) z.1.2 z.2)
    (hq : ∀ z ∈ q, PhaseOK (s.calls z.1) z.2 .fresh)
    (hth : ThreadOK s.calls s.ncalls (progs t) th)
    (hw : ∀ c, waitsFor c th → ∀ i, (c, i) ∉ q)
    (hw' : ∀ z ∈ q, z ∈ s.queue ∨ z.1 ∈ owns (s.thr t)) :
    Inv progs { s with queue := q, thr := Function.update s.thr t th } := by
  have ho : ∀ c, ownSum { s with queue := q, thr := Function.update s.thr t th } c = ownSum s c := by
    intro c
    have h1 := sum_update (fun th => (owns th).count c) s.thr t th
    have h2 := hown c
    unfold ownSum
    simp only
    omega
  refine ⟨fun c => by rw [ho]; exact h.own c, fun c i => ?_, ?_, hq, h.out, h.calls, ?_, ?_,
    fun c hc => h.closed c (by rw [← ho]; exact hc)⟩
  · rw [ho, ← h.tot]
    have h1 := sum_update (fun th => cntItem (held th) c i) s.thr t th
    have h2 := htot c i
    unfold total
    simp only
    omega
  · exact forall_update (P := fun _ th => ∀ z ∈ held th, PhaseOK (s.calls z.1.1) z.1.2 z.2) hitems
      (fun t' _ => h.items t')
  · exact forall_update (P := fun t th => ThreadOK s.calls s.ncalls (progs t) th) hth
      (fun t' _ => h.threads t')
  · refine forall_update (P := fun _ th => ∀ c, waitsFor c th → ∀ i, (c, i) ∉ q) hw ?_
    intro t' ht c hc i hi
    rcases hw' _ hi with h1 | h1
    · exact h.waits t' c hc i h1
    · exact h.notOwn ht h1 (waitsFor_own hc)

/-- Steps that change the storage or the queues of one call and one thread. -/
theorem Inv.call (h : Inv progs s) (t : Fin N) (th : Thread V E) (c₀ : Nat) (cl : Call V E)
    (hc₀ : 0 < ownSum s c₀)
    (hn : cl.n = (s.calls c₀).n) (hg : cl.g = (s.calls c₀).g) (hxs : cl.xs = (s.calls c₀).xs)
    (hown : ∀ c, (owns th).count c = (owns (s.thr t)).count c)
    (htot : ∀ c i, cntItem (held th) c i + (if c = c₀ then cl.out.count i else 0) =
      cntItem (held (s.thr t)) c i + (if c = c₀ then (s.calls c₀).out.count i else 0))
    (hitems : ∀ z ∈ held th, PhaseOK (Function.update s.calls c₀ cl z.1.1) z.1.2 z.2)
    (hkeep : ∀ i ph, cntItem (held (s.thr t)) c₀ i = 0 → PhaseOK (s.calls c₀) i ph → PhaseOK cl i ph)
    (hout : ∀ i ∈ cl.out, PhaseOK cl i .done)
    (hcl : CallOK cl)
    (hth : ThreadOK s.calls s.ncalls (progs t) th)
    (hw : ∀ c, waitsFor c th → ∀ i, (c, i) ∉ s.queue) :
    Inv progs { s with calls := Function.update s.calls c₀ cl, thr := Function.update s.thr t th } := by
  have hsame : Same s.calls (Function.update s.calls c₀ cl) s.ncalls := by
    intro c _
    by_cases hc : c = c₀
    · subst hc; rw [Function.update_self]; exact ⟨hn, hg, hxs⟩
    · rw [Function.update_of_ne hc]; exact ⟨rfl, rfl, rfl⟩
  have hcnt : ∀ c, cntOf (Function.update s.calls c₀ cl c) = cntOf (s.calls c) := by
    intro c
    by_cases hc : c = c₀
    · subst hc; rw [Function.update_self]; simp only [cntOf, hn, hg]
    · rw [Function.update_of_ne hc]
  have ho : ∀ c, ownSum { s with calls := Function.update s.calls c₀ cl, thr := Function.update s.thr t th } c
      = ownSum s c := by
    intro c
    have h1 := sum_update (fun th => (owns th).count c) s.thr t th
    have h2 := hown c
    unfold ownSum
    simp only
    omega
  refine ⟨fun c => by rw [ho]; exact h.own c, fun c i => ?_, ?_, ?_, ?_, ?_, ?_, ?_, ?_⟩
  · rw [ho]
    simp only [hcnt]
    rw [← h.tot]
    have h1 := sum_update (fun th => cntItem (held th) c i) s.thr t th
    have h2 := htot c i
    unfold total
    simp only
    by_cases hc : c = c₀
    · subst hc; rw [Function.update_self]; simp only [if_true] at h2; omega
    · rw [Function.update_of_ne hc]; simp only [hc, if_false] at h2; omega
  · refine forall_update (P := fun _ th => ∀ z ∈ held th,
      PhaseOK (Function.update s.calls c₀ cl z.1.1) z.1.2 z.2) hitems ?_
    intro t' ht z hz
    have hz' := h.items t' z hz
    by_cases hc : z.1.1 = c₀
    · have hm := h.mine ht hz
      rw [hc] at hz' hm ⊢
      rw [Function.update_self]
      exact hkeep _ _ hm hz'
    · rw [Function.update_of_ne hc]; exact hz'
  · intro z hz
    have hz' := h.queue z hz
    simp only
    by_cases hc : z.1 = c₀
    · have hm := h.mine_queue t hz
      rw [hc] at hz' hm ⊢
      rw [Function.update_self]
      exact hkeep _ _ hm hz'
    · rw [Function.update_of_ne hc]; exact hz'
  · intro c i hi
    simp only at hi ⊢
    by_cases hc : c = c₀
    · subst hc; rw [Function.update_self] at hi ⊢; exact hout i hi
    · rw [Function.update_of_ne hc] at hi ⊢; exact h.out c i hi
  · intro c
    simp only
    by_cases hc : c = c₀
    · subst hc; rw [Function.update_self]; exact hcl
    · rw [Function.update_of_ne hc]; exact h.calls c
  · exact forall_update (P := fun t th => ThreadOK (Function.update s.calls c₀ cl) s.ncalls (progs t) th)
      (hth.same hsame le_rfl) (fun t' _ => (h.threads t').same hsame le_rfl)
  · exact forall_update (P := fun _ th => ∀ c, waitsFor c th → ∀ i, (c, i) ∉ s.queue) hw
      (fun t' _ => h.waits t')
  · intro c hc
    rw [ho] at hc
    have : c ≠ c₀ := by rintro rfl; omega
    simp only
    rw [Function.update_of_ne this]
    exact h.closed c hc

end Verif.Pmap
