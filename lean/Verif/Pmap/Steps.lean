import Verif.Pmap.Jobs
/-
Every step of every thread keeps the invariant.
-/
namespace Verif.Pmap

variable {V E : Type} {N : Nat} {progs : Fin N → Option (Comp V E)} {s : State N V E}

theorem Inv.own_of_total (h : Inv progs s) {c i : Nat} (hp : 0 < total s c i) : 0 < ownSum s c := by
  rw [h.tot] at hp
  split at hp <;> omega

theorem own_of_mem {t : Fin N} {c : Nat} (h : c ∈ owns (s.thr t)) : 0 < ownSum s c := by
  have h1 : 0 < (owns (s.thr t)).count c := List.count_pos_iff.2 h
  have h2 := le_sum (fun th => (owns th).count c) s.thr t
  unfold ownSum
  omega

/-- In a thread that holds `((c, i), ph)` in front, the other jobs are others. -/
theorem Inv.others (h : Inv progs s) {t : Fin N} {z : Item} {l : List Item}
    (hl : ∀ c i, cntItem (held (s.thr t)) c i = cntItem (z :: l) c i) {w : Item} (hw : w ∈ l) :
    w.1 ≠ z.1 := by
  intro he
  have h1 := cntItem_pos hw
  have h2 := hl w.1.1 w.1.2
  have h3 := le_sum (fun th => cntItem (held th) w.1.1 w.1.2) s.thr t
  have h4 := h.total_le w.1.1 w.1.2
  rw [cntItem_cons, if_pos he.symm] at h2
  unfold total at h4
  omega

theorem owns_cnt (m : Mode V E) (b : Below V E) (c : Nat) :
    (owns (.comp m b)).count c = m.calls.count c + b.calls.count c := List.count_append

theorem held_cnt (m : Mode V E) (b : Below V E) (c i : Nat) :
    cntItem (held (.comp m b)) c i = cntItem m.items c i + cntItem b.items c i := cntItem_append ..

theorem not_waits {m : Mode V E} {b : Below V E} (h : ∀ c cnt got k, m ≠ .wait c cnt got k) {c : Nat} :
    ¬ waitsFor c (.comp m b) := by
  intro hw
  cases m with
  | wait c' cnt got k => exact h _ _ _ _ rfl
  | run p => exact hw
  | put _ _ _ _ => exact hw
  | drain _ _ _ => exact hw

/-- the thread ends: its program is over -/
theorem inv_finish_client (h : Inv progs s) {t : Fin N} {p : Comp V E} {r : Except E V}
    (ht : s.thr t = .comp (.run p) .client) (hr : seq p = r) :
    Inv progs { s with thr := Function.update s.thr t (.done r) } := by
  have hth := h.threads t
  rw [ht] at hth
  obtain ⟨_, p', hp, hv, _⟩ := hth
  refine h.thread t (.done r) s.queue ?_ ?_ ?_ h.queue ?_ ?_ (fun z hz => .inl hz)
  · intro c; rw [ht]; rfl
  · intro c i; rw [ht]; rfl
  · intro z hz; simp [held] at hz
  · exact ⟨p', hp, by rw [← hr]; exact hv⟩
  · intro c hc; exact hc.elim

theorem inv_return (h : Inv progs s) {t : Fin N} {v : V} {b : Below V E}
    (ht : s.thr t = .comp (.run (.ret v)) b) : Inv progs (onReturn s t v b) := by
  cases b with
  | client => exact inv_finish_client h ht rfl
  | job c i x rest =>
    have hth := h.threads t
    rw [ht] at hth
    obtain ⟨_, hp, hc, hx, hv, hrest, _⟩ := hth
    have hitem := h.items t ((c, i), .mid x) (by rw [ht]; simp [held, Mode.items, Below.items])
    obtain ⟨g1, g2, g3, g4⟩ := hitem
    simp only at g1 g2 g3 g4
    have hnone := g4 x le_rfl hx
    have hcnt : ∀ c' i', cntItem (held (s.thr t)) c' i' =
        cntItem (((c, i), Phase.mid x) :: rest.map Nest.item) c' i' := by
      intro c' i'; rw [ht]; simp [held, Mode.items, Below.items]
    simp only [onReturn, hnone]
    have hcl := h.calls c
    refine h.call t (.next c i (x + 1) rest) c _ ?_ rfl rfl rfl ?_ ?_ ?_ ?_ ?_ ?_ ?_ ?_
    · exact h.own_of_total (i := i) (total_held s (t := t) (z := ((c, i), .mid x))
        (by rw [ht]; simp [held, Mode.items, Below.items]))
    · intro c'; rw [ht]; rfl
    · intro c' i'; rw [hcnt]; simp [held]
    · intro z hz
      simp only [held, List.mem_cons] at hz
      rcases hz with rfl | hz
      · rw [Function.update_self]
        refine ⟨by simp only; omega, hx, ?_, ?_⟩
        · intro y hy1 hy2
          simp only at hy1 ⊢
          by_cases hyx : y = x
          · subst hyx; rw [Function.update_self]; simp
          · rw [Function.update_of_ne hyx]; exact g3 y hy1 (by omega)
        · intro y hy1 hy2
          simp only at hy2 ⊢
          rw [Function.update_of_ne (by omega)]; exact g4 y (by omega) hy2
      · have hne := h.others hcnt hz
        have hz' := h.items t z (by rw [ht]; simp [held, Mode.items, Below.items, hz])
        by_cases hzc : z.1.1 = c
        · rw [hzc] at hz' ⊢
          rw [Function.update_self]
          refine hz'.write g1 hx ?_
          intro hi
          exact hne (Prod.ext hzc hi)
        · rw [Function.update_of_ne hzc]; exact hz'
    · intro i' ph hi hph
      refine hph.write g1 hx ?_
      rintro rfl
      rw [hcnt, cntItem_cons, if_pos rfl] at hi
      omega
    · intro i' hi'
      simp only at hi'
      refine (h.out c i' hi').write g1 hx ?_
      rintro rfl
      have := h.mine_out t hi'
      rw [hcnt, cntItem_cons, if_pos rfl] at this
      omega
    · refine ⟨?_, hcl.exq, hcl.noBase⟩
      intro y w hy
      simp only at hy ⊢
      by_cases hyx : y = x
      · subst hyx
        rw [Function.update_self] at hy
        simp only [Option.some.injEq] at hy
        subst hy
        refine ⟨lt_of_lt_of_le hx (Nat.min_le_left _ _), hv.symm⟩
      · rw [Function.update_of_ne hyx] at hy
        exact hcl.res y w hy
    · exact ⟨hp, hc, hrest⟩
    · intro c' hc'; exact hc'.elim

theorem inv_raise (h : Inv progs s) {t : Fin N} {e : E} {b : Below V E}
    (ht : s.thr t = .comp (.run (.exc e)) b) : Inv progs (onRaise s t e b) := by
  cases b with
  | client => exact inv_finish_client h ht rfl
  | job c i x rest =>
    have hth := h.threads t
    rw [ht] at hth
    obtain ⟨_, hp, hc, hx, hv, hrest, _⟩ := hth
    have hitem := h.items t ((c, i), .mid x) (by rw [ht]; simp [held, Mode.items, Below.items])
    obtain ⟨g1, g2, g3, g4⟩ := hitem
    simp only at g1 g2 g3 g4
    have hcnt : ∀ c' i', cntItem (held (s.thr t)) c' i' =
        cntItem (((c, i), Phase.mid x) :: rest.map Nest.item) c' i' := by
      intro c' i'; rw [ht]; simp [held, Mode.items, Below.items]
    simp only [onRaise]
    have hcl := h.calls c
    refine h.call t (.finish c i rest) c _ ?_ rfl rfl rfl ?_ ?_ ?_ ?_ ?_ ?_ ?_ ?_
    · exact h.own_of_total (i := i) (total_held s (t := t) (z := ((c, i), .mid x))
        (by rw [ht]; simp [held, Mode.items, Below.items]))
    · intro c'; rw [ht]; rfl
    · intro c' i'; rw [hcnt]; simp [held]
    · intro z hz
      simp only [held, List.mem_cons] at hz
      rcases hz with rfl | hz
      · rw [Function.update_self]
        intro y hy1 hy2
        simp only at hy1 hy2 ⊢
        by_cases hyx : y < x
        · exact .inl (g3 y hy1 hyx)
        · exact .inr ⟨x, e, by simp, by omega⟩
      · have hz' := h.items t z (by rw [ht]; simp [held, Mode.items, Below.items, hz])
        by_cases hzc : z.1.1 = c
        · rw [hzc] at hz' ⊢
          rw [Function.update_self]
          exact hz'.raise
        · rw [Function.update_of_ne hzc]; exact hz'
    · intro i' ph _ hph
      exact hph.raise
    · intro i' hi'
      exact (h.out c i' hi').raise
    · refine ⟨hcl.res, ?_, hcl.noBase⟩
      intro y w hy
      simp only [List.mem_append, List.mem_singleton, Prod.mk.injEq] at hy
      rcases hy with hy | ⟨rfl, rfl⟩
      · exact hcl.exq y w hy
      · exact ⟨lt_of_lt_of_le hx (Nat.min_le_left _ _), hv.symm⟩
    · exact ⟨hp, hc, hrest⟩
    · intro c' hc'; exact hc'.elim

theorem cntItem_map_put (c c' i' : Nat) : ∀ (n i : Nat),
    cntItem ((List.range' i n).map fun j => ((c, j), Phase.fresh)) c' i' =
      if c = c' ∧ i ≤ i' ∧ i' < i + n then 1 else 0
  | 0, i => by simp [cntItem]
  | n + 1, i => by
    rw [List.range'_succ, List.map_cons, cntItem_cons, cntItem_map_put c c' i' n (i + 1)]
    simp only [Prod.mk.injEq]
    split <;> split <;> split <;> omega

theorem cntItem_map_done (c c' i' : Nat) (got : List Nat) :
    cntItem (got.map fun j => ((c, j), Phase.done)) c' i' = if c = c' then got.count i' else 0 := by
  induction got with
  | nil => simp [cntItem]
  | cons j got ih =>
    rw [List.map_cons, cntItem_cons, ih, List.count_cons]
    simp only [Prod.mk.injEq, beq_iff_eq]
    by_cases hc : c = c'
    · simp only [hc, true_and, if_true]
    · simp [hc]

theorem inv_pmap (h : Inv progs s) {t : Fin N} {n g : Nat} {xs : Nat → Comp V E} {k : Cont V E}
    {b : Below V E} (ht : s.thr t = .comp (.run (.pmap n g xs k)) b) :
    Inv progs (onPmap s t n g xs k b) := by
  have hth := h.threads t
  have hzero := h.ownSum_lt (le_refl s.ncalls)
  have htz : ∀ i, total s s.ncalls i = 0 := by
    intro i; rw [h.tot, hzero]; simp
  have hsame : Same s.calls (Function.update s.calls s.ncalls
      { n := n, g := g, xs := xs, res := fun _ => none, exq := [], out := [] }) s.ncalls := by
    intro c hc
    rw [Function.update_of_ne (by omega)]
    exact ⟨rfl, rfl, rfl⟩
  have hitem0 : ∀ z : Item, z.1.1 ≠ s.ncalls → PhaseOK (s.calls z.1.1) z.1.2 z.2 →
      PhaseOK (Function.update s.calls s.ncalls
        { n := n, g := g, xs := xs, res := fun _ => none, exq := [], out := [] } z.1.1) z.1.2 z.2 := by
    intro z hz hp
    rw [Function.update_of_ne hz]; exact hp
  have hheldne : ∀ t', ∀ z ∈ held (s.thr t'), z.1.1 ≠ s.ncalls := by
    intro t' z hz he
    have h1 := total_held s hz
    rw [he, htz] at h1
    omega
  have ho : ∀ c, ownSum (onPmap s t n g xs k b) c = ownSum s c + if c = s.ncalls then 1 else 0 := by
    intro c
    have h1 := sum_update (fun th => (owns th).count c) s.thr t
      (.comp (.put s.ncalls (jobCount n g) 0 k) b)
    rw [ht] at h1
    simp only [owns_cnt, Mode.calls, List.count_nil, List.count_cons, beq_iff_eq] at h1
    unfold ownSum onPmap
    simp only
    by_cases hc : c = s.ncalls
    · subst hc
      simp only [if_true] at h1 ⊢
      omega
    · have hc' : ¬ s.ncalls = c := fun h => hc h.symm
      simp only [hc, hc', if_false] at h1 ⊢
      omega
  refine ⟨?_, ?_, ?_, ?_, ?_, ?_, ?_, ?_, ?_⟩
  · intro c
    rw [ho]
    by_cases hc : c = s.ncalls
    · subst hc; rw [hzero]; simp
    · simp only [hc, if_false, Nat.add_zero]; exact h.own c
  · intro c i
    rw [ho]
    have h1 := sum_update (fun th => cntItem (held th) c i) s.thr t
      (.comp (.put s.ncalls (jobCount n g) 0 k) b)
    rw [ht] at h1
    simp only [held_cnt, Mode.items, cntItem_nil, cntItem_map_put] at h1
    unfold total onPmap
    simp only
    by_cases hc : c = s.ncalls
    · subst hc
      have h2 := htz i
      unfold total at h2
      simp only [Function.update_self, hzero]
      simp only [cntOf, List.count_nil, if_true, true_and, Nat.zero_le, Nat.sub_zero, Nat.zero_add] at h1 ⊢
      split at h1 <;> rename_i hi <;> simp only [hi, if_true, if_false] <;> omega
    · have h2 := h.tot c i
      simp only [Function.update_of_ne hc]
      have hc' : ¬ s.ncalls = c := fun h => hc h.symm
      simp only [hc, hc', if_false, false_and, Nat.add_zero, Nat.zero_add] at h1 ⊢
      rw [← h2]
      unfold total
      omega
  · refine forall_update (P := fun _ th => ∀ z ∈ held th,
      PhaseOK (Function.update s.calls s.ncalls
        { n := n, g := g, xs := xs, res := fun _ => none, exq := [], out := [] } z.1.1) z.1.2 z.2) ?_ ?_
    · intro z hz
      simp only [held, List.mem_append] at hz
      rcases hz with hz | hz
      · simp only [Mode.items, List.mem_map] at hz
        obtain ⟨j, _, rfl⟩ := hz
        rw [Function.update_self]
        intro y _ _
        rfl
      · have hz' : z ∈ held (s.thr t) := by rw [ht]; simp [held, hz]
        exact hitem0 z (hheldne t z hz') (h.items t z hz')
    · intro t' _ z hz
      exact hitem0 z (hheldne t' z hz) (h.items t' z hz)
  · intro z hz
    have hne : z.1 ≠ s.ncalls := by
      intro he
      have h1 := total_queue s hz
      rw [he, htz] at h1
      omega
    exact hitem0 (z, .fresh) hne (h.queue z hz)
  · intro c i hi
    simp only [onPmap] at hi ⊢
    by_cases hc : c = s.ncalls
    · subst hc; rw [Function.update_self] at hi; simp at hi
    · rw [Function.update_of_ne hc] at hi ⊢; exact h.out c i hi
  · intro c
    simp only [onPmap]
    by_cases hc : c = s.ncalls
    · subst hc
      rw [Function.update_self]
      refine ⟨fun x v hx => by simp at hx, fun x e hx => by simp at hx, ?_⟩
      rw [ht] at hth
      cases b with
      | client => exact hth.1.1
      | job _ _ _ _ => exact hth.1.1
    · rw [Function.update_of_ne hc]; exact h.calls c
  · refine forall_update (P := fun t th => ThreadOK (Function.update s.calls s.ncalls
        { n := n, g := g, xs := xs, res := fun _ => none, exq := [], out := [] }) (s.ncalls + 1)
        (progs t) th) ?_ (fun t' _ => (h.threads t').same hsame (by omega))
    have hth' := hth.same hsame (show s.ncalls ≤ s.ncalls + 1 by omega)
    rw [ht] at hth hth'
    cases b with
    | client =>
      obtain ⟨h1, p', h2, h3, h4⟩ := hth'
      refine ⟨⟨h1.2, ?_, by omega, by omega⟩, p', h2, ?_, by intro _ _ _ hh; cases hh⟩
      · rw [Function.update_self]; rfl
      · rw [← h3]
        simp only [Mode.val]
        rw [Function.update_self]
        rfl
    | job c i x rest =>
      obtain ⟨h1, h2, h3, h4, h5, h6, h7⟩ := hth'
      refine ⟨⟨h1.2, ?_, by omega, by omega⟩, h2, h3, h4, ?_, h6, ?_⟩
      · rw [Function.update_self]; rfl
      · rw [← h5]
        simp only [Mode.val]
        rw [Function.update_self]
        rfl
      · intro c' hc'
        simp only [Mode.calls, List.mem_singleton] at hc'
        subst hc'
        refine ⟨hth.2.2.1, fun f hf => ?_⟩
        exact (hth.2.2.2.2.2.1.lt f hf).2
  · refine forall_update (P := fun _ th => ∀ c, waitsFor c th → ∀ i, (c, i) ∉ s.queue) ?_
      (fun t' _ => h.waits t')
    intro c hc
    exact (not_waits (by intro _ _ _ _ hh; cases hh) hc).elim
  · intro c hc
    rw [ho] at hc
    have hne : c ≠ s.ncalls := by rintro rfl; simp at hc
    simp only [onPmap]
    rw [Function.update_of_ne hne]
    exact h.closed c (by omega)

theorem inv_put (h : Inv progs s) {t : Fin N} {c cnt i : Nat} {k : Cont V E} {b : Below V E}
    (ht : s.thr t = .comp (.put c cnt i k) b) (hi : i < cnt) :
    Inv progs { s with queue := s.queue ++ [(c, i)],
                       thr := Function.update s.thr t (.comp (.put c cnt (i + 1) k) b) } := by
  have hth := h.threads t
  rw [ht] at hth
  have hfresh := h.items t ((c, i), .fresh) (by
    rw [ht]
    simp only [held, Mode.items, List.mem_append, List.mem_map]
    refine .inl ⟨i, ?_, rfl⟩
    simp only [List.mem_range'_1]
    omega)
  refine h.thread t _ _ ?_ ?_ ?_ ?_ ?_ ?_ ?_
  · intro c'; rw [ht]; rfl
  · intro c' i'
    rw [ht]
    simp only [held, Mode.items, cntItem_append, cntItem_map_put, List.count_append, List.count_cons,
      List.count_nil, beq_iff_eq, Prod.mk.injEq]
    split <;> split <;> split <;> omega
  · intro z hz
    refine h.items t z ?_
    rw [ht]
    simp only [held, Mode.items, List.mem_append, List.mem_map, List.mem_range'_1] at hz ⊢
    rcases hz with ⟨j, hj, rfl⟩ | hz
    · exact .inl ⟨j, by omega, rfl⟩
    · exact .inr hz
  · intro z hz
    simp only [List.mem_append, List.mem_singleton] at hz
    rcases hz with hz | rfl
    · exact h.queue z hz
    · exact hfresh
  · cases b with
    | client =>
      obtain ⟨h1, p', h2, h3, h4⟩ := hth
      exact ⟨⟨h1.1, h1.2.1, h1.2.2.1, hi⟩, p', h2, h3, by intro _ _ _ hh; cases hh⟩
    | job c' i' x rest =>
      obtain ⟨h1, h2⟩ := hth
      exact ⟨⟨h1.1, h1.2.1, h1.2.2.1, hi⟩, h2⟩
  · intro c' hc'
    exact (not_waits (by intro _ _ _ _ hh; cases hh) hc').elim
  · intro z hz
    simp only [List.mem_append, List.mem_singleton] at hz
    rcases hz with hz | rfl
    · exact .inl hz
    · right; rw [ht]; simp [owns, Mode.calls]

theorem inv_putEnd (h : Inv progs s) {t : Fin N} {c cnt i : Nat} {k : Cont V E} {b : Below V E}
    (ht : s.thr t = .comp (.put c cnt i k) b) (hi : ¬ i < cnt) :
    Inv progs { s with thr := Function.update s.thr t (afterPut c cnt k b) } := by
  have hth := h.threads t
  have hz : cnt - i = 0 := by omega
  rw [ht] at hth
  refine h.thread t _ s.queue ?_ ?_ ?_ h.queue ?_ ?_ (fun z hz => .inl hz)
  · intro c'; rw [ht]; cases b <;> rfl
  · intro c' i'; rw [ht]
    cases b <;> simp [held, Mode.items, afterPut, hz]
  · intro z hz'
    refine h.items t z ?_
    rw [ht]
    cases b <;> simpa [held, Mode.items, afterPut, hz] using hz'
  · cases b with
    | client =>
      obtain ⟨h1, p', h2, h3, h4⟩ := hth
      exact ⟨⟨h1.1, h1.2.1, h1.2.2.1⟩, p', h2, h3, by intro _ _ _ hh; cases hh⟩
    | job c' i' x rest =>
      obtain ⟨h1, h2⟩ := hth
      exact ⟨⟨h1.1, h1.2.1, h1.2.2.1⟩, h2⟩
  · intro c' hc'
    cases b with
    | client => exact hc'.elim
    | job _ _ _ _ => exact hc'.elim

theorem inv_drainWait (h : Inv progs s) {t : Fin N} {c cnt : Nat} {k : Cont V E} {b : Below V E}
    (ht : s.thr t = .comp (.drain c cnt k) b) (hq : s.queue = []) :
    Inv progs { s with thr := Function.update s.thr t (.comp (.wait c cnt [] k) b) } := by
  have hth := h.threads t
  rw [ht] at hth
  refine h.thread t _ s.queue ?_ ?_ ?_ h.queue ?_ ?_ (fun z hz => .inl hz)
  · intro c'; rw [ht]; rfl
  · intro c' i'; rw [ht]; rfl
  · intro z hz'
    refine h.items t z ?_
    rw [ht]
    simpa [held, Mode.items] using hz'
  · cases b with
    | client =>
      obtain ⟨h1, p', h2, h3, h4⟩ := hth
      exact absurd rfl (h4 c cnt k)
    | job c' i' x rest =>
      obtain ⟨h1, h2⟩ := hth
      exact ⟨h1, h2⟩
  · intro c' _ i'
    rw [hq]; simp

theorem mid_of_fresh {cl : Call V E} {i : Nat} (hi : i < cntOf cl) (h : PhaseOK cl i .fresh) :
    PhaseOK cl i (.mid (jobLo cl.g i)) := by
  refine ⟨le_rfl, (job_nonempty hi).le, fun y hy1 hy2 => by omega, h⟩

theorem inv_drainPop (h : Inv progs s) {t : Fin N} {c cnt : Nat} {k : Cont V E} {jc ji jx c' i' : Nat}
    {rest : List (Nest V E)} {q : List (Nat × Nat)}
    (ht : s.thr t = .comp (.drain c cnt k) (.job jc ji jx rest)) (hq : s.queue = (c', i') :: q) :
    Inv progs { s with
      queue := q,
      thr := Function.update s.thr t
        (.next c' i' (jobLo (s.calls c').g i') (⟨c, cnt, k, jc, ji, jx⟩ :: rest)) } := by
  have hth := h.threads t
  rw [ht] at hth
  have hmem : (c', i') ∈ s.queue := by rw [hq]; simp
  have hlt := h.lt_of_total (total_queue s hmem)
  refine h.thread t _ q ?_ ?_ ?_ ?_ ?_ ?_ (fun z hz => .inl (by rw [hq]; simp [hz]))
  · intro c''; rw [ht]; simp [owns, Mode.calls, Below.calls]
  · intro c'' i''
    rw [ht, hq]
    simp only [held, Mode.items, Below.items, List.map_cons, Nest.item, cntItem_append, cntItem_cons,
      cntItem_nil, List.count_cons, beq_iff_eq]
    omega
  · intro z hz
    simp only [held, List.mem_cons, List.map_cons] at hz
    rcases hz with rfl | rfl | hz
    · exact mid_of_fresh hlt.2 (h.queue _ hmem)
    · exact h.items t _ (by rw [ht]; simp [held, Mode.items, Below.items, Nest.item])
    · exact h.items t _ (by rw [ht]; simp [held, Mode.items, Below.items, hz])
  · intro z hz
    exact h.queue z (by rw [hq]; simp [hz])
  · obtain ⟨h1, h2, h3, h4, h5, h6, h7⟩ := hth
    have h8 := h7 c (by simp [Mode.calls])
    exact ⟨h2, hlt.1, h1.1, h1.2.1, h1.2.2, h8.1, h8.2, h4, h5, h6⟩
  · intro c'' hc''; exact hc''.elim

theorem inv_idlePop (h : Inv progs s) {t : Fin N} {c' i' : Nat} {q : List (Nat × Nat)}
    (ht : s.thr t = .idle) (hq : s.queue = (c', i') :: q) :
    Inv progs { s with
      queue := q,
      thr := Function.update s.thr t (.next c' i' (jobLo (s.calls c').g i') []) } := by
  have hth := h.threads t
  rw [ht] at hth
  have hmem : (c', i') ∈ s.queue := by rw [hq]; simp
  have hlt := h.lt_of_total (total_queue s hmem)
  refine h.thread t _ q ?_ ?_ ?_ ?_ ?_ ?_ (fun z hz => .inl (by rw [hq]; simp [hz]))
  · intro c''; rw [ht]; rfl
  · intro c'' i''
    rw [ht, hq]
    simp only [held, List.map_nil, cntItem_cons, cntItem_nil, List.count_cons, beq_iff_eq]
    omega
  · intro z hz
    simp only [held, List.mem_cons, List.map_nil, List.not_mem_nil, or_false] at hz
    subst hz
    exact mid_of_fresh hlt.2 (h.queue _ hmem)
  · intro z hz
    exact h.queue z (by rw [hq]; simp [hz])
  · exact ⟨hth, hlt.1, trivial⟩
  · intro c'' hc''; exact hc''.elim

theorem inv_nextRun (h : Inv progs s) {t : Fin N} {c i x : Nat} {rest : List (Nest V E)}
    (ht : s.thr t = .next c i x rest) (hx : x < jobHi (s.calls c).n (s.calls c).g i) :
    Inv progs { s with
      thr := Function.update s.thr t (.comp (.run ((s.calls c).xs x)) (.job c i x rest)) } := by
  have hth := h.threads t
  rw [ht] at hth
  obtain ⟨h1, h2, h3⟩ := hth
  refine h.thread t _ s.queue ?_ ?_ ?_ h.queue ?_ ?_ (fun z hz => .inl hz)
  · intro c'; rw [ht]; rfl
  · intro c' i'; rw [ht]; rfl
  · intro z hz'
    refine h.items t z ?_
    rw [ht]
    exact hz'
  · refine ⟨(h.calls c).noBase x (lt_of_lt_of_le hx (Nat.min_le_left _ _)), h1, h2, hx, rfl, h3, ?_⟩
    intro c' hc'
    simp [Mode.calls] at hc'
  · intro c' hc'; exact hc'.elim

theorem inv_nextEnd (h : Inv progs s) {t : Fin N} {c i x : Nat} {rest : List (Nest V E)}
    (ht : s.thr t = .next c i x rest) (hx : ¬ x < jobHi (s.calls c).n (s.calls c).g i) :
    Inv progs { s with thr := Function.update s.thr t (.finish c i rest) } := by
  have hth := h.threads t
  rw [ht] at hth
  refine h.thread t _ s.queue ?_ ?_ ?_ h.queue hth ?_ (fun z hz => .inl hz)
  · intro c'; rw [ht]; rfl
  · intro c' i'; rw [ht]; simp [held]
  · intro z hz'
    simp only [held, List.mem_cons] at hz'
    rcases hz' with rfl | hz'
    · obtain ⟨g1, g2, g3, g4⟩ := h.items t ((c, i), .mid x) (by rw [ht]; simp [held])
      intro y hy1 hy2
      simp only at *
      exact .inl (g3 y hy1 (by omega))
    · exact h.items t z (by rw [ht]; simp [held, hz'])
  · intro c' hc'; exact hc'.elim

theorem resume_held (rest : List (Nest V E)) : held (resume rest) = rest.map Nest.item := by
  cases rest <;> rfl

theorem resume_owns (rest : List (Nest V E)) : owns (resume rest) = rest.map (·.c) := by
  cases rest <;> rfl

theorem resume_ok {calls : Nat → Call V E} {nc : Nat} {rest : List (Nest V E)} (h : RestOK calls nc rest) :
    ThreadOK calls nc none (resume rest) := by
  cases rest with
  | nil => rfl
  | cons f rest =>
    obtain ⟨h1, h2, h3, h4, h5, h6, h7, h8⟩ := h
    refine ⟨⟨h1, h2, h3⟩, rfl, by omega, h6, h7, h8, ?_⟩
    intro c' hc'
    simp only [Mode.calls, List.mem_singleton] at hc'
    subst hc'
    exact ⟨h4, h5⟩

theorem inv_finish (h : Inv progs s) {t : Fin N} {c i : Nat} {rest : List (Nest V E)}
    (ht : s.thr t = .finish c i rest) :
    Inv progs { s with
      calls := Function.update s.calls c { s.calls c with out := (s.calls c).out ++ [i] },
      thr := Function.update s.thr t (resume rest) } := by
  have hth := h.threads t
  rw [ht] at hth
  have hkeep : ∀ i' ph, PhaseOK (s.calls c) i' ph →
      PhaseOK { s.calls c with out := (s.calls c).out ++ [i] } i' ph := by
    intro i' ph hp
    cases ph <;> exact hp
  have hdone := h.items t ((c, i), .done) (by rw [ht]; simp [held])
  refine h.call t _ c _ ?_ rfl rfl rfl ?_ ?_ ?_ (fun i' ph _ hp => hkeep i' ph hp) ?_ ?_ ?_ ?_
  · exact h.own_of_total (i := i) (total_held s (t := t) (z := ((c, i), .done))
        (by rw [ht]; simp [held]))
  · intro c'; rw [ht, resume_owns]; rfl
  · intro c' i'
    rw [ht, resume_held]
    simp only [held, cntItem_cons, List.count_append, List.count_cons, List.count_nil, beq_iff_eq,
      Prod.mk.injEq]
    by_cases hc : c' = c
    · subst hc; simp only [true_and, if_true]; omega
    · have hc' : ¬ c = c' := fun h => hc h.symm
      simp [hc, hc']
  · intro z hz
    rw [resume_held] at hz
    have hz' := h.items t z (by rw [ht]; simp [held, hz])
    by_cases hzc : z.1.1 = c
    · rw [hzc] at hz' ⊢; rw [Function.update_self]; exact hkeep _ _ hz'
    · rw [Function.update_of_ne hzc]; exact hz'
  · intro i' hi'
    simp only [List.mem_append, List.mem_singleton] at hi'
    rcases hi' with hi' | rfl
    · exact hkeep _ _ (h.out c i' hi')
    · exact hkeep _ _ hdone
  · exact ⟨(h.calls c).res, (h.calls c).exq, (h.calls c).noBase⟩
  · rw [hth.1]; exact resume_ok hth.2.2
  · intro c' hc'
    cases rest with
    | nil => exact hc'.elim
    | cons f rest => exact hc'.elim

theorem inv_waitPop (h : Inv progs s) {t : Fin N} {c cnt i : Nat} {got out : List Nat} {k : Cont V E}
    {b : Below V E} (ht : s.thr t = .comp (.wait c cnt got k) b) (hout : (s.calls c).out = i :: out) :
    Inv progs { s with
      calls := Function.update s.calls c { s.calls c with out := out },
      thr := Function.update s.thr t (.comp (.wait c cnt (got ++ [i]) k) b) } := by
  have hth := h.threads t
  rw [ht] at hth
  have hkeep : ∀ i' ph, PhaseOK (s.calls c) i' ph → PhaseOK { s.calls c with out := out } i' ph := by
    intro i' ph hp
    cases ph <;> exact hp
  refine h.call t _ c _ ?_ rfl rfl rfl ?_ ?_ ?_ (fun i' ph _ hp => hkeep i' ph hp) ?_ ?_ ?_ ?_
  · exact own_of_mem (t := t) (by rw [ht]; simp [owns, Mode.calls])
  · intro c'; rw [ht]; rfl
  · intro c' i'
    rw [ht, hout]
    simp only [held, Mode.items, cntItem_append, cntItem_map_done, List.count_append, List.count_cons,
      List.count_nil, beq_iff_eq]
    by_cases hc : c' = c
    · subst hc; simp only [if_true]; omega
    · have hc' : ¬ c = c' := fun h => hc h.symm
      simp [hc, hc']
  · intro z hz
    have hz' : PhaseOK (s.calls z.1.1) z.1.2 z.2 := by
      simp only [held, Mode.items, List.map_append, List.map_cons, List.map_nil, List.mem_append,
        List.mem_singleton, or_assoc] at hz
      rcases hz with hz | rfl | hz
      · exact h.items t z (by rw [ht]; simp only [held, Mode.items, List.mem_append]; exact .inl hz)
      · exact h.out c i (by rw [hout]; simp)
      · exact h.items t z (by rw [ht]; simp only [held, Mode.items, List.mem_append]; exact .inr hz)
    by_cases hzc : z.1.1 = c
    · rw [hzc] at hz' ⊢; rw [Function.update_self]; exact hkeep _ _ hz'
    · rw [Function.update_of_ne hzc]; exact hz'
  · intro i' hi'
    exact hkeep _ _ (h.out c i' (by rw [hout]; exact List.mem_cons_of_mem _ hi'))
  · exact ⟨(h.calls c).res, (h.calls c).exq, (h.calls c).noBase⟩
  · cases b with
    | client =>
      obtain ⟨h1, p', h2, h3, h4⟩ := hth
      exact ⟨h1, p', h2, h3, by intro _ _ _ hh; cases hh⟩
    | job c' i' x rest => exact hth
  · intro c' hc'
    refine h.waits t c' ?_
    rw [ht]
    cases b with
    | client => exact hc'.elim
    | job _ _ _ _ => exact hc'

/-- In `getMany` with all the jobs received, nothing of the call is left anywhere else. -/
theorem Inv.collected (h : Inv progs s) {t : Fin N} {c cnt : Nat} {got : List Nat} {k : Cont V E}
    {b : Below V E} (ht : s.thr t = .comp (.wait c cnt got k) b) (hlen : ¬ got.length < cnt) :
    (∀ i, i < cntOf (s.calls c) → i ∈ got) ∧
    (∀ i, s.queue.count (c, i) = 0) ∧ (∀ t', t' ≠ t → ∀ i, cntItem (held (s.thr t')) c i = 0) ∧
    (∀ i, cntItem b.items c i = 0) ∧ (s.calls c).out = [] := by
  have hth := h.threads t
  rw [ht] at hth
  have hcnt : cnt = cntOf (s.calls c) := by
    cases b with
    | client => exact hth.1.2.1
    | job _ _ _ _ => exact hth.1.2.1
  have hown1 : ownSum s c = 1 := by
    have h1 := own_of_mem (s := s) (t := t) (c := c) (by rw [ht]; simp [owns, Mode.calls])
    have h2 := h.own c
    omega
  have hmine : ∀ i, cntItem (held (s.thr t)) c i = got.count i + cntItem b.items c i := by
    intro i
    rw [ht]
    simp [held, Mode.items, cntItem_map_done]
  have hle : ∀ i, got.count i ≤ if i < cntOf (s.calls c) then 1 else 0 := by
    intro i
    have h1 := le_sum (fun th => cntItem (held th) c i) s.thr t
    have h2 := h.tot c i
    rw [hown1] at h2
    have h3 := hmine i
    unfold total at h2
    omega
  have hnd : got.Nodup := by
    rw [List.nodup_iff_count_le_one]
    intro i
    have := hle i
    split at this <;> omega
  have hsub : ∀ i ∈ got, i < cntOf (s.calls c) := by
    intro i hi
    have h1 : 0 < got.count i := List.count_pos_iff.2 hi
    have := hle i
    split at this
    · assumption
    · omega
  have hall : ∀ i, i < cntOf (s.calls c) → i ∈ got := by
    have h1 : got.toFinset ⊆ Finset.range (cntOf (s.calls c)) := by
      intro i hi
      rw [List.mem_toFinset] at hi
      exact Finset.mem_range.2 (hsub i hi)
    have h2 : got.toFinset = Finset.range (cntOf (s.calls c)) := by
      refine Finset.eq_of_subset_of_card_le h1 ?_
      rw [Finset.card_range, List.toFinset_card_of_nodup hnd]
      omega
    intro i hi
    rw [← List.mem_toFinset, h2]
    exact Finset.mem_range.2 hi
  have hone : ∀ i, got.count i = if i < cntOf (s.calls c) then 1 else 0 := by
    intro i
    have := hle i
    split
    · rename_i hi
      have h1 : 0 < got.count i := List.count_pos_iff.2 (hall i hi)
      rw [if_pos hi] at this
      omega
    · rename_i hi
      rw [if_neg hi] at this
      omega
  have hrest : ∀ i, total s c i = got.count i := by
    intro i; rw [h.tot, hown1, hone]
  refine ⟨hall, ?_, ?_, ?_, ?_⟩
  · intro i
    have h1 := le_sum (fun th => cntItem (held th) c i) s.thr t
    have h2 := hrest i
    have h3 := hmine i
    unfold total at h2
    omega
  · intro t' ht' i
    have h1 := two_le_sum (fun th => cntItem (held th) c i) s.thr ht'
    have h2 := hrest i
    have h3 := hmine i
    unfold total at h2
    omega
  · intro i
    have h1 := le_sum (fun th => cntItem (held th) c i) s.thr t
    have h2 := hrest i
    have h3 := hmine i
    unfold total at h2
    omega
  · rw [List.eq_nil_iff_forall_not_mem]
    intro i hi
    have h0 : 0 < (s.calls c).out.count i := List.count_pos_iff.2 hi
    have h1 := le_sum (fun th => cntItem (held th) c i) s.thr t
    have h2 := hrest i
    have h3 := hmine i
    unfold total at h2
    omega

theorem inv_collect_aux (h : Inv progs s) {t : Fin N} {c cnt : Nat} {got : List Nat} {k : Cont V E}
    {b : Below V E} (ht : s.thr t = .comp (.wait c cnt got k) b) (hlen : ¬ got.length < cnt)
    (r : Except E (List V)) (hr : callSeq (s.calls c) = r) (res : Nat → Option V)
    (hres : ∀ x, res x = none) :
    Inv progs { s with
      calls := Function.update s.calls c { s.calls c with res := res, exq := [] },
      thr := Function.update s.thr t (.comp (.run (k r)) b) } := by
  obtain ⟨_, hq, hoth, hb, hout⟩ := h.collected ht hlen
  have hth := h.threads t
  have hsame : Same s.calls (Function.update s.calls c { s.calls c with res := res, exq := [] })
      s.ncalls := by
    intro c' _
    by_cases hc : c' = c
    · subst hc; rw [Function.update_self]; exact ⟨rfl, rfl, rfl⟩
    · rw [Function.update_of_ne hc]; exact ⟨rfl, rfl, rfl⟩
  have ho : ∀ c', ownSum { s with
      calls := Function.update s.calls c { s.calls c with res := res, exq := [] },
      thr := Function.update s.thr t (.comp (.run (k r)) b) } c' + (if c' = c then 1 else 0) = ownSum s c' := by
    intro c'
    have h1 := sum_update (fun th => (owns th).count c') s.thr t (.comp (.run (k r)) b)
    rw [ht] at h1
    simp only [owns_cnt, Mode.calls, List.count_nil, List.count_cons, beq_iff_eq] at h1
    unfold ownSum
    simp only
    by_cases hc : c' = c
    · subst hc
      simp only [if_true] at h1 ⊢
      omega
    · have hc' : ¬ c = c' := fun h => hc h.symm
      simp only [hc, hc', if_false] at h1 ⊢
      omega
  have hoc := ho c
  have hown := h.own c
  rw [if_pos rfl] at hoc
  refine ⟨?_, ?_, ?_, ?_, ?_, ?_, ?_, ?_, ?_⟩
  · intro c'
    have h1 := ho c'
    have h2 := h.own c'
    omega
  · intro c' i
    have h1 := sum_update (fun th => cntItem (held th) c' i) s.thr t (.comp (.run (k r)) b)
    rw [ht] at h1
    simp only [held_cnt, Mode.items, cntItem_nil, cntItem_map_done] at h1
    by_cases hc : c' = c
    · subst hc
      have h2 : ownSum { s with
        calls := Function.update s.calls c' { s.calls c' with res := res, exq := [] },
        thr := Function.update s.thr t (.comp (.run (k r)) b) } c' = 0 := by omega
      rw [h2]
      simp only [ite_self]
      unfold total
      simp only
      rw [hq i, Function.update_self, hout]
      have h3 : ∑ t', cntItem (held (Function.update s.thr t (.comp (.run (k r)) b) t')) c' i = 0 := by
        refine Finset.sum_eq_zero fun t' _ => ?_
        by_cases htt : t' = t
        · subst htt
          rw [Function.update_self]
          simp [held, Mode.items, hb i]
        · rw [Function.update_of_ne htt]; exact hoth t' htt i
      rw [h3]
      rfl
    · have h2 := h.tot c' i
      have h3 := ho c'
      have hc' : ¬ c = c' := fun h => hc h.symm
      simp only [hc, hc', if_false, Nat.add_zero, Nat.zero_add] at h1 h3
      rw [h3]
      simp only [Function.update_of_ne hc]
      rw [← h2]
      unfold total
      simp only
      rw [Function.update_of_ne hc]
      omega
  · refine forall_update (P := fun _ th => ∀ z ∈ held th,
      PhaseOK (Function.update s.calls c { s.calls c with res := res, exq := [] } z.1.1) z.1.2 z.2) ?_ ?_
    · intro z hz
      simp only [held, Mode.items, List.nil_append] at hz
      have hne : z.1.1 ≠ c := by
        intro he
        have h1 := cntItem_pos hz
        rw [he, hb] at h1
        omega
      rw [Function.update_of_ne hne]
      exact h.items t z (by rw [ht]; simp [held, hz])
    · intro t' ht' z hz
      have hne : z.1.1 ≠ c := by
        intro he
        have h1 := cntItem_pos hz
        rw [he, hoth t' ht'] at h1
        omega
      rw [Function.update_of_ne hne]
      exact h.items t' z hz
  · intro z hz
    have hne : z.1 ≠ c := by
      intro he
      have h1 : 0 < s.queue.count (z.1, z.2) := List.count_pos_iff.2 hz
      rw [he, hq] at h1
      omega
    simp only
    rw [Function.update_of_ne hne]
    exact h.queue z hz
  · intro c' i hi
    simp only at hi ⊢
    by_cases hc : c' = c
    · subst hc
      rw [Function.update_self] at hi
      simp only [hout] at hi
      simp at hi
    · rw [Function.update_of_ne hc] at hi ⊢; exact h.out c' i hi
  · intro c'
    simp only
    by_cases hc : c' = c
    · subst hc
      rw [Function.update_self]
      refine ⟨fun x v hx => ?_, fun x e hx => by simp at hx, (h.calls c').noBase⟩
      simp only [hres] at hx
      exact absurd hx (by simp)
    · rw [Function.update_of_ne hc]; exact h.calls c'
  · refine forall_update (P := fun t th => ThreadOK (Function.update s.calls c
      { s.calls c with res := res, exq := [] }) s.ncalls (progs t) th) ?_
      (fun t' _ => (h.threads t').same hsame le_rfl)
    refine ThreadOK.same hsame le_rfl ?_
    rw [ht] at hth
    cases b with
    | client =>
      obtain ⟨h1, p', h2, h3, h4⟩ := hth
      refine ⟨h1.1 r, p', h2, ?_, by intro _ _ _ hh; cases hh⟩
      rw [← h3, ← hr]; rfl
    | job c' i' x rest =>
      obtain ⟨h1, h2, h3, h4, h5, h6, h7⟩ := hth
      refine ⟨h1.1 r, h2, h3, h4, ?_, h6, by intro c'' hc''; simp [Mode.calls] at hc''⟩
      rw [← h5, ← hr]; rfl
  · refine forall_update (P := fun _ th => ∀ c, waitsFor c th → ∀ i, (c, i) ∉ s.queue) ?_
      (fun t' _ => h.waits t')
    intro c' hc'; exact hc'.elim
  · intro c' hc'
    simp only
    by_cases hc : c' = c
    · subst hc; rw [Function.update_self]; exact ⟨hres, rfl⟩
    · rw [Function.update_of_ne hc]
      have := ho c'
      rw [if_neg hc] at this
      exact h.closed c' (by omega)

theorem collect_eq (h : Inv progs s) {t : Fin N} {c cnt : Nat} {got : List Nat} {k : Cont V E}
    {b : Below V E} (ht : s.thr t = .comp (.wait c cnt got k) b) (hlen : ¬ got.length < cnt) :
    ∃ res : Nat → Option V, (∀ x, res x = none) ∧ collect s t c k b = { s with
      calls := Function.update s.calls c { s.calls c with res := res, exq := [] },
      thr := Function.update s.thr t (.comp (.run (k (callSeq (s.calls c)))) b) } := by
  have hall := (h.collected ht hlen).1
  have hdone : ∀ i, i < cntOf (s.calls c) → PhaseOK (s.calls c) i .done := by
    intro i hi
    refine h.items t ((c, i), .done) ?_
    rw [ht]
    simp only [held, Mode.items, List.mem_append, List.mem_map]
    exact .inl ⟨i, hall i hi, rfl⟩
  rcases collect_spec (h.calls c) hdone with ⟨e, h1, h2⟩ | ⟨h1, vs, h2, h3⟩
  · refine ⟨_, destroyAll_none (h.calls c), ?_⟩
    simp only [collect, h1, h2]
  · refine ⟨fun _ => none, fun _ => rfl, ?_⟩
    simp only [collect, h1, h2, h3]

theorem inv_collect (h : Inv progs s) {t : Fin N} {c cnt : Nat} {got : List Nat} {k : Cont V E}
    {b : Below V E} (ht : s.thr t = .comp (.wait c cnt got k) b) (hlen : ¬ got.length < cnt) :
    Inv progs (collect s t c k b) := by
  obtain ⟨res, h1, h2⟩ := collect_eq h ht hlen
  rw [h2]
  exact inv_collect_aux h ht hlen _ rfl res h1

theorem inv_step (h : Inv progs s) {t : Fin N} {s' : State N V E} (hs : step s t = some s') :
    Inv progs s' := by
  unfold step at hs
  have hth := h.threads t
  split at hs
  · rename_i m b ht
    cases m with
    | run p =>
      cases p with
      | ret v =>
        simp only [stepMode, Option.some.injEq] at hs; subst hs; exact inv_return h ht
      | exc e =>
        simp only [stepMode, Option.some.injEq] at hs; subst hs; exact inv_raise h ht
      | base e =>
        rw [ht] at hth
        cases b with
        | client => exact hth.1.elim
        | job _ _ _ _ => exact hth.1.elim
      | pmap n g xs k =>
        simp only [stepMode, Option.some.injEq] at hs; subst hs; exact inv_pmap h ht
    | put c cnt i k =>
      simp only [stepMode] at hs
      split at hs
      · rename_i hi; simp only [Option.some.injEq] at hs; subst hs; exact inv_put h ht hi
      · rename_i hi; simp only [Option.some.injEq] at hs; subst hs; exact inv_putEnd h ht hi
    | drain c cnt k =>
      simp only [stepMode] at hs
      split at hs
      · rename_i hq; simp only [Option.some.injEq] at hs; subst hs; exact inv_drainWait h ht hq
      · rename_i hq; simp only [Option.some.injEq] at hs; subst hs; exact inv_drainPop h ht hq
      · simp at hs
    | wait c cnt got k =>
      simp only [stepMode] at hs
      split at hs
      · split at hs
        · simp at hs
        · rename_i hq; simp only [Option.some.injEq] at hs; subst hs; exact inv_waitPop h ht hq
      · rename_i hl; simp only [Option.some.injEq] at hs; subst hs; exact inv_collect h ht hl
  · rename_i c i x rest ht
    split at hs
    · rename_i hx; simp only [Option.some.injEq] at hs; subst hs; exact inv_nextRun h ht hx
    · rename_i hx; simp only [Option.some.injEq] at hs; subst hs; exact inv_nextEnd h ht hx
  · rename_i c i rest ht
    simp only [Option.some.injEq] at hs; subst hs; exact inv_finish h ht
  · rename_i ht
    split at hs
    · simp at hs
    · rename_i hq; simp only [Option.some.injEq] at hs; subst hs; exact inv_idlePop h ht hq
  · simp at hs
  · simp at hs
  · simp at hs

theorem inv_init [Inhabited V] (progs : Fin N → Option (Comp V E))
    (hp : ∀ t p, progs t = some p → NoBase p) : Inv progs (init progs) := by
  have hheld : ∀ t, held ((init progs).thr t) = [] := by
    intro t
    simp only [init]
    cases progs t <;> rfl
  have howns : ∀ t, owns ((init progs).thr t) = [] := by
    intro t
    simp only [init]
    cases progs t <;> rfl
  have ho : ∀ c, ownSum (init progs) c = 0 := by
    intro c
    refine Finset.sum_eq_zero fun t _ => ?_
    rw [howns]; rfl
  refine ⟨?_, ?_, ?_, ?_, ?_, ?_, ?_, ?_, ?_⟩
  · intro c; rw [ho]; omega
  · intro c i
    rw [ho, ite_self]
    unfold total
    have : ∑ t, cntItem (held ((init progs).thr t)) c i = 0 :=
      Finset.sum_eq_zero fun t _ => by rw [hheld]; rfl
    rw [this]
    rfl
  · intro t z hz; rw [hheld] at hz; simp at hz
  · intro z hz; simp [init] at hz
  · intro c i hi; simp [init] at hi
  · intro c
    refine ⟨fun x v hx => by simp [init] at hx, fun x e hx => by simp [init] at hx, fun x _ => ?_⟩
    exact trivial
  · intro t
    simp only [init]
    cases h : progs t with
    | none => rfl
    | some p => exact ⟨hp t p h, p, rfl, rfl, by intro _ _ _ hh; cases hh⟩
  · intro t c hc i hi
    simp [init] at hi
  · intro c _; exact ⟨fun _ => rfl, rfl⟩

theorem inv_run {s' : State N V E} : ∀ {ts : List (Fin N)} {s : State N V E}, Inv progs s →
    run s ts = some s' → Inv progs s'
  | [], s, h, hr => by simp only [run, Option.some.injEq] at hr; subst hr; exact h
  | t :: ts, s, h, hr => by
    simp only [run] at hr
    split at hr
    · simp at hr
    · rename_i s1 h1; exact inv_run (inv_step h h1) hr

end Verif.Pmap
