import Verif.Mro.DispatchProofs
/-
The invariant is kept by compiling, by threads and by class statements.
-/
namespace Verif.Mro.Dispatch

/-! ### Compiling -/

theorem lookup_swap {l : List (Sig × Nat)} (hp : Pos l) {k : Nat} {sig : Sig}
    (h : l[k]? = some (sig, k)) : lookup (l.map (fun p => (p.2, p.1))) k = some sig := by
  cases e : lookup (l.map (fun p => (p.2, p.1))) k with
  | none =>
    exfalso
    apply lookup_none e
    rw [List.map_map]
    exact List.mem_map.mpr ⟨(sig, k), List.mem_of_getElem? h, rfl⟩
  | some sig' =>
    obtain ⟨q, hq, he⟩ := List.mem_map.mp (lookup_mem e)
    simp only [Prod.mk.injEq] at he
    obtain ⟨j, hj⟩ := List.mem_iff_getElem?.mp hq
    have := hp j q hj
    have hjk : j = k := by rw [← this, he.1]
    rw [hjk, h] at hj
    cases hj
    rw [← he.2]

theorem beginCompile_spec {s : State} (hv : Inv s) {i c k : Nat} {sig : Sig} (hval : Valid s c i k sig) :
    Inv (beginCompile s i c k) ∧
    (s.compiling = none → (i, c, k) ∉ s.installed →
      beginCompile s i c k = { s with compiling := some ⟨i, c, k, sig⟩ }) := by
  unfold beginCompile
  by_cases h1 : s.compiling.isSome
  · rw [if_pos h1]
    refine ⟨hv, ?_⟩
    intro h; rw [h] at h1; cases h1
  · rw [if_neg h1]
    by_cases h2 : s.installed.contains (i, c, k) = true
    · rw [if_pos h2]
      refine ⟨hv, ?_⟩
      intro _ h
      exact absurd (List.contains_iff_mem.mp h2) h
    · rw [if_neg h2]
      obtain ⟨t, ht, hok⟩ := hv.mem.tab c i hval.1
      rw [ht]
      simp only
      have hl : lookup t.defs k = some sig := by
        rw [hok.defs]
        have := hval.2
        rw [idx_ok ht] at this
        exact lookup_swap hok.pos this
      rw [hl]
      refine ⟨?_, fun _ _ => rfl⟩
      refine { hv with job := ?_, mem := ⟨hv.mem.tab, hv.mem.heap⟩ }
      intro j hj
      simp only [Option.some.injEq] at hj
      subst hj
      exact ⟨hval, fun h => h2 (List.contains_iff_mem.mpr h)⟩

theorem finishCompile_spec {s : State} (hv : Inv s) {j : Job} (hj : s.compiling = some j) (v : Nat) :
    ∃ s', finishCompile s v = s' ∧ Inv s' ∧ Grow s s' ∧ s'.threads = s.threads ∧
      ∃ t, tableAs s' j.impl j.iface = .ok t ∧
        read s'.heap t.arr j.slot = some (.fn ⟨j.iface, j.impl, j.sig, v⟩) := by
  obtain ⟨hval, hnot⟩ := hv.job j hj
  obtain ⟨i, c, k, sig⟩ := j
  simp only at hval hnot ⊢
  obtain ⟨t, ht, hok⟩ := hv.mem.tab c i hval.1
  have hk : k < t.used := by
    have := (List.getElem?_eq_some_iff.mp hval.2).1
    rw [idx_ok ht] at this
    rw [hok.used]; exact this
  have hnull := (hok.empty k hk).mpr hnot
  obtain ⟨cells, hb, hlen⟩ := hok.block
  have hkl : k < (⟨(c, i), cells⟩ : Block).cells.length := by
    change k < cells.length; have := hok.le; omega
  have hcell : cells[k]? = some .null := by
    unfold read at hnull; rw [hb] at hnull; exact hnull
  -- the new memory and table
  let p : Ptr := ⟨i, c, sig, v⟩
  let h' := s.heap.set t.arr { (⟨(c, i), cells⟩ : Block) with cells := cells.set k (.fn p) }
  let t' : Table := { t with needing := t.needing.filter (· ≠ k) }
  let s1 := setTable { s with heap := h' } c i t'
  let s2 : State := { s1 with compiling := none, installed := (i, c, k) :: s.installed }
  have hrun : finishCompile s v = s2 := by
    have hd : define s.heap t k p = .ok (h', t') := by
      unfold define
      rw [hnull]
      simp only
      rw [if_neg (by simp), if_pos (List.contains_iff_mem.mpr (hok.needing k hk hnot)),
        write_ok hb hkl]
    have hd' : define s.heap t k ⟨i, c, sig, v⟩ = .ok (h', t') := hd
    unfold finishCompile
    split
    · rename_i e; rw [hj] at e; cases e
    · rename_i j' e
      rw [hj] at e
      cases e
      simp only
      rw [ht]
      simp only
      rw [hd']
  have hsame : Same s s1 := Same.setTable s h' c i t'
  have hheap : s2.heap = h' := setTable_heap { s with heap := h' } c i t'
  have hw : s2.world = s.world := hsame.world
  have htab : ∀ c' i', tableAs s2 c' i' = if c' = c ∧ i' = i then .ok t' else tableAs s c' i' := by
    intro c' i'
    have e1 : tableAs s2 c' i' = tableAs s1 c' i' := tableAs_congr rfl rfl c' i'
    rw [e1, tableAs_setTable (s := { s with heap := h' }) hval.1 t' c' i']
    rw [tableAs_congr (s := s) (s' := { s with heap := h' }) rfl rfl]
  have hidx : ∀ c' i', idx s2 c' i' = idx s c' i' := by
    intro c' i'
    unfold idx
    rw [htab]
    by_cases e : c' = c ∧ i' = i
    · rw [if_pos e, e.1, e.2, ht]
    · rw [if_neg e]
  have hups : ∀ c' i', ups s2 c' i' = ups s c' i' := by
    intro c' i'
    unfold Dispatch.ups
    rw [htab]
    by_cases e : c' = c ∧ i' = i
    · rw [if_pos e, e.1, e.2, ht]
    · rw [if_neg e]
  have hvalid : ∀ c' i' k' sg, Valid s c' i' k' sg ↔ Valid s2 c' i' k' sg := by
    intro c' i' k' sg
    unfold Valid
    rw [hw, hidx]
  have hgrow : HGrow s.heap h' := by
    refine HGrow.set hb hkl (by simp) ?_
    intro q hq
    rw [show (⟨(c, i), cells⟩ : Block).cells = cells from rfl, hcell] at hq
    cases hq
  have hread : ∀ a k', read h' a k' = if a = t.arr ∧ k' = k then some (.fn p) else read s.heap a k' :=
    fun a k' => read_set hb hkl a k'
  have hg : Grow s s2 := by
    refine ⟨fun c' i' k' sg h => (hvalid c' i' k' sg).mp h, by rw [hheap]; exact hgrow, ?_⟩
    intro c' i' t0 k' q sg hv0 h0 hr
    rw [htab, hheap]
    by_cases e : c' = c ∧ i' = i
    · rw [e.1, e.2, ht] at h0
      cases h0
      refine ⟨t', by rw [if_pos e], ?_⟩
      change read h' t.arr k' = _
      rw [hread]
      by_cases e' : k' = k
      · rw [e', hnull] at hr; cases hr
      · rw [if_neg (fun h => e' h.2)]; exact hr
    · rw [if_neg e]
      refine ⟨t0, h0, ?_⟩
      obtain ⟨x', hx, _, hx'⟩ := hgrow.read hr (by simp)
      rw [hx, hx' q rfl]
  refine ⟨s2, hrun, ?_, hg, hsame.threads, t', ?_, ?_⟩
  · refine { world := ?_, mem := ⟨?_, ?_⟩, agree := ?_, impls := ?_, ups := ?_, err := ?_, filled := ?_,
             job := ?_, delayed := ?_, threads := ?_ }
    · rw [hw]; exact hv.world
    · intro c' i' hc
      rw [hw] at hc
      rw [htab, hheap]
      change ∃ t_1, _ ∧ TOk h' ((i, c, k) :: s.installed) c' i' t_1
      by_cases e : c' = c ∧ i' = i
      · obtain ⟨rfl, rfl⟩ := e
        refine ⟨t', by simp, ?_⟩
        refine { iface := hok.iface, impl := hok.impl, pos := hok.pos, nodup := hok.nodup,
                 defs := hok.defs, used := hok.used, le := hok.le, block := ?_, cell := ?_, empty := ?_,
                 needing := ?_, filled := ?_ }
        · refine ⟨cells.set k (.fn p), ?_, by rw [List.length_set]; exact hlen⟩
          change h'[t.arr]? = _
          rw [set_get hb, if_pos rfl]
        · intro k' hk'
          change read h' t.arr k' ≠ _
          rw [hread]
          split
          · simp
          · exact hok.cell k' hk'
        · intro k' hk'
          change read h' t.arr k' = _ ↔ _
          rw [hread]
          by_cases e' : k' = k
          · rw [if_pos ⟨rfl, e'⟩, e']; simp
          · rw [if_neg (fun h => e' h.2), hok.empty k' hk', List.mem_cons]
            simp [e']
        · intro k' hk' hn
          change k' ∈ t.needing.filter (· ≠ k)
          rw [List.mem_cons, not_or] at hn
          rw [List.mem_filter]
          refine ⟨hok.needing k' hk' hn.2, ?_⟩
          have : k' ≠ k := fun h => hn.1 (by rw [h])
          simpa using this
        · intro k' hin
          rcases List.mem_cons.mp hin with h | h
          · simp only [Prod.mk.injEq] at h
            rw [h.2.2]; exact hk
          · exact hok.filled k' h
      · rw [if_neg e]
        obtain ⟨t0, h0, hok0⟩ := hv.mem.tab c' i' hc
        have hok0' : TOk h' s.installed c' i' t0 := by
          refine hok0.other ?_
          intro a b ha ho
          rw [set_get hb]
          by_cases e' : a = t.arr
          · rw [e', hb] at ha
            cases ha
            simp only [Prod.mk.injEq] at ho
            exact absurd ⟨ho.1.symm, ho.2.symm⟩ e
          · rw [if_neg e']; exact ha
        have hmem : ∀ k', (i', c', k') ∈ (i, c, k) :: s.installed ↔ (i', c', k') ∈ s.installed := by
          intro k'
          rw [List.mem_cons]
          constructor
          · rintro (h | h)
            · simp only [Prod.mk.injEq] at h
              exact absurd ⟨h.2.1, h.1⟩ e
            · exact h
          · exact Or.inr
        exact ⟨t0, h0, { hok0' with
          empty := fun k' hk' => by rw [hmem]; exact hok0'.empty k' hk'
          needing := fun k' hk' hn => hok0'.needing k' hk' (fun h => hn ((hmem k').mpr h))
          filled := fun k' h => hok0'.filled k' ((hmem k').mp h) }⟩
    · intro a b ha k' q hq
      rw [hheap] at ha
      rw [set_get hb] at ha
      by_cases e : a = t.arr
      · rw [if_pos e] at ha
        cases ha
        change (cells.set k (.fn p))[k']? = some (.fn q) at hq
        change q.impl = c ∧ q.iface = i ∧ (i, c, k') ∈ (i, c, k) :: s.installed ∧ Valid s2 c i k' q.sig
        rw [List.getElem?_set] at hq
        by_cases e' : k = k'
        · rw [if_pos e', if_pos (show k < cells.length from hkl)] at hq
          · cases hq
            refine ⟨rfl, rfl, ?_, ?_⟩
            · rw [← e']; exact List.mem_cons_self
            · rw [← hvalid, ← e']
              exact hval
        · rw [if_neg e'] at hq
          obtain ⟨h1, h2, h4, h3⟩ := hv.mem.heap t.arr _ hb k' q hq
          exact ⟨h1, h2, List.mem_cons_of_mem _ h4, (hvalid _ _ _ _).mp h3⟩
      · rw [if_neg e] at ha
        obtain ⟨h1, h2, h4, h3⟩ := hv.mem.heap a b ha k' q hq
        exact ⟨h1, h2, List.mem_cons_of_mem _ h4, (hvalid _ _ _ _).mp h3⟩
    · intro c' i' hc
      rw [hw] at hc
      rw [hidx, hidx]
      exact hv.agree c' i' hc
    · intro i' c'
      change c' ∈ s1.implementors i' ↔ _
      rw [hsame.implementors, hw]; exact hv.impls i' c'
    · intro c' i' hc
      rw [hw] at hc ⊢
      rw [hups]; exact hv.ups c' i' hc
    · exact hsame.err.trans hv.err
    · intro i' c' k' h
      rw [hw]
      rcases List.mem_cons.mp h with h | h
      · simp only [Prod.mk.injEq] at h
        rw [h.1, h.2.1]; exact hval.1
      · exact hv.filled i' c' k' h
    · intro j' h; cases h
    · intro i' c' k' h
      change (i', c', k') ∈ s1.delayed at h
      rw [hsame.delayed] at h
      obtain ⟨sg, h1⟩ := hv.delayed i' c' k' h
      exact ⟨sg, (hvalid _ _ _ _).mp h1⟩
    · intro th h
      change th ∈ s1.threads at h
      rw [hsame.threads] at h
      exact (hv.threads th h).grow hg
  · rw [htab, if_pos ⟨rfl, rfl⟩]
  · rw [hheap]
    change read h' t.arr k = _
    rw [hread, if_pos ⟨rfl, rfl⟩]

/-! ### Threads -/

theorem Valid.table {s : State} (hv : Inv s) {c i k : Nat} {sig : Sig} (h : Valid s c i k sig) :
    ∃ t, tableAs s c i = .ok t ∧ TOk s.heap s.installed c i t ∧ k < t.used := by
  obtain ⟨t, ht, hok⟩ := hv.mem.tab c i h.1
  refine ⟨t, ht, hok, ?_⟩
  have := (List.getElem?_eq_some_iff.mp h.2).1
  rw [idx_ok ht] at this
  rw [hok.used]; exact this

theorem right_of_owner {s : State} (hv : Inv s) {th : Thread} {a : Nat} {b : Block} {p : Ptr}
    (hval : Valid s th.impl th.iface th.slot th.sig) (hb : s.heap[a]? = some b)
    (ho : b.owner = (th.impl, th.iface)) (hr : b.cells[th.slot]? = some (.fn p)) : Right th p := by
  obtain ⟨h1, h2, _, h3, h4⟩ := hv.mem.heap a b hb th.slot p hr
  rw [ho] at h1 h2 h4
  refine ⟨h2, h1, ?_⟩
  have h5 := hval.2
  change (idx s th.impl th.iface)[th.slot]? = _ at h4
  rw [h5] at h4
  simp only [Option.some.injEq, Prod.mk.injEq] at h4
  exact h4.1.symm

theorem right_of_read {s : State} (hv : Inv s) {th : Thread} {t : Table} {p : Ptr}
    (hval : Valid s th.impl th.iface th.slot th.sig) (ht : tableAs s th.impl th.iface = .ok t)
    (hr : read s.heap t.arr th.slot = some (.fn p)) : Right th p := by
  obtain ⟨t', ht', hok, _⟩ := hval.table hv
  rw [ht] at ht'
  cases ht'
  obtain ⟨cells, hb, _⟩ := hok.block
  unfold read at hr
  rw [hb] at hr
  exact right_of_owner hv hval hb rfl hr

theorem advance_ok {s : State} (hv : Inv s) {th : Thread} (h : ThreadOk s th) :
    ThreadOk s { th with pc := advance s th } := by
  obtain ⟨hval, hp⟩ := h
  refine ⟨hval, ?_⟩
  obtain ⟨t, ht, hok, hk⟩ := hval.table hv
  simp only
  unfold advance
  cases e : th.pc with
  | load =>
    simp only
    rw [ht]
    simp only
    obtain ⟨cells, hb, _⟩ := hok.block
    have hr : read s.heap t.arr th.slot = cells[th.slot]? := by unfold read; rw [hb]
    rcases hok.read_some hk with h1 | ⟨p, h1⟩ <;>
      exact ⟨_, _, hb, rfl, hr.symm.trans h1, by simp⟩
  | test a =>
    rw [e] at hp
    obtain ⟨b, x, h0, ho, h1, h2⟩ := hp
    simp only
    have hr : read s.heap a th.slot = some x := by unfold read; rw [h0]; exact h1
    rw [hr]
    cases x with
    | junk => exact absurd rfl h2
    | null => trivial
    | fn p =>
      simp only
      -- a function in an old array is in the current one
      obtain ⟨_, _, hin, _⟩ := hv.mem.heap a b h0 th.slot p h1
      rw [ho] at hin
      rcases hok.read_some hk with h3 | ⟨q, h3⟩
      · exact absurd hin ((hok.empty th.slot hk).mp h3)
      · exact Or.inr ⟨t, q, ht, h3⟩
  | empty =>
    simp only
    unfold current
    rw [ht]
    simp only
    rcases hok.read_some hk with h1 | ⟨p, h1⟩
    · rw [h1]
      simp only
      by_cases hu : th.unwinding = true
      · rw [if_pos hu]; exact Or.inl hu
      · rw [if_neg hu]; trivial
    · rw [h1]
      exact Or.inr ⟨t, p, rfl, h1⟩
  | reload =>
    rw [e] at hp
    simp only
    rcases hp with hu | ⟨tab, p, h1, h2⟩
    · rw [ht]
      obtain ⟨cells, hb, _⟩ := hok.block
      exact Or.inl ⟨hu, _, hb, rfl⟩
    · rw [h1]
      exact Or.inr ⟨p, h2, right_of_read hv hval h1 h2⟩
  | jump a =>
    rw [e] at hp
    simp only
    rcases hp with ⟨hu, b, h0, ho⟩ | ⟨p, h1, h2⟩
    · unfold read
      rw [h0]
      simp only
      cases hx : b.cells[th.slot]? with
      | none => exact hu
      | some x =>
        cases x with
        | junk => exact hu
        | null => exact hu
        | fn p => exact right_of_owner hv hval h0 ho hx
    · rw [h1]
      exact h2
  | called p => rw [e] at hp; exact hp
  | raised => trivial
  | crashed => rw [e] at hp; exact hp

end Verif.Mro.Dispatch
