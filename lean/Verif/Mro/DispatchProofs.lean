import Verif.Mro.DispatchTable
/-
The invariant of the dispatch tables of all classes and of the threads that use them.
-/
namespace Verif.Mro.Dispatch

/-! ### Tables of a state -/

theorem tableAs_ok {s : State} {c i : Nat} : (∃ t, tableAs s c i = .ok t) ↔ i ∈ s.world.mroOf c := by
  unfold tableAs
  constructor
  · rintro ⟨t, h⟩
    cases e : mroIndex s.world c i with
    | none => rw [e] at h; cases h
    | some k => exact List.mem_of_getElem? (indexOf_some e)
  · intro h
    obtain ⟨k, hk⟩ := indexOf_mem h
    exact ⟨s.tables c k, by unfold mroIndex; rw [hk]⟩

theorem tableAs_congr {s s' : State} (hw : s'.world = s.world) (ht : s'.tables = s.tables) (c i : Nat) :
    tableAs s' c i = tableAs s c i := by
  unfold tableAs; rw [hw, ht]

theorem setTable_world (s : State) (c i : Nat) (t : Table) : (setTable s c i t).world = s.world := by
  unfold setTable; split <;> rfl

theorem setTable_heap (s : State) (c i : Nat) (t : Table) : (setTable s c i t).heap = s.heap := by
  unfold setTable; split <;> rfl

theorem tableAs_setTable {s : State} {c i : Nat} (hi : i ∈ s.world.mroOf c) (t : Table) (c' i' : Nat) :
    tableAs (setTable s c i t) c' i' = if c' = c ∧ i' = i then .ok t else tableAs s c' i' := by
  obtain ⟨k, hk⟩ := indexOf_mem hi
  have hk' : mroIndex s.world c i = some k := hk
  unfold setTable
  rw [hk']
  unfold tableAs
  simp only
  by_cases e : c' = c ∧ i' = i
  · obtain ⟨rfl, rfl⟩ := e
    rw [hk']
    simp
  · rw [if_neg e]
    cases h : mroIndex s.world c' i' with
    | none => rfl
    | some k' =>
      simp only
      by_cases e' : c' = c ∧ k' = k
      · exfalso
        obtain ⟨rfl, rfl⟩ := e'
        exact e ⟨rfl, mroIndex_inj h hk'⟩
      · rw [if_neg e']

/-- The parts of a state that changing tables and memory leaves alone. -/
structure Same (s s' : State) : Prop where
  world : s'.world = s.world
  implementors : s'.implementors = s.implementors
  compiling : s'.compiling = s.compiling
  installed : s'.installed = s.installed
  delayed : s'.delayed = s.delayed
  threads : s'.threads = s.threads
  err : s'.err = s.err

theorem Same.refl (s : State) : Same s s := ⟨rfl, rfl, rfl, rfl, rfl, rfl, rfl⟩

theorem Same.trans {s s' s'' : State} (h : Same s s') (h' : Same s' s'') : Same s s'' :=
  ⟨h'.world.trans h.world, h'.implementors.trans h.implementors, h'.compiling.trans h.compiling,
    h'.installed.trans h.installed, h'.delayed.trans h.delayed, h'.threads.trans h.threads,
    h'.err.trans h.err⟩

theorem Same.setTable (s : State) (h : List Block) (c i : Nat) (t : Table) :
    Same s (setTable { s with heap := h } c i t) := by
  unfold Dispatch.setTable
  split <;> exact ⟨rfl, rfl, rfl, rfl, rfl, rfl, rfl⟩

/-- The signatures in the table of `c` as `i`. -/
def idx (s : State) (c i : Nat) : List (Sig × Nat) :=
  match tableAs s c i with
  | .ok t => t.indices
  | .error _ => []

/-- Its table of casts. -/
def ups (s : State) (c i : Nat) : List Nat :=
  match tableAs s c i with
  | .ok t => t.upcasts
  | .error _ => []

theorem idx_ok {s : State} {c i : Nat} {t : Table} (h : tableAs s c i = .ok t) :
    idx s c i = t.indices := by unfold idx; rw [h]

theorem ups_ok {s : State} {c i : Nat} {t : Table} (h : tableAs s c i = .ok t) :
    ups s c i = t.upcasts := by unfold ups; rw [h]

/-- A slot has this signature. -/
def Valid (s : State) (c i k : Nat) (sig : Sig) : Prop :=
  i ∈ s.world.mroOf c ∧ (idx s c i)[k]? = some (sig, k)

/-- Every function in memory is for the table that owns its array. -/
def HeapOk (s : State) : Prop :=
  ∀ (a : Nat) (b : Block), s.heap[a]? = some b → ∀ (k : Nat) (p : Ptr),
    b.cells[k]? = some (.fn p) →
    p.impl = b.owner.1 ∧ p.iface = b.owner.2 ∧ (b.owner.2, b.owner.1, k) ∈ s.installed ∧
    Valid s b.owner.1 b.owner.2 k p.sig

/-- The tables for which `P` holds are in order. -/
structure Mem (P : Nat → Nat → Prop) (s : State) : Prop where
  tab : ∀ c i, P c i → ∃ t, tableAs s c i = .ok t ∧ TOk s.heap s.installed c i t
  heap : HeapOk s

/-- What later states keep of earlier ones. -/
structure Grow (s s' : State) : Prop where
  valid : ∀ c i k sig, Valid s c i k sig → Valid s' c i k sig
  heap : HGrow s.heap s'.heap
  cur : ∀ c i t k p sig, Valid s c i k sig → tableAs s c i = .ok t →
    read s.heap t.arr k = some (.fn p) →
    ∃ t', tableAs s' c i = .ok t' ∧ read s'.heap t'.arr k = some (.fn p)

theorem Grow.refl (s : State) : Grow s s :=
  ⟨fun _ _ _ _ h => h, HGrow.refl _, fun _ _ t _ _ _ _ ht h => ⟨t, ht, h⟩⟩

theorem Grow.trans {s s' s'' : State} (g : Grow s s') (g' : Grow s' s'') : Grow s s'' := by
  refine ⟨fun c i k sig h => g'.valid c i k sig (g.valid c i k sig h), g.heap.trans g'.heap, ?_⟩
  intro c i t k p sig hv ht hr
  obtain ⟨t', h1, h2⟩ := g.cur c i t k p sig hv ht hr
  exact g'.cur c i t' k p sig (g.valid c i k sig hv) h1 h2

theorem prefix_get {α : Type} {l l' : List α} (h : l <+: l') {k : Nat} {x : α}
    (hx : l[k]? = some x) : l'[k]? = some x := by
  obtain ⟨t, rfl⟩ := h
  rw [List.getElem?_append_left (List.getElem?_eq_some_iff.mp hx).1]
  exact hx

theorem Mem.no_fn {P : Nat → Nat → Prop} {s : State} (hm : Mem P s) {c i : Nat} {t : Table}
    (ht : tableAs s c i = .ok t) (hok : TOk s.heap s.installed c i t) :
    ∀ p, read s.heap t.arr t.used ≠ some (.fn p) := by
  intro p hp
  obtain ⟨cells, hb, hl⟩ := hok.block
  unfold read at hp
  rw [hb] at hp
  have := (hm.heap t.arr _ hb t.used p hp).2.2.2.2
  change (idx s c i)[t.used]? = _ at this
  rw [idx_ok ht] at this
  have := (List.getElem?_eq_some_iff.mp this).1
  rw [hok.used] at this
  omega

/-- Allocating in one table. -/
theorem allocateAs_spec {s : State} (hm : Mem (fun c i => i ∈ s.world.mroOf c) s) {c i : Nat}
    (hi : i ∈ s.world.mroOf c) (sig : Sig) :
    ∃ s', allocateAs s c i sig = .ok (s', slotOf (idx s c i) sig) ∧ Same s s' ∧
      Mem (fun c i => i ∈ s'.world.mroOf c) s' ∧ Grow s s' ∧
      (∀ c' i', idx s' c' i' = if c' = c ∧ i' = i then ext (idx s c i) sig else idx s c' i') ∧
      (∀ c' i', ups s' c' i' = ups s c' i') := by
  obtain ⟨t, ht, hok⟩ := hm.tab c i hi
  obtain ⟨h', t', ha, hok', hidx, hups, hg, hkeep, hfrom, hcur⟩ :=
    allocateIn_spec hok (hm.no_fn ht hok) sig
  have hsame := Same.setTable s h' c i t'
  have htab : ∀ c' i', tableAs (setTable { s with heap := h' } c i t') c' i'
      = if c' = c ∧ i' = i then .ok t' else tableAs s c' i' := by
    intro c' i'
    have := tableAs_setTable (s := { s with heap := h' }) (c := c) (i := i) hi t' c' i'
    rw [this]
    rw [tableAs_congr (s := s) (s' := { s with heap := h' }) rfl rfl]
  have hheap : (setTable { s with heap := h' } c i t').heap = h' := setTable_heap _ _ _ _
  refine ⟨setTable { s with heap := h' } c i t', ?_, hsame, ?_, ?_, ?_, ?_⟩
  · unfold allocateAs
    rw [ht]
    simp only
    rw [ha, idx_ok ht]
  · -- memory
    have hidx' : ∀ c' i', idx (setTable { s with heap := h' } c i t') c' i'
        = if c' = c ∧ i' = i then ext (idx s c i) sig else idx s c' i' := by
      intro c' i'
      by_cases e : c' = c ∧ i' = i
      · rw [if_pos e]
        unfold idx
        rw [htab, if_pos e, ht]
        exact hidx
      · rw [if_neg e]
        unfold idx
        rw [htab, if_neg e]
    refine ⟨?_, ?_⟩
    · intro c' i' hi'
      rw [hsame.world] at hi'
      rw [htab, hheap, hsame.installed]
      by_cases e : c' = c ∧ i' = i
      · obtain ⟨rfl, rfl⟩ := e
        exact ⟨t', by simp, hok'⟩
      · rw [if_neg e]
        obtain ⟨t0, h0, hok0⟩ := hm.tab c' i' hi'
        refine ⟨t0, h0, hok0.other ?_⟩
        intro a b hb ho
        refine hkeep a b hb ?_
        intro he
        rw [ho] at he
        simp only [Prod.mk.injEq] at he
        exact e he
    · intro a b' hb' k p hp
      rw [hheap] at hb'
      rcases hfrom a b' k p hb' hp with hf | ⟨a0, b, hb, ho, hp'⟩
      · exact hf.elim
      · obtain ⟨h1, h2, h5, h3, h4⟩ := hm.heap a0 b hb k p hp'
        rw [ho] at h1 h2 h3 h4 h5
        refine ⟨h1, h2, by rw [hsame.installed]; exact h5, ?_, ?_⟩
        · rw [hsame.world]; exact h3
        · rw [hidx']
          by_cases e : b'.owner.1 = c ∧ b'.owner.2 = i
          · rw [if_pos e]
            rw [e.1, e.2] at h4
            exact prefix_get (ext_prefix _ _) h4
          · rw [if_neg e]; exact h4
  · refine ⟨?_, by rw [hheap]; exact hg, ?_⟩
    · rintro c' i' k sg ⟨h1, h2⟩
      refine ⟨by rw [hsame.world]; exact h1, ?_⟩
      unfold idx
      rw [htab]
      by_cases e : c' = c ∧ i' = i
      · obtain ⟨rfl, rfl⟩ := e
        rw [if_pos ⟨rfl, rfl⟩]
        simp only
        rw [hidx]
        rw [idx_ok ht] at h2
        exact prefix_get (ext_prefix _ _) h2
      · rw [if_neg e]
        exact h2
    · intro c' i' t0 k p sg hv h0 hr
      rw [htab, hheap]
      by_cases e : c' = c ∧ i' = i
      · obtain ⟨rfl, rfl⟩ := e
        rw [ht] at h0
        cases h0
        refine ⟨t', by simp, hcur k ?_ p hr⟩
        have := (List.getElem?_eq_some_iff.mp hv.2).1
        rw [idx_ok ht] at this
        rw [hok.used]
        exact this
      · rw [if_neg e]
        refine ⟨t0, h0, ?_⟩
        obtain ⟨t1, h1, hok1⟩ := hm.tab c' i' hv.1
        rw [h0] at h1
        cases h1
        obtain ⟨x', hx, _, hx'⟩ := hg.read hr (by simp)
        rw [hx, hx' p rfl]
  · intro c' i'
    by_cases e : c' = c ∧ i' = i
    · rw [if_pos e]
      unfold idx
      rw [htab, if_pos e, ht]
      exact hidx
    · rw [if_neg e]
      unfold idx
      rw [htab, if_neg e]
  · intro c' i'
    unfold ups
    rw [htab]
    by_cases e : c' = c ∧ i' = i
    · rw [if_pos e, e.1, e.2, ht]
      exact hups
    · rw [if_neg e]

/-- Allocating in the tables of the implementors. -/
theorem allocateInChildren_spec : ∀ (L : List Nat) {s : State},
    Mem (fun c i => i ∈ s.world.mroOf c) s → ∀ {i : Nat} {sig : Sig} {k : Nat},
    (∀ c ∈ L, i ∈ s.world.mroOf c) → (∀ c ∈ L, slotOf (idx s c i) sig = k) →
    ∃ s', allocateInChildren s i sig k L = .ok s' ∧ Same s s' ∧
      Mem (fun c i => i ∈ s'.world.mroOf c) s' ∧ Grow s s' ∧
      (∀ c' i', idx s' c' i' = if c' ∈ L ∧ i' = i then ext (idx s c' i') sig else idx s c' i') ∧
      (∀ c' i', ups s' c' i' = ups s c' i') := by
  intro L
  induction L with
  | nil =>
    intro s hm i sig k _ _
    refine ⟨s, rfl, Same.refl s, hm, Grow.refl s, ?_, fun _ _ => rfl⟩
    intro c' i'
    simp
  | cons c rest ih =>
    intro s hm i sig k hi hk
    obtain ⟨s1, h1, hs1, hm1, hg1, hi1, hu1⟩ := allocateAs_spec hm (hi c (by simp)) sig
    have hslot : ∀ c' ∈ rest, slotOf (idx s1 c' i) sig = k := by
      intro c' hc'
      rw [hi1]
      split
      · rename_i e
        rw [slotOf_ext]
        exact hk c (by simp)
      · exact hk c' (List.mem_cons_of_mem _ hc')
    obtain ⟨s2, h2, hs2, hm2, hg2, hi2, hu2⟩ := ih hm1 (i := i) (sig := sig) (k := k)
      (fun c' hc' => by rw [hs1.world]; exact hi c' (List.mem_cons_of_mem _ hc')) hslot
    refine ⟨s2, ?_, hs1.trans hs2, hm2, hg1.trans hg2, ?_, fun c' i' => (hu2 c' i').trans (hu1 c' i')⟩
    · change (match allocateAs s c i sig with
        | .error e => Except.error e
        | .ok (s', k') =>
          if k ≠ k' then .error .corrupted else allocateInChildren s' i sig k rest) = _
      rw [h1]
      simp only
      rw [if_neg (by rw [hk c (by simp)]; simp), h2]
    · intro c' i'
      rw [hi2, hi1]
      by_cases e1 : i' = i
      · subst e1
        by_cases e2 : c' = c
        · subst e2
          simp only [and_self, and_true, if_true, List.mem_cons, true_or]
          split
          · exact ext_ext _ _
          · rfl
        · simp only [e2, and_true, List.mem_cons, false_or, if_false]
      · simp only [e1, and_false, if_false]

/-! ### The invariant -/

/-- The function is the one that the thread means to call. -/
def Right (t : Thread) (p : Ptr) : Prop := p.iface = t.iface ∧ p.impl = t.impl ∧ p.sig = t.sig

/-- What is known of a thread. -/
def ThreadOk (s : State) (t : Thread) : Prop :=
  Valid s t.impl t.iface t.slot t.sig ∧
  match t.pc with
  | .load => True
  | .test a => ∃ b x, s.heap[a]? = some b ∧ b.owner = (t.impl, t.iface) ∧
      b.cells[t.slot]? = some x ∧ x ≠ .junk
  | .empty => True
  | .reload => t.unwinding = true ∨
      ∃ tab p, tableAs s t.impl t.iface = .ok tab ∧ read s.heap tab.arr t.slot = some (.fn p)
  | .jump a => (t.unwinding = true ∧ ∃ b, s.heap[a]? = some b ∧ b.owner = (t.impl, t.iface)) ∨
      ∃ p, read s.heap a t.slot = some (.fn p) ∧ Right t p
  | .called p => Right t p
  | .raised => True
  | .crashed => t.unwinding = true

theorem ThreadOk.grow {s s' : State} {t : Thread} (g : Grow s s') (h : ThreadOk s t) : ThreadOk s' t := by
  obtain ⟨hv, hp⟩ := h
  refine ⟨g.valid _ _ _ _ hv, ?_⟩
  cases e : t.pc with
  | load => trivial
  | test a =>
    rw [e] at hp
    obtain ⟨b, x, h0, ho, h1, h2⟩ := hp
    obtain ⟨b', h3, h4, h5⟩ := g.heap a b h0
    obtain ⟨x', h6, h7, _⟩ := h5 t.slot x h1 h2
    exact ⟨b', x', h3, h4.trans ho, h6, h7⟩
  | empty => trivial
  | reload =>
    rw [e] at hp
    rcases hp with hu | ⟨tab, p, h1, h2⟩
    · exact Or.inl hu
    · obtain ⟨tab', h3, h4⟩ := g.cur _ _ tab _ p _ hv h1 h2
      exact Or.inr ⟨tab', p, h3, h4⟩
  | jump a =>
    rw [e] at hp
    rcases hp with ⟨hu, b, h0, ho⟩ | ⟨p, h1, h2⟩
    · obtain ⟨b', h3, h4, _⟩ := g.heap a b h0
      exact Or.inl ⟨hu, b', h3, h4.trans ho⟩
    · obtain ⟨x', h3, _, h4⟩ := g.heap.read h1 (by simp)
      exact Or.inr ⟨p, by rw [h3, h4 p rfl], h2⟩
  | called p => rw [e] at hp; exact hp
  | raised => trivial
  | crashed => rw [e] at hp; exact hp

/-- The invariant. -/
structure Inv (s : State) : Prop where
  world : s.world.Ok
  mem : Mem (fun c i => i ∈ s.world.mroOf c) s
  agree : ∀ c i, i ∈ s.world.mroOf c → idx s c i = idx s i i
  impls : ∀ i c, c ∈ s.implementors i ↔ i ∈ s.world.mroOf c
  ups : ∀ c i, i ∈ s.world.mroOf c → upcastTable s.world c (s.world.mroOf i) = .ok (ups s c i)
  err : s.err = none
  filled : ∀ i c k, (i, c, k) ∈ s.installed → i ∈ s.world.mroOf c
  job : ∀ j, s.compiling = some j →
    Valid s j.impl j.iface j.slot j.sig ∧ (j.iface, j.impl, j.slot) ∉ s.installed
  delayed : ∀ i c k, (i, c, k) ∈ s.delayed → ∃ sig, Valid s c i k sig
  threads : ∀ t ∈ s.threads, ThreadOk s t

theorem mro_lt {w : World} {c i : Nat} (h : i ∈ w.mroOf c) : c < w.length := by
  unfold World.mroOf at h
  cases e : w[c]? with
  | none => rw [e] at h; cases h
  | some k => exact (List.getElem?_eq_some_iff.mp e).1

theorem mro_sub_lt {w : World} (hw : w.Ok) : ∀ {c i : Nat}, i ∈ w.mroOf c → i ≤ c := by
  intro c
  induction c using Nat.strongRecOn with
  | _ c ih =>
    intro i hi
    have hc := mro_lt hi
    rcases (mem_mro_iff hw hc).mp hi with e | ⟨b, hb, hd⟩
    · omega
    · have := hw.before c hc b hb
      have := ih b this hd
      omega

theorem mro_trans {w : World} (hw : w.Ok) : ∀ {c i j : Nat}, i ∈ w.mroOf c → j ∈ w.mroOf i →
    j ∈ w.mroOf c := by
  intro c
  induction c using Nat.strongRecOn with
  | _ c ih =>
    intro i j hi hj
    have hc := mro_lt hi
    rcases (mem_mro_iff hw hc).mp hi with e | ⟨b, hb, hd⟩
    · rw [e] at hj; exact hj
    · rw [mem_mro_iff hw hc]
      exact Or.inr ⟨b, hb, ih b (hw.before c hc b hb) hd hj⟩

theorem self_mem {w : World} (hw : w.Ok) {c i : Nat} (h : i ∈ w.mroOf c) : i ∈ w.mroOf i :=
  head_mem hw (Nat.lt_of_le_of_lt (mro_sub_lt hw h) (mro_lt h))

/-- Allocating a slot for a class. -/
theorem allocate_spec {s : State} (hv : Inv s) {i : Nat} (hi : i < s.world.length) (sig : Sig) :
    ∃ s', allocate s i sig = .ok (s', slotOf (idx s i i) sig) ∧ Same s s' ∧ Grow s s' ∧ Inv s' ∧
      ∀ c, i ∈ s.world.mroOf c → Valid s' c i (slotOf (idx s i i) sig) sig := by
  have hii := head_mem hv.world hi
  obtain ⟨s1, h1, hs1, hm1, hg1, hi1, hu1⟩ := allocateAs_spec hv.mem hii sig
  have himpl : ∀ c, c ∈ s1.implementors i ↔ i ∈ s.world.mroOf c := by
    intro c; rw [hs1.implementors]; exact hv.impls i c
  obtain ⟨s2, h2, hs2, hm2, hg2, hi2, hu2⟩ := allocateInChildren_spec (s1.implementors i) hm1
    (i := i) (sig := sig) (k := slotOf (idx s i i) sig)
    (by intro c hc; rw [hs1.world]; exact (himpl c).mp hc)
    (by
      intro c hc
      rw [hi1]
      split
      · exact slotOf_ext _ _
      · rw [hv.agree c i ((himpl c).mp hc)])
  have hs := hs1.trans hs2
  have hidx : ∀ c i', i' ∈ s.world.mroOf c →
      idx s2 c i' = if i' = i then ext (idx s c i') sig else idx s c i' := by
    intro c i' hc
    rw [hi2, hi1]
    by_cases e : i' = i
    · subst e
      rw [if_pos ⟨(himpl c).mpr hc, rfl⟩, if_pos rfl]
      split
      · rename_i h; rw [h.1]; exact ext_ext _ _
      · rfl
    · rw [if_neg (fun h => e h.2), if_neg (fun h => e h.2), if_neg e]
  have hg := hg1.trans hg2
  refine ⟨s2, ?_, hs, hg, ?_, ?_⟩
  · unfold allocate
    rw [h1]
    simp only
    rw [h2]
  · refine { world := ?_, mem := hm2, agree := ?_, impls := ?_, ups := ?_, err := ?_, filled := ?_,
             job := ?_, delayed := ?_, threads := ?_ }
    · rw [hs.world]; exact hv.world
    · intro c i' hc
      rw [hs.world] at hc
      rw [hidx c i' hc, hidx i' i' (self_mem hv.world hc), hv.agree c i' hc]
    · intro i' c
      rw [hs.implementors, hs.world]; exact hv.impls i' c
    · intro c i' hc
      rw [hs.world] at hc ⊢
      rw [hu2, hu1]
      exact hv.ups c i' hc
    · rw [hs.err]; exact hv.err
    · intro i' c k h
      rw [hs.installed] at h
      rw [hs.world]; exact hv.filled i' c k h
    · intro j hj
      rw [hs.compiling] at hj
      obtain ⟨h3, h4⟩ := hv.job j hj
      exact ⟨hg.valid _ _ _ _ h3, by rw [hs.installed]; exact h4⟩
    · intro i' c k h
      rw [hs.delayed] at h
      obtain ⟨sg, h3⟩ := hv.delayed i' c k h
      exact ⟨sg, hg.valid _ _ _ _ h3⟩
    · intro t ht
      rw [hs.threads] at ht
      exact (hv.threads t ht).grow hg
  · intro c hc
    refine ⟨by rw [hs.world]; exact hc, ?_⟩
    rw [hidx c i hc, if_pos rfl, hv.agree c i hc]
    obtain ⟨t, ht, hok⟩ := hv.mem.tab i i hii
    rw [idx_ok ht]
    exact hok.pos.get_slotOf sig

end Verif.Mro.Dispatch
