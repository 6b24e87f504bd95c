import Verif.Mro.DispatchInv
/-
The invariant is kept by class statements, and so by every step.
-/
namespace Verif.Mro.Dispatch

theorem declare_cases (w : World) (bases : List Nat) :
    (declare w bases).1 = w ∨ ∃ mro, (declare w bases).1 = w ++ [⟨bases, mro⟩] := by
  unfold declare
  split
  · split
    · rename_i mro _; exact Or.inr ⟨mro, rfl⟩
    · exact Or.inl rfl
    · exact Or.inl rfl
  · exact Or.inl rfl

theorem upcastTable_ok {w : World} {c : Nat} : ∀ {L : List Nat}, (∀ j ∈ L, j ∈ w.mroOf c) →
    ∃ l, upcastTable w c L = .ok l := by
  intro L
  induction L with
  | nil => intro _; exact ⟨[], rfl⟩
  | cons j rest ih =>
    intro h
    obtain ⟨k, hk⟩ := indexOf_mem (h j (by simp))
    obtain ⟨l, hl⟩ := ih (fun x hx => h x (List.mem_cons_of_mem _ hx))
    refine ⟨k % 65536 :: l, ?_⟩
    change (match mroIndex w c j with
      | none => Except.error Err.badMroIndex
      | some k => match upcastTable w c rest with
        | .error e => .error e
        | .ok l => .ok (k % 65536 :: l)) = _
    rw [show mroIndex w c j = some k from hk, hl]

/-- A table as `initializeMRO` makes it. -/
def fresh (c i : Nat) : Table := ⟨i, c, [], [], 0, 0, 0, [], []⟩

/-- What `initTable` needs to know of the table it copies. -/
structure Base (t : Table) : Prop where
  pos : Pos t.indices
  nodup : (t.indices.map Prod.fst).Nodup
  defs : t.defs = t.indices.map (fun p => (p.2, p.1))
  used : t.used = t.indices.length
  le : t.used ≤ t.alloc

theorem fresh_base (c i : Nat) : Base (fresh c i) :=
  ⟨by intro k p h; simp [fresh] at h, by simp [fresh], rfl, rfl, Nat.le_refl _⟩

theorem TOk.base {h : List Block} {ins : List (Nat × Nat × Nat)} {c i : Nat} {t : Table}
    (ht : TOk h ins c i t) : Base t := ⟨ht.pos, ht.nodup, ht.defs, ht.used, ht.le⟩

/-- Initializing a fresh table. -/
theorem initTable_spec {w : World} {h : List Block} {ins : List (Nat × Nat × Nat)} {c i : Nat}
    {base : Table} (hb : Base base) (hup : ∀ j ∈ w.mroOf i, j ∈ w.mroOf c)
    (hins : ∀ k, (i, c, k) ∉ ins) :
    ∃ b t', initTable w h (fresh c i) base = .ok (h ++ [b], t') ∧ TOk (h ++ [b]) ins c i t' ∧
      (∀ (k : Nat) (p : Ptr), b.cells[k]? ≠ some (Cell.fn p)) ∧ t'.indices = base.indices ∧
      upcastTable w c (w.mroOf i) = .ok t'.upcasts := by
  obtain ⟨l, hl⟩ := upcastTable_ok hup
  have hnew : ∀ b : Block, (h ++ [b])[h.length]? = some b := by intro b; simp
  have hl' : upcastTable w (fresh c i).impl (w.mroOf (fresh c i).iface) = .ok l := hl
  unfold initTable
  rw [hl']
  refine ⟨_, _, rfl, ?_, ?_, rfl, hl⟩
  · have hrd : ∀ k < base.used, read (h ++ [⟨((fresh c i).impl, (fresh c i).iface),
        List.replicate base.used Cell.null ++ List.replicate (base.alloc - base.used) Cell.junk⟩])
        h.length k = some .null := by
      intro k hk
      unfold read
      rw [hnew]
      simp only
      rw [List.getElem?_append_left (by rw [List.length_replicate]; exact hk),
        List.getElem?_replicate, if_pos hk]
    refine { iface := rfl, impl := rfl, pos := hb.pos, nodup := hb.nodup, defs := hb.defs,
             used := hb.used, le := hb.le, block := ⟨_, hnew _, ?_⟩, cell := ?_, empty := ?_,
             needing := ?_, filled := ?_ }
    · have := hb.le
      rw [List.length_append, List.length_replicate, List.length_replicate]
      change _ = base.alloc
      omega
    · intro k hk
      rw [hrd k hk]; simp
    · intro k hk
      rw [hrd k hk]
      simp [hins k]
    · intro k hk _
      exact List.mem_range.mpr hk
    · intro k hin
      exact absurd hin (hins k)
  · intro k p hp
    simp only at hp
    rw [List.getElem?_append] at hp
    split at hp
    · rw [List.getElem?_replicate] at hp
      split at hp <;> cases hp
    · rw [List.getElem?_replicate] at hp
      split at hp <;> cases hp

/-- What holds while the tables of the new class `c` are initialized, after those as the classes of
`D`. -/
structure Part (s : State) (c : Nat) (D L : List Nat) (z : State) : Prop where
  old : ∀ c' i', c' ≠ c → tableAs z c' i' = tableAs s c' i'
  fresh : ∀ i ∈ L, tableAs z c i = .ok (fresh c i)
  done : ∀ i ∈ D, ∃ t, tableAs z c i = .ok t ∧ TOk z.heap s.installed c i t ∧
    t.indices = idx z i i ∧ upcastTable z.world c (z.world.mroOf i) = .ok t.upcasts
  heap : ∃ bs : List Block, z.heap = s.heap ++ bs ∧ ∀ b ∈ bs, ∀ (k : Nat) (p : Ptr), b.cells[k]? ≠ some (Cell.fn p)

theorem initTables_spec {s : State} (hv : Inv s) {c : Nat} (hnew : c = s.world.length) :
    ∀ (L : List Nat) (D : List Nat) (z : State), z.world.Ok →
    z.world.mroOf c = D ++ L → (D ++ L).Nodup → (∀ i ∈ D ++ L, i = c ∨ i < c) →
    (∀ i, i ≠ c → z.world.mroOf i = s.world.mroOf i) →
    Part s c D L z → ∃ z', initTables z c L = .ok z' ∧ Same z z' ∧ Part s c (D ++ L) [] z' := by
  intro L
  induction L with
  | nil =>
    intro D z _ _ _ _ _ hp
    exact ⟨z, rfl, Same.refl z, by rw [List.append_nil]; exact hp⟩
  | cons i rest ih =>
    intro D z hw hmro hnd hle hold hp
    have hi : i ∈ z.world.mroOf c := by rw [hmro]; simp
    have hiD : i ∉ D := by
      intro h
      rw [List.nodup_append] at hnd
      exact hnd.2.2 i h i (by simp) rfl
    have hir : i ∉ rest := by
      have := (List.nodup_append.mp hnd).2.1
      exact (List.nodup_cons.mp this).1
    have hti := hp.fresh i (by simp)
    -- the table that is copied
    obtain ⟨base, hbase, hb⟩ : ∃ base, tableAs z i i = .ok base ∧ Base base := by
      by_cases e : i = c
      · subst e; exact ⟨_, hti, fresh_base _ _⟩
      · have hmem : i ∈ s.world.mroOf i := by
          rw [← hold i e]; exact self_mem hw hi
        obtain ⟨t, ht, hok⟩ := hv.mem.tab i i hmem
        exact ⟨t, by rw [hp.old i i e]; exact ht, hok.base⟩
    have hins : ∀ k, (i, c, k) ∉ s.installed := by
      intro k h
      have := mro_lt (hv.filled i c k h)
      omega
    obtain ⟨b, t', hit, hok', hnofn, hidx', hups'⟩ := initTable_spec (h := z.heap) hb
      (fun j hj => mro_trans hw hi hj) hins
    let z1 := setTable { z with heap := z.heap ++ [b] } c i t'
    have hsame : Same z z1 := Same.setTable z _ c i t'
    have hheap : z1.heap = z.heap ++ [b] := setTable_heap _ _ _ _
    have htab : ∀ c' i', tableAs z1 c' i' = if c' = c ∧ i' = i then .ok t' else tableAs z c' i' := by
      intro c' i'
      have := tableAs_setTable (s := { z with heap := z.heap ++ [b] }) (c := c) (i := i) hi t' c' i'
      rw [this]
      rw [tableAs_congr (s := z) (s' := { z with heap := z.heap ++ [b] }) rfl rfl]
    have hidxz : ∀ j, j ≠ i ∨ i ≠ c → idx z1 j j = idx z j j := by
      intro j hj
      unfold idx
      rw [htab, if_neg]
      rintro ⟨e1, e2⟩
      rcases hj with h | h
      · exact h e2
      · exact h (e2.symm.trans e1)
    have hpart : Part s c (D ++ [i]) rest z1 := by
      refine ⟨?_, ?_, ?_, ?_⟩
      · intro c' i' hc
        rw [htab, if_neg (fun h => hc h.1)]
        exact hp.old c' i' hc
      · intro j hj
        rw [htab, if_neg (fun h => hir (by rw [← h.2]; exact hj))]
        exact hp.fresh j (List.mem_cons_of_mem _ hj)
      · intro j hj
        rcases List.mem_append.mp hj with h | h
        · obtain ⟨t, h1, h2, h3, h4⟩ := hp.done j h
          have hji : j ≠ i := fun e => hiD (by rw [← e]; exact h)
          refine ⟨t, ?_, ?_, ?_, ?_⟩
          · rw [htab, if_neg (fun e => hji e.2)]; exact h1
          · rw [hheap]
            refine h2.other ?_
            intro a b' hb' _
            rw [List.getElem?_append_left (List.getElem?_eq_some_iff.mp hb').1]
            exact hb'
          · rw [hidxz j (Or.inl hji)]; exact h3
          · rw [hsame.world]; exact h4
        · rw [List.mem_singleton] at h
          subst h
          refine ⟨t', by rw [htab, if_pos ⟨rfl, rfl⟩], by rw [hheap]; exact hok', ?_, ?_⟩
          · by_cases e : j = c
            · subst e
              rw [idx_ok (t := t') (by rw [htab, if_pos ⟨rfl, rfl⟩])]
            · rw [hidxz j (Or.inr e), idx_ok hbase]; exact hidx'
          · rw [hsame.world]; exact hups'
      · obtain ⟨bs, h1, h2⟩ := hp.heap
        refine ⟨bs ++ [b], by rw [hheap, h1, List.append_assoc], ?_⟩
        intro b' hb'
        rcases List.mem_append.mp hb' with h | h
        · exact h2 b' h
        · rw [List.mem_singleton] at h
          rw [h]; exact hnofn
    have happ : D ++ [i] ++ rest = D ++ i :: rest := by rw [List.append_assoc]; rfl
    obtain ⟨z', h1, h2, h3⟩ := ih (D ++ [i]) z1 (by rw [hsame.world]; exact hw)
      (by rw [hsame.world, hmro, happ]) (by rw [happ]; exact hnd) (by rw [happ]; exact hle)
      (by intro j hj; rw [hsame.world]; exact hold j hj) hpart
    refine ⟨z', ?_, hsame.trans h2, by rw [← happ]; exact h3⟩
    change (match tableAs z c i, tableAs z i i with
      | .ok t, .ok base => match initTable z.world z.heap t base with
        | .error e => Except.error e
        | .ok (h, t') => initTables (setTable { z with heap := h } c i t') c rest
      | _, _ => .error .notAncestor) = _
    rw [hti, hbase]
    simp only
    rw [hit]
    exact h1

theorem classStmt_ok {s : State} (hv : Inv s) {bases : List Nat} (hn : bases.Nodup) :
    Inv (classStmt s bases) ∧ Grow s (classStmt s bases) ∧
      (classStmt s bases).threads = s.threads := by
  unfold classStmt
  simp only
  rcases declare_cases s.world bases with h | ⟨mro, h⟩
  · rw [h, if_pos rfl]; exact ⟨hv, Grow.refl s, rfl⟩
  · have hw : (s.world ++ [(⟨bases, mro⟩ : Cls)]).Ok := by
      have := hv.world.declare hn
      rw [h] at this
      exact this
    rw [h, if_neg (by rw [List.length_append, List.length_singleton]; omega)]
    have hmro : World.mroOf (s.world ++ [(⟨bases, mro⟩ : Cls)]) s.world.length = mro := mroOf_new
    rw [hmro]
    have hlen : s.world.length < (s.world ++ [(⟨bases, mro⟩ : Cls)]).length := by
      rw [List.length_append, List.length_singleton]; omega
    have hold : ∀ i, i ≠ s.world.length →
        World.mroOf (s.world ++ [(⟨bases, mro⟩ : Cls)]) i = s.world.mroOf i := by
      intro i hi
      by_cases hlt : i < s.world.length
      · exact mroOf_append hlt
      · unfold World.mroOf
        rw [List.getElem?_eq_none (by rw [List.length_append, List.length_singleton]; omega),
          List.getElem?_eq_none (by omega)]
    -- the state before the loop
    generalize hz : ({ s with
      world := s.world ++ [⟨bases, mro⟩]
      tables := fun c' k => if c' = s.world.length then
        ⟨mro.getD k 0, s.world.length, [], [], 0, 0, 0, [], []⟩ else s.tables c' k
      implementors := fun i => if mro.contains i then s.implementors i ++ [s.world.length]
        else s.implementors i } : State) = z
    have zw : z.world = s.world ++ [⟨bases, mro⟩] := by rw [← hz]
    have hpart : Part s s.world.length [] mro z := by
      refine ⟨?_, ?_, (by intro i hi; cases hi), ⟨[], by rw [← hz, List.append_nil], by simp⟩⟩
      · intro c' i' hc
        unfold tableAs mroIndex
        rw [zw, hold c' hc]
        rw [← hz]
        simp only
        cases indexOf (s.world.mroOf c') i' with
        | none => rfl
        | some k => simp only; rw [if_neg hc]
      · intro i hi
        obtain ⟨k, hk⟩ := indexOf_mem hi
        unfold tableAs mroIndex
        rw [zw, hmro, hk]
        simp only
        rw [← hz]
        simp only [if_true]
        have := indexOf_some hk
        rw [List.getD_eq_getElem?_getD, this]
        rfl
    have hle : ∀ i ∈ mro, i = s.world.length ∨ i < s.world.length := by
      intro i hi
      have := mro_sub_lt hw (c := s.world.length) (i := i) (by rw [hmro]; exact hi)
      omega
    obtain ⟨z', h1, h2, h3⟩ := initTables_spec hv rfl mro [] z (by rw [zw]; exact hw)
      (by rw [zw]; exact hmro)
      (by
        have := hw.nodup s.world.length hlen
        rw [hmro] at this
        exact this)
      (by simpa using hle) (by intro i hi; rw [zw]; exact hold i hi) hpart
    rw [h1]
    simp only
    rw [List.nil_append] at h3
    -- the state after the loop
    have zw' : z'.world = s.world ++ [⟨bases, mro⟩] := by rw [h2.world, zw]
    have zins : z'.installed = s.installed := by rw [h2.installed, ← hz]
    have hnotmem : ∀ c, s.world.length ∉ s.world.mroOf c := by
      intro c hc
      have := mro_sub_lt hv.world hc
      have := mro_lt hc
      omega
    have hmem : ∀ c i, i ∈ z'.world.mroOf c →
        (c ≠ s.world.length ∧ i ≠ s.world.length ∧ i ∈ s.world.mroOf c) ∨
        (c = s.world.length ∧ i ∈ mro) := by
      intro c i hi
      rw [zw'] at hi
      by_cases e : c = s.world.length
      · right
        rw [e, hmro] at hi
        exact ⟨e, hi⟩
      · left
        rw [hold c e] at hi
        refine ⟨e, ?_, hi⟩
        intro e'
        rw [e'] at hi
        exact hnotmem c hi
    have hmemold : ∀ c i, i ∈ s.world.mroOf c → c ≠ s.world.length ∧ i ≠ s.world.length ∧
        i ∈ z'.world.mroOf c := by
      intro c i hi
      have e : c ≠ s.world.length := by have := mro_lt hi; omega
      refine ⟨e, ?_, by rw [zw', hold c e]; exact hi⟩
      intro e'
      rw [e'] at hi
      exact hnotmem c hi
    have hidxold : ∀ c i, c ≠ s.world.length → idx z' c i = idx s c i := by
      intro c i e
      unfold idx
      rw [h3.old c i e]
    have hupsold : ∀ c i, c ≠ s.world.length → ups z' c i = ups s c i := by
      intro c i e
      unfold Dispatch.ups
      rw [h3.old c i e]
    obtain ⟨bs, hbs, hnofn⟩ := h3.heap
    have hkeep : ∀ (a : Nat) (b : Block), s.heap[a]? = some b → z'.heap[a]? = some b := by
      intro a b hb
      rw [hbs, List.getElem?_append_left (List.getElem?_eq_some_iff.mp hb).1]
      exact hb
    have hread : ∀ a k x, read s.heap a k = some x → read z'.heap a k = some x := by
      intro a k x hr
      unfold read at hr ⊢
      cases e : s.heap[a]? with
      | none => rw [e] at hr; cases hr
      | some b => rw [e] at hr; rw [hkeep a b e]; exact hr
    have hvalid : ∀ c i k sg, Valid s c i k sg → Valid z' c i k sg := by
      rintro c i k sg ⟨v1, v2⟩
      obtain ⟨e1, _, e3⟩ := hmemold c i v1
      exact ⟨e3, by rw [hidxold c i e1]; exact v2⟩
    have hg : Grow s z' := by
      refine ⟨hvalid, ?_, ?_⟩
      · intro a b hb
        exact ⟨b, hkeep a b hb, rfl, fun k x hx hj => ⟨x, hx, hj, fun _ e => e⟩⟩
      · intro c i t k p sg hval ht hr
        have e := (hmemold c i hval.1).1
        exact ⟨t, by rw [h3.old c i e]; exact ht, hread _ _ _ hr⟩
    refine ⟨?_, hg, by rw [h2.threads, ← hz]⟩
    refine { world := by rw [zw']; exact hw, mem := ⟨?_, ?_⟩, agree := ?_, impls := ?_, ups := ?_,
             err := ?_, filled := ?_, job := ?_, delayed := ?_, threads := ?_ }
    · intro c i hi
      rw [zins]
      rcases hmem c i hi with ⟨e1, _, e2⟩ | ⟨e1, e2⟩
      · obtain ⟨t, ht, hok⟩ := hv.mem.tab c i e2
        exact ⟨t, by rw [h3.old c i e1]; exact ht, hok.other (fun a b hb _ => hkeep a b hb)⟩
      · obtain ⟨t, ht, hok, _, _⟩ := h3.done i e2
        rw [e1]
        exact ⟨t, ht, hok⟩
    · intro a b hb k p hp
      rw [hbs, List.getElem?_append] at hb
      split at hb
      · obtain ⟨p1, p2, p3, p4⟩ := hv.mem.heap a b hb k p hp
        exact ⟨p1, p2, by rw [zins]; exact p3, hvalid _ _ _ _ p4⟩
      · exact absurd hp (hnofn b (List.mem_of_getElem? hb) k p)
    · intro c i hi
      rcases hmem c i hi with ⟨e1, e2, e3⟩ | ⟨e1, e2⟩
      · rw [hidxold c i e1, hidxold i i e2]
        exact hv.agree c i e3
      · obtain ⟨t, ht, _, hx, _⟩ := h3.done i e2
        rw [e1, idx_ok ht]
        exact hx
    · intro i c
      rw [h2.implementors, ← hz]
      simp only
      by_cases e : c = s.world.length
      · rw [e, zw', hmro]
        have hno : s.world.length ∉ s.implementors i := by
          rw [hv.impls]
          intro h
          have := mro_lt h
          omega
        by_cases h : i ∈ mro
        · rw [if_pos (List.contains_iff_mem.mpr h)]; simp [h]
        · rw [if_neg (fun h' => h (List.contains_iff_mem.mp h'))]; simp [h, hno]
      · rw [zw', hold c e]
        split
        · rw [List.mem_append, List.mem_singleton, or_iff_left e]; exact hv.impls i c
        · exact hv.impls i c
    · intro c i hi
      rcases hmem c i hi with ⟨e1, e2, e3⟩ | ⟨e1, e2⟩
      · rw [hupsold c i e1, ← hv.ups c i e3]
        rw [zw', hold i e2]
        have hm : World.mroOf (s.world ++ [(⟨bases, mro⟩ : Cls)]) c = s.world.mroOf c := hold c e1
        clear * - hm
        induction s.world.mroOf i with
        | nil => rfl
        | cons j rest ih =>
          change (match mroIndex _ c j with
            | none => Except.error Err.badMroIndex
            | some k => match upcastTable _ c rest with
              | .error e => .error e
              | .ok l => .ok (k % 65536 :: l)) = match mroIndex _ c j with
            | none => Except.error Err.badMroIndex
            | some k => match upcastTable _ c rest with
              | .error e => .error e
              | .ok l => .ok (k % 65536 :: l)
          rw [ih]
          unfold mroIndex
          rw [hm]
      · obtain ⟨t, ht, _, _, hu⟩ := h3.done i e2
        rw [e1, ups_ok ht]
        exact hu
    · rw [h2.err, ← hz]; exact hv.err
    · intro i c k hin
      rw [zins] at hin
      exact (hmemold c i (hv.filled i c k hin)).2.2
    · intro j hj
      have hj' : s.compiling = some j := by rw [h2.compiling, ← hz] at hj; exact hj
      obtain ⟨j1, j2⟩ := hv.job j hj'
      exact ⟨hvalid _ _ _ _ j1, by rw [zins]; exact j2⟩
    · intro i c k hin
      have hin' : (i, c, k) ∈ s.delayed := by rw [h2.delayed, ← hz] at hin; exact hin
      obtain ⟨sg, d1⟩ := hv.delayed i c k hin'
      exact ⟨sg, hvalid _ _ _ _ d1⟩
    · intro t ht
      have ht' : t ∈ s.threads := by rw [h2.threads, ← hz] at ht; exact ht
      exact (hv.threads t ht').grow hg

/-! ### Every step -/

/-- Class statements name no base twice. -/
def Step.Fine : Step → Prop
  | .classStmt bases => bases.Nodup
  | _ => True

theorem init_inv : Inv {} := by
  have hno : ∀ c, World.mroOf ([] : World) c = [] := by intro c; rfl
  refine { world := ?_, mem := ⟨?_, ?_⟩, agree := ?_, impls := ?_, ups := ?_, err := rfl, filled := ?_,
           job := ?_, delayed := ?_, threads := ?_ }
  · refine ⟨?_, ?_, ?_, ?_⟩ <;> (intro c hc; simp at hc)
  · intro c i hi; change i ∈ World.mroOf [] c at hi; rw [hno] at hi; cases hi
  · intro a b hb; simp at hb
  · intro c i hi; change i ∈ World.mroOf [] c at hi; rw [hno] at hi; cases hi
  · intro i c
    change c ∈ [] ↔ i ∈ World.mroOf [] c
    rw [hno]
    simp
  · intro c i hi; change i ∈ World.mroOf [] c at hi; rw [hno] at hi; cases hi
  · intro i c k h; cases h
  · intro j h; cases h
  · intro i c k h; cases h
  · intro t h; cases h

theorem same_grow {s s' : State} (hw : s'.world = s.world) (ht : s'.tables = s.tables)
    (hh : s'.heap = s.heap) : Grow s s' := by
  have htab := tableAs_congr hw ht
  refine ⟨?_, ?_, ?_⟩
  · rintro c i k sg ⟨h1, h2⟩
    refine ⟨by rw [hw]; exact h1, ?_⟩
    unfold idx at h2 ⊢
    rw [htab]
    exact h2
  · intro a b hb
    exact ⟨b, by rw [hh]; exact hb, rfl, fun k x hx hj => ⟨x, hx, hj, fun _ e => e⟩⟩
  · intro c i t k p sg _ h1 h2
    exact ⟨t, by rw [htab]; exact h1, by rw [hh]; exact h2⟩

theorem beginCompile_same (s : State) (i c k : Nat) :
    (beginCompile s i c k).world = s.world ∧ (beginCompile s i c k).tables = s.tables ∧
    (beginCompile s i c k).heap = s.heap ∧ (beginCompile s i c k).threads = s.threads := by
  unfold beginCompile
  split
  · exact ⟨rfl, rfl, rfl, rfl⟩
  · split
    · exact ⟨rfl, rfl, rfl, rfl⟩
    · split
      · exact ⟨rfl, rfl, rfl, rfl⟩
      · split <;> exact ⟨rfl, rfl, rfl, rfl⟩

/-- The call that a thread makes. -/
def Thread.what (t : Thread) : Nat × Nat × Sig × Nat := (t.impl, t.iface, t.sig, t.slot)

/-- The threads stay, in the same calls. -/
def Keep (s s' : State) : Prop :=
  ∀ (n : Nat) (t : Thread), s.threads[n]? = some t →
    ∃ t', s'.threads[n]? = some t' ∧ t'.what = t.what

theorem Keep.of_eq {s s' : State} (h : s'.threads = s.threads) : Keep s s' := by
  intro n t ht
  exact ⟨t, by rw [h]; exact ht, rfl⟩

theorem step_all {s : State} (hv : Inv s) {st : Step} (hf : st.Fine) :
    Inv (step s st) ∧ Grow s (step s st) ∧ Keep s (step s st) := by
  cases st with
  | classStmt bases =>
    obtain ⟨h1, h2, h3⟩ := classStmt_ok hv hf
    exact ⟨h1, h2, Keep.of_eq h3⟩
  | allocate i sig =>
    change Inv (if i < s.world.length then match allocate s i sig with
      | .ok (s', _) => s'
      | .error e => { s with err := some e } else s) ∧ Grow s _ ∧ Keep s _
    change _ ∧ Grow s (if i < s.world.length then match allocate s i sig with
      | .ok (s', _) => s'
      | .error e => { s with err := some e } else s) ∧ Keep s (if i < s.world.length then
        match allocate s i sig with
      | .ok (s', _) => s'
      | .error e => { s with err := some e } else s)
    by_cases hi : i < s.world.length
    · simp only [if_pos hi]
      obtain ⟨s', h1, hs, hg, h2, _⟩ := allocate_spec hv hi sig
      rw [h1]
      exact ⟨h2, hg, Keep.of_eq hs.threads⟩
    · simp only [if_neg hi]
      exact ⟨hv, Grow.refl s, Keep.of_eq rfl⟩
  | trigger c i sig =>
    generalize hz : step s (.trigger c i sig) = z
    change (if (s.world.mroOf c).contains i then match allocate s i sig with
      | .ok (s', k) => { s' with delayed := s'.delayed ++ [(i, c, k)] }
      | .error e => { s with err := some e } else s) = z at hz
    split at hz
    · rename_i hi
      have hi := List.contains_iff_mem.mp hi
      have hlt : i < s.world.length := mro_lt (self_mem hv.world hi)
      obtain ⟨s', h1, hs, hg, h2, h3⟩ := allocate_spec hv hlt sig
      rw [h1] at hz
      subst hz
      refine ⟨?_, hg.trans (same_grow rfl rfl rfl), Keep.of_eq hs.threads⟩
      refine { h2 with delayed := ?_, mem := ⟨h2.mem.tab, h2.mem.heap⟩ }
      intro i' c' k hin
      rcases List.mem_append.mp hin with h | h
      · exact h2.delayed i' c' k h
      · rw [List.mem_singleton] at h
        simp only [Prod.mk.injEq] at h
        obtain ⟨rfl, rfl, rfl⟩ := h
        exact ⟨sig, h3 c' hi⟩
    · subst hz; exact ⟨hv, Grow.refl s, Keep.of_eq rfl⟩
  | flush =>
    generalize hz : step s .flush = z
    change (match s.delayed with
      | [] => s
      | (i, c, k) :: rest => beginCompile { s with delayed := rest } i c k) = z at hz
    split at hz
    · subst hz; exact ⟨hv, Grow.refl s, Keep.of_eq rfl⟩
    · rename_i i c k rest e
      subst hz
      obtain ⟨b1, b2, b3, b4⟩ := beginCompile_same { s with delayed := rest } i c k
      refine ⟨?_, same_grow b1 b2 b3, Keep.of_eq b4⟩
      obtain ⟨sig, hval⟩ := hv.delayed i c k (by rw [e]; simp)
      have hv' : Inv { s with delayed := rest } := by
        refine { hv with delayed := ?_, mem := ⟨hv.mem.tab, hv.mem.heap⟩ }
        intro i' c' k' hin
        exact hv.delayed i' c' k' (by rw [e]; exact List.mem_cons_of_mem _ hin)
      exact (beginCompile_spec hv' (sig := sig) hval).1
  | ask n =>
    generalize hz : step s (.ask n) = z
    change (match s.threads[n]? with
      | some t => if t.pc = .empty then beginCompile s t.iface t.impl t.slot else s
      | none => s) = z at hz
    split at hz
    · rename_i t e
      split at hz
      · subst hz
        obtain ⟨b1, b2, b3, b4⟩ := beginCompile_same s t.iface t.impl t.slot
        exact ⟨(beginCompile_spec hv (hv.threads t (List.mem_of_getElem? e)).1).1,
          same_grow b1 b2 b3, Keep.of_eq b4⟩
      · subst hz; exact ⟨hv, Grow.refl s, Keep.of_eq rfl⟩
    · subst hz; exact ⟨hv, Grow.refl s, Keep.of_eq rfl⟩
  | finish v =>
    change Inv (finishCompile s v) ∧ Grow s (finishCompile s v) ∧ Keep s (finishCompile s v)
    cases e : s.compiling with
    | none =>
      unfold finishCompile
      rw [e]
      exact ⟨hv, Grow.refl s, Keep.of_eq rfl⟩
    | some j =>
      obtain ⟨s', h1, h2, h3, h4, _⟩ := finishCompile_spec hv e v
      rw [h1]
      exact ⟨h2, h3, Keep.of_eq h4⟩
  | abandon =>
    refine ⟨?_, same_grow rfl rfl rfl, Keep.of_eq rfl⟩
    refine { hv with job := ?_, mem := ⟨hv.mem.tab, hv.mem.heap⟩ }
    intro j h; cases h
  | call c i sig u =>
    generalize hz : step s (.call c i sig u) = z
    change (if (s.world.mroOf c).contains i then match tableAs s i i with
      | .ok t => match lookup t.indices sig with
        | some k => { s with threads := s.threads ++ [⟨c, i, sig, k, u, .load⟩] }
        | none => s
      | .error _ => s
    else s) = z at hz
    split at hz
    · rename_i hi
      have hi := List.contains_iff_mem.mp hi
      split at hz
      · rename_i t ht
        split at hz
        · rename_i k hk
          subst hz
          refine ⟨?_, same_grow rfl rfl rfl, ?_⟩
          · refine { hv with threads := ?_, mem := ⟨hv.mem.tab, hv.mem.heap⟩ }
            intro th hth
            rcases List.mem_append.mp hth with h | h
            · exact hv.threads th h
            · rw [List.mem_singleton] at h
              subst h
              refine ⟨⟨hi, ?_⟩, trivial⟩
              change (idx s c i)[k]? = some (sig, k)
              rw [hv.agree c i hi, idx_ok ht]
              obtain ⟨t', ht', hok⟩ := hv.mem.tab i i (self_mem hv.world hi)
              rw [ht] at ht'
              cases ht'
              exact hok.pos.lookup hk
          · intro n t' ht'
            exact ⟨t', by
              change (s.threads ++ _)[n]? = _
              rw [List.getElem?_append_left (List.getElem?_eq_some_iff.mp ht').1]
              exact ht', rfl⟩
        · subst hz; exact ⟨hv, Grow.refl s, Keep.of_eq rfl⟩
      · subst hz; exact ⟨hv, Grow.refl s, Keep.of_eq rfl⟩
    · subst hz; exact ⟨hv, Grow.refl s, Keep.of_eq rfl⟩
  | advance n =>
    generalize hz : step s (.advance n) = z
    change (match s.threads[n]? with
      | some t => { s with threads := s.threads.set n { t with pc := advance s t } }
      | none => s) = z at hz
    split at hz
    · rename_i t e
      subst hz
      refine ⟨?_, same_grow rfl rfl rfl, ?_⟩
      · refine { hv with threads := ?_, mem := ⟨hv.mem.tab, hv.mem.heap⟩ }
        intro th hth
        rcases List.mem_or_eq_of_mem_set hth with h | h
        · exact hv.threads th h
        · rw [h]
          exact advance_ok hv (hv.threads t (List.mem_of_getElem? e))
      · intro m t' ht'
        by_cases hm : n = m
        · subst hm
          rw [e] at ht'
          cases ht'
          refine ⟨{ t with pc := advance s t }, ?_, rfl⟩
          change (s.threads.set n _)[n]? = _
          rw [List.getElem?_set_self (List.getElem?_eq_some_iff.mp e).1]
        · refine ⟨t', ?_, rfl⟩
          change (s.threads.set n _)[m]? = _
          rw [List.getElem?_set_ne hm]
          exact ht'
    · subst hz; exact ⟨hv, Grow.refl s, Keep.of_eq rfl⟩

theorem steps_all : ∀ {l : List Step} {s : State}, Inv s → (∀ st ∈ l, st.Fine) →
    Inv (l.foldl step s) ∧ Grow s (l.foldl step s) ∧ Keep s (l.foldl step s) := by
  intro l
  induction l with
  | nil => intro s hs _; exact ⟨hs, Grow.refl s, Keep.of_eq rfl⟩
  | cons st rest ih =>
    intro s hs hl
    obtain ⟨h1, h2, h3⟩ := step_all hs (hl st (by simp))
    obtain ⟨g1, g2, g3⟩ := ih h1 (fun x hx => hl x (List.mem_cons_of_mem _ hx))
    refine ⟨g1, h2.trans g2, ?_⟩
    intro n t ht
    obtain ⟨t', e1, e2⟩ := h3 n t ht
    obtain ⟨t'', e3, e4⟩ := g3 n t' e1
    exact ⟨t'', e3, e4.trans e2⟩

theorem run_inv {steps : List Step} (hf : ∀ st ∈ steps, st.Fine) : Inv (run steps) :=
  (steps_all init_inv hf).1

end Verif.Mro.Dispatch
