import Verif.Arr.Views
/-!
# Operators work element by element

Property C107.
-/
namespace Verif.Arr

variable {T : Type} {B : Blas T} {inv : Nat → (Nat → Nat → T) → Bool × (Nat → Nat → T)}

/-! ## Loops over an array -/

theorem loop_arr {h : Heap T} {a : Arr} (wa : a.WF h) {val : Nat → Heap T → Except Err T}
    {z : Nat → T}
    (hv : ∀ i, i < a.len → ∀ h', Agree (fun q k => q = a.ref ∧ ∃ j, j < a.len ∧ j ≠ i ∧ k = a.ad j)
      h h' → val i h' = .ok (z i)) :
    ∃ h', forEach (assign a.ref a.ad val) (List.range a.len) h = (.ok (), h') ∧
      (∀ i, i < a.len → (h'.buf a.ref)[a.ad i]? = some (z i)) ∧
      Agree (fun q k => q = a.ref ∧ ∃ i, i < a.len ∧ k = a.ad i) h h' := by
  obtain ⟨h', e, hit, ag⟩ := forEach_assign a.ref a.ad val z (List.range a.len) h
    (fun i hi => wa.lt (List.mem_range.mp hi))
    (by
      refine List.Pairwise.imp_of_mem ?_ List.nodup_range
      intro p q hp hq hne hpq
      exact hne (wa.inj (List.mem_range.mp hp) (List.mem_range.mp hq) hpq))
    (fun i hi h' ag => hv i (List.mem_range.mp hi) h' (ag.mono (by
      rintro q k ⟨hq, j, hj, hne, hk⟩
      exact ⟨hq, j, List.mem_range.mp hj, fun hji => hne (by rw [hji]), hk⟩)))
  exact ⟨h', e, fun i hi => hit i (List.mem_range.mpr hi), ag.mono (by
    rintro q k ⟨hq, i, hi, hk⟩
    exact ⟨hq, i, List.mem_range.mp hi, hk⟩)⟩

theorem isArr_cells {h : Heap T} {a : Arr} (wa : a.WF h) {n : Nat} {x : Nat → T}
    (hx : Spec.IsArr h a n x) : ∀ i, i < a.len → (h.buf a.ref)[a.ad i]? = some (x i) :=
  fun i hi => (getitem_iff hi (wa.lt hi) _).mp (hx.2 i (hx.1 ▸ hi))

theorem cells_isArr {h : Heap T} {a : Arr} {n : Nat} (hn : a.len = n) {x : Nat → T}
    (hx : ∀ i, i < a.len → (h.buf a.ref)[a.ad i]? = some (x i)) : Spec.IsArr h a n x := by
  subst hn
  refine ⟨rfl, fun i hi => ?_⟩
  have hl : a.ad i < (h.buf a.ref).length := by
    have := hx i hi
    rw [List.getElem?_eq_some_iff] at this
    exact this.1
  exact (getitem_iff hi hl _).mpr (hx i hi)

theorem binop_cells {h : Heap T} {a b : Arr} (wa : a.WF h) (hl : b.len = a.len) (cp : a.Compat b)
    {f : T → T → Except Err T} {x y z : Nat → T}
    (hx : ∀ i, i < a.len → (h.buf a.ref)[a.ad i]? = some (x i))
    (hy : ∀ i, i < a.len → (h.buf b.ref)[b.ad i]? = some (y i))
    (hf : ∀ i, i < a.len → f (x i) (y i) = .ok (z i)) :
    ∃ h', a.binop f b h = (.ok (), h') ∧
      (∀ i, i < a.len → (h'.buf a.ref)[a.ad i]? = some (z i)) ∧
      Agree (fun q k => q = a.ref ∧ ∃ i, i < a.len ∧ k = a.ad i) h h' := by
  refine loop_arr wa fun i hi h' ag => ?_
  have h1 := ag.2.2 a.ref (a.ad i) (by
    rintro ⟨_, j, hj, hne, he⟩
    exact hne (wa.inj hj hi he.symm))
  have h2 := ag.2.2 b.ref (b.ad i) (by
    rintro ⟨hr, j, hj, hne, he⟩
    exact hne (cp hr.symm j i hj (hl ▸ hi) he.symm))
  rw [hx i hi] at h1
  rw [hy i hi] at h2
  simp only [read2, read1, Heap.read, h1, h2]
  exact hf i hi

theorem unop_cells {h : Heap T} {a : Arr} (wa : a.WF h) {f : T → Except Err T} {x z : Nat → T}
    (hx : ∀ i, i < a.len → (h.buf a.ref)[a.ad i]? = some (x i))
    (hf : ∀ i, i < a.len → f (x i) = .ok (z i)) :
    ∃ h', a.unop f h = (.ok (), h') ∧
      (∀ i, i < a.len → (h'.buf a.ref)[a.ad i]? = some (z i)) ∧
      Agree (fun q k => q = a.ref ∧ ∃ i, i < a.len ∧ k = a.ad i) h h' := by
  refine loop_arr wa fun i hi h' ag => ?_
  have h1 := ag.2.2 a.ref (a.ad i) (by
    rintro ⟨_, j, hj, hne, he⟩
    exact hne (wa.inj hj hi he.symm))
  rw [hx i hi] at h1
  simp only [read1, Heap.read, h1]
  exact hf i hi

/-- What is not over the same list does not change. -/
theorem agree_elsewhere {h h' : Heap T} {S : Nat → Nat → Prop} {r : Nat}
    (ag : Agree (fun q k => q = r ∧ S q k) h h') {q : Nat} (hq : q ≠ r) : h'.buf q = h.buf q := by
  apply List.ext_getElem?
  intro k
  exact ag.2.2 q k fun hh => hq hh.1

/-- Nothing changes but what is over list `r`. -/
def UnchangedBut (w : World T) (r : Nat) (h' : Heap T) : Prop :=
  (∀ m ∈ w.mats, m.ref ≠ r → Spec.SameMat w.heap h' m) ∧
    ∀ a ∈ w.arrs, a.ref ≠ r → Spec.SameArr w.heap h' a

theorem agree_unchangedBut {w : World T} {h' : Heap T} {S : Nat → Nat → Prop} {r : Nat}
    (ag : Agree (fun q k => q = r ∧ S q k) w.heap h') : UnchangedBut w r h' :=
  ⟨fun _ _ hr => same_buf_mat (agree_elsewhere ag hr),
    fun _ _ hr => same_buf_arr (agree_elsewhere ag hr)⟩

/-! ## Operators that assign, for arrays -/

/-- **`a op= b`**: every element of `a` becomes `op` of itself and the element of `b` as it was,
whether or not the two are windows over the same matrix. -/
theorem iop_entries {w : World T} (r : Reachable B inv w) {a b : Arr} (ha : a ∈ w.arrs)
    (hb : b ∈ w.arrs) {n : Nat} {x y z : Nat → T} {f : T → T → Except Err T}
    (hx : Spec.IsArr w.heap a n x) (hy : Spec.IsArr w.heap b n y)
    (hf : ∀ i, i < n → f (x i) (y i) = .ok (z i)) :
    ∃ h', a.iop f b w.heap = (.ok (), h') ∧ Spec.IsArr h' a n z ∧ UnchangedBut w a.ref h' := by
  have wa := r.keeps.arrWF ha
  have hl : b.len = a.len := hy.1.trans hx.1.symm
  obtain ⟨h', e, hit, ag⟩ := binop_cells wa hl (r.keeps.compat ha hb) (isArr_cells wa hx)
    (fun i hi => isArr_cells (r.keeps.arrWF hb) hy i (hl ▸ hi)) (fun i hi => hf i (hx.1 ▸ hi))
  refine ⟨h', ?_, cells_isArr hx.1 hit, agree_unchangedBut ag⟩
  simp only [Arr.iop, Arr.check, hl, ne_eq, not_true_eq_false, if_false]
  exact e

/-- **`m[i] op= b`** changes row `i` of the matrix, and no other row. -/
theorem row_iop {w : World T} (r : Reachable B inv w) {m : Mat} (hm : m ∈ w.mats) {a b : Arr}
    {i : Nat} (hi : i < m.rows) (ea : m.row i = .ok a) (ha : a ∈ w.arrs) (hb : b ∈ w.arrs)
    {x y z : Nat → T} {f : T → T → Except Err T}
    (hx : ∀ j : Nat, j < m.cols → m.get w.heap i j = .ok (x j))
    (hy : Spec.IsArr w.heap b m.cols y) (hf : ∀ j, j < m.cols → f (x j) (y j) = .ok (z j)) :
    ∃ h', a.iop f b w.heap = (.ok (), h') ∧
      (∀ j : Nat, j < m.cols → m.get h' i j = .ok (z j)) ∧
      ∀ i' j : Nat, i' < m.rows → j < m.cols → i' ≠ i → m.get h' i' j = m.get w.heap i' j := by
  rw [row_eq m i hi] at ea
  cases ea
  have wm := r.keeps.wf hm
  have wa := r.keeps.arrWF ha
  have hl : b.len = m.cols := hy.1
  obtain ⟨h', e, hit, ag⟩ := binop_cells (x := x) (y := y) (z := z) (f := f) wa
    (show b.len = (m.rowOf i).len from hl) (r.keeps.compat ha hb)
    (fun j hj => (get_iff (wm.lt hi hj) _).mp (hx j hj))
    (fun j hj => isArr_cells (r.keeps.arrWF hb) hy j (by rw [hl]; exact hj))
    (fun j hj => hf j hj)
  refine ⟨h', ?_, ?_, ?_⟩
  · simp only [Arr.iop, Arr.check, Mat.rowOf, hl, ne_eq, not_true_eq_false, if_false]
    exact e
  · intro j hj
    rw [get_iff (by rw [ag.2.1]; exact wm.lt hi hj)]
    exact hit j hj
  · intro i' j hi' hj hne
    rw [get_cell (wm.lt hi' hj), get_iff (by rw [ag.2.1]; exact wm.lt hi' hj), ag.2.2 _ _ (by
      rintro ⟨_, k, hk, he⟩
      exact hne (wm.ad_inj hi' hj hi hk he).1)]
    exact List.getElem?_eq_getElem _

/-- `a op= v` with an element `v`, and every operation of one operand in place. -/
theorem unop_entries {w : World T} (r : Reachable B inv w) {a : Arr} (ha : a ∈ w.arrs) {n : Nat}
    {x z : Nat → T} {f : T → Except Err T} (hx : Spec.IsArr w.heap a n x)
    (hf : ∀ i, i < n → f (x i) = .ok (z i)) :
    ∃ h', a.unop f w.heap = (.ok (), h') ∧ Spec.IsArr h' a n z ∧ UnchangedBut w a.ref h' := by
  have wa := r.keeps.arrWF ha
  obtain ⟨h', e, hit, ag⟩ := unop_cells wa (isArr_cells wa hx) (fun i hi => hf i (hx.1 ▸ hi))
  exact ⟨h', e, cells_isArr hx.1 hit, agree_unchangedBut ag⟩

/-! ## Operators that return a new array -/

theorem clone_cells {h : Heap T} {a : Arr} (wa : a.WF h) {n : Nat} {x : Nat → T}
    (hx : Spec.IsArr h a n x) :
    ∃ h', a.clone h = (.ok ⟨h.next, 0, 1, n⟩, h') ∧ (Arr.mk h.next 0 1 n).WF h' ∧
      (∀ i, i < n → (h'.buf h.next)[(Arr.mk h.next 0 1 n).ad i]? = some (x i)) ∧ Old h h' ∧
      Mono h h' := by
  have hn := hx.1
  have hl : a.toList h = .ok ((List.range n).map x) := by
    simp only [Arr.toList]
    have : ∀ l : List Nat, (∀ i ∈ l, i < a.len) →
        readAll h a.ref (l.map a.ad) = .ok (l.map x) := by
      intro l
      induction l with
      | nil => intro _; rfl
      | cons i is ih =>
        intro hi
        have := isArr_cells wa hx i (hi i List.mem_cons_self)
        simp only [List.map_cons, readAll, Heap.read, this]
        rw [ih fun j hj => hi j (List.mem_cons_of_mem _ hj)]
    rw [← hn]
    exact this _ fun i hi => List.mem_range.mp hi
  refine ⟨(h.alloc ((List.range n).map x)).2, ?_, ?_, ?_, alloc_oldbuf _ _, alloc_mono _ _⟩
  · simp only [Arr.clone, hl, Arr.new]
    simp [Heap.alloc]
  · refine ⟨⟨h.next, 0, n, 1, 1, n⟩, ⟨whole_geo _ _, Nat.lt_succ_self _, ?_⟩, whole_view _ _⟩
    simp [Heap.alloc]
  · intro i hi
    rw [alloc_new]
    simp [Arr.ad, hi]

/-- **`a op b`** is a new array, and nothing else changes. -/
theorem op_entries {w : World T} (r : Reachable B inv w) {a b : Arr} (ha : a ∈ w.arrs)
    (hb : b ∈ w.arrs) {n : Nat} {x y z : Nat → T} {f : T → T → Except Err T}
    (hx : Spec.IsArr w.heap a n x) (hy : Spec.IsArr w.heap b n y)
    (hf : ∀ i, i < n → f (x i) (y i) = .ok (z i)) :
    ∃ c h', a.op f b w.heap = (.ok c, h') ∧ Spec.IsArr h' c n z ∧ Unchanged w h' := by
  have wa := r.keeps.arrWF ha
  have wb := r.keeps.arrWF hb
  have hl : b.len = a.len := hy.1.trans hx.1.symm
  obtain ⟨h1, e1, wc, hc, old, mo⟩ := clone_cells wa hx
  have hbl := r.keeps.arrLive hb
  obtain ⟨h', e, hit, ag⟩ := binop_cells (a := ⟨w.heap.next, 0, 1, n⟩) (b := b) (y := y) wc
    hy.1 (fun e => by simp only at e; omega) hc
    (fun i hi => by rw [old _ hbl]; exact isArr_cells wb hy i (hy.1 ▸ hi)) hf
  refine ⟨⟨w.heap.next, 0, 1, n⟩, h', ?_, cells_isArr rfl hit, ?_⟩
  · simp only [Arr.op, Arr.check, hl, ne_eq, not_true_eq_false, if_false, e1, andThen, e]
  · refine Old.unchanged r.keeps fun q hq => ?_
    rw [agree_elsewhere ag (show q ≠ w.heap.next by omega), old q hq]

/-- `-a`, `a ** p`, `a.abs()` and so on, and `a op v` with an element, are new arrays. -/
theorem map_entries {w : World T} (r : Reachable B inv w) {a : Arr} (ha : a ∈ w.arrs) {n : Nat}
    {x z : Nat → T} {f : T → Except Err T} (hx : Spec.IsArr w.heap a n x)
    (hf : ∀ i, i < n → f (x i) = .ok (z i)) :
    ∃ c h', a.map f w.heap = (.ok c, h') ∧ Spec.IsArr h' c n z ∧ Unchanged w h' := by
  have wa := r.keeps.arrWF ha
  obtain ⟨h1, e1, wc, hc, old, mo⟩ := clone_cells wa hx
  obtain ⟨h', e, hit, ag⟩ := unop_cells (a := ⟨w.heap.next, 0, 1, n⟩) wc hc hf
  refine ⟨⟨w.heap.next, 0, 1, n⟩, h', ?_, cells_isArr rfl hit, ?_⟩
  · simp only [Arr.map, e1, andThen, e]
  · refine Old.unchanged r.keeps fun q hq => ?_
    rw [agree_elsewhere ag (show q ≠ w.heap.next by omega), old q hq]

/-- Arrays of different lengths are refused, and nothing changes. -/
theorem arr_mismatch (h : Heap T) (a b : Arr) (hl : b.len ≠ a.len) (f : T → T → Except Err T)
    (add : T → T → T) :
    a.op f b h = (.error .mismatch, h) ∧ a.iop f b h = (.error .mismatch, h) ∧
      a.addFloat add b h = (.error .mismatch, h) ∧ a.iaddFloat add b h = (.error .mismatch, h) := by
  simp [Arr.op, Arr.iop, Arr.addFloat, Arr.iaddFloat, Arr.check, hl]

/-! ## An element operation that raises -/

/-- Whatever the element operation does, raising included, `a op b` leaves everything as it was. -/
theorem op_leaves {w : World T} (r : Reachable B inv w) (a b : Arr) (f : T → T → Except Err T) :
    Unchanged w (a.op f b w.heap).2 := by
  refine Old.unchanged r.keeps ?_
  simp only [Arr.op]
  split
  · exact fun _ _ => rfl
  · simp only [Arr.clone]
    split
    · exact fun _ _ => rfl
    · rename_i l _
      intro q hq
      simp only [andThen]
      have hne : q ≠ (Arr.new w.heap l).1.ref := Nat.ne_of_lt hq
      have h1 : (Arr.new w.heap l).2.buf q = w.heap.buf q := alloc_old w.heap l (Nat.ne_of_lt hq)
      have h2 : ((Arr.new w.heap l).1.binop f b (Arr.new w.heap l).2).2.buf q
          = (Arr.new w.heap l).2.buf q := by
        have := forEach_lengths (Arr.new w.heap l).1.ref (Arr.new w.heap l).1.ad
          (fun i h => read2 f h (Arr.new w.heap l).1.ref ((Arr.new w.heap l).1.ad i) b.ref (b.ad i))
          (List.range (Arr.new w.heap l).1.len) (Arr.new w.heap l).2
        apply List.ext_getElem?
        intro k
        exact this.2.2 q k hne
      cases hb : (Arr.new w.heap l).1.binop f b (Arr.new w.heap l).2 with
      | mk e h' =>
        rw [hb] at h2
        cases e <;> exact h2.trans h1

/-- When the operation raises at element `k`, `a op= b` has already changed the elements before it,
and not the ones from `k` on. -/
theorem iop_stops {w : World T} (r : Reachable B inv w) {a b : Arr} (ha : a ∈ w.arrs)
    (hb : b ∈ w.arrs) {n : Nat} {x y z : Nat → T} {f : T → T → Except Err T} {k : Nat} {er : Err}
    (hx : Spec.IsArr w.heap a n x) (hy : Spec.IsArr w.heap b n y) (hk : k < n)
    (hf : ∀ i, i < k → f (x i) (y i) = .ok (z i)) (he : f (x k) (y k) = .error er) :
    ∃ h', a.iop f b w.heap = (.error er, h') ∧
      Spec.IsArr h' a n (fun i => if i < k then z i else x i) := by
  have wa := r.keeps.arrWF ha
  have wb := r.keeps.arrWF hb
  have hal := hx.1
  have hl : b.len = a.len := hy.1.trans hx.1.symm
  have cx := isArr_cells wa hx
  have cy := isArr_cells wb hy
  have cp := r.keeps.compat ha hb
  -- the first `k` elements
  have hread : ∀ i, i < n → ∀ h', Agree (fun q c => q = a.ref ∧ ∃ j, j < a.len ∧ j ≠ i ∧ c = a.ad j)
      w.heap h' → (h'.read a.ref (a.ad i) = .ok (x i) ∧ h'.read b.ref (b.ad i) = .ok (y i)) := by
    intro i hi h' ag
    have h1 := ag.2.2 a.ref (a.ad i) (by
      rintro ⟨_, j, hj, hne, he⟩
      exact hne (wa.inj hj (by omega) he.symm))
    have h2 := ag.2.2 b.ref (b.ad i) (by
      rintro ⟨hr, j, hj, hne, he⟩
      exact hne (cp hr.symm j i hj (by omega) he.symm))
    rw [cx i (by omega)] at h1
    rw [cy i (by omega)] at h2
    simp [Heap.read, h1, h2]
  obtain ⟨h1, e1, hit, ag⟩ := forEach_assign a.ref a.ad
    (fun i h => read2 f h a.ref (a.ad i) b.ref (b.ad i)) z (List.range k) w.heap
    (fun i hi => wa.lt (by have := List.mem_range.mp hi; omega))
    (by
      refine List.Pairwise.imp_of_mem ?_ List.nodup_range
      intro p q hp hq hne hpq
      have := List.mem_range.mp hp
      have := List.mem_range.mp hq
      exact hne (wa.inj (by omega) (by omega) hpq))
    (by
      intro i hi h' ag
      have hi' := List.mem_range.mp hi
      obtain ⟨r1, r2⟩ := hread i (by omega) h' (ag.mono (by
        rintro q c ⟨hq, j, hj, hne, hc⟩
        have := List.mem_range.mp hj
        exact ⟨hq, j, by omega, fun hji => hne (by rw [hji]), hc⟩))
      simp only [read2, read1, r1, r2]
      exact hf i hi')
  obtain ⟨r1, r2⟩ := hread k hk h1 (ag.mono (by
    rintro q c ⟨hq, j, hj, hc⟩
    have := List.mem_range.mp hj
    exact ⟨hq, j, by omega, by omega, hc⟩))
  have hsplit : List.range a.len = List.range k ++ (k :: (List.range (a.len - k - 1)).map (k + 1 + ·)) := by
    have : a.len = k + (1 + (a.len - k - 1)) := by omega
    rw [this, List.range_add, List.range_add]
    have h2 : k + (1 + (a.len - k - 1)) - k - 1 = a.len - k - 1 := by omega
    rw [h2]
    simp [List.map_map, Function.comp_def, Nat.add_assoc]
  refine ⟨h1, ?_, cells_isArr hal fun i hi => ?_⟩
  · simp only [Arr.iop, Arr.check, hl, ne_eq, not_true_eq_false, if_false, Arr.binop]
    rw [hsplit, forEach_append _ _ _ _ _ e1]
    simp only [forEach, assign, read2, read1, r1, r2, he]
  · by_cases hik : i < k
    · rw [if_pos hik]; exact hit i (List.mem_range.mpr hik)
    · rw [if_neg hik, ag.2.2 _ _ (by
        rintro ⟨_, j, hj, hc⟩
        have := List.mem_range.mp hj
        have := wa.inj hi (by omega) hc
        omega)]
      exact cx i hi

/-! ## Matrices -/

theorem loop_mat {h : Heap T} {m : Mat} (wm : m.WF h) {val : Nat × Nat → Heap T → Except Err T}
    {z : Nat → Nat → T}
    (hv : ∀ i j, i < m.rows → j < m.cols → ∀ h', Agree (fun q k => q = m.ref ∧
      ∃ i' j', i' < m.rows ∧ j' < m.cols ∧ ¬ (i' = i ∧ j' = j) ∧ k = m.ad i' j') h h' →
        val (i, j) h' = .ok (z i j)) :
    ∃ h', forEach (assign m.ref (fun p : Nat × Nat => m.off + p.1 * m.s0 + p.2 * m.s1) val)
        (pairs m.rows m.cols) h = (.ok (), h') ∧
      (∀ i j, i < m.rows → j < m.cols → (h'.buf m.ref)[m.ad i j]? = some (z i j)) ∧
      Agree (fun q k => q = m.ref ∧ ∃ i j, i < m.rows ∧ j < m.cols ∧ k = m.ad i j) h h' := by
  obtain ⟨h', e, hit, ag⟩ := forEach_assign m.ref
    (fun p : Nat × Nat => m.off + p.1 * m.s0 + p.2 * m.s1) val (fun p => z p.1 p.2)
    (pairs m.rows m.cols) h
    (fun p hp => by
      have := (mem_pairs _ _ _).mp hp
      exact wm.lt this.1 this.2)
    (by
      have nd : (pairs m.rows m.cols).Nodup := by
        rw [List.Nodup, List.pairwise_iff_getElem]
        intro a b ha hb hab he
        have he : (pairs m.rows m.cols)[a]? = (pairs m.rows m.cols)[b]? := by
          rw [List.getElem?_eq_getElem ha, List.getElem?_eq_getElem hb, he]
        rw [pairs_length] at ha hb
        have hc : 0 < m.cols := by
          rcases Nat.eq_zero_or_pos m.cols with h0 | h0
          · rw [h0, Nat.mul_zero] at hb; omega
          · exact h0
        have key : ∀ k, k < m.rows * m.cols →
            (pairs m.rows m.cols)[k]? = some (k / m.cols, k % m.cols) := by
          intro k hk
          have h1 : k / m.cols < m.rows := Nat.div_lt_of_lt_mul (by rw [Nat.mul_comm]; exact hk)
          have := pairs_get (r := m.rows) h1 (Nat.mod_lt k hc)
          rwa [Nat.mul_comm, Nat.div_add_mod] at this
        rw [key a (by omega), key b hb] at he
        simp only [Option.some.injEq, Prod.mk.injEq] at he
        have ha := Nat.div_add_mod a m.cols
        have hb' := Nat.div_add_mod b m.cols
        rw [he.1, he.2] at ha
        omega
      refine List.Pairwise.imp_of_mem ?_ nd
      intro p q hp hq hne hpq
      have hp' := (mem_pairs _ _ _).mp hp
      have hq' := (mem_pairs _ _ _).mp hq
      have := wm.ad_inj hp'.1 hp'.2 hq'.1 hq'.2 hpq
      exact hne (Prod.ext this.1 this.2))
    (by
      intro p hp h' ag
      have hp' := (mem_pairs _ _ _).mp hp
      refine hv p.1 p.2 hp'.1 hp'.2 h' (ag.mono ?_)
      rintro q k ⟨hq, j, hj, hne, hk⟩
      have hj' := (mem_pairs _ _ _).mp hj
      exact ⟨hq, j.1, j.2, hj'.1, hj'.2, fun hh => hne (by rw [hh.1, hh.2]), hk⟩)
  refine ⟨h', e, fun i j hi hj => hit (i, j) ((mem_pairs _ _ _).mpr ⟨hi, hj⟩), ag.mono ?_⟩
  rintro q k ⟨hq, p, hp, hk⟩
  have hp' := (mem_pairs _ _ _).mp hp
  exact ⟨hq, p.1, p.2, hp'.1, hp'.2, hk⟩

theorem isMat_cells {h : Heap T} {m : Mat} (wm : m.WF h) {rows cols : Nat} {e : Nat → Nat → T}
    (he : Spec.IsMat h m rows cols e) :
    ∀ i j, i < m.rows → j < m.cols → (h.buf m.ref)[m.ad i j]? = some (e i j) :=
  fun i j hi hj => (get_iff (wm.lt hi hj) _).mp (he.2.2 i j (he.1 ▸ hi) (he.2.1 ▸ hj))

theorem cells_isMat {h : Heap T} {m : Mat} {rows cols : Nat} (hr : m.rows = rows)
    (hc : m.cols = cols) {e : Nat → Nat → T}
    (he : ∀ i j, i < m.rows → j < m.cols → (h.buf m.ref)[m.ad i j]? = some (e i j)) :
    Spec.IsMat h m rows cols e := by
  subst hr hc
  refine ⟨rfl, rfl, fun i j hi hj => ?_⟩
  have hl : m.ad i j < (h.buf m.ref).length := by
    have := he i j hi hj
    rw [List.getElem?_eq_some_iff] at this
    exact this.1
  exact (get_iff hl _).mpr (he i j hi hj)

theorem mbinop_cells {h : Heap T} {m o : Mat} (wm : m.WF h) (wo : o.WF h)
    (hr : o.rows = m.rows) (hc : o.cols = m.cols) (same : o.ref = m.ref → o = m)
    {f : T → T → Except Err T} {x y z : Nat → Nat → T}
    (hx : ∀ i j, i < m.rows → j < m.cols → (h.buf m.ref)[m.ad i j]? = some (x i j))
    (hy : ∀ i j, i < m.rows → j < m.cols → (h.buf o.ref)[o.ad i j]? = some (y i j))
    (hf : ∀ i j, i < m.rows → j < m.cols → f (x i j) (y i j) = .ok (z i j)) :
    ∃ h', m.binop f o h = (.ok (), h') ∧
      (∀ i j, i < m.rows → j < m.cols → (h'.buf m.ref)[m.ad i j]? = some (z i j)) ∧
      Agree (fun q k => q = m.ref ∧ ∃ i j, i < m.rows ∧ j < m.cols ∧ k = m.ad i j) h h' := by
  refine loop_mat wm fun i j hi hj h' ag => ?_
  have h1 := ag.2.2 m.ref (m.ad i j) (by
    rintro ⟨_, i', j', hi', hj', hne, he⟩
    exact hne (wm.ad_inj hi' hj' hi hj he.symm))
  have h2 := ag.2.2 o.ref (o.ad i j) (by
    rintro ⟨hr', i', j', hi', hj', hne, he⟩
    have := same hr'
    subst this
    exact hne (wm.ad_inj hi' hj' hi hj he.symm))
  rw [hx i j hi hj] at h1
  rw [hy i j hi hj] at h2
  have eo : m.off + i * o.s0 + j * o.s1 = o.ad i j := by simp only [Mat.ad, wm.off, wo.off]
  simp only [read2, read1, Heap.read, eo]
  simp only [Mat.ad] at h1 h2
  simp only [Mat.ad, h1, h2]
  exact hf i j hi hj

theorem munop_cells {h : Heap T} {m : Mat} (wm : m.WF h)
    {f : T → Except Err T} {x z : Nat → Nat → T}
    (hx : ∀ i j, i < m.rows → j < m.cols → (h.buf m.ref)[m.ad i j]? = some (x i j))
    (hf : ∀ i j, i < m.rows → j < m.cols → f (x i j) = .ok (z i j)) :
    ∃ h', m.unop f h = (.ok (), h') ∧
      (∀ i j, i < m.rows → j < m.cols → (h'.buf m.ref)[m.ad i j]? = some (z i j)) ∧
      Agree (fun q k => q = m.ref ∧ ∃ i j, i < m.rows ∧ j < m.cols ∧ k = m.ad i j) h h' := by
  refine loop_mat wm fun i j hi hj h' ag => ?_
  have h1 := ag.2.2 m.ref (m.ad i j) (by
    rintro ⟨_, i', j', hi', hj', hne, he⟩
    exact hne (wm.ad_inj hi' hj' hi hj he.symm))
  rw [hx i j hi hj] at h1
  simp only [Mat.ad] at h1
  simp only [read1, Heap.read, h1]
  exact hf i j hi hj

/-- **`m op= o`** for matrices, `m op= m` included. -/
theorem mat_iop_entries {w : World T} (r : Reachable B inv w) {m o : Mat} (hm : m ∈ w.mats)
    (ho : o ∈ w.mats) {rows cols : Nat} {x y z : Nat → Nat → T} {f : T → T → Except Err T}
    (hx : Spec.IsMat w.heap m rows cols x) (hy : Spec.IsMat w.heap o rows cols y)
    (hf : ∀ i j, i < rows → j < cols → f (x i j) (y i j) = .ok (z i j)) :
    ∃ h', m.iop f o w.heap = (.ok (), h') ∧ Spec.IsMat h' m rows cols z ∧
      UnchangedBut w m.ref h' := by
  have wm := r.keeps.wf hm
  have wo := r.keeps.wf ho
  obtain ⟨hr, hc, hx2⟩ := id hx
  obtain ⟨hr', hc', hy2⟩ := id hy
  obtain ⟨h', e, hit, ag⟩ := mbinop_cells (f := f) (z := z) wm wo (by omega) (by omega)
    (fun e => r.keeps.same ho hm e) (isMat_cells wm hx)
    (fun i j hi hj => isMat_cells wo hy i j (by omega) (by omega))
    (fun i j hi hj => hf i j (by omega) (by omega))
  refine ⟨h', ?_, cells_isMat hr hc hit, agree_unchangedBut ag⟩
  simp only [Mat.iop, Mat.check, hr, hr', hc, hc', ne_eq, not_true_eq_false, if_false]
  exact e

theorem mat_unop_entries {w : World T} (r : Reachable B inv w) {m : Mat} (hm : m ∈ w.mats)
    {rows cols : Nat} {x z : Nat → Nat → T} {f : T → Except Err T}
    (hx : Spec.IsMat w.heap m rows cols x)
    (hf : ∀ i j, i < rows → j < cols → f (x i j) = .ok (z i j)) :
    ∃ h', m.unop f w.heap = (.ok (), h') ∧ Spec.IsMat h' m rows cols z ∧
      UnchangedBut w m.ref h' := by
  have wm := r.keeps.wf hm
  obtain ⟨hr, hc, hx2⟩ := id hx
  obtain ⟨h', e, hit, ag⟩ := munop_cells (f := f) (z := z) wm (isMat_cells wm hx)
    (fun i j hi hj => hf i j (by omega) (by omega))
  exact ⟨h', e, cells_isMat hr hc hit, agree_unchangedBut ag⟩

theorem mclone_cells {h : Heap T} {m : Mat} (wm : m.WF h) {rows cols : Nat} {x : Nat → Nat → T}
    (hx : Spec.IsMat h m rows cols x) :
    ∃ h', m.clone h = (.ok ⟨h.next, 0, cols, 1, rows, cols⟩, h') ∧
      (Mat.mk h.next 0 cols 1 rows cols).WF h' ∧
      Spec.IsMat h' ⟨h.next, 0, cols, 1, rows, cols⟩ rows cols x ∧ Old h h' ∧ Mono h h' := by
  obtain ⟨hr, hc, hx2⟩ := id hx
  subst hr hc
  have hl := toList_get wm hx
  have hg := Mat.clone_good h m
  have ec : m.clone h = (.ok ⟨h.next, 0, m.cols, 1, m.rows, m.cols⟩,
      (h.alloc ((pairs m.rows m.cols).map fun p => x p.1 p.2)).2) := by
    simp only [Mat.clone, hl]
    rfl
  rw [ec] at hg
  exact ⟨_, ec, (hg.2 _ rfl).1.2, matNew_entries h m.rows m.cols x, alloc_oldbuf _ _, hg.1⟩

/-- **`m op o`** for matrices is a new matrix, and nothing else changes. -/
theorem mat_op_entries {w : World T} (r : Reachable B inv w) {m o : Mat} (hm : m ∈ w.mats)
    (ho : o ∈ w.mats) {rows cols : Nat} {x y z : Nat → Nat → T} {f : T → T → Except Err T}
    (hx : Spec.IsMat w.heap m rows cols x) (hy : Spec.IsMat w.heap o rows cols y)
    (hf : ∀ i j, i < rows → j < cols → f (x i j) (y i j) = .ok (z i j)) :
    ∃ c h', m.op f o w.heap = (.ok c, h') ∧ Spec.IsMat h' c rows cols z ∧ Unchanged w h' := by
  have wm := r.keeps.wf hm
  have wo := r.keeps.wf ho
  obtain ⟨hr, hc, _⟩ := id hx
  obtain ⟨hr', hc', _⟩ := id hy
  obtain ⟨h1, e1, wc, hc1, old, mo⟩ := mclone_cells wm hx
  have hol := wo.live
  obtain ⟨h', e, hit, ag⟩ := mbinop_cells (m := ⟨w.heap.next, 0, cols, 1, rows, cols⟩) (o := o)
    (f := f) (z := z) (y := y) wc (wo.mono mo) hr' hc' (fun e => by simp only at e; omega)
    (isMat_cells wc hc1)
    (fun i j hi hj => by
      rw [old _ hol]; exact isMat_cells wo hy i j (hr' ▸ hi) (hc' ▸ hj))
    (fun i j hi hj => hf i j hi hj)
  refine ⟨_, h', ?_, cells_isMat rfl rfl hit, ?_⟩
  · simp only [Mat.op, Mat.check, hr, hr', hc, hc', ne_eq, not_true_eq_false, if_false, e1,
      andThen, e]
  · refine Old.unchanged r.keeps fun q hq => ?_
    rw [agree_elsewhere ag (show q ≠ w.heap.next by omega), old q hq]

theorem mat_map_entries {w : World T} (r : Reachable B inv w) {m : Mat} (hm : m ∈ w.mats)
    {rows cols : Nat} {x z : Nat → Nat → T} {f : T → Except Err T}
    (hx : Spec.IsMat w.heap m rows cols x)
    (hf : ∀ i j, i < rows → j < cols → f (x i j) = .ok (z i j)) :
    ∃ c h', m.map f w.heap = (.ok c, h') ∧ Spec.IsMat h' c rows cols z ∧ Unchanged w h' := by
  have wm := r.keeps.wf hm
  obtain ⟨h1, e1, wc, hc1, old, mo⟩ := mclone_cells wm hx
  obtain ⟨h', e, hit, ag⟩ := munop_cells (m := ⟨w.heap.next, 0, cols, 1, rows, cols⟩) (f := f)
    (z := z) wc (isMat_cells wc hc1) (fun i j hi hj => hf i j hi hj)
  refine ⟨_, h', ?_, cells_isMat rfl rfl hit, ?_⟩
  · simp only [Mat.map, e1, andThen, e]
  · refine Old.unchanged r.keeps fun q hq => ?_
    rw [agree_elsewhere ag (show q ≠ w.heap.next by omega), old q hq]

/-- Matrices of different shapes are refused, and nothing changes. -/
theorem mat_mismatch (h : Heap T) (m o : Mat) (hs : ¬ (o.rows = m.rows ∧ o.cols = m.cols))
    (f : T → T → Except Err T) :
    m.op f o h = (.error .mismatch, h) ∧ m.iop f o h = (.error .mismatch, h) := by
  by_cases hr : o.rows = m.rows
  · have hc : o.cols ≠ m.cols := fun hc => hs ⟨hr, hc⟩
    simp [Mat.op, Mat.iop, Mat.check, hr, hc]
  · simp [Mat.op, Mat.iop, Mat.check, hr]

/-! ## Addition of arrays of `float` -/

/-- With equal strides, `a += b` adds element by element.

Full statement: for all arrays of the same length, as in `iop_entries`. Missing: different strides,
where it is false (`addFloat_faults`, `iadd_wrong_cell`). -/
theorem iaddFloat_partial {w : World T} (r : Reachable B inv w) {a b : Arr} (ha : a ∈ w.arrs)
    (hb : b ∈ w.arrs) {n : Nat} {x y : Nat → T} (add : T → T → T)
    (hx : Spec.IsArr w.heap a n x) (hy : Spec.IsArr w.heap b n y) (hs : a.stride = b.stride) :
    ∃ h', a.iaddFloat add b w.heap = (.ok (), h') ∧ Spec.IsArr h' a n (fun i => add (x i) (y i)) ∧
      UnchangedBut w a.ref h' := by
  obtain ⟨h', e, h2⟩ := iop_entries r ha hb (f := fun u v => .ok (add u v))
    (z := fun i => add (x i) (y i)) hx hy (fun _ _ => rfl)
  refine ⟨h', ?_, h2⟩
  have hl : b.len = a.len := hy.1.trans hx.1.symm
  rw [← e]
  simp only [Arr.iaddFloat, Arr.iop, Arr.check, hl, ne_eq, not_true_eq_false, if_false, axpy,
    Arr.binop]
  have had : a.ad = fun i => a.off + i * b.stride := by
    funext i; simp only [Arr.ad, hs]
  rw [had, hs]
  rfl

/-- `a + b` adds element by element when `b` has stride 1. Missing: the other strides. -/
theorem addFloat_partial {w : World T} (r : Reachable B inv w) {a b : Arr} (ha : a ∈ w.arrs)
    (hb : b ∈ w.arrs) {n : Nat} {x y : Nat → T} (add : T → T → T)
    (hx : Spec.IsArr w.heap a n x) (hy : Spec.IsArr w.heap b n y) (hs : b.stride = 1) :
    ∃ c h', a.addFloat add b w.heap = (.ok c, h') ∧
      Spec.IsArr h' c n (fun i => add (x i) (y i)) ∧ Unchanged w h' := by
  obtain ⟨c, h', e, h2⟩ := op_entries r ha hb (f := fun u v => .ok (add u v))
    (z := fun i => add (x i) (y i)) hx hy (fun _ _ => rfl)
  refine ⟨c, h', ?_, h2⟩
  have hl : b.len = a.len := hy.1.trans hx.1.symm
  obtain ⟨h1, e1, _, _, _, _⟩ := clone_cells (r.keeps.arrWF ha) hx
  have hn : a.len = n := hx.1
  rw [← e]
  simp only [Arr.addFloat, Arr.op, Arr.check, hl, ne_eq, not_true_eq_false, if_false, e1, andThen]
  simp only [Arr.iaddFloat, Arr.check, hl, hn, ne_eq, not_true_eq_false, if_false, axpy,
    Arr.binop, Arr.ad, hs]
  rfl

/-- A loop stops with a fault when an iteration writes outside the list, if the iterations before do
not raise anything else. -/
theorem forEach_fault {ι : Type} (rf : Nat) (ad : ι → Nat) (val : ι → Heap T → Except Err T)
    (l : List ι) (h : Heap T)
    (hv : ∀ i ∈ l, ∀ h', (∃ v, val i h' = .ok v) ∨ val i h' = .error .fault)
    (hx : ∃ i ∈ l, (h.buf rf).length ≤ ad i) :
    (forEach (assign rf ad val) l h).1 = .error .fault := by
  induction l generalizing h with
  | nil => obtain ⟨i, hi, _⟩ := hx; cases hi
  | cons x xs ih =>
    simp only [forEach, assign]
    rcases hv x List.mem_cons_self h with ⟨v, hv'⟩ | hv'
    · rw [hv']
      simp only [Heap.write]
      by_cases hlt : ad x < (h.buf rf).length
      · rw [if_pos hlt]
        refine ih _ (fun i hi => hv i (List.mem_cons_of_mem _ hi)) ?_
        obtain ⟨i, hi, hle⟩ := hx
        rcases List.mem_cons.mp hi with rfl | hi
        · omega
        · exact ⟨i, hi, by rw [(put_agree h rf (ad x) v).2.1]; exact hle⟩
      · rw [if_neg hlt]
    · rw [hv']

/-- **Refuted**: for every array `b` of `float` with two or more elements and a stride above 1 (the
diagonal of a matrix, a row of a transposed matrix) and every array `a` of the same length, `a + b`
writes outside the list of the result: at cell `(n - 1) * stride` of a list of `n`. -/
theorem addFloat_faults {w : World T} (r : Reachable B inv w) {a b : Arr} (ha : a ∈ w.arrs)
    (hl : b.len = a.len) (h2 : 2 ≤ a.len) (hs : 2 ≤ b.stride) (add : T → T → T) :
    (a.addFloat add b w.heap).1 = .error .fault := by
  have wa := r.keeps.arrWF ha
  let x : Nat → T := fun i =>
    if hi : i < a.len then (w.heap.buf a.ref)[a.ad i]'(wa.lt hi) else
      (w.heap.buf a.ref)[a.ad 0]'(wa.lt (by omega))
  have hx : Spec.IsArr w.heap a a.len x := by
    refine ⟨rfl, fun i hi => ?_⟩
    rw [getitem_cell hi (wa.lt hi)]
    simp only [x, hi, dif_pos]
  obtain ⟨h1, e1, wc, hc, _, _⟩ := clone_cells wa hx
  simp only [Arr.addFloat, Arr.check, hl, ne_eq, not_true_eq_false, if_false, e1, andThen]
  have hlen : (h1.buf w.heap.next).length = a.len := by
    have hcl : a.clone w.heap = (.ok ⟨w.heap.next, 0, 1, a.len⟩, h1) := e1
    simp only [Arr.clone] at hcl
    split at hcl
    · cases hcl
    · rename_i l hl'
      have hll := readAll_length _ _ _ _ hl'
      simp only [Arr.new, Prod.mk.injEq] at hcl
      rw [← hcl.2, alloc_new, hll]
      simp
  have hf : ((Arr.mk w.heap.next 0 1 a.len).iaddFloat add b h1).1 = .error .fault := by
    simp only [Arr.iaddFloat, Arr.check, hl, ne_eq, not_true_eq_false, if_false, axpy]
    refine forEach_fault _ _ _ _ _ ?_ ⟨a.len - 1, List.mem_range.mpr (by omega), ?_⟩
    · intro i _ h'
      simp only [read2, read1, Heap.read]
      cases (h'.buf w.heap.next)[0 + i * b.stride]? with
      | none => exact .inr rfl
      | some v =>
        cases (h'.buf b.ref)[b.off + i * 1]? with
        | none => exact .inr rfl
        | some u => exact .inl ⟨_, rfl⟩
    · rw [hlen, Nat.zero_add]
      calc a.len ≤ (a.len - 1) * 2 := by omega
        _ ≤ (a.len - 1) * b.stride := Nat.mul_le_mul_left _ hs
  cases hg : (Arr.mk w.heap.next 0 1 a.len).iaddFloat add b h1 with
  | mk e h' =>
    rw [hg] at hf
    simp only at hf
    subst hf
    rfl

/-- Two matrices of two rows and columns: 1, 2, 3, 4 and its transpose, with the diagonal of the
first and the first row of the second, and an array of two elements. -/
def strideOps : List (Op Int) :=
  [.makeMat 2 2 fun i j => 2 * i + j + 1, .transpose 0, .diagonal 0, .row 1 0, .newArr [10, 20]]
def strided : World Int := run sampleBlas sampleInv strideOps

/-- **Refuted** without any access outside: `m.diagonal() += t[0]`, where `t = m.transpose()` and
`m` is `[[1, 2], [3, 4]]`, should make the diagonal `1 + 1, 4 + 3`; it changes entry `(1, 0)` in the
place of `(1, 1)`, adding entry `(1, 1)` of `m` to it. -/
theorem iadd_wrong_cell :
    ((strided.mats[0]?).bind fun m => (strided.arrs[0]?).bind fun d => (strided.arrs[1]?).map fun t =>
      let h := (d.iaddFloat (· + ·) t strided.heap).2
      [d.getitem strided.heap 0, d.getitem strided.heap 1,
        t.getitem strided.heap 0, t.getitem strided.heap 1,
        d.getitem h 0, d.getitem h 1, m.get h 1 0])
      = some [.ok 1, .ok 4, .ok 1, .ok 3, .ok 2, .ok 4, .ok 7] := by
  decide +kernel

/-- `x + m.diagonal()` for the same matrix: the hypotheses of `addFloat_faults` are met. -/
example : (strided.arrs[2]?.map fun x => (x.len, x.stride)) = some (2, 1) ∧
    (strided.arrs[0]?.map fun d => (d.len, d.stride)) = some (2, 3) ∧
    ((strided.arrs[2]?).bind fun x => (strided.arrs[0]?).map fun d =>
      (x.addFloat (· + ·) d strided.heap).1) = some (.error .fault) := by
  decide +kernel

/-! ## The hypotheses are met -/

-- `m.diagonal() -= m[...]` of one matrix: entries are read as they were
example : ((strided.arrs[0]?).bind fun d => (strided.arrs[1]?).map fun t =>
      let h := (d.iop (fun x y => .ok (x - y)) t strided.heap).2
      (d.getitem h 0, d.getitem h 1)) = some (.ok 0, .ok 1) := by
  decide +kernel
-- an element operation that raises in the second element
example : ((strided.arrs[2]?).bind fun a => (strided.arrs[1]?).map fun b =>
      let r := a.iop (fun x y => if y = 3 then .error .arith else .ok (x + y)) b strided.heap
      (r.1, a.getitem r.2 0, a.getitem r.2 1)) = some (.error .arith, .ok 11, .ok 20) := by
  decide +kernel
-- `m -= m`
example : ((strided.mats[0]?).map fun m =>
      let h := (m.iop (fun x y => .ok (x - y)) m strided.heap).2
      (m.get h 0 0, m.get h 1 1)) = some (.ok 0, .ok 0) := by
  decide +kernel

end Verif.Arr
