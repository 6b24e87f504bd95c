import Verif.Arr.Elementwise
/-!
# Products and inverses

Property C108. The numerical library computes what its documentation says; the theorems say that it
is given the right matrices, in the right layout, and that nothing else is touched.
-/
namespace Verif.Arr

variable {T : Type} {B : Blas T} {inv : Nat → (Nat → Nat → T) → Bool × (Nat → Nat → T)}

theorem canonical_cells {h : Heap T} {m : Mat} (wm : m.WF h) {rows cols : Nat} {x : Nat → Nat → T}
    (hx : Spec.IsMat h m rows cols x) :
    ∃ c h', m.canonical h = (.ok c, h') ∧ c.WF h' ∧ c.rows = rows ∧ c.cols = cols ∧
      c.s0 = cols ∧ c.s1 = 1 ∧ Spec.IsMat h' c rows cols x ∧ Old h h' ∧ Mono h h' ∧
      (c.ref = m.ref ∨ c.ref = h.next) := by
  have hg := Mat.canonical_good wm
  by_cases hc : m.isCanonical
  · have e : m.canonical h = (.ok m, h) := by simp only [Mat.canonical, hc, if_true]
    rw [e] at hg
    obtain ⟨_, _, _, h0, h1⟩ := hg.2 m rfl
    exact ⟨m, h, e, wm, hx.1, hx.2.1, h0.trans hx.2.1, h1, hx, fun _ _ => rfl, Mono.refl _, .inl rfl⟩
  · obtain ⟨h', e1, wc, hc1, old, mo⟩ := mclone_cells wm hx
    refine ⟨_, h', ?_, wc, rfl, rfl, rfl, rfl, hc1, old, mo, .inr rfl⟩
    simp only [Mat.canonical]
    rw [if_neg hc]
    exact e1

theorem readAll_map {h : Heap T} {r : Nat} {k : Nat} {ad : Nat → Nat} {u : Nat → T}
    (hu : ∀ l, l < k → (h.buf r)[ad l]? = some (u l)) :
    readAll h r ((List.range k).map ad) = .ok ((List.range k).map u) := by
  have : ∀ ls : List Nat, (∀ l ∈ ls, l < k) → readAll h r (ls.map ad) = .ok (ls.map u) := by
    intro ls
    induction ls with
    | nil => intro _; rfl
    | cons l ls ih =>
      intro hl
      simp only [List.map_cons, readAll, Heap.read, hu l (hl l List.mem_cons_self)]
      rw [ih fun j hj => hl j (List.mem_cons_of_mem _ hj)]
  exact this _ fun l hl => List.mem_range.mp hl

theorem dotCells_ok {h : Heap T} {k pr p ps qr q qs : Nat} {u v : Nat → T}
    (hu : ∀ l, l < k → (h.buf pr)[p + l * ps]? = some (u l))
    (hv : ∀ l, l < k → (h.buf qr)[q + l * qs]? = some (v l)) :
    dotCells B h k pr p ps qr q qs = .ok (B.dot (Spec.products B.mul k u v)) := by
  simp only [dotCells, readAll_map hu, readAll_map hv, Spec.products]
  rw [List.zipWith_map, List.zipWith_self]

/-! ## Arrays -/

/-- `a @ b` adds the products of the elements in order; different lengths are refused. -/
theorem dot_entries {w : World T} (r : Reachable B inv w) {a b : Arr} (ha : a ∈ w.arrs)
    (hb : b ∈ w.arrs) {n : Nat} {x y : Nat → T} (hx : Spec.IsArr w.heap a n x)
    (hy : Spec.IsArr w.heap b n y) (add mul : T → T → T) (zero : T) :
    a.dot add mul zero w.heap b = .ok ((Spec.products mul n x y).foldl add zero) := by
  have ca := isArr_cells (r.keeps.arrWF ha) hx
  have cb := isArr_cells (r.keeps.arrWF hb) hy
  have hn := hx.1
  have hn' := hy.1
  simp only [Arr.dot]
  rw [if_neg (by omega), readAll_map ca]
  simp only
  rw [readAll_map (u := y) fun l hl => cb l (by omega)]
  simp only [Spec.products, hn]
  rw [List.zipWith_map, List.zipWith_self]

theorem dot_mismatch (h : Heap T) (a b : Arr) (hl : b.len ≠ a.len) (add mul : T → T → T) (zero : T) :
    a.dot add mul zero h b = .error .mismatch := by simp only [Arr.dot]; rw [if_pos hl]

/-- `a.sum()` adds the elements in order. -/
theorem sum_entries {w : World T} (r : Reachable B inv w) {a : Arr} (ha : a ∈ w.arrs) {n : Nat}
    {x : Nat → T} (hx : Spec.IsArr w.heap a n x) (add : T → T → T) (zero : T) :
    a.sum add zero w.heap = .ok (((List.range n).map x).foldl add zero) := by
  have ca := isArr_cells (r.keeps.arrWF ha) hx
  simp only [Arr.sum, Arr.toList]
  rw [readAll_map ca, hx.1]

/-! ## Matrix times matrix -/

/-- **`m @ o`** has `Σ_l m(i, l) * o(l, j)` as entry `(i, j)`, in whatever order the library adds,
and nothing else changes. -/
theorem matmul_entries {w : World T} (r : Reachable B inv w) {m o : Mat} (hm : m ∈ w.mats)
    (ho : o ∈ w.mats) {rows k cols : Nat} {x y : Nat → Nat → T}
    (hx : Spec.IsMat w.heap m rows k x) (hy : Spec.IsMat w.heap o k cols y)
    (hk : 1 ≤ k) (hc : 1 ≤ cols) (mul_comm : ∀ u v, B.mul u v = B.mul v u) :
    ∃ c h', m.matmul B o w.heap = (.ok c, h') ∧
      Spec.IsMat h' c rows cols
        (fun i j => B.dot (Spec.products B.mul k (x i) fun l => y l j)) ∧ Unchanged w h' := by
  have wm := r.keeps.wf hm
  have wo := r.keeps.wf ho
  obtain ⟨m1, h1, e1, wm1, r1, c1, s1, t1, x1, old1, mo1, ref1⟩ := canonical_cells wm hx
  have hy1 : Spec.IsMat h1 o k cols y := by
    refine ⟨hy.1, hy.2.1, fun i j hi hj => ?_⟩
    rw [same_buf_mat (old1 _ wo.live) i j (hy.1 ▸ hi) (hy.2.1 ▸ hj)]
    exact hy.2.2 i j hi hj
  obtain ⟨o2, h2, e2, wo2, r2, c2, s2, t2, y2, old2, mo2, ref2⟩ :=
    canonical_cells (wo.mono mo1) hy1
  have old12 : Old w.heap h2 := old1.trans mo1 old2
  have mo12 := mo1.trans mo2
  have hgf := Mat.full_good h2 m1.rows o2.cols B.zero
  have e3 : Mat.full h2 m1.rows o2.cols B.zero =
      (.ok ⟨h2.next, 0, o2.cols, 1, m1.rows, o2.cols⟩,
        (h2.alloc (List.replicate (m1.rows * o2.cols) B.zero)).2) := by
    simp only [Mat.full]
    rw [if_neg (by omega)]
    rfl
  rw [e3] at hgf
  have wr := (hgf.2 _ rfl).1.2
  obtain ⟨h4, e4, hit, ag⟩ := loop_mat (m := ⟨h2.next, 0, o2.cols, 1, m1.rows, o2.cols⟩) wr
    (val := fun p h => dotCells B h m1.cols o2.ref (o2.off + p.2) o2.s0 m1.ref
      (m1.off + p.1 * m1.s0) 1)
    (z := fun i j => B.dot (Spec.products B.mul k (x i) fun l => y l j))
    (by
      intro i j hi hj h' ag
      have hbm : h'.buf m1.ref = h1.buf m1.ref := by
        have hne : m1.ref ≠ h2.next := by
          have := wm1.live
          have := mo2.1
          omega
        rw [agree_elsewhere ag hne, alloc_old _ _ hne, old2 _ wm1.live]
      have hbo : h'.buf o2.ref = h2.buf o2.ref := by
        have hne : o2.ref ≠ h2.next := Nat.ne_of_lt wo2.live
        rw [agree_elsewhere ag hne, alloc_old _ _ hne]
      rw [c1, dotCells_ok (u := fun l => y l j) (v := fun l => x i l)]
      · simp only [Spec.products]
        congr 3
        funext l
        exact mul_comm _ _
      · intro l hl
        have := isMat_cells wo2 y2 l j (by omega) (by simpa using hj)
        rw [hbo]
        simp only [Mat.ad, s2, t2] at this
        rw [s2, Nat.add_assoc, Nat.add_comm j, ← Nat.add_assoc]
        rwa [Nat.mul_one] at this
      · intro l hl
        have := isMat_cells wm1 x1 i l (by simpa using hi) (by omega)
        rw [hbm]
        simp only [Mat.ad, s1, t1] at this
        rw [s1]
        exact this)
  refine ⟨⟨h2.next, 0, o2.cols, 1, m1.rows, o2.cols⟩, h4, ?_,
    cells_isMat (m := ⟨h2.next, 0, o2.cols, 1, m1.rows, o2.cols⟩) r1 c2 hit, ?_⟩
  · simp only [Mat.matmul]
    rw [if_neg (by rw [hx.2.1, hy.1]; simp)]
    simp only [andThen, e1, e2, e3, gemm]
    rw [if_neg (by omega)]
    have had : (fun p : Nat × Nat => 0 + p.2 + p.1 * o2.cols)
        = fun p : Nat × Nat => 0 + p.1 * o2.cols + p.2 * 1 := by
      funext p; omega
    rw [had]
    simp only at e4
    rw [e4]
  · refine Old.unchanged r.keeps fun q hq => ?_
    have hne : q ≠ h2.next := by have := mo12.1; omega
    rw [agree_elsewhere ag hne, alloc_old _ _ hne, old12 q hq]

/-- Shapes that do not fit are refused. -/
theorem matmul_mismatch (h : Heap T) (m o : Mat) (hs : m.cols ≠ o.rows) :
    m.matmul B o h = (.error .mismatch, h) := by simp only [Mat.matmul]; rw [if_pos hs]

theorem own_entries {h : Heap T} {m : Mat} (wm : m.WF h) (d : T) :
    Spec.IsMat h m m.rows m.cols (fun i j => ((h.buf m.ref)[m.ad i j]?).getD d) := by
  refine ⟨rfl, rfl, fun i j hi hj => ?_⟩
  have hl := wm.lt hi hj
  rw [get_cell hl]
  simp [hl]

/-- **Refuted** for empty matrices: when the inner dimension or the number of columns is zero, the
library is called with a leading dimension it declares illegal. -/
theorem matmul_empty {w : World T} (r : Reachable B inv w) {m o : Mat} (hm : m ∈ w.mats)
    (ho : o ∈ w.mats) (hs : m.cols = o.rows) (h0 : m.cols = 0 ∨ o.cols = 0) :
    (m.matmul B o w.heap).1 = .error .illegal := by
  have wm := r.keeps.wf hm
  have wo := r.keeps.wf ho
  have hx := own_entries wm B.zero
  have hy := own_entries wo B.zero
  obtain ⟨m1, h1, e1, wm1, r1, c1, s1, t1, x1, old1, mo1, ref1⟩ := canonical_cells wm hx
  have hy1 : Spec.IsMat h1 o o.rows o.cols
      (fun i j => ((w.heap.buf o.ref)[o.ad i j]?).getD B.zero) := by
    refine ⟨rfl, rfl, fun i j hi hj => ?_⟩
    rw [same_buf_mat (old1 _ wo.live) i j hi hj]
    exact hy.2.2 i j hi hj
  obtain ⟨o2, h2, e2, wo2, r2, c2, s2, t2, y2, old2, mo2, ref2⟩ :=
    canonical_cells (wo.mono mo1) hy1
  simp only [Mat.matmul]
  rw [if_neg (by simpa using hs)]
  simp only [andThen, e1, e2, Mat.full]
  rw [if_neg (by omega)]
  simp only [gemm]
  rw [if_pos (by omega)]

/-! ## Matrix and array -/

theorem View.stride_pos {m : Mat} {a : Arr} (g : m.Geo) (v : m.View a) : a.stride ≠ 0 := by
  rcases v with ⟨i, hi, rfl⟩ | rfl
  · rcases g.strides with ⟨_, h1⟩ | ⟨_, h1⟩ <;> simp only [Mat.rowOf, h1] <;> omega
  · rcases g.strides with ⟨h0, h1⟩ | ⟨h0, h1⟩ <;> simp only [Mat.diagonal, h0, h1] <;> omega

theorem gemv_loop {w : World T} (r : Reachable B inv w) {m : Mat} {h1 : Heap T} {x : Arr}
    (hxm : x ∈ w.arrs) (trans : Bool) {rows cols n : Nat}
    (hmr : m.rows = rows) (hmc : m.cols = cols) (hs : m.s0 = cols)
    (hlive : m.ref < h1.next) (old : Old w.heap h1) (mo : Mono w.heap h1) (hc : 1 ≤ cols)
    (hn : (if trans then rows else cols) = n) {z : Nat → T}
    (zero_add : ∀ u, B.add B.zero u = u)
    (hz : ∀ i, i < n → ∀ h', h'.buf m.ref = h1.buf m.ref → h'.buf x.ref = w.heap.buf x.ref →
      (if trans then dotCells B h' cols m.ref (0 + i * cols) 1 x.ref x.off x.stride
        else dotCells B h' rows m.ref (0 + i) cols x.ref x.off x.stride) = .ok (z i)) :
    ∃ h', gemv B trans m.cols m.rows m.ref 0 m.s0 x.ref x.off x.stride h1.next 0 1
        (h1.alloc (List.replicate n B.zero)).2 = (.ok (), h') ∧
      h'.buf h1.next = (List.range n).map z ∧ Old w.heap h' ∧ Mono w.heap h' := by
  obtain ⟨mv, wmv, vv⟩ := r.keeps.arrWF hxm
  have hsx := View.stride_pos wmv.toGeo vv
  have hxl := r.keeps.arrLive hxm
  have wy : (Arr.mk h1.next 0 1 n).WF (h1.alloc (List.replicate n B.zero)).2 := by
    refine ⟨⟨h1.next, 0, n, 1, 1, n⟩, ⟨whole_geo _ _, Nat.lt_succ_self _, ?_⟩, whole_view _ _⟩
    simp [Heap.alloc]
  have hy0 : ∀ i, i < n → ((h1.alloc (List.replicate n B.zero)).2.buf h1.next)[0 + i * 1]?
      = some B.zero := by
    intro i hi
    rw [alloc_new]
    simp [hi]
  obtain ⟨h', e, hit, ag⟩ := loop_arr (a := ⟨h1.next, 0, 1, n⟩) wy (z := z)
    (val := fun i h =>
      match (if trans then dotCells B h cols m.ref (0 + i * cols) 1 x.ref x.off x.stride
             else dotCells B h rows m.ref (0 + i) cols x.ref x.off x.stride) with
      | .error e => .error e
      | .ok w => read1 (fun v => .ok (B.add v w)) h h1.next (0 + i * 1))
    (by
      intro i hi h' ag
      have hne : m.ref ≠ h1.next := Nat.ne_of_lt hlive
      have hne' : x.ref ≠ h1.next := by have := mo.1; omega
      have hbm : h'.buf m.ref = h1.buf m.ref := by
        rw [agree_elsewhere ag hne, alloc_old _ _ hne]
      have hbx : h'.buf x.ref = w.heap.buf x.ref := by
        rw [agree_elsewhere ag hne', alloc_old _ _ hne', old _ hxl]
      rw [hz i hi h' hbm hbx]
      have hr := ag.2.2 h1.next (0 + i * 1) (by
        rintro ⟨_, j, hj, hne, he⟩
        simp only [Arr.ad] at he
        omega)
      rw [hy0 i hi] at hr
      simp only [read1, Heap.read, hr, zero_add])
  refine ⟨h', ?_, ?_, ?_, ?_⟩
  · simp only [gemv]
    rw [if_neg (by omega)]
    rw [hmr, hmc, hs, hn]
    exact e
  · apply List.ext_getElem?
    intro i
    by_cases hi : i < n
    · have := hit i hi
      simp only [Arr.ad, Nat.zero_add, Nat.mul_one] at this
      rw [this]
      simp [hi]
    · have hlen : (h'.buf h1.next).length = n := by
        rw [ag.2.1, alloc_new]; simp
      rw [List.getElem?_eq_none (by omega), List.getElem?_eq_none (by simp; omega)]
  · intro q hq
    have hne : q ≠ h1.next := by have := mo.1; omega
    rw [agree_elsewhere ag hne, alloc_old _ _ hne, old q hq]
  · exact mo.trans ((alloc_mono _ _).trans ag.mono')

/-- **`m @ a`** has `Σ_l m(i, l) * a(l)` as element `i`. -/
theorem mulVec_entries {w : World T} (r : Reachable B inv w) {m : Mat} (hm : m ∈ w.mats) {a : Arr}
    (ha : a ∈ w.arrs) {rows cols : Nat} {x : Nat → Nat → T} {y : Nat → T}
    (hx : Spec.IsMat w.heap m rows cols x) (hy : Spec.IsArr w.heap a cols y) (hc : 1 ≤ cols)
    (zero_add : ∀ u, B.add B.zero u = u) :
    ∃ c h', m.mulVec B a w.heap = (.ok c, h') ∧
      Spec.IsArr h' c rows (fun i => B.dot (Spec.products B.mul cols (x i) y)) ∧
      Unchanged w h' := by
  have wm := r.keeps.wf hm
  have ca := isArr_cells (r.keeps.arrWF ha) hy
  obtain ⟨m1, h1, e1, wm1, r1, c1, s1, t1, x1, old1, mo1, _⟩ := canonical_cells wm hx
  obtain ⟨h2, e2, hb, old2, mo2⟩ := gemv_loop (B := B) (n := rows) r (m := m1) ha true r1 c1 s1
    wm1.live old1 mo1 hc rfl (z := fun i => B.dot (Spec.products B.mul cols (x i) y)) zero_add
    (by
      intro i hi h' hbm hba
      simp only [if_true]
      refine dotCells_ok ?_ ?_
      · intro l hl
        have := isMat_cells wm1 x1 i l (by omega) (by omega)
        rw [hbm]
        simp only [Mat.ad, wm1.off, s1, t1] at this
        exact this
      · intro l hl
        rw [hba]
        exact ca l (by rw [hy.1]; exact hl))
  have hn := arrNew_entries h2 (h2.buf h1.next)
  refine ⟨(Arr.new h2 (h2.buf h1.next)).1, (Arr.new h2 (h2.buf h1.next)).2, ?_, ?_, ?_⟩
  · simp only [Mat.mulVec, andThen, e1]
    rw [if_neg (by rw [c1, hy.1]; simp)]
    rw [r1]
    have ey : (h1.alloc (List.replicate rows B.zero)).1 = h1.next := rfl
    rw [r1] at e2
    simp only [ey, e2]
  · refine ⟨hn.1.trans (by rw [hb]; simp), fun i hi => ?_⟩
    rw [hn.2 i (by rw [hb]; simpa using hi)]
    simp [hb]
  · exact Old.unchanged r.keeps (old2.trans mo2 (alloc_oldbuf _ _))

/-- **`a @ m`** has `Σ_l a(l) * m(l, j)` as element `j`. -/
theorem vecMul_entries {w : World T} (r : Reachable B inv w) {m : Mat} (hm : m ∈ w.mats) {a : Arr}
    (ha : a ∈ w.arrs) {rows cols : Nat} {x : Nat → Nat → T} {y : Nat → T}
    (hx : Spec.IsMat w.heap m rows cols x) (hy : Spec.IsArr w.heap a rows y) (hc : 1 ≤ cols)
    (zero_add : ∀ u, B.add B.zero u = u) (mul_comm : ∀ u v, B.mul u v = B.mul v u) :
    ∃ c h', m.vecMul B a w.heap = (.ok c, h') ∧
      Spec.IsArr h' c cols (fun j => B.dot (Spec.products B.mul rows y fun l => x l j)) ∧
      Unchanged w h' := by
  have wm := r.keeps.wf hm
  have ca := isArr_cells (r.keeps.arrWF ha) hy
  obtain ⟨m1, h1, e1, wm1, r1, c1, s1, t1, x1, old1, mo1, _⟩ := canonical_cells wm hx
  obtain ⟨h2, e2, hb, old2, mo2⟩ := gemv_loop (B := B) (n := cols) r (m := m1) ha false r1 c1 s1
    wm1.live old1 mo1 hc rfl
    (z := fun j => B.dot (Spec.products B.mul rows y fun l => x l j)) zero_add
    (by
      intro i hi h' hbm hba
      have hcomm : Spec.products B.mul rows y (fun l => x l i)
          = Spec.products B.mul rows (fun l => x l i) y := by
        simp only [Spec.products]
        congr 1
        funext l
        exact mul_comm _ _
      simp only [Bool.false_eq_true, if_false]
      rw [hcomm]
      refine dotCells_ok ?_ ?_
      · intro l hl
        have := isMat_cells wm1 x1 l i (by omega) (by omega)
        rw [hbm]
        simp only [Mat.ad, wm1.off, s1, t1] at this
        rw [Nat.zero_add, Nat.add_comm]
        rwa [Nat.mul_one, Nat.zero_add] at this
      · intro l hl
        rw [hba]
        exact ca l (by rw [hy.1]; exact hl))
  have hn := arrNew_entries h2 (h2.buf h1.next)
  refine ⟨(Arr.new h2 (h2.buf h1.next)).1, (Arr.new h2 (h2.buf h1.next)).2, ?_, ?_, ?_⟩
  · simp only [Mat.vecMul, andThen, e1]
    rw [if_neg (by rw [r1, hy.1]; simp)]
    rw [c1]
    have ey : (h1.alloc (List.replicate cols B.zero)).1 = h1.next := rfl
    rw [c1] at e2
    simp only [ey, e2]
  · refine ⟨hn.1.trans (by rw [hb]; simp), fun i hi => ?_⟩
    rw [hn.2 i (by rw [hb]; simpa using hi)]
    simp [hb]
  · exact Old.unchanged r.keeps (old2.trans mo2 (alloc_oldbuf _ _))

/-! ## Inverses -/

theorem grow_get {h : Heap T} {r n : Nat} {d : T} {q k : Nat} {v : T}
    (hv : (h.buf q)[k]? = some v) : ((h.grow r n d).buf q)[k]? = some v := by
  have hk : k < (h.buf q).length := (List.getElem?_eq_some_iff.mp hv).1
  simp only [Heap.grow]
  split
  · rename_i e; subst e
    rw [List.getElem?_append_left hk]; exact hv
  · exact hv

/-- **`~m`** is what the library makes of the entries of `m`: the inverse it computed, or a matrix of
NaN when it reports that there is none. `m` itself does not change, and neither does anything else. -/
theorem invert_entries {w : World T} (r : Reachable B inv w) {m : Mat} (hm : m ∈ w.mats) {n : Nat}
    (hn : 1 ≤ n) {x : Nat → Nat → T} (hx : Spec.IsMat w.heap m n n x)
    (ext : ∀ A A', (∀ i j, i < n → j < n → A i j = A' i j) → inv n A = inv n A')
    (nan : ∀ u, B.mul u B.nan = B.nan) :
    ∃ c h', m.invert B inv w.heap = (.ok c, h') ∧
      Spec.IsMat h' c n n (if (inv n x).1 then (inv n x).2 else fun _ _ => B.nan) ∧
      Unchanged w h' := by
  have wm := r.keeps.wf hm
  have hr := hx.1
  have hc := hx.2.1
  have hxm : Spec.IsMat w.heap m m.rows m.cols x := by rw [hr, hc]; exact hx
  obtain ⟨ht, _⟩ := transpose_entries r hm x hxm
  have tg := Mat.transpose_good wm
  have told : Old w.heap (m.transpose w.heap).2 := alloc_oldbuf _ _
  have htref : (m.transpose w.heap).1.ref = w.heap.next := rfl
  have htnext : (m.transpose w.heap).2.next = w.heap.next + 1 := rfl
  rw [hr, hc] at ht
  generalize ht1 : m.transpose w.heap = t1 at *
  obtain ⟨t, h1⟩ := t1
  simp only at ht tg told htref htnext
  obtain ⟨t2, h2, e2, wt2, r2, c2, s2, u2, x2, old2, mo2, ref2⟩ := canonical_cells tg.2.2 ht
  have href2 : w.heap.next ≤ t2.ref := by
    rcases ref2 with h | h <;> omega
  have hA : inv n (colMajor B.zero h2 t2.ref t2.off t2.s0) = inv n x := by
    refine ext _ _ fun i j hi hj => ?_
    have := isMat_cells wt2 x2 j i (by omega) (by omega)
    simp only [Mat.ad, s2, u2, Nat.mul_one] at this
    simp only [colMajor, s2]
    rw [Nat.add_assoc, Nat.add_comm i, ← Nat.add_assoc, this]
    rfl
  obtain ⟨h3, e3, hit, ag⟩ := loop_mat wt2 (val := fun p _ => .ok ((inv n x).2 p.2 p.1))
    (z := fun i j => (inv n x).2 j i) (fun i j _ _ h' _ => rfl)
  have e3' : storeCols (inv n x).2 n t2.ref t2.off t2.s0 h2 = (.ok (), h3) := by
    simp only [storeCols]
    have had : (fun p : Nat × Nat => t2.off + p.2 + p.1 * t2.s0)
        = fun p : Nat × Nat => t2.off + p.1 * t2.s0 + p.2 * t2.s1 := by
      funext p; rw [u2]; omega
    rw [had]
    rw [r2, c2] at e3
    exact e3
  have old3 : Old w.heap h3 := by
    intro q hq
    rw [agree_elsewhere ag (show q ≠ t2.ref by omega), old2 q (by omega), told q hq]
  have mo3 : Mono w.heap h3 := (tg.1.trans mo2).trans ag.mono'
  let h4 := h3.grow t2.ref ((h3.buf t2.ref).length * 2) B.zero
  have mo4 : Mono h3 h4 := grow_mono ..
  have old4 : Old w.heap h4 := by
    intro q hq
    have : h4.buf q = h3.buf q := by
      simp only [h4, Heap.grow]
      rw [if_neg (show q ≠ t2.ref by omega)]
    rw [this, old3 q hq]
  have wt4 : t2.WF h4 := (wt2.mono ag.mono').mono mo4
  have x4 : Spec.IsMat h4 t2 n n (fun i j => (inv n x).2 j i) :=
    cells_isMat r2 c2 fun i j hi hj => grow_get (hit i j hi hj)
  have hred : m.invert B inv w.heap =
      if (inv n x).1 then (.ok (t2.transpose h4).1, (t2.transpose h4).2)
      else t2.map (fun x => .ok (B.mul x B.nan)) h4 := by
    simp only [Mat.invert]
    rw [if_neg (by rw [hr, hc]; simp), if_neg (by omega), ht1]
    simp only [andThen, e2, r2, hA, e3']
    rfl
  by_cases hok : (inv n x).1
  · rw [hred, if_pos hok]
    refine ⟨_, _, rfl, ?_, ?_⟩
    · rw [if_pos hok]
      have hr2 : t2.rows = n := r2
      refine ⟨c2, r2, fun i j hi hj => ?_⟩
      have hcell := isMat_cells wt4 x4 j i (by omega) (by omega)
      have tg4 := Mat.transpose_good wt4
      have hl : (t2.transpose h4).1.ad i j < ((t2.transpose h4).2.buf (t2.transpose h4).1.ref).length :=
        tg4.2.2.lt (by simp only [Mat.transpose, Mat.new]; omega)
          (by simp only [Mat.transpose, Mat.new]; omega)
      rw [get_iff hl]
      have hb : (t2.transpose h4).2.buf (t2.transpose h4).1.ref = h4.buf t2.ref := alloc_new _ _
      have had : (t2.transpose h4).1.ad i j = t2.ad j i := by
        simp only [Mat.transpose, Mat.new, Mat.ad]; omega
      rw [hb, had]
      exact hcell
    · exact Old.unchanged r.keeps (old4.trans (mo3.trans mo4) (alloc_oldbuf _ _))
  · rw [hred, if_neg hok]
    obtain ⟨h5, e5, wc, hc5, old5, mo5⟩ := mclone_cells wt4 x4
    obtain ⟨h6, e6, hit6, ag6⟩ := munop_cells (m := ⟨h4.next, 0, n, 1, n, n⟩)
      (f := fun x => .ok (B.mul x B.nan)) (z := fun _ _ => B.nan) wc (isMat_cells wc hc5)
      (fun i j _ _ => by rw [nan])
    refine ⟨⟨h4.next, 0, n, 1, n, n⟩, h6, ?_, ?_, ?_⟩
    · simp only [Mat.map, e5, andThen, e6]
    · rw [if_neg hok]
      exact cells_isMat rfl rfl hit6
    · refine Old.unchanged r.keeps fun q hq => ?_
      have hq4 : q < h4.next := Nat.lt_of_lt_of_le hq (mo3.trans mo4).1
      rw [agree_elsewhere ag6 (show q ≠ h4.next by omega), old5 q hq4, old4 q hq]

/-- A matrix that is not square, or is empty, is refused. -/
theorem invert_refuses (h : Heap T) (m : Mat) (hs : m.rows ≠ m.cols ∨ m.rows = 0) :
    m.invert B inv h = (.error .shape, h) := by
  simp only [Mat.invert]
  by_cases hr : m.rows ≠ m.cols
  · rw [if_pos hr]
  · rw [if_neg hr, if_pos (by rcases hs with h | h; exact absurd h hr; exact h)]

/-! ## The hypotheses are met -/

/-- A matrix of two rows and three columns, its transpose, and an array. -/
def prodOps : List (Op Int) :=
  [.makeMat 2 3 fun i j => 3 * i + j + 1, .transpose 0, .newArr [1, 10, 100], .newArr [1, 10],
   .fullMat 2 0 5, .fullMat 0 3 5]
def prod : World Int := run sampleBlas sampleInv prodOps

example : prod.mats.map (fun m => (m.rows, m.cols, m.s0, m.s1))
    = [(2, 3, 3, 1), (3, 2, 1, 3), (2, 0, 0, 1), (0, 3, 3, 1)] := by decide +kernel
-- [[1, 2, 3], [4, 5, 6]] times its transpose
example : ((prod.mats[0]?).bind fun m => (prod.mats[1]?).map fun t =>
      let r := m.matmul sampleBlas t prod.heap
      match r.1 with
      | .ok c => [c.get r.2 0 0, c.get r.2 0 1, c.get r.2 1 0, c.get r.2 1 1]
      | .error e => [.error e]) = some [.ok 14, .ok 32, .ok 32, .ok 77] := by decide +kernel
-- and times arrays on both sides
example : ((prod.mats[0]?).bind fun m => (prod.arrs[0]?).map fun a =>
      let r := m.mulVec sampleBlas a prod.heap
      match r.1 with
      | .ok c => [c.getitem r.2 0, c.getitem r.2 1]
      | .error e => [.error e]) = some [.ok 321, .ok 654] := by decide +kernel
example : ((prod.mats[0]?).bind fun m => (prod.arrs[1]?).map fun a =>
      let r := m.vecMul sampleBlas a prod.heap
      match r.1 with
      | .ok c => [c.getitem r.2 0, c.getitem r.2 1, c.getitem r.2 2]
      | .error e => [.error e]) = some [.ok 41, .ok 52, .ok 63] := by decide +kernel
-- two rows and no column, times no row and three columns
example : ((prod.mats[2]?).bind fun m => (prod.mats[3]?).map fun o =>
      (m.matmul sampleBlas o prod.heap).1.toOption) = some none := by decide +kernel
-- the library adds 10 to every entry
example : ((strided.mats[0]?).map fun m =>
      let r := m.invert sampleBlas (fun _ A => (true, fun i j => A i j + 10)) strided.heap
      match r.1 with
      | .ok c => [c.get r.2 0 0, c.get r.2 0 1, c.get r.2 1 0, c.get r.2 1 1, m.get r.2 0 1]
      | .error e => [.error e]) = some [.ok 11, .ok 12, .ok 13, .ok 14, .ok 2] := by decide +kernel

end Verif.Arr
