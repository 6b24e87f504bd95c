import Verif.Arr.World
/-!
# Rows and diagonals are windows, everything else is a copy

Property C106.
-/
namespace Verif.Arr

variable {T : Type} {B : Blas T} {inv : Nat → (Nat → Nat → T) → Bool × (Nat → Nat → T)}

/-- The worlds a program can get to. -/
def Reachable (B : Blas T) (inv : Nat → (Nat → Nat → T) → Bool × (Nat → Nat → T)) (w : World T) :
    Prop := ∃ ops, w = run B inv ops

theorem Reachable.keeps {w : World T} (r : Reachable B inv w) : Inv w := by
  obtain ⟨ops, rfl⟩ := r
  exact run_inv B _ ops

theorem Reachable.step {w : World T} (r : Reachable B inv w) (op : Op T) :
    Reachable B inv (step B inv w op) := by
  obtain ⟨ops, rfl⟩ := r
  exact ⟨ops ++ [op], by simp [run]⟩

/-! ## Reading -/

/-- `m.get(i, j)` returns, for indices in range. -/
theorem get_total {w : World T} (r : Reachable B inv w) {m : Mat} (hm : m ∈ w.mats) {i j : Nat}
    (hi : i < m.rows) (hj : j < m.cols) : ∃ v, m.get w.heap i j = .ok v :=
  ⟨_, get_cell ((r.keeps.wf hm).lt hi hj)⟩

/-- `a[i]` returns for indices in range and raises for the others. -/
theorem item_total {w : World T} (r : Reachable B inv w) {a : Arr} (ha : a ∈ w.arrs) (i : Int) :
    (0 ≤ i ∧ i < a.len → ∃ v, a.getitem w.heap i = .ok v) ∧
      (¬ (0 ≤ i ∧ i < a.len) → a.getitem w.heap i = .error .index) := by
  constructor
  · rintro ⟨h0, h1⟩
    obtain ⟨n, rfl⟩ := Int.eq_ofNat_of_zero_le h0
    have hn : n < a.len := by omega
    exact ⟨_, getitem_cell hn ((r.keeps.arrWF ha).lt hn)⟩
  · intro hn
    simp only [Arr.getitem]
    rw [if_pos (by omega)]

theorem view_item {h : Heap T} {m : Mat} {a : Arr} (w : m.WF h) (v : m.View a) {k i : Nat}
    (hk : k < a.len) (hi : i < m.rows) (hkc : k < m.cols) (e : a.ad k = m.ad i k) :
    a.getitem h k = m.get h i k := by
  have hl := w.lt hi hkc
  rw [get_cell hl, getitem_cell hk (by rw [View.ref v, e]; exact hl)]
  simp only [View.ref v, e]

/-- `m[i]` has the entries of row `i`, and the other indices raise. -/
theorem row_view {w : World T} (r : Reachable B inv w) {m : Mat} (hm : m ∈ w.mats) (i : Int) :
    (0 ≤ i ∧ i < m.rows → ∃ a, m.row i = .ok a ∧ a.len = m.cols ∧
      ∀ j : Nat, j < m.cols → a.getitem w.heap j = m.get w.heap i j) ∧
    (¬ (0 ≤ i ∧ i < m.rows) → m.row i = .error .index) := by
  constructor
  · rintro ⟨h0, h1⟩
    obtain ⟨n, rfl⟩ := Int.eq_ofNat_of_zero_le h0
    have hn : n < m.rows := by omega
    refine ⟨m.rowOf n, row_eq m n hn, rfl, fun j hj => ?_⟩
    exact view_item (r.keeps.wf hm) (.inl ⟨n, hn, rfl⟩) hj hn hj rfl
  · intro hn
    simp only [Mat.row]
    rw [if_pos (by omega)]

/-- `m.diagonal()` has the entries `(k, k)`. -/
theorem diagonal_view {w : World T} (r : Reachable B inv w) {m : Mat} (hm : m ∈ w.mats) :
    m.diagonal.len = min m.rows m.cols ∧
      ∀ k : Nat, k < min m.rows m.cols → m.diagonal.getitem w.heap k = m.get w.heap k k := by
  have hl : m.diagonal.len = min m.rows m.cols := by
    simp only [Mat.diagonal]; split <;> omega
  refine ⟨hl, fun k hk => ?_⟩
  obtain ⟨_, i, hi, hc, e⟩ := View.cell (.inr rfl : m.View m.diagonal) (hl ▸ hk)
  refine view_item (r.keeps.wf hm) (.inr rfl) (hl ▸ hk) (by omega) hc ?_
  simp only [Arr.ad, Mat.ad, Mat.diagonal, Nat.mul_add, Nat.add_assoc]

/-! ## Writing -/

theorem write_ok {h : Heap T} {r k : Nat} (hk : k < (h.buf r).length) (v : T) :
    listSet h r k v = (.ok (), h.put r k v) := by
  simp only [listSet, listIx_nat _ _ hk, Heap.write, hk, if_true]

theorem put_other_mat {h : Heap T} {r k : Nat} {v : T} {m : Mat} (hr : m.ref ≠ r) :
    Spec.SameMat h (h.put r k v) m := by
  intro i j _ _
  simp only [Mat.get, listGet, Heap.read, Heap.put]
  rw [if_neg hr]

/-- Changing entry `(i, j)` of a matrix changes this entry, no other, and no other matrix. -/
theorem put_entry {w : World T} (r : Reachable B inv w) {m : Mat} (hm : m ∈ w.mats) {i j : Nat}
    (hi : i < m.rows) (hj : j < m.cols) (v : T) :
    m.get (w.heap.put m.ref (m.ad i j) v) i j = .ok v ∧
    (∀ i' j' : Nat, i' < m.rows → j' < m.cols → ¬ (i' = i ∧ j' = j) →
      m.get (w.heap.put m.ref (m.ad i j) v) i' j' = m.get w.heap i' j') ∧
    ∀ o ∈ w.mats, o ≠ m → Spec.SameMat w.heap (w.heap.put m.ref (m.ad i j) v) o := by
  have wf := r.keeps.wf hm
  have ag := put_agree w.heap m.ref (m.ad i j) v
  refine ⟨?_, ?_, ?_⟩
  · rw [get_iff (by rw [ag.2.1]; exact wf.lt hi hj)]
    exact put_same _ _ _ _ (wf.lt hi hj)
  · intro i' j' hi' hj' hne
    rw [get_cell (wf.lt hi' hj'), get_iff (by rw [ag.2.1]; exact wf.lt hi' hj'),
      ag.2.2 _ _ (by
        rintro ⟨_, hk⟩
        exact hne (wf.ad_inj hi' hj' hi hj hk))]
    exact List.getElem?_eq_getElem _
  · intro o ho hne
    exact put_other_mat fun e => hne (r.keeps.same ho hm e)

/-- `m.set(i, j, v)` changes entry `(i, j)` and nothing else. -/
theorem set_entry {w : World T} (r : Reachable B inv w) {m : Mat} (hm : m ∈ w.mats) {i j : Nat}
    (hi : i < m.rows) (hj : j < m.cols) (v : T) :
    ∃ h', m.set w.heap i j v = (.ok (), h') ∧ m.get h' i j = .ok v ∧
      (∀ i' j' : Nat, i' < m.rows → j' < m.cols → ¬ (i' = i ∧ j' = j) →
        m.get h' i' j' = m.get w.heap i' j') ∧
      ∀ o ∈ w.mats, o ≠ m → Spec.SameMat w.heap h' o := by
  refine ⟨w.heap.put m.ref (m.ad i j) v, ?_, put_entry r hm hi hj v⟩
  simp only [Mat.set]
  have : (i : Int) * (m.s0 : Int) + (j : Int) * (m.s1 : Int) + (m.off : Int)
      = ((m.ad i j : Nat) : Int) := by
    simp only [Mat.ad]; push_cast; omega
  rw [this]
  exact write_ok ((r.keeps.wf hm).lt hi hj) v

theorem setitem_put {h : Heap T} {a : Arr} {k : Nat} (hk : k < a.len)
    (hl : a.ad k < (h.buf a.ref).length) (v : T) :
    a.setitem h k v = (.ok (), h.put a.ref (a.ad k) v) := by
  simp only [Arr.setitem]
  rw [if_neg (by omega)]
  have : (k : Int) * (a.stride : Int) + (a.off : Int) = ((a.ad k : Nat) : Int) := by
    simp only [Arr.ad]; push_cast; omega
  rw [this]
  exact write_ok hl v

/-- `m[i][j] = v` changes entry `(i, j)` and nothing else. -/
theorem row_write {w : World T} (r : Reachable B inv w) {m : Mat} (hm : m ∈ w.mats) {i j : Nat}
    (hi : i < m.rows) (hj : j < m.cols) (v : T) {a : Arr} (ea : m.row i = .ok a) :
    ∃ h', a.setitem w.heap j v = (.ok (), h') ∧ m.get h' i j = .ok v ∧
      (∀ i' j' : Nat, i' < m.rows → j' < m.cols → ¬ (i' = i ∧ j' = j) →
        m.get h' i' j' = m.get w.heap i' j') ∧
      ∀ o ∈ w.mats, o ≠ m → Spec.SameMat w.heap h' o := by
  rw [row_eq m i hi] at ea
  cases ea
  refine ⟨w.heap.put m.ref (m.ad i j) v, ?_, put_entry r hm hi hj v⟩
  exact setitem_put (a := m.rowOf i) hj ((r.keeps.wf hm).lt hi hj) v

/-- `m.diagonal()[k] = v` changes entry `(k, k)` and nothing else. -/
theorem diagonal_write {w : World T} (r : Reachable B inv w) {m : Mat} (hm : m ∈ w.mats) {k : Nat}
    (hi : k < m.rows) (hj : k < m.cols) (v : T) :
    ∃ h', m.diagonal.setitem w.heap k v = (.ok (), h') ∧ m.get h' k k = .ok v ∧
      (∀ i' j' : Nat, i' < m.rows → j' < m.cols → ¬ (i' = k ∧ j' = k) →
        m.get h' i' j' = m.get w.heap i' j') ∧
      ∀ o ∈ w.mats, o ≠ m → Spec.SameMat w.heap h' o := by
  refine ⟨w.heap.put m.ref (m.ad k k) v, ?_, put_entry r hm hi hj v⟩
  have e : m.diagonal.ad k = m.ad k k := by
    simp only [Arr.ad, Mat.ad, Mat.diagonal, Nat.mul_add, Nat.add_assoc]
  rw [setitem_put (a := m.diagonal) (by simp only [Mat.diagonal]; split <;> omega)
    (by rw [e]; exact (r.keeps.wf hm).lt hi hj) v, e]
  rfl

/-- `a[k] = v` changes element `k` of the array, and no other array element that is in another
position. -/
theorem item_write {w : World T} (r : Reachable B inv w) {a : Arr} (ha : a ∈ w.arrs) {k : Nat}
    (hk : k < a.len) (v : T) :
    ∃ h', a.setitem w.heap k v = (.ok (), h') ∧ a.getitem h' k = .ok v ∧
      ∀ b ∈ w.arrs, ∀ j : Nat, j < b.len → j ≠ k → b.getitem h' j = b.getitem w.heap j := by
  have wf := r.keeps.arrWF ha
  have ag := put_agree w.heap a.ref (a.ad k) v
  refine ⟨_, setitem_put hk (wf.lt hk) v, ?_, ?_⟩
  · rw [getitem_iff hk (by rw [ag.2.1]; exact wf.lt hk)]
    exact put_same _ _ _ _ (wf.lt hk)
  · intro b hb j hj hne
    have wb := r.keeps.arrWF hb
    rw [getitem_cell hj (wb.lt hj), getitem_iff hj (by rw [ag.2.1]; exact wb.lt hj),
      ag.2.2 _ _ (by
        rintro ⟨hr, he⟩
        exact hne (r.keeps.compat hb ha hr j k hj hk he))]
    exact List.getElem?_eq_getElem _

/-! ## New objects -/

theorem alloc_old (h : Heap T) (l : List T) {q : Nat} (hq : q ≠ h.next) :
    (h.alloc l).2.buf q = h.buf q := by simp only [Heap.alloc]; rw [if_neg hq]

theorem alloc_new (h : Heap T) (l : List T) : (h.alloc l).2.buf h.next = l := by
  simp [Heap.alloc]

theorem same_buf_mat {h h' : Heap T} {m : Mat} (e : h'.buf m.ref = h.buf m.ref) :
    Spec.SameMat h h' m := by
  intro i j _ _
  simp only [Mat.get, listGet, Heap.read, e]

theorem same_buf_arr {h h' : Heap T} {a : Arr} (e : h'.buf a.ref = h.buf a.ref) :
    Spec.SameArr h h' a := by
  intro i _
  simp only [Arr.getitem, listGet, Heap.read, e]

/-- The lists that exist are as they were. -/
def Old (h h' : Heap T) : Prop := ∀ q, q < h.next → h'.buf q = h.buf q

theorem Old.trans {h h' h'' : Heap T} (a : Old h h') (mo : Mono h h') (b : Old h' h'') :
    Old h h'' := fun q hq => (b q (Nat.lt_of_lt_of_le hq mo.1)).trans (a q hq)

theorem alloc_oldbuf (h : Heap T) (l : List T) : Old h (h.alloc l).2 :=
  fun _ hq => alloc_old h l (Nat.ne_of_lt hq)

/-- Nothing a program holds changes. -/
def Unchanged (w : World T) (h' : Heap T) : Prop :=
  (∀ m ∈ w.mats, Spec.SameMat w.heap h' m) ∧ ∀ a ∈ w.arrs, Spec.SameArr w.heap h' a

theorem Inv.arrLive {w : World T} (i : Inv w) {a : Arr} (x : a ∈ w.arrs) :
    a.ref < w.heap.next := by
  obtain ⟨m, wm, v⟩ := i.arrWF x
  rw [View.ref v]; exact wm.live

theorem Old.unchanged {w : World T} (i : Inv w) {h' : Heap T} (o : Old w.heap h') :
    Unchanged w h' :=
  ⟨fun _ hm => same_buf_mat (o _ (i.wf hm).live), fun _ ha => same_buf_arr (o _ (i.arrLive ha))⟩

/-- `m.transpose()` has entry `(j, i)` of `m` as its entry `(i, j)`; nothing else changes. -/
theorem transpose_entries {w : World T} (r : Reachable B inv w) {m : Mat} (hm : m ∈ w.mats)
    (e : Nat → Nat → T) (he : Spec.IsMat w.heap m m.rows m.cols e) :
    Spec.IsMat (m.transpose w.heap).2 (m.transpose w.heap).1 m.cols m.rows (fun i j => e j i) ∧
      Unchanged w (m.transpose w.heap).2 := by
  refine ⟨⟨rfl, rfl, fun i j hi hj => ?_⟩, (alloc_oldbuf _ _).unchanged r.keeps⟩
  rw [← he.2.2 j i hj hi]
  have ad : ∀ a b : Nat, (a : Int) * (m.s1 : Int) + (b : Int) * (m.s0 : Int) + (m.off : Int)
      = (b : Int) * (m.s0 : Int) + (a : Int) * (m.s1 : Int) + (m.off : Int) := by omega
  simp only [Mat.get, Mat.transpose, Mat.new, Heap.alloc, ad, listGet, Heap.read, if_true]

/-- After `t = m.transpose()`, assigning to `t` does not change `m`. -/
theorem transpose_independent {w : World T} (r : Reachable B inv w) {k : Nat} {m : Mat}
    (hk : w.mats[k]? = some m) {i j : Nat} (hi : i < m.cols) (hj : j < m.rows) (v : T) :
    ∃ t w', w' = step B inv w (.transpose k) ∧ t ∈ w'.mats ∧
      ∃ h', t.set w'.heap i j v = (.ok (), h') ∧ t.get h' i j = .ok v ∧
        Spec.SameMat w.heap h' m := by
  have hm := List.mem_of_getElem? hk
  have r' := r.step (.transpose k)
  have es : step B inv w (.transpose k) =
      w.mat (.ok (m.transpose w.heap).1, (m.transpose w.heap).2) := by
    simp only [step, World.withMat, hk]
  refine ⟨(m.transpose w.heap).1, _, rfl, ?_, ?_⟩
  · rw [es]; simp [World.mat]
  · have ht : (m.transpose w.heap).1 ∈ (step B inv w (.transpose k)).mats := by
      rw [es]; simp [World.mat]
    have hm' : m ∈ (step B inv w (.transpose k)).mats := by
      rw [es]; simp [World.mat, hm]
    have hne : m ≠ (m.transpose w.heap).1 := by
      intro hh
      have h1 := (r.keeps.wf hm).live
      have h2 : (m.transpose w.heap).1.ref = w.heap.next := rfl
      rw [← hh] at h2
      omega
    obtain ⟨h', e1, e2, _, e4⟩ := set_entry r' ht (i := i) (j := j) hi hj v
    refine ⟨h', e1, e2, fun a b ha hb => ?_⟩
    rw [e4 m hm' hne a b ha hb, es]
    exact ((alloc_oldbuf _ _).unchanged r.keeps).1 m hm a b ha hb

/-- `(i, j)` is at position `i * cols + j` of the pairs. -/
theorem pairs_get {r c i j : Nat} (hi : i < r) (hj : j < c) :
    (pairs r c)[i * c + j]? = some (i, j) := by
  induction r with
  | zero => omega
  | succ n ih =>
    have hs : pairs (n + 1) c = pairs n c ++ (List.range c).map fun j => (n, j) := by
      simp [pairs, List.range_succ]
    rw [hs]
    by_cases h : i < n
    · rw [List.getElem?_append_left (by rw [pairs_length]; exact lt_mul_of h hj)]
      exact ih h
    · have : i = n := by omega
      subst this
      rw [List.getElem?_append_right (by rw [pairs_length]; omega), pairs_length]
      rw [Nat.add_sub_cancel_left]
      simp [hj]

theorem toList_get {h : Heap T} {m : Mat} {e : Nat → Nat → T} (w : m.WF h)
    (he : Spec.IsMat h m m.rows m.cols e) :
    m.toList h = .ok ((pairs m.rows m.cols).map fun p => e p.1 p.2) := by
  simp only [Mat.toList]
  have : ∀ (ps : List (Nat × Nat)), (∀ p ∈ ps, p.1 < m.rows ∧ p.2 < m.cols) →
      readAll h m.ref (ps.map fun p => m.ad p.1 p.2) = .ok (ps.map fun p => e p.1 p.2) := by
    intro ps
    induction ps with
    | nil => intro _; rfl
    | cons p ps ih =>
      intro hp
      have h1 := hp p List.mem_cons_self
      have := (get_iff (w.lt h1.1 h1.2) _).mp (he.2.2 p.1 p.2 h1.1 h1.2)
      simp only [List.map_cons, readAll, Heap.read, this]
      rw [ih fun q hq => hp q (List.mem_cons_of_mem _ hq)]
  exact this _ fun p hp => (mem_pairs _ _ _).mp hp

/-- A new matrix whose list is `f` of the pairs has the entries `f`. -/
theorem matNew_entries (h : Heap T) (rows cols : Nat) (f : Nat → Nat → T) :
    Spec.IsMat (Mat.new h ((pairs rows cols).map fun p => f p.1 p.2) 0 cols 1 rows cols).2
      (Mat.new h ((pairs rows cols).map fun p => f p.1 p.2) 0 cols 1 rows cols).1 rows cols f := by
  refine ⟨rfl, rfl, fun i j hi hj => ?_⟩
  have hg := matNew_good h ((pairs rows cols).map fun p => f p.1 p.2) cols 1 rows cols
    (.inl ⟨rfl, rfl⟩) (by simp [pairs_length])
  rw [get_iff (hg.2.2.lt hi hj)]
  simp only [Mat.new, Mat.ad, Heap.alloc, if_true, Nat.zero_add, Nat.mul_one]
  rw [List.getElem?_map, pairs_get hi hj]
  rfl

/-- `m.clone()` has the entries of `m`; nothing else changes. -/
theorem clone_entries {w : World T} (r : Reachable B inv w) {m : Mat} (hm : m ∈ w.mats)
    (e : Nat → Nat → T) (he : Spec.IsMat w.heap m m.rows m.cols e) :
    ∃ c h', m.clone w.heap = (.ok c, h') ∧ Spec.IsMat h' c m.rows m.cols e ∧ Unchanged w h' := by
  refine ⟨_, _, ?_, matNew_entries w.heap m.rows m.cols e, (alloc_oldbuf _ _).unchanged r.keeps⟩
  simp only [Mat.clone, toList_get (r.keeps.wf hm) he]

theorem arrNew_entries (h : Heap T) (l : List T) :
    (Arr.new h l).1.len = l.length ∧ ∀ i : Nat, (hi : i < l.length) →
      (Arr.new h l).1.getitem (Arr.new h l).2 i = .ok l[i] := by
  refine ⟨rfl, fun i hi => ?_⟩
  have hb : (Arr.new h l).2.buf (Arr.new h l).1.ref = l := alloc_new h l
  have ad : (Arr.new h l).1.ad i = i := by simp [Arr.new, Heap.alloc, Arr.ad]
  rw [getitem_iff (a := (Arr.new h l).1) hi (by rw [hb, ad]; exact hi), hb, ad]
  exact List.getElem?_eq_getElem hi

/-- `m.flatten()` has the entries of `m` row after row; nothing else changes. -/
theorem flatten_entries {w : World T} (r : Reachable B inv w) {m : Mat} (hm : m ∈ w.mats)
    (e : Nat → Nat → T) (he : Spec.IsMat w.heap m m.rows m.cols e) :
    ∃ a h', m.flatten w.heap = (.ok a, h') ∧ a.len = m.rows * m.cols ∧
      (∀ i j : Nat, i < m.rows → j < m.cols → a.getitem h' (i * m.cols + j : Nat) = .ok (e i j)) ∧
      Unchanged w h' := by
  have hn := arrNew_entries w.heap ((pairs m.rows m.cols).map fun p => e p.1 p.2)
  refine ⟨(Arr.new w.heap ((pairs m.rows m.cols).map fun p => e p.1 p.2)).1,
    (Arr.new w.heap ((pairs m.rows m.cols).map fun p => e p.1 p.2)).2, ?_, ?_, ?_,
    (alloc_oldbuf _ _).unchanged r.keeps⟩
  · simp only [Mat.flatten, toList_get (r.keeps.wf hm) he]
  · exact hn.1.trans (by simp [pairs_length])
  · intro i j hi hj
    have hl : i * m.cols + j < ((pairs m.rows m.cols).map fun p => e p.1 p.2).length := by
      simp only [List.length_map, pairs_length]; exact lt_mul_of hi hj
    refine (hn.2 _ hl).trans ?_
    have := pairs_get hi hj
    rw [List.getElem?_eq_some_iff] at this
    obtain ⟨_, hx⟩ := this
    simp [hx]

/-- `Array(T).full(n, x)` has the length `n` and holds `x` everywhere when `n` is not negative, and raises when it is. -/
theorem full_array (h : Heap T) (n : Int) (x : T) :
    (0 ≤ n → ∃ a h', Arr.full h n x = (.ok a, h') ∧ Spec.IsArr h' a n.toNat fun _ => x) ∧
      (n < 0 → Arr.full h n x = (.error .negative, h)) := by
  constructor
  · intro hn
    have he := arrNew_entries h (List.replicate n.toNat x)
    refine ⟨_, _, by rw [Arr.full, if_neg (by omega)], ?_, fun i hi => ?_⟩
    · simpa using he.1
    · have := he.2 i (by simpa using hi)
      simpa using this
  · intro hn
    rw [Arr.full, if_pos hn]

example : Arr.full (⟨0, fun _ => []⟩ : Heap Nat) (-1) 3 = (.error .negative, ⟨0, fun _ => []⟩) := (full_array _ _ _).2 (by decide)

/-- `Matrix(T).make(rows, cols, f)` has the entries `f`. -/
theorem make_entries (h : Heap T) (rows cols : Nat) (f : Nat → Nat → T) :
    ∃ m h', Mat.make h rows cols f = (.ok m, h') ∧ Spec.IsMat h' m rows cols f := by
  refine ⟨_, _, ?_, matNew_entries h rows cols f⟩
  simp only [Mat.make]
  rw [if_neg (by omega)]
  rfl

theorem replicate_pairs (rows cols : Nat) (v : T) :
    List.replicate (rows * cols) v = (pairs rows cols).map fun p => (fun _ _ => v) p.1 p.2 := by
  rw [← pairs_length rows cols, List.map_const']

/-- `Matrix(T).full(rows, cols, v)` has all entries `v`. -/
theorem full_entries (h : Heap T) (rows cols : Nat) (v : T) :
    ∃ m h', Mat.full h rows cols v = (.ok m, h') ∧ Spec.IsMat h' m rows cols (fun _ _ => v) := by
  refine ⟨_, _, ?_, matNew_entries h rows cols (fun _ _ => v)⟩
  simp only [Mat.full]
  rw [if_neg (by omega)]
  rw [← replicate_pairs]
  rfl

/-- Negative dimensions raise. -/
theorem negative_raises (h : Heap T) (rows cols : Int) (hn : rows < 0 ∨ cols < 0) (v : T)
    (f : Nat → Nat → T) :
    Mat.full h rows cols v = (.error .negative, h) ∧ Mat.make h rows cols f = (.error .negative, h)
    := by
  simp [Mat.full, Mat.make, hn]

/-- `Matrix(T).identity(n)` has one on the diagonal and zero elsewhere. -/
theorem identity_entries (zero one : T) (h : Heap T) (n : Nat) :
    ∃ m h', Mat.identity zero one h n = (.ok m, h') ∧
      Spec.IsMat h' m n n (fun i j => if i = j then one else zero) := by
  obtain ⟨m, h1, e1, im⟩ := full_entries h n n zero
  have gd := Mat.full_good h n n zero
  rw [e1] at gd
  obtain ⟨nm, hr, hc, h0, h1'⟩ := gd.2 m rfl
  simp only [Int.toNat_natCast] at hr hc h0
  have wf := nm.2
  have ad : ∀ i, n * i + i = m.ad i i := by
    intro i
    simp only [Mat.ad, wf.off, h0, h1', Nat.mul_one, Nat.zero_add, Nat.mul_comm]
  obtain ⟨h2, e2, hit, ag⟩ := forEach_assign m.ref (fun i => n * i + i) (fun _ _ => .ok one)
    (fun _ => one) (List.range n) h1
    (fun i hi => by
      rw [ad]; exact wf.lt (by rw [hr]; exact List.mem_range.mp hi)
        (by rw [hc]; exact List.mem_range.mp hi))
    (by
      refine List.Pairwise.imp_of_mem ?_ List.nodup_range
      intro a b ha hb hne hab
      rw [ad, ad] at hab
      rw [List.mem_range] at ha hb
      exact hne (wf.ad_inj (by omega) (by omega) (by omega) (by omega) hab).1)
    (fun i hi h' ag => rfl)
  refine ⟨m, h2, ?_, hr, hc, fun i j hi hj => ?_⟩
  · simp only [Mat.identity, e1, andThen, Int.toNat_natCast, e2]
  · have hl : m.ad i j < (h2.buf m.ref).length := by
      rw [ag.2.1]; exact wf.lt (by omega) (by omega)
    rw [get_iff hl]
    dsimp only
    by_cases hij : i = j
    · subst hij
      rw [if_pos rfl, ← ad]
      exact hit i (List.mem_range.mpr hi)
    · rw [if_neg hij, ag.2.2 _ _ (by
        rintro ⟨_, k, hk, he⟩
        dsimp only at he
        rw [ad] at he
        rw [List.mem_range] at hk
        have := wf.ad_inj (by omega) (by omega) (by omega) (by omega) he
        omega)]
      exact (get_iff (wf.lt (by omega) (by omega)) _).mp (im.2.2 i j hi hj)

/-- **`m[i] = a`** makes row `i` what `a` was before, even when `a` is a window over `m`, and changes
nothing else. -/
theorem setRow_entries {w : World T} (r : Reachable B inv w) {m : Mat} (hm : m ∈ w.mats) {a : Arr}
    (ha : a ∈ w.arrs) {i : Nat} (hi : i < m.rows) (hl : a.len = m.cols) (x : Nat → T)
    (hx : Spec.IsArr w.heap a m.cols x) :
    ∃ h', m.setRow i a w.heap = (.ok (), h') ∧
      (∀ j : Nat, j < m.cols → m.get h' i j = .ok (x j)) ∧
      (∀ i' j : Nat, i' < m.rows → j < m.cols → i' ≠ i → m.get h' i' j = m.get w.heap i' j) ∧
      ∀ o ∈ w.mats, o ≠ m → Spec.SameMat w.heap h' o := by
  have wf := r.keeps.wf hm
  have wa := r.keeps.arrWF ha
  have ad : ∀ j, m.off + m.s0 * i + j * m.s1 = m.ad i j := by
    intro j; simp only [Mat.ad, Nat.mul_comm]
  obtain ⟨h', e, hit, ag⟩ := forEach_assign m.ref (fun j => m.off + m.s0 * i + j * m.s1)
    (fun j h => h.read a.ref (a.off + j * a.stride)) x (List.range m.cols) w.heap
    (fun j hj => by rw [ad]; exact wf.lt hi (List.mem_range.mp hj))
    (by
      refine List.Pairwise.imp_of_mem ?_ List.nodup_range
      intro p q hp hq hne hpq
      rw [ad, ad] at hpq
      exact hne (wf.ad_inj hi (List.mem_range.mp hp) hi (List.mem_range.mp hq) hpq).2)
    (by
      intro j hj h' ag
      have hj' : j < a.len := by rw [hl]; exact List.mem_range.mp hj
      have hc := (getitem_iff hj' (wa.lt hj') _).mp (hx.2 j (hl ▸ hj'))
      have hr := ag.2.2 a.ref (a.ad j) (by
        rintro ⟨hr, k, hk, hne, he⟩
        apply hne
        obtain ⟨_, y, hy, hjc, ey⟩ := View.cell (r.keeps.isView hm ha hr) hj'
        rw [ey, ad] at he
        rw [ad, ad]
        have := (wf.ad_inj hy hjc hi (List.mem_range.mp hk) he).2
        rw [this])
      rw [hc] at hr
      simp only [Heap.read]
      simp only [Arr.ad] at hr
      rw [hr])
  have hcell : ∀ i' j : Nat, i' < m.rows → j < m.cols → m.ad i' j < (h'.buf m.ref).length := by
    intro i' j hi' hj; rw [ag.2.1]; exact wf.lt hi' hj
  refine ⟨h', ?_, ?_, ?_, ?_⟩
  · simp only [Mat.setRow]
    rw [if_neg (by omega), if_neg (by simpa using hl)]
    exact e
  · intro j hj
    rw [get_iff (hcell i j hi hj), ← ad]
    exact hit j (List.mem_range.mpr hj)
  · intro i' j hi' hj hne
    rw [get_cell (wf.lt hi' hj), get_iff (hcell i' j hi' hj), ag.2.2 _ _ (by
      rintro ⟨_, k, hk, he⟩
      dsimp only at he
      rw [ad] at he
      exact hne (wf.ad_inj hi' hj hi (List.mem_range.mp hk) he).1)]
    exact List.getElem?_eq_getElem _
  · intro o ho hne
    apply same_buf_mat
    apply List.ext_getElem?
    intro k
    exact ag.2.2 o.ref k (fun hh => hne (r.keeps.same ho hm hh.1))

/-- A row of another length, or a row number outside, raises and changes nothing. -/
theorem setRow_raises (h : Heap T) (m : Mat) (a : Arr) (i : Int) :
    (¬ (0 ≤ i ∧ i < m.rows) → m.setRow i a h = (.error .index, h)) ∧
    (0 ≤ i ∧ i < m.rows → a.len ≠ m.cols → m.setRow i a h = (.error .value, h)) := by
  constructor
  · intro hn; simp only [Mat.setRow]; rw [if_pos (by omega)]
  · intro hn hl; simp only [Mat.setRow]; rw [if_neg (by omega), if_pos hl]

/-! ## `get` and `set` do not check

Beside `m[i][j]`, which raises for a column outside, `m.get(i, j)` reads the next row. -/

/-- In every matrix stored by rows, column number `cols` of a row is column 0 of the next. -/
theorem get_overruns (h : Heap T) (m : Mat) (hs : m.s0 = m.cols ∧ m.s1 = 1) (i : Nat) :
    m.get h i m.cols = m.get h (i + 1 : Nat) 0 := by
  simp only [Mat.get, hs]
  congr 1
  push_cast
  rw [Int.add_mul]
  omega

/-- A concrete matrix: two by two, entries 1, 2, 3, 4. -/
def sampleBlas : Blas Int := ⟨(· + ·), (· * ·), 0, 1, 0, List.sum⟩
def sampleInv : Nat → (Nat → Nat → Int) → Bool × (Nat → Nat → Int) := fun _ A => (true, A)
def sampleOps : List (Op Int) :=
  [.makeMat 2 2 fun i j => 2 * i + j + 1, .row 0 1, .diagonal 0, .transpose 0]
def sample : World Int := run sampleBlas sampleInv sampleOps

theorem sample_reachable : Reachable sampleBlas sampleInv sample := ⟨_, rfl⟩

/-- **Refuted**: an index outside does not always raise. `m.get(0, 2)` is 3 and `m.get(0, -1)` is 4
in a matrix of two columns; `a.get(-1)` of its second row is 2. -/
theorem get_unchecked :
    (sample.mats.head?.map fun m => (m.cols, m.get sample.heap 0 2, m.get sample.heap 0 (-1)))
      = some (2, .ok 3, .ok 4) ∧
    (sample.arrs.head?.map fun a => (a.len, a.get sample.heap (-1))) = some (2, .ok 2) := by
  decide +kernel

/-! ## The hypotheses are met -/

example : sample.mats.map (fun m => (m.rows, m.cols, m.s0, m.s1)) = [(2, 2, 2, 1), (2, 2, 1, 2)] := by
  decide +kernel
example : sample.arrs = [⟨0, 2, 1, 2⟩, ⟨0, 0, 3, 2⟩] := by decide +kernel
example : sample.mats.map (fun m => (m.get sample.heap 0 1, m.get sample.heap 1 0))
    = [(.ok 2, .ok 3), (.ok 3, .ok 2)] := by decide +kernel
-- the second row is set from the diagonal of the same matrix
example : ((sample.mats[0]?).bind fun m => (sample.arrs[1]?).map fun a =>
      let h := (m.setRow 1 a sample.heap).2
      (m.get h 0 0, m.get h 0 1, m.get h 1 0, m.get h 1 1))
    = some (.ok 1, .ok 2, .ok 1, .ok 4) := by decide +kernel

end Verif.Arr
