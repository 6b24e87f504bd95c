import Verif.Arr.Loop
import Verif.Arr.Spec
/-!
# The windows that the package makes

Matrices are stored by rows or by columns, arrays are rows or diagonals; windows over the same list
meet in equal positions only.
-/
namespace Verif.Arr

variable {T : Type}

/-- Stored by rows, or by columns. -/
structure Mat.Geo (m : Mat) : Prop where
  off : m.off = 0
  strides : (m.s0 = m.cols ∧ m.s1 = 1) ∨ (m.s0 = 1 ∧ m.s1 = m.rows)

/-- The list exists and has all entries. -/
structure Mat.WF (h : Heap T) (m : Mat) : Prop extends Mat.Geo m where
  live : m.ref < h.next
  size : m.rows * m.cols ≤ (h.buf m.ref).length

/-- Row `i`, as an array. -/
def Mat.rowOf (m : Mat) (i : Nat) : Arr := ⟨m.ref, m.off + i * m.s0, m.s1, m.cols⟩

/-- A row or the diagonal. -/
def Mat.View (m : Mat) (a : Arr) : Prop := (∃ i, i < m.rows ∧ a = m.rowOf i) ∨ a = m.diagonal

theorem row_eq (m : Mat) (i : Nat) (hi : i < m.rows) : m.row i = .ok (m.rowOf i) := by
  simp only [Mat.row]
  rw [if_neg (by omega)]
  rfl

theorem lt_mul_of {i j r c : Nat} (hi : i < r) (hj : j < c) : i * c + j < r * c := by
  have : (i + 1) * c ≤ r * c := Nat.mul_le_mul_right c hi
  rw [Nat.add_mul, Nat.one_mul] at this
  omega

theorem Mat.Geo.ad_lt {m : Mat} (g : m.Geo) {i j : Nat} (hi : i < m.rows) (hj : j < m.cols) :
    m.ad i j < m.rows * m.cols := by
  simp only [Mat.ad, g.off, Nat.zero_add]
  rcases g.strides with ⟨h0, h1⟩ | ⟨h0, h1⟩ <;> rw [h0, h1]
  · rw [Nat.mul_one]; exact lt_mul_of hi hj
  · have := lt_mul_of hj hi
    rw [Nat.mul_comm m.rows m.cols]; omega

theorem mul_add_inj {i j i' j' c : Nat} (hj : j < c) (hj' : j' < c)
    (h : i * c + j = i' * c + j') : i = i' ∧ j = j' := by
  have hd : (i * c + j) / c = i := by
    rw [Nat.add_comm, Nat.add_mul_div_right _ _ (by omega), Nat.div_eq_of_lt hj, Nat.zero_add]
  have hd' : (i' * c + j') / c = i' := by
    rw [Nat.add_comm, Nat.add_mul_div_right _ _ (by omega), Nat.div_eq_of_lt hj', Nat.zero_add]
  have : i = i' := by rw [← hd, ← hd', h]
  subst this
  exact ⟨rfl, by omega⟩

/-- Different entries are in different cells. -/
theorem Mat.Geo.ad_inj {m : Mat} (g : m.Geo) {i j i' j' : Nat} (hi : i < m.rows) (hj : j < m.cols)
    (hi' : i' < m.rows) (hj' : j' < m.cols) (h : m.ad i j = m.ad i' j') : i = i' ∧ j = j' := by
  simp only [Mat.ad, g.off, Nat.zero_add] at h
  rcases g.strides with ⟨h0, h1⟩ | ⟨h0, h1⟩ <;> rw [h0, h1] at h
  · rw [Nat.mul_one, Nat.mul_one] at h
    exact mul_add_inj hj hj' h
  · rw [Nat.mul_one, Nat.mul_one, Nat.add_comm i, Nat.add_comm i'] at h
    exact (mul_add_inj hi hi' h).symm

/-- Element `k` of a view is an entry of the matrix, in a column (and for the diagonal a row) `k`. -/
theorem View.cell {m : Mat} {a : Arr} (v : m.View a) {k : Nat} (hk : k < a.len) :
    a.ref = m.ref ∧ ∃ i, i < m.rows ∧ k < m.cols ∧ a.ad k = m.ad i k := by
  rcases v with ⟨i, hi, rfl⟩ | rfl
  · exact ⟨rfl, i, hi, hk, rfl⟩
  · refine ⟨rfl, k, ?_, ?_, ?_⟩
    · simp only [Mat.diagonal] at hk; split at hk <;> omega
    · simp only [Mat.diagonal] at hk; split at hk <;> omega
    · simp only [Arr.ad, Mat.ad, Mat.diagonal, Nat.mul_add, Nat.add_assoc]

/-- Two views of a matrix meet in equal positions only. -/
theorem View.compat {m : Mat} {a b : Arr} (g : m.Geo) (va : m.View a) (vb : m.View b) {i j : Nat}
    (hi : i < a.len) (hj : j < b.len) (h : a.ad i = b.ad j) : i = j := by
  obtain ⟨_, x, hx, hi', ex⟩ := View.cell va hi
  obtain ⟨_, y, hy, hj', ey⟩ := View.cell vb hj
  rw [ex, ey] at h
  exact (g.ad_inj hx hi' hy hj' h).2

/-- The array is a view of a matrix that is stored by rows or columns. A new array is a view of the
matrix that has it as its only row. -/
def Arr.WF (h : Heap T) (a : Arr) : Prop := ∃ m : Mat, m.WF h ∧ m.View a

theorem Arr.WF.lt {h : Heap T} {a : Arr} (w : a.WF h) {i : Nat} (hi : i < a.len) :
    a.ad i < (h.buf a.ref).length := by
  obtain ⟨m, wm, v⟩ := w
  obtain ⟨hr, x, hx, hi', ex⟩ := View.cell v hi
  rw [ex, hr]
  exact Nat.lt_of_lt_of_le (wm.ad_lt hx hi') wm.size

theorem Arr.WF.inj {h : Heap T} {a : Arr} (w : a.WF h) {i j : Nat} (hi : i < a.len) (hj : j < a.len)
    (e : a.ad i = a.ad j) : i = j := by
  obtain ⟨m, wm, v⟩ := w
  exact View.compat wm.toGeo v v hi hj e

/-- Two arrays over the same list meet in equal positions only. -/
def Arr.Compat (a b : Arr) : Prop :=
  a.ref = b.ref → ∀ i j, i < a.len → j < b.len → a.ad i = b.ad j → i = j

theorem Mat.WF.lt {h : Heap T} {m : Mat} (w : m.WF h) {i j : Nat} (hi : i < m.rows)
    (hj : j < m.cols) : m.ad i j < (h.buf m.ref).length :=
  Nat.lt_of_lt_of_le (w.ad_lt hi hj) w.size

/-- The array over a whole new list is a view of a matrix of one row. -/
theorem whole_view (r n : Nat) : (Mat.mk r 0 n 1 1 n).View ⟨r, 0, 1, n⟩ :=
  .inl ⟨0, Nat.one_pos, by simp [Mat.rowOf]⟩

theorem whole_geo (r n : Nat) : (Mat.mk r 0 n 1 1 n).Geo := ⟨rfl, .inl ⟨rfl, rfl⟩⟩

/-! ## What the functions that read return -/

theorem listIx_nat (n k : Nat) (h : k < n) : listIx n k = some k := by
  simp only [listIx]
  rw [if_neg (by omega), if_neg (by omega)]
  simp

theorem listGet_nat (h : Heap T) (r k : Nat) (hk : k < (h.buf r).length) :
    listGet h r k = .ok ((h.buf r)[k]) := by
  simp [listGet, listIx_nat _ _ hk, Heap.read, hk]

/-- `a[i]` reads the cell. -/
theorem getitem_cell {h : Heap T} {a : Arr} {i : Nat} (hi : i < a.len)
    (hl : a.ad i < (h.buf a.ref).length) : a.getitem h i = .ok ((h.buf a.ref)[a.ad i]) := by
  simp only [Arr.getitem]
  rw [if_neg (by omega)]
  have : (i : Int) * (a.stride : Int) + (a.off : Int) = ((a.ad i : Nat) : Int) := by
    simp only [Arr.ad]; push_cast; omega
  rw [this]
  exact listGet_nat h a.ref (a.ad i) hl

theorem getitem_iff {h : Heap T} {a : Arr} {i : Nat} (hi : i < a.len)
    (hl : a.ad i < (h.buf a.ref).length) (v : T) :
    a.getitem h i = .ok v ↔ (h.buf a.ref)[a.ad i]? = some v := by
  rw [getitem_cell hi hl, List.getElem?_eq_getElem hl]
  simp

/-- `m.get(i, j)` reads the cell. -/
theorem get_cell {h : Heap T} {m : Mat} {i j : Nat} (hl : m.ad i j < (h.buf m.ref).length) :
    m.get h i j = .ok ((h.buf m.ref)[m.ad i j]) := by
  simp only [Mat.get]
  have : (i : Int) * (m.s0 : Int) + (j : Int) * (m.s1 : Int) + (m.off : Int)
      = ((m.ad i j : Nat) : Int) := by
    simp only [Mat.ad]; push_cast; omega
  rw [this]
  exact listGet_nat h m.ref (m.ad i j) hl

theorem get_iff {h : Heap T} {m : Mat} {i j : Nat} (hl : m.ad i j < (h.buf m.ref).length) (v : T) :
    m.get h i j = .ok v ↔ (h.buf m.ref)[m.ad i j]? = some v := by
  rw [get_cell hl, List.getElem?_eq_getElem hl]
  simp

/-- Entry `(i, j)`, with a default for the cells outside the list. -/
def Mat.entry [Inhabited T] (h : Heap T) (m : Mat) (i j : Nat) : T :=
  ((h.buf m.ref)[m.ad i j]?).getD default

def Arr.entry [Inhabited T] (h : Heap T) (a : Arr) (i : Nat) : T :=
  ((h.buf a.ref)[a.ad i]?).getD default

theorem Mat.WF.cell [Inhabited T] {h : Heap T} {m : Mat} (w : m.WF h) {i j : Nat} (hi : i < m.rows)
    (hj : j < m.cols) : (h.buf m.ref)[m.ad i j]? = some (m.entry h i j) := by
  simp [Mat.entry, List.getElem?_eq_getElem (w.lt hi hj)]

theorem Arr.WF.cell [Inhabited T] {h : Heap T} {a : Arr} (w : a.WF h) {i : Nat} (hi : i < a.len) :
    (h.buf a.ref)[a.ad i]? = some (a.entry h i) := by
  simp [Arr.entry, List.getElem?_eq_getElem (w.lt hi)]

/-- Every matrix has entries. -/
theorem Mat.WF.isMat [Inhabited T] {h : Heap T} {m : Mat} (w : m.WF h) :
    Spec.IsMat h m m.rows m.cols (m.entry h) :=
  ⟨rfl, rfl, fun _ _ hi hj => (get_iff (w.lt hi hj) _).mpr (w.cell hi hj)⟩

theorem Arr.WF.isArr [Inhabited T] {h : Heap T} {a : Arr} (w : a.WF h) :
    Spec.IsArr h a a.len (a.entry h) :=
  ⟨rfl, fun _ hi => (getitem_iff hi (w.lt hi) _).mpr (w.cell hi)⟩

end Verif.Arr
