import Verif.Arr.Model
/-!
# What a user sees of an array and of a matrix

Only `len(a)`, `a[i]`, `m.shape` and `m.get(i, j)` with indices in range are used.
-/
namespace Verif.Arr.Spec

variable {T : Type}

/-- `len(a) == n`, and `a[i]` is `x i` for every `i` from 0 below `n`. -/
def IsArr (h : Heap T) (a : Arr) (n : Nat) (x : Nat → T) : Prop :=
  a.len = n ∧ ∀ i : Nat, i < n → a.getitem h i = .ok (x i)

/-- `m.shape == (rows, cols)`, and `m.get(i, j)` is `e i j` for all indices in range. -/
def IsMat (h : Heap T) (m : Mat) (rows cols : Nat) (e : Nat → Nat → T) : Prop :=
  m.rows = rows ∧ m.cols = cols ∧
    ∀ i j : Nat, i < rows → j < cols → m.get h i j = .ok (e i j)

/-- Nothing that could be read through matrix `m` changes. -/
def SameMat (h h' : Heap T) (m : Mat) : Prop :=
  ∀ i j : Nat, i < m.rows → j < m.cols → m.get h' i j = m.get h i j

/-- Nothing that could be read through array `a` changes. -/
def SameArr (h h' : Heap T) (a : Arr) : Prop :=
  ∀ i : Nat, i < a.len → a.getitem h' i = a.getitem h i

/-- The products of row `i` of one matrix with column `j` of another, in order. -/
def products (mul : T → T → T) (k : Nat) (x y : Nat → T) : List T :=
  (List.range k).map fun l => mul (x l) (y l)

end Verif.Arr.Spec
