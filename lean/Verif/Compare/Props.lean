import Verif.Compare.Agree
/-
Comparing and hashing typed values.
-/
namespace Verif.Compare
open Verif.Conv (Reg)

/-! ### C98: comparison is a total order -/

/-- Comparing two values of one type without NaN answers by the lexicographic order of values, for each of the six operators. -/
theorem comparison_is_lexicographic (E : Nat → List Ty) {a b : Data} {t : Ty} (ha : has E a t = true) (hb : has E b t = true)
    (na : noNaN a = true) (nb : noNaN b = true) (op : Op) : cmp a b op = op.holds (order a b) :=
  cmp_order E a b t ha hb na nb op

/-- The six operators are consistent: exactly one of `<`, `==` and `>` holds, and the others follow from them, also with the operands
exchanged. -/
theorem operators_are_consistent (E : Nat → List Ty) {a b : Data} {t : Ty} (ha : has E a t = true) (hb : has E b t = true)
    (na : noNaN a = true) (nb : noNaN b = true) :
    ((cmp a b .lt = true ∧ cmp a b .eq = false ∧ cmp a b .gt = false) ∨ (cmp a b .lt = false ∧ cmp a b .eq = true ∧ cmp a b .gt = false) ∨
      (cmp a b .lt = false ∧ cmp a b .eq = false ∧ cmp a b .gt = true)) ∧
    cmp a b .ne = !cmp a b .eq ∧ cmp a b .le = (cmp a b .lt || cmp a b .eq) ∧ cmp a b .ge = (cmp a b .gt || cmp a b .eq) ∧
    cmp b a .lt = cmp a b .gt ∧ cmp b a .eq = cmp a b .eq := by
  simp only [cmp_order E a b t ha hb na nb, cmp_order E b a t hb ha nb na]
  rw [← order_swap a b]
  cases order a b <;> decide

/-- `<` is transitive. -/
theorem less_is_transitive (E : Nat → List Ty) {a b c : Data} {t : Ty} (ha : has E a t = true) (hb : has E b t = true)
    (hc : has E c t = true) (na : noNaN a = true) (nb : noNaN b = true) (nc : noNaN c = true) (h1 : cmp a b .lt = true)
    (h2 : cmp b c .lt = true) : cmp a c .lt = true := by
  rw [cmp_order E _ _ t ‹_› ‹_› ‹_› ‹_›] at *
  simp only [Op.holds, beq_iff_eq] at *
  exact (order_chain E a b c t ha hb hc).1 h1 h2

/-- Two values are equal exactly if they are the same, but for the sign of zeros. -/
theorem equal_means_same (E : Nat → List Ty) {a b : Data} {t : Ty} (ha : has E a t = true) (hb : has E b t = true)
    (na : noNaN a = true) (nb : noNaN b = true) : cmp a b .eq = true ↔ plain a = plain b := by
  rw [cmp_order E a b t ha hb na nb, ← order_eq E a b t ha hb]
  simp [Op.holds]

/-- Equal values cannot be told apart by comparing them with others. -/
theorem equal_values_compare_alike (E : Nat → List Ty) {a b c : Data} {t : Ty} (ha : has E a t = true) (hb : has E b t = true)
    (hc : has E c t = true) (na : noNaN a = true) (nb : noNaN b = true) (nc : noNaN c = true) (h : cmp a b .eq = true) (op : Op) :
    cmp a c op = cmp b c op := by
  rw [cmp_order E _ _ t ‹_› ‹_› ‹_› ‹_›] at *
  rw [cmp_order E b c t hb hc nb nc]
  simp only [Op.holds, beq_iff_eq] at h
  rw [(order_chain E a b c t ha hb hc).2.1 h]

/-! ### C99: equal values have equal hashes -/

/-- Values of one type without NaN that are equal have the same hash. -/
theorem equal_values_hash_equally (E : Nat → List Ty) (H : TextHash) {a b : Data} {t : Ty} (ha : has E a t = true)
    (hb : has E b t = true) (na : noNaN a = true) (nb : noNaN b = true) (h : cmp a b .eq = true) : pyHash H a = pyHash H b := by
  have := (equal_means_same E ha hb na nb).1 h
  rw [pyHash, pyHash, ← hash_plain H a, this, hash_plain H b]

/-- `hash(x)` is never -1, which Python takes for an exception. -/
theorem hash_is_never_minus_one (H : TextHash) (d : Data) : pyHash H d ≠ -1 := by
  rw [pyHash]
  split
  · decide
  · rename_i h
    intro h'
    apply h
    apply BitVec.eq_of_toInt_eq
    rw [h']
    decide

/-! ### C100: compiled code compares and hashes alike -/

/-- `==` and `!=` in compiled code answer as in the interpreter, for values without NaN of types whose OneOfs have alternatives of
different kinds. -/
theorem compiled_equality_agrees_partial (E : Nat → List Ty) (M : Data → Data → Op → Bool) {a b : Data} {t : Ty} (ha : has E a t = true)
    (hb : has E b t = true) (na : noNaN a = true) (nb : noNaN b = true) (hd : distinct t = true) :
    compiled M a b .eq = some (cmp a b .eq) ∧ compiled M a b .ne = some (cmp a b .ne) := by
  rw [cmp_order E a b t ha hb na nb, cmp_order E a b t ha hb na nb]
  exact cc_eq E a b t ha hb na nb hd false

/-- All six operators answer in compiled code as in the interpreter, for values without NaN of types without OneOf; `None` itself, which
Python cannot order, is excepted. -/
theorem compiled_comparison_agrees_partial (E : Nat → List Ty) (M : Data → Data → Op → Bool) {a b : Data} {t : Ty} (ha : has E a t = true)
    (hb : has E b t = true) (na : noNaN a = true) (nb : noNaN b = true) (hd : noOneOf t = true) (hn : t ≠ .none) (op : Op) :
    compiled M a b op = some (cmp a b op) := by
  have ho := cc_ord (M := M) E a b t ha hb na nb hd false
  rw [cmp_order E a b t ha hb na nb, compiled]
  simp only [dir, Bool.false_eq_true, if_false] at ho
  have hdist : ∀ t, noOneOf t = true → distinct t = true := by
    intro t
    exact Ty.rec (motive_1 := fun t => noOneOf t = true → distinct t = true) (motive_2 := fun ts => noOneOfs ts = true → distincts ts = true)
      (fun _ => rfl) (fun _ _ => rfl) (fun _ _ => rfl) (fun _ => rfl) (fun _ => rfl) (fun _ _ ih h => ih h) (fun _ ih h => ih h)
      (fun _ _ h => by simp [noOneOf] at h) (fun _ _ => rfl) (fun _ => rfl)
      (fun _ _ ih ihs h => by
        simp only [noOneOfs, Bool.and_eq_true] at h
        simp only [distincts, Bool.and_eq_true]
        exact ⟨ih h.1, ihs h.2⟩) t
  have he := cc_eq (M := M) E a b t ha hb na nb (hdist t hd) false
  cases op
  · exact he.1
  · exact he.2
  · exact ho.1
  · exact ho.2.1
  · exact (ho.2.2 hn).1
  · exact (ho.2.2 hn).2

/-- `hash(x)` gives in compiled code what it gives in the interpreter, for values in which no TupleOf is empty or has an element whose
hash is -1. -/
theorem compiled_hash_agrees_partial (H : TextHash) {d : Data} (hs : steady H d = true) : cPyHash H d = some (pyHash H d) := by
  rw [cPyHash, cHash_eq H d hs, pyHash]
  rfl

/-! ### Examples -/

section Examples

/-- A recursive Alternative, `Tree = Alternative("Tree", Leaf={}, Node={value: int, left: Tree, right: Tree})`. -/
def trees : Nat → List Ty
  | 0 => [.tuple [], .tuple [.num .i64, .alt 0, .alt 0]]
  | _ => []

def leaf : Data := .alt 0 (.tuple [])
def node (n : Int) (l r : Data) : Data := .alt 1 (.tuple [.num .i64 n, l, r])

/-- Tuple(OneOf(None, int, str), TupleOf(float), Tree). -/
def rowTy : Ty := .tuple [.oneOf [.none, .num .i64, .str], .tupleOf false (.flt false), .alt 0]

/-- (5, (1.0, -0.0), Node(3, Leaf, Leaf)). -/
def row1 : Data := .tuple [.oneOf 1 (.num .i64 5), .tupleOf false [.flt false 0x3FF0000000000000, .flt false (2 ^ 63)], node 3 leaf leaf]

/-- (5, (1.0, 0.0), Node(3, Leaf, Leaf)): the same value. -/
def row2 : Data := .tuple [.oneOf 1 (.num .i64 5), .tupleOf false [.flt false 0x3FF0000000000000, .flt false 0], node 3 leaf leaf]

/-- (5, (1.0, 0.0), Node(3, Leaf, Node(1, Leaf, Leaf))). -/
def row3 : Data := .tuple [.oneOf 1 (.num .i64 5), .tupleOf false [.flt false 0x3FF0000000000000, .flt false 0],
  node 3 leaf (node 1 leaf leaf)]

/-- ("a", (), Leaf). -/
def row4 : Data := .tuple [.oneOf 2 (.str [97]), .tupleOf false [], leaf]

def sampleHash : TextHash := ⟨fun p => hadd 10 (BitVec.ofNat 32 p.length), fun b => hadd 11 (BitVec.ofNat 32 b.length)⟩

example : has trees row1 rowTy = true ∧ has trees row2 rowTy = true ∧ has trees row3 rowTy = true ∧ has trees row4 rowTy = true := by
  decide +kernel
example : noNaN row1 = true ∧ noNaN row2 = true ∧ noNaN row3 = true ∧ noNaN row4 = true := by decide +kernel
example : distinct rowTy = true := by decide +kernel
example : steady sampleHash row1 = true := by decide +kernel
example : cmp row1 row2 .eq = true ∧ row1 ≠ row2 ∧ plain row1 = plain row2 :=
  ⟨by decide +kernel, by intro h; simp [row1, row2] at h, rfl⟩
example : cmp row1 row3 .lt = true ∧ cmp row3 row4 .lt = true ∧ cmp row1 row4 .lt = true ∧ cmp row3 row1 .ge = true := by decide +kernel
example : pyHash sampleHash row1 = pyHash sampleHash row2 ∧ pyHash sampleHash row1 ≠ pyHash sampleHash row3 := by decide +kernel
example : cPyHash sampleHash row1 = some (pyHash sampleHash row1) := by decide +kernel
example : compiled (fun _ _ _ => false) row1 row2 .eq = some true ∧ compiled (fun _ _ _ => false) row1 row4 .eq = some false := by
  decide +kernel

/-- Tuple(float, TupleOf(str)): ordering in compiled code. -/
def pairTy : Ty := .tuple [.flt false, .tupleOf false .str]
def pair1 : Data := .tuple [.flt false 0xBFF0000000000000, .tupleOf false [.str [97], .str []]]
def pair2 : Data := .tuple [.flt false 0xBFF0000000000000, .tupleOf false [.str [97]]]

example : has trees pair1 pairTy = true ∧ has trees pair2 pairTy = true ∧ noOneOf pairTy = true := by decide +kernel
example : compiled (fun _ _ _ => false) pair2 pair1 .lt = some true ∧ compiled (fun _ _ _ => false) pair2 pair1 .ge = some false := by
  decide +kernel

-- 1.0, -1.0, 0.5, 2.0^31, -2.0^31 and infinity
example : asInt32 0x3FF0000000000000 = some 1 ∧ asInt32 0xBFF0000000000000 = some (-1) ∧ asInt32 0x3FE0000000000000 = none ∧
    asInt32 0x41E0000000000000 = none ∧ asInt32 0xC1E0000000000000 = some (-2 ^ 31) ∧ asInt32 0x7FF0000000000000 = none := by
  decide +kernel

end Examples

end Verif.Compare
