import Verif.Ptr.Props
/-
Where pointers are not those of C, and where compiled code and the interpreter differ.
-/
namespace Verif.Ptr.Wrong

/-- C120: in the interpreter, `p - q` is never right if `p` is in front of `q` and the elements have more than one byte: it is not negative. -/
theorem sub_negative (s n : Nat) (a p q : Addr) (i j : Nat) (hs : 2 ≤ s) (ha : Array s n a) (hj : j ≤ n) (hij : i < j) (hp : At s a i p) (hq : At s a j q) :
    ∃ d : Int, subI s p (.ptr q) = .ok d ∧ 0 ≤ d ∧ d ≠ (i : Int) - j := by
  have h : subI s p (.ptr q) = .ok ((p - q) / BitVec.ofNat 64 s).toInt := by simp [subI, show s ≠ 0 by omega]
  have hn : 0 < n := by omega
  have hns : n * 1 ≤ n * s := Nat.mul_le_mul_left n (by omega)
  have hs1 : 1 * s ≤ n * s := Nat.mul_le_mul_right s hn
  unfold Array at ha
  have hsm : (BitVec.ofNat 64 s).toNat = s := by rw [BitVec.toNat_ofNat, Nat.mod_eq_of_lt (by omega)]
  have hlt : ((p - q) / BitVec.ofNat 64 s).toNat < 2 ^ 63 := by
    rw [BitVec.toNat_udiv, hsm, Nat.div_lt_iff_lt_mul (by omega)]
    have := (p - q).isLt
    have : 2 ^ 63 * 2 ≤ 2 ^ 63 * s := Nat.mul_le_mul_left _ hs
    omega
  have hd := BitVec.toInt_eq_toNat_of_lt (x := (p - q) / BitVec.ofNat 64 s) (by omega)
  exact ⟨_, h, by rw [hd]; omega, by rw [hd]; omega⟩

/-- C120: with `p` a pointer to integers, `p - (p + 1)` is 2305843009213693951 in the interpreter and -1 in compiled code. -/
theorem sub_one : subI 8 4096 (.ptr 4104) = .ok 2305843009213693951 ∧ subC 8 4096 (.ptr 4104) = .ok (-1) := by decide +kernel

/-- C120: the difference of pointers to None ends the process. -/
theorem sub_empty (p q : Addr) : subI 0 p (.ptr q) = .crash ∧ subC 0 p (.ptr q) = .crash := ⟨rfl, rfl⟩

/-- C120: `p[1.5]` is `p[1]` in the interpreter, where `p + 1.5` is an error, and an error in compiled code. -/
theorem float_index (s : Nat) (m : Memory) (p : Addr) (n : Int) :
    getI s m p (.float n) = getI s m p (.int n) ∧ addI s p (.float n) = .error ∧ getC s m p (.float n) = .error := ⟨rfl, rfl, rfl⟩

/-- C120: an index that is too large for `p + n` is taken modulo 2 ^ 64 by `p[n]`. -/
theorem large_index (s : Nat) (m : Memory) (p : Addr) : getI s m p (.int (2 ^ 64)) = getI s m p (.int 0) ∧ addI s p (.int (2 ^ 64)) = .error := by
  constructor
  · simp only [getI, indexI]
    rw [show BitVec.ofInt 64 (2 ^ 64) = BitVec.ofInt 64 0 from by decide +kernel]
  · simp [addI, fits]

/-- C120: `str(p)` in compiled code is a decimal number that looks like a hexadecimal one. -/
theorem str_decimal : strC 4096 = "0x4096" := by decide +kernel

end Verif.Ptr.Wrong
