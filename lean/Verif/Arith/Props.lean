import Verif.Arith.Lemmas
/-
Property theorems C28 (// and %), C29 (compiled = interpreted), C30 (shifts), C31 (promotion).
-/
namespace Verif.Arith.Props
open Verif.Arith Verif.Arith.Spec

/-! ### C28 -/

/-- C28: compiled `//` is Python's floor division whenever the result is a value of the type. -/
theorem compiled_floordiv (t : ITy) (ht : IntType t) (a b : Int) (ha : InRange t a) (hb : InRange t b) (h0 : b ≠ 0)
    (hrep : InRange t (Int.fdiv a b)) : compiled t .floordiv a b = .ok (Int.fdiv a b) := by
  unfold compiled
  simp only
  by_cases hs : t.signed = true
  · rw [if_pos hs]
    have hmin : ¬ (a = int64Min ∧ b = -1) := by
      rintro ⟨rfl, rfl⟩
      have := (inRange_signed ht hs hrep).2
      exact absurd this (by decide)
    rw [rtFloorDivI_eq (inRange_signed ht hs ha) h0 hmin]
    simp only [Except.map]
    rw [wrap_id ht hrep]
  · rw [if_neg hs, if_neg h0]
    have ua := inRange_unsigned ht (by simpa using hs) ha
    have ub := inRange_unsigned ht (by simpa using hs) hb
    unfold U64 at ua ub
    have e : Int.tdiv a b = Int.fdiv a b := by
      by_cases ha0 : a = 0
      · subst ha0; simp
      · exact same_sign_fdiv h0 (by omega)
    rw [e, wrap_id ht hrep]

example : IntType int64 ∧ InRange int64 (-7) ∧ InRange int64 2 ∧ InRange int64 (Int.fdiv (-7) 2) ∧
    compiled int64 .floordiv (-7) 2 = .ok (-4) := by decide
example : InRange int64 int64Min ∧ compiled int64 .floordiv int64Min 3 = .ok (-3074457345618258603) := by decide

/-- The result of `//` fails to be a value of the type only when the smallest value is divided by -1. -/
theorem floordiv_representable (t : ITy) (ht : IntType t) (a b : Int) (ha : InRange t a) (hb : InRange t b)
    (h0 : b ≠ 0) (hm : ¬ (InRange t a ∧ ¬ InRange t (-a) ∧ b = -1)) : InRange t (Int.fdiv a b) := by
  have e := @fdiv_mul_add a b
  rcases lt_or_gt_of_ne h0 with h | h
  · have h1 : b < Int.fmod a b ∧ Int.fmod a b ≤ 0 := by
      rw [fmod_neg' h]
      have := Int.emod_nonneg (-a) (show -b ≠ 0 by omega)
      have := Int.emod_lt_of_pos (-a) (show 0 < -b by omega); omega
    generalize Int.fmod a b = m at *
    generalize Int.fdiv a b = q at *
    by_cases b1 : b = -1
    · subst b1
      have : q = -a := by omega
      rw [this]
      by_contra hc
      exact hm ⟨ha, hc, rfl⟩
    · have b2 : b ≤ -2 := by omega
      have hs : t.signed = true := by
        by_contra hs
        have := (inRange_unsigned ht (by simpa using hs) hb).1
        omega
      unfold InRange at *
      rw [if_pos hs] at *
      generalize (2 : Int) ^ (t.bits - 1) = p at *
      constructor <;> nlinarith
  · have h1 : 0 ≤ Int.fmod a b ∧ Int.fmod a b < b := by
      rw [fmod_pos h]
      have := Int.emod_nonneg a (show b ≠ 0 by omega)
      have := Int.emod_lt_of_pos a h; omega
    generalize Int.fmod a b = m at *
    generalize Int.fdiv a b = q at *
    by_cases a0 : 0 ≤ a
    · exact inRange_between (inRange_zero t) ha (by nlinarith) (by nlinarith)
    · exact inRange_between ha (inRange_zero t) (by nlinarith) (by nlinarith)

/-- C28 (partial): compiled `%` is Python's modulo for every pair of operands except a dividend of `INT64_MIN`
with a negative divisor.  Missing: exactly that case, where `mod_of_int64_min` shows the answer has the wrong
sign. -/
theorem compiled_mod_partial (t : ITy) (ht : IntType t) (a b : Int) (ha : InRange t a) (hb : InRange t b)
    (h0 : b ≠ 0) (hm : ¬ (a = int64Min ∧ b < 0)) : compiled t .mod a b = .ok (Int.fmod a b) := by
  unfold compiled
  simp only
  rw [if_neg h0]
  by_cases hs : t.signed = true
  · rw [if_pos hs, rtModI_eq (inRange_signed ht hs ha) (inRange_signed ht hs hb) h0 hm,
      wrap_id ht (fmod_inRange h0 hb)]
  · have ua := inRange_unsigned ht (by simpa using hs) ha
    have ub := inRange_unsigned ht (by simpa using hs) hb
    unfold U64 at ua ub
    rw [if_neg hs, rtModU_eq (by omega) (by omega), wrap_id ht (fmod_inRange h0 hb)]

example : InRange int64 (-7) ∧ InRange int64 (-3) ∧ compiled int64 .mod (-7) 3 = .ok 2 ∧
    compiled int64 .mod 7 (-3) = .ok (-2) := by decide
example : compiled int64 .mod 5 int64Min = .ok (5 - 2 ^ 63) := by decide

/-- For types narrower than 64 bits, and for unsigned ones, `%` is right without exception. -/
theorem compiled_mod_narrow (t : ITy) (ht : IntType t) (hn : t ≠ int64) (a b : Int) (ha : InRange t a)
    (hb : InRange t b) (h0 : b ≠ 0) : compiled t .mod a b = .ok (Int.fmod a b) := by
  apply compiled_mod_partial t ht a b ha hb h0
  rintro ⟨rfl, -⟩
  obtain ⟨s, n⟩ := t
  unfold InRange at ha
  have e : int64Min = -9223372036854775808 := rfl
  rw [e] at ha
  cases s
  · simp at ha
  · rcases ht with h | h | h | h <;> simp only at h <;> subst h <;> simp at ha
    · exact hn rfl

/-- The excluded case: `INT64_MIN % b` for negative `b` is the negation of Python's result. -/
theorem mod_of_int64_min (b : Int) (hb : InRange int64 b) (h0 : b < 0) :
    compiled int64 .mod int64Min b = .ok (-(Int.fmod int64Min b)) := by
  unfold compiled
  simp only
  have hb' : I64 b := inRange_signed (by decide) rfl hb
  have e : int64Min = -9223372036854775808 := rfl
  rw [if_neg (by omega), if_pos (show int64.signed = true from rfl), rtModI_min hb' h0]
  congr 1
  apply wrap_id (by decide)
  rcases fmod_between int64Min b (by omega) with ⟨h1, h2⟩ | ⟨h1, h2⟩
  · omega
  · unfold I64 at hb'
    by_cases hbm : b = -9223372036854775808
    · subst hbm; decide
    · unfold InRange int64; simp; omega

/-- C28 is false as stated: a representable Python result that compiled code gets wrong. -/
theorem mod_refuted : InRange int64 int64Min ∧ InRange int64 (-3) ∧ python .mod int64Min (-3) = some (-2) ∧
    InRange int64 (-2) ∧ compiled int64 .mod int64Min (-3) = .ok 2 := by decide

/-- C28 (partial): the division law `a == (a // b) * b + a % b` on what compiled code returns. -/
theorem divmod_law_partial (t : ITy) (ht : IntType t) (a b : Int) (ha : InRange t a) (hb : InRange t b) (h0 : b ≠ 0)
    (hrep : InRange t (Int.fdiv a b)) (hm : ¬ (a = int64Min ∧ b < 0)) :
    ∃ q m, compiled t .floordiv a b = .ok q ∧ compiled t .mod a b = .ok m ∧ q * b + m = a ∧
      (0 < b → 0 ≤ m ∧ m < b) ∧ (b < 0 → b < m ∧ m ≤ 0) := by
  refine ⟨_, _, compiled_floordiv t ht a b ha hb h0 hrep, compiled_mod_partial t ht a b ha hb h0 hm,
    fdiv_mul_add, ?_, ?_⟩
  · intro h
    rw [fmod_pos h]
    exact ⟨Int.emod_nonneg a h0, Int.emod_lt_of_pos a h⟩
  · intro h
    rw [fmod_neg' h]
    have := Int.emod_nonneg (-a) (show -b ≠ 0 by omega)
    have := Int.emod_lt_of_pos (-a) (show 0 < -b by omega)
    omega

example : InRange int64 (-7) ∧ InRange int64 (-2) ∧ InRange int64 (Int.fdiv (-7) (-2)) ∧
    ¬ ((-7 : Int) = int64Min ∧ (-2 : Int) < 0) := by decide

/-- The division law fails for `INT64_MIN` and -3. -/
theorem divmod_law_refuted : compiled int64 .floordiv int64Min (-3) = .ok 3074457345618258602 ∧
    compiled int64 .mod int64Min (-3) = .ok 2 ∧
    (3074457345618258602 : Int) * (-3) + 2 ≠ int64Min := by decide

/-- C28: dividing by zero raises `ZeroDivisionError`, for every type and dividend, compiled or interpreted. -/
theorem zero_division (t : ITy) (a : Int) :
    compiled t .floordiv a 0 = .error .zeroDivision ∧ compiled t .mod a 0 = .error .zeroDivision ∧
    interp t .floordiv a 0 = .error .zeroDivision ∧ interp t .mod a 0 = .error .zeroDivision := by
  unfold compiled interp rtFloorDivI
  simp only [if_true, Except.map, ite_self, and_self]

/-- `+`, `-` and `*` compute Python's result modulo the width, as a value of the type. -/
theorem ring_ops (t : ITy) (ht : IntType t) (op : Op) (hop : op = .add ∨ op = .sub ∨ op = .mul) (a b : Int) :
    ∃ x y, python op a b = some y ∧ compiled t op a b = .ok x ∧ interp t op a b = .ok x ∧ InRange t x ∧
      Congruent t x y := by
  rcases hop with rfl | rfl | rfl
  all_goals exact ⟨_, _, rfl, rfl, rfl, wrap_inRange ht _, wrap_congr t _⟩

example : compiled int64 .add (2 ^ 63 - 1) 1 = .ok int64Min := by decide

/-- A value of the type is determined by its residue, so `ring_ops` determines the result completely. -/
theorem inRange_congr_unique (t : ITy) (ht : IntType t) (x y : Int) (hx : InRange t x) (hy : InRange t y)
    (h : Congruent t x y) : x = y := by
  rw [← wrap_id ht hx, ← wrap_id ht hy]
  exact wrap_of_congr h

/-! ### C29 -/

/-- C29 (partial): interpreter and compiled code return the same value or both raise, for every operator and
every pair of operands on which the C++ is defined, except `INT64_MIN // -1`.  Missing: that pair, which
`floordiv_disagreement` shows to differ, and shift counts of 64 and more on which the C++ is undefined. -/
theorem compiled_agrees_partial (t : ITy) (ht : IntType t) (op : Op) (a b : Int) (ha : InRange t a)
    (hb : InRange t b) (hdef : (op = .lshift ∨ op = .rshift) → b < 64)
    (hm : ¬ (op = .floordiv ∧ t = int64 ∧ a = int64Min ∧ b = -1)) :
    Agree (compiled t op a b) (interp t op a b) := by
  have map_agree : ∀ x y : Except Err Int, Agree x y → Agree (x.map (wrap t)) (y.map (wrap t)) := by
    intro x y h
    cases x <;> cases y <;> simp_all [Agree, Except.map]
  cases op
  · exact agree_self _
  · exact agree_self _
  · exact agree_self _
  · -- floordiv
    by_cases h0 : b = 0
    · subst h0; rw [(zero_division t a).1, (zero_division t a).2.2.1]; trivial
    unfold compiled interp
    simp only
    rw [if_neg h0, if_neg h0]
    by_cases hs : t.signed = true
    · rw [if_pos hs, if_pos hs]
      by_cases hc : a = int64Min ∧ b = -1
      · exfalso
        obtain ⟨rfl, rfl⟩ := hc
        apply hm
        refine ⟨rfl, ?_, rfl, rfl⟩
        obtain ⟨s, n⟩ := t
        simp only at hs; subst hs
        unfold InRange at ha
        have e : int64Min = -9223372036854775808 := rfl
        rw [e] at ha
        rcases ht with h | h | h | h <;> simp only at h <;> subst h <;> simp at ha
        rfl
      · rw [pyFloorDivI_eq (by rw [floorDivI_branch (inRange_signed ht hs ha)]; exact hc)]
        exact agree_self _
    · rw [if_neg hs, if_neg hs]; exact agree_self _
  · -- mod
    by_cases h0 : b = 0
    · subst h0; rw [(zero_division t a).2.1, (zero_division t a).2.2.2]; trivial
    unfold compiled interp
    simp only
    rw [if_neg h0, if_neg h0]
    by_cases hs : t.signed = true
    · rw [if_pos hs, if_pos hs, pyModI_eq (inRange_signed ht hs ha) (inRange_signed ht hs hb) h0]
      exact agree_self _
    · have ua := inRange_unsigned ht (by simpa using hs) ha
      have ub := inRange_unsigned ht (by simpa using hs) hb
      unfold U64 at ua ub
      rw [if_neg hs, if_neg hs, pyModU_eq (by omega) (by omega), rtModU_eq (by omega) (by omega)]
      exact agree_self _
  · -- lshift
    have hb64 := hdef (Or.inl rfl)
    unfold compiled interp
    simp only
    by_cases hs : t.signed = true
    · rw [if_pos hs, if_pos hs]
      apply map_agree
      by_cases b0 : b < 0
      · unfold rtLshiftI pyLshiftI; rw [if_pos b0, if_pos b0]; trivial
      · rw [rtLshiftI_eq (by omega) hb64, pyLshiftI_eq (by omega) hb64]; exact agree_self _
    · rw [if_neg hs, if_neg hs]
      apply map_agree
      unfold rtLshiftU pyLshiftU
      by_cases hc : (a = 0 ∧ b > ssizeMax) ∨ (a ≠ 0 ∧ b ≥ 1024)
      · rw [if_pos hc, if_pos hc]; trivial
      · rw [if_neg hc, if_neg hc]; exact agree_self _
  · -- rshift
    unfold compiled interp
    simp only
    by_cases hs : t.signed = true
    · rw [if_pos hs, if_pos hs]
      exact map_agree _ _ (pyRshiftI_err a b)
    · rw [if_neg hs, if_neg hs]
      apply map_agree
      unfold rtRshiftU pyRshiftU
      by_cases hc : b > ssizeMax
      · rw [if_pos hc, if_pos hc]; trivial
      · rw [if_neg hc, if_neg hc]; exact agree_self _

example : InRange int64 (-9) ∧ InRange int64 (-4) ∧ interp int64 .mod (-9) (-4) = .ok (-1) ∧
    compiled int64 .mod (-9) (-4) = .ok (-1) := by decide

/-- The excluded pair: the interpreter returns `INT64_MIN`, compiled code returns 1. -/
theorem floordiv_disagreement : compiled int64 .floordiv int64Min (-1) = .ok 1 ∧
    interp int64 .floordiv int64Min (-1) = .ok int64Min := by decide

/-- Shifting by 64..1023 is neither rejected nor defined, in both implementations; and the interpreter's
`0 << 64` is undefined where compiled code returns 0. -/
theorem wide_shift_undefined : compiled int64 .lshift 1 64 = .error .ub ∧ interp int64 .lshift 1 64 = .error .ub ∧
    compiled int64 .rshift 1 64 = .error .ub ∧ interp int64 .rshift 1 64 = .error .ub ∧
    compiled int64 .lshift 0 64 = .ok 0 ∧ interp int64 .lshift 0 64 = .error .ub := by decide

/-- Operators are total: below a shift count of 64 no operator hits undefined behaviour or a hardware trap. -/
theorem no_ub (t : ITy) (ht : IntType t) (op : Op) (a b : Int) (ha : InRange t a) (hb : InRange t b)
    (hdef : (op = .lshift ∨ op = .rshift) → b < 64) :
    ∀ e, compiled t op a b = .error e → e = .zeroDivision ∨ e = .valueError := by
  have hmap : ∀ (x : Except Err Int) e, x.map (wrap t) = .error e → x = .error e := by
    intro x e h; cases x <;> simp_all [Except.map]
  intro e he
  cases op
  · simp [compiled] at he
  · simp [compiled] at he
  · simp [compiled] at he
  · by_cases h0 : b = 0
    · subst h0; rw [(zero_division t a).1] at he; cases he; exact Or.inl rfl
    · unfold compiled at he
      simp only at he
      by_cases hs : t.signed = true
      · rw [if_pos hs] at he
        have he := hmap _ _ he
        by_cases hc : a = int64Min ∧ b = -1
        · unfold rtFloorDivI at he
          rw [if_neg h0, if_pos ((floorDivI_branch (inRange_signed ht hs ha)).mpr hc)] at he
          cases he
        · rw [rtFloorDivI_eq (inRange_signed ht hs ha) h0 hc] at he; cases he
      · rw [if_neg hs, if_neg h0] at he; cases he
  · by_cases h0 : b = 0
    · subst h0; rw [(zero_division t a).2.1] at he; cases he; exact Or.inl rfl
    · unfold compiled at he
      simp only at he
      rw [if_neg h0] at he
      split at he <;> cases he
  · have hb64 := hdef (Or.inl rfl)
    unfold compiled at he
    simp only at he
    by_cases hs : t.signed = true
    · rw [if_pos hs] at he
      have he := hmap _ _ he
      by_cases b0 : b < 0
      · unfold rtLshiftI at he; rw [if_pos b0] at he; cases he; exact Or.inr rfl
      · rw [rtLshiftI_eq (by omega) hb64] at he; cases he
    · rw [if_neg hs] at he
      have he := hmap _ _ he
      have ub := inRange_unsigned ht (by simpa using hs) hb
      unfold U64 at ub
      have e' : ssizeMax = 9223372036854775807 := rfl
      unfold rtLshiftU at he
      rw [if_neg (by omega), cshl_ok _ _ hb64] at he
      cases he
  · have hb64 := hdef (Or.inr rfl)
    unfold compiled at he
    simp only at he
    by_cases hs : t.signed = true
    · rw [if_pos hs] at he
      have he := hmap _ _ he
      by_cases b0 : b < 0
      · unfold rtRshiftI at he; rw [if_pos b0] at he; cases he; exact Or.inr rfl
      · rw [rtRshiftI_eq (inRange_signed ht hs ha) (by omega) hb64] at he; cases he
    · rw [if_neg hs] at he
      have he := hmap _ _ he
      have e' : ssizeMax = 9223372036854775807 := rfl
      unfold rtRshiftU at he
      rw [if_neg (by omega)] at he
      split at he
      · cases he
      · rw [if_neg (by omega), cshr_ok _ hb64] at he; cases he

/-! ### C30 -/

/-- C30: `a << b` is multiplication by `2 ^ b` modulo the width, for every count below 64. -/
theorem lshift_is_mul (t : ITy) (ht : IntType t) (a b : Int) (h0 : 0 ≤ b) (h1 : b < 64) :
    ∃ x, compiled t .lshift a b = .ok x ∧ InRange t x ∧ Congruent t x (a * 2 ^ b.toNat) := by
  have hd : ∀ y : Int, (2 ^ t.bits : Int) ∣ 18446744073709551616 * y := by
    intro y
    have h64 : t.bits ≤ 64 := by rcases ht with h | h | h | h <;> omega
    have : (2 ^ t.bits : Int) ∣ 2 ^ 64 := pow_dvd_pow 2 h64
    exact Dvd.dvd.mul_right (by simpa using this) y
  have key : ∀ z : Int, (∃ k, z = a * 2 ^ b.toNat + 18446744073709551616 * k) →
      InRange t (wrap t z) ∧ Congruent t (wrap t z) (a * 2 ^ b.toNat) := by
    rintro z ⟨k, rfl⟩
    refine ⟨wrap_inRange ht _, ?_⟩
    have e : wrap t (a * 2 ^ b.toNat + 18446744073709551616 * k) = wrap t (a * 2 ^ b.toNat) := by
      apply wrap_of_congr
      unfold Congruent
      rw [add_sub_cancel_left]
      exact hd k
    rw [e]
    exact wrap_congr t _
  by_cases hs : t.signed = true
  · refine ⟨wrap t (w64 (a * 2 ^ b.toNat)), ?_, ?_⟩
    · unfold compiled
      simp only
      rw [if_pos hs, rtLshiftI_eq h0 h1]
      rfl
    · obtain ⟨k, hk, -, -⟩ := w64_spec (a * 2 ^ b.toNat)
      exact key _ ⟨k, hk⟩
  · refine ⟨wrap t (u64 (a * 2 ^ b.toNat)), ?_, ?_⟩
    · unfold compiled
      simp only
      have e' : ssizeMax = 9223372036854775807 := rfl
      unfold rtLshiftU
      rw [if_neg hs, if_neg (by omega), cshl_ok _ _ h1]
      rfl
    · refine key _ ⟨-(a * 2 ^ b.toNat / 18446744073709551616), ?_⟩
      unfold u64
      have := Int.emod_add_mul_ediv (a * 2 ^ b.toNat) 18446744073709551616
      norm_num
      omega

example : compiled int64 .lshift (-3) 5 = .ok (-96) ∧ compiled ⟨true, 8⟩ .lshift 1 7 = .ok (-128) := by decide

/-- C30: a negative shift count raises `ValueError` (signed types; unsigned counts cannot be negative). -/
theorem negative_shift (t : ITy) (hs : t.signed = true) (a b : Int) (h : b < 0) :
    compiled t .lshift a b = .error .valueError ∧ compiled t .rshift a b = .error .valueError ∧
    interp t .lshift a b = .error .valueError ∧ interp t .rshift a b = .error .valueError := by
  unfold compiled interp rtLshiftI rtRshiftI pyLshiftI pyRshiftI
  simp [h, hs, Except.map]

example : InRange int64 (-1) ∧ compiled int64 .lshift 3 (-1) = .error .valueError := by decide

/-- C30: right shift of an unsigned value is division by `2 ^ b`, for every count up to `SSIZE_MAX`. -/
theorem rshift_unsigned (t : ITy) (ht : IntType t) (hs : t.signed = false) (a b : Int) (ha : InRange t a)
    (h0 : 0 ≤ b) (h1 : b ≤ ssizeMax) : compiled t .rshift a b = .ok (a / 2 ^ b.toNat) := by
  have ua := inRange_unsigned ht hs ha
  unfold U64 at ua
  have hp : (0 : Int) < 2 ^ b.toNat := by positivity
  have hin : InRange t (a / 2 ^ b.toNat) :=
    inRange_between (inRange_zero t) ha (Int.ediv_nonneg (by omega) (by omega)) (Int.ediv_le_self _ (by omega))
  unfold compiled
  simp only
  rw [if_neg (by simp [hs])]
  unfold rtRshiftU
  rw [if_neg (by omega)]
  split
  · rename_i h; subst h; simp [Except.map, wrap_id ht ha]
  · split
    · rename_i hb
      have hz : a / 2 ^ b.toNat = 0 := by
        apply Int.ediv_eq_zero_of_lt (by omega)
        have : (2 : Int) ^ 64 ≤ 2 ^ b.toNat := pow_le_pow_right₀ (by norm_num) (by omega)
        norm_num at this
        omega
      rw [hz]
      simp [Except.map, wrap_id ht (inRange_zero t)]
    · rename_i hb
      rw [cshr_ok _ (by omega)]
      simp [Except.map, wrap_id ht hin]

example : InRange ⟨false, 64⟩ (2 ^ 64 - 1) ∧ compiled ⟨false, 64⟩ .rshift (2 ^ 64 - 1) 60 = .ok 15 := by decide

/-- C30 (partial): the signed right shift of every type, for every operand and every count below 64, equals
floor division by `2 ^ b` exactly when the operand is nonnegative, or is `INT64_MIN`, or has magnitude at most
`2 ^ b`, or is a multiple of `2 ^ b`.  Missing: the remaining negative operands, which are rounded towards zero
(`rshift_refuted`). -/
theorem rshift_signed_partial (t : ITy) (ht : IntType t) (hs : t.signed = true) (a b : Int) (ha : InRange t a)
    (h0 : 0 ≤ b) (h1 : b < 64) :
    compiled t .rshift a b = .ok (Int.fdiv a (2 ^ b.toNat)) ↔
      (0 ≤ a ∨ a = int64Min ∨ -a < 2 ^ b.toNat ∨ (2 ^ b.toNat : Int) ∣ a) := by
  have ia := inRange_signed ht hs ha
  have hp : (0 : Int) < 2 ^ b.toNat := by positivity
  have ef : ∀ x : Int, Int.fdiv x (2 ^ b.toNat) = x / 2 ^ b.toNat :=
    fun x => Int.fdiv_eq_ediv_of_nonneg x (by omega)
  rw [ef]
  unfold compiled
  simp only
  rw [if_pos hs, rtRshiftI_eq ia h0 h1]
  simp only [Except.map]
  generalize (2 : Int) ^ b.toNat = p at *
  have emin : int64Min = -9223372036854775808 := rfl
  -- range of the result
  have hin : InRange t (a / p) := by
    by_cases a0 : 0 ≤ a
    · exact inRange_between (inRange_zero t) ha (Int.ediv_nonneg a0 (by omega)) (Int.ediv_le_self _ a0)
    · refine inRange_between ha (inRange_zero t) ?_ ?_
      · exact Int.le_ediv_of_mul_le hp (by nlinarith)
      · have := Int.ediv_neg_of_neg_of_pos (show a < 0 by omega) hp; omega
  by_cases hc : 0 ≤ a ∨ a = int64Min
  · rw [if_pos hc, wrap_id ht hin]
    constructor
    · intro _; omega
    · intro _; rfl
  · rw [if_neg hc]
    by_cases hsm : -a < p
    · rw [if_pos hsm]
      have hm1 : a / p = -1 := by
        have g1 := Int.ediv_neg_of_neg_of_pos (show a < 0 by omega) hp
        have g2 : -1 ≤ a / p := Int.le_ediv_of_mul_le hp (by omega)
        omega
      rw [hm1] at hin ⊢
      rw [wrap_id ht hin]
      constructor
      · intro _; exact Or.inr (Or.inr (Or.inl hsm))
      · intro _; rfl
    · rw [if_neg hsm]
      have hin2 : InRange t (-(-a / p)) := by
        refine inRange_between ha (inRange_zero t) ?_ ?_
        · have := Int.ediv_le_self (a := -a) p (by omega); omega
        · have := Int.ediv_nonneg (a := -a) (b := p) (by omega) (by omega); omega
      rw [wrap_id ht hin2]
      have key := neg_ediv_eq (x := -a) (p := p) (by omega) hp
      rw [Int.neg_neg, Int.dvd_neg] at key
      constructor
      · intro h
        have h := Except.ok.inj h
        exact Or.inr (Or.inr (Or.inr (key.mp h)))
      · intro h
        have : p ∣ a := by
          rcases h with h | h | h | h
          · omega
          · omega
          · omega
          · exact h
        rw [key.mpr this]

example : InRange int64 (-8) ∧ compiled int64 .rshift (-8) 2 = .ok (-2) ∧ compiled int64 .rshift (-1) 5 = .ok (-1) ∧
    compiled int64 .rshift int64Min 3 = .ok (-(2 ^ 60)) := by decide

/-- C30 is false as stated: `-5 >> 1` is -2 where Python gives -3, compiled and interpreted alike. -/
theorem rshift_refuted : python .rshift (-5) 1 = some (-3) ∧ compiled int64 .rshift (-5) 1 = .ok (-2) ∧
    interp int64 .rshift (-5) 1 = .ok (-2) := by decide

/-! ### C31 -/

/-- C31: compiler and interpreter use the same promotion table. -/
theorem promotion_tables_equal (a b : NTy) : promote a b = some (promotesTo a b) := by
  cases a <;> cases b <;> rfl

/-- C31: promotion never fails, does not depend on operand order or grouping and is idempotent. -/
theorem promotion_join :
    (∀ a, promotesTo a a = a) ∧ (∀ a b, promotesTo a b = promotesTo b a) ∧
    (∀ a b c, promotesTo (promotesTo a b) c = promotesTo a (promotesTo b c)) := by
  refine ⟨?_, ?_, ?_⟩
  · intro a; cases a <;> rfl
  · intro a b; cases a <;> cases b <;> rfl
  · intro a b c; cases a <;> cases b <;> cases c <;> rfl

/-- C31: the result is at least as wide as both operands (and no wider than the wider), floating exactly when an
operand is, and, among integers, signed exactly when an operand is. -/
theorem promotion_rule (a b : NTy) :
    (floatness (promotesTo a b) = (floatness a || floatness b)) ∧
    (bitness (promotesTo a b) = max (bitness a) (bitness b) ∨
      (floatness (promotesTo a b) = true ∧ max (bitness a) (bitness b) ≤ bitness (promotesTo a b))) ∧
    (floatness a = false → floatness b = false →
      signedness (promotesTo a b) = some (signedness a == some true || signedness b == some true)) := by
  cases a <;> cases b <;> decide

example : promotesTo .uint16 .int8 = .int16 ∧ promotesTo .float32 .uint64 = .float64 := by decide

/-- C31: an operation on mixed integer types is the operation on the promoted type, in both implementations, so
they agree (with the exceptions of C29 at the promoted type). -/
theorem mixed_agrees_partial (ta tb : NTy) (op : Op) (a b : Int) (t : ITy) (ht : ity (promotesTo ta tb) = some t)
    (hdef : (op = .lshift ∨ op = .rshift) → wrap t b < 64)
    (hm : ¬ (op = .floordiv ∧ t = int64 ∧ wrap t a = int64Min ∧ wrap t b = -1)) :
    ∃ x y, compiledMixed ta tb op a b = some x ∧ interpMixed ta tb op a b = some y ∧ Agree x y := by
  have hit : IntType t := by
    generalize promotesTo ta tb = p at ht
    cases p <;> simp [ity] at ht <;> subst ht <;> decide
  refine ⟨compiled t op (wrap t a) (wrap t b), interp t op (wrap t a) (wrap t b), ?_, ?_, ?_⟩
  · unfold compiledMixed
    rw [promotion_tables_equal]
    simp [ht]
  · unfold interpMixed
    simp [ht]
  · exact compiled_agrees_partial t hit op _ _ (wrap_inRange hit _) (wrap_inRange hit _) hdef hm

example : ity (promotesTo .uint8 .int32) = some ⟨true, 32⟩ ∧
    compiledMixed .uint8 .int32 .floordiv 200 (-7) = some (.ok (-29)) := by decide

end Verif.Arith.Props
