import Verif.Compare.Props
/-
Where comparisons and hashes go wrong: NaN, OneOfs of numbers, and elements whose hash is -1.
-/
namespace Verif.Compare
open Verif.Conv (Reg)

/-! ### NaN in the interpreter -/

theorem flt_nan_left {n : Nat} (h : isNaN n = true) (x : Nat) : flt n x = false := by simp [flt, h]
theorem flt_nan_right {n : Nat} (h : isNaN n = true) (x : Nat) : flt x n = false := by simp [flt, h]

/-- In the interpreter a NaN within a tuple, a TupleOf or a ListOf equals every float. -/
theorem nan_equals_every_float {n : Nat} (h : isNaN n = true) (s : Bool) (x : Nat) :
    cmp (.tuple [.flt s n]) (.tuple [.flt s x]) .eq = true ∧ cmp (.tupleOf false [.flt s n]) (.tupleOf false [.flt s x]) .eq = true ∧
    cmp (.tuple [.flt s x]) (.tuple [.flt s n]) .eq = true := by
  simp [cmp, anyNe, flt_nan_left h, flt_nan_right h, ofSign]

theorem nan_hash : (if hadd 0 (hashFlt 4607182418800017408) = -1 then (-2 : Int) else (hadd 0 (hashFlt 4607182418800017408)).toInt) ≠
    if hadd 0 (hashFlt 9221120237041090560) = -1 then -2 else (hadd 0 (hashFlt 9221120237041090560)).toInt := by decide +kernel

/-- So equality is not transitive and equal tuples have different hashes: (1.0,) == (nan,) == (2.0,). -/
theorem nan_breaks_equality : ∃ a b c : Data, has trees a (.tuple [.flt false]) = true ∧ has trees b (.tuple [.flt false]) = true ∧
    has trees c (.tuple [.flt false]) = true ∧ cmp a b .eq = true ∧ cmp b c .eq = true ∧ cmp a c .eq = false ∧
    ∀ H, pyHash H a ≠ pyHash H b :=
  ⟨.tuple [.flt false 0x3FF0000000000000], .tuple [.flt false 0x7FF8000000000000], .tuple [.flt false 0x4000000000000000],
    by decide +kernel, by decide +kernel, by decide +kernel, by decide +kernel, by decide +kernel, by decide +kernel, fun H => by
      simp only [pyHash, hash, hashAll]
      exact nan_hash⟩

/-! ### NaN in compiled code -/

/-- In compiled code `x != y` is False if either is NaN, as is every other comparison; so `x != x` does not find NaNs. -/
theorem compiled_nan_is_not_unequal (M : Data → Data → Op → Bool) {n : Nat} (h : isNaN n = true) (s : Bool) (x : Nat) (op : Op) :
    compiled M (.flt s n) (.flt s x) op = some false ∧ compiled M (.flt s x) (.flt s n) op = some false := by
  simp [compiled, cc, fcmp, h]

/-- In compiled code (nan,) equals (x,) if both are TupleOf or ListOf, and not if both are Tuple or NamedTuple; as Tuples, (nan,) <= (x,)
and (nan,) >= (x,), though no two of them are equal. -/
theorem compiled_nan_in_tuples (M : Data → Data → Op → Bool) {n : Nat} (h : isNaN n = true) (s l : Bool) (x : Nat) :
    compiled M (.tupleOf l [.flt s n]) (.tupleOf l [.flt s x]) .eq = some true ∧
    compiled M (.tuple [.flt s n]) (.tuple [.flt s x]) .eq = some false ∧
    compiled M (.tuple [.flt s n]) (.tuple [.flt s x]) .le = some true ∧
    compiled M (.tuple [.flt s n]) (.tuple [.flt s x]) .ge = some true := by
  simp [compiled, cc, fcmp, h, eqOf, eqFields, ltFields, ifOpt, optNot]

/-! ### OneOf -/

/-- In the interpreter OneOfs within a container that hold different alternatives are never equal; compiled code compares what they hold.
So TupleOf(OneOf(int, float))((1,)) and ((1.0,)) are equal in compiled code and in Python, and not in the interpreter's runtime. -/
theorem oneof_equality_disagrees (M : Data → Data → Op → Bool) (a : Int) (b : Nat)
    (hM : M (.num .i64 a) (.flt false b) .ne = false) :
    cmp (.tupleOf false [.oneOf 0 (.num .i64 a)]) (.tupleOf false [.oneOf 1 (.flt false b)]) .eq = false ∧
    compiled M (.tupleOf false [.oneOf 0 (.num .i64 a)]) (.tupleOf false [.oneOf 1 (.flt false b)]) .eq = some true := by
  simp [cmp, anyNe, ofSign, compiled, cc, eqOf, ifOpt, hM]

/-- The interpreter orders a None before an integer within a container of OneOf(None, int); compiled code raises TypeError. -/
theorem oneof_ordering_disagrees (M : Data → Data → Op → Bool) (n : Int) :
    cmp (.tuple [.oneOf 0 .none]) (.tuple [.oneOf 1 (.num .i64 n)]) .lt = true ∧
    compiled M (.tuple [.oneOf 0 .none]) (.tuple [.oneOf 1 (.num .i64 n)]) .lt = none := by
  simp [cmp, firstNe, ofSign, compiled, cc, ltFields, ifOpt, unrelated]

/-- In compiled code `None == None` but not `None <= None` nor `None >= None`. -/
theorem compiled_none_is_not_at_most_none (M : Data → Data → Op → Bool) :
    compiled M .none .none .eq = some true ∧ compiled M .none .none .le = some false ∧ compiled M .none .none .ge = some false :=
  ⟨rfl, rfl, rfl⟩

/-! ### Hashes in compiled code -/

theorem fixCached_inj {x y : BitVec 32} (h : fixCached x = fixCached y) (hxy : x ^^^ y ≠ 1) : x = y := by
  simp only [fixCached] at h
  split at h <;> split at h
  · simp_all
  · rename_i h1 _
    subst h1; subst h
    exact absurd (by decide) hxy
  · rename_i _ h1
    subst h1; subst h
    exact absurd (by decide) hxy
  · exact h

/-- A TupleOf or ListOf whose first of two elements has hash -1 has another hash in compiled code than in the interpreter, whatever
the second element is.  So a Dict whose keys are such tuples, filled on one side, does not find them on the other. -/
theorem compiled_hash_of_minus_one_disagrees (H : TextHash) {d e : Data} (hd : hash H d = -1) (he : hash H e ≠ -1)
    (sd : cHash H d = some (hash H d)) (se : cHash H e = some (hash H e)) (l : Bool) :
    cHash H (.tupleOf l [d, e]) ≠ some (hash H (.tupleOf l [d, e])) := by
  simp only [cHash, hash, cHashItems, hashAll, sd, se, hd, List.isEmpty_cons, Bool.false_eq_true, if_false, Option.map_some, ne_eq,
    Option.some.injEq]
  intro h
  rw [show fixCached (hash H e) = hash H e from if_neg he] at h
  have hx : ((0 * 1000003#32 ^^^ fixCached (-1)) * 1000003#32 ^^^ hash H e) ^^^ hadd (hadd 0 (-1)) (hash H e) =
      ((0 * 1000003#32 ^^^ fixCached (-1)) * 1000003#32) ^^^ (hadd 0 (-1) * 1000003#32) := by
    rw [show hadd (hadd 0 (-1)) (hash H e) = (hadd 0 (-1) * 1000003#32) ^^^ hash H e from rfl, BitVec.xor_assoc, BitVec.xor_comm (hash H e),
      BitVec.xor_assoc, BitVec.xor_self, BitVec.xor_zero]
  have := fixCached_inj h (by rw [hx]; decide)
  rw [this, BitVec.xor_self] at hx
  exact absurd hx (by decide)

-- (-1.0, 2.0) as a TupleOf(float), (-1, 5) as a TupleOf(Int32)
example (H : TextHash) : cHash H (.tupleOf false [.flt false 0xBFF0000000000000, .flt false 0x4000000000000000]) ≠
    some (hash H (.tupleOf false [.flt false 0xBFF0000000000000, .flt false 0x4000000000000000])) :=
  compiled_hash_of_minus_one_disagrees H (by simp only [hash]; clear H; decide +kernel) (by simp only [hash]; clear H; decide +kernel) rfl rfl false
example (H : TextHash) : cHash H (.tupleOf false [.num .i32 (-1), .num .i32 5]) ≠ some (hash H (.tupleOf false [.num .i32 (-1), .num .i32 5])) :=
  compiled_hash_of_minus_one_disagrees H (by simp only [hash]; clear H; decide +kernel) (by simp only [hash]; clear H; decide +kernel) rfl
    (by simp [cHash, hash, cHashNum_eq]) false

end Verif.Compare
