import Verif.Loops.RangeModel
import Verif.Arith.Lemmas
import Verif.Common
/-
C68: `range` in compiled code.
-/
namespace Verif.Loops.Range
open Verif.Arith

/-! ### Specification -/

/-- `x` is on the near side of the end of the range. -/
def Before (r : Rng) (x : Int) : Prop := if r.step > 0 then x < r.stop else r.stop < x

instance (r : Rng) (x : Int) : Decidable (Before r x) := by unfold Before; infer_instance

/-- These are the items of Python's `range(start, stop, step)`: item `i` is `start + step * i`, as
long as that is before the end. -/
def Items (r : Rng) (l : List Int) : Prop :=
  ∀ (i : Nat) (x : Int), l[i]? = some x ↔ x = r.start + r.step * i ∧ Before r x

/-- The fields are 64-bit integers. -/
def Rng.Fits (r : Rng) : Prop := I64 r.start ∧ I64 r.stop ∧ I64 r.step

/-! ### Iteration -/

theorem w64_add_w64 (a b : Int) : w64 (a + w64 b) = w64 (a + b) := by
  apply w64_congr
  obtain ⟨k, hk, -, -⟩ := w64_spec b
  rw [hk]
  exact ⟨k, by ring⟩

theorem w64_w64_add (a b : Int) : w64 (w64 a + b) = w64 (a + b) := by
  rw [Int.add_comm, w64_add_w64, Int.add_comm]

theorem visited_items {r : Rng} {n : Int} (hs : size r = .ok n) (hf : r.Fits)
    (hn : ∀ i : Nat, (i : Int) < n ↔ Before r (r.start + r.step * i)) :
    ∃ l, visited r = .ok l ∧ Items r l := by
  refine ⟨(List.range n.toNat).map (fun i : Nat => value r i), ?_, ?_⟩
  · unfold visited; rw [hs]; rfl
  · intro i x
    have hval : ∀ i : Nat, (i : Int) < n → value r i = r.start + r.step * i := by
      intro i hi
      have hb := (hn i).mp hi
      unfold value
      rw [w64_add_w64]
      obtain ⟨h1, h2, h3⟩ := hf
      unfold I64 at h1 h2 h3
      unfold Before at hb
      by_cases hp : r.step > 0
      · rw [if_pos hp] at hb
        have : 0 ≤ r.step * (i : Int) := Int.mul_nonneg (by omega) (by omega)
        exact w64_id (by omega) (by omega)
      · rw [if_neg hp] at hb
        have : r.step * (i : Int) ≤ 0 := by
          have := Int.mul_nonneg (show 0 ≤ -r.step by omega) (show 0 ≤ (i : Int) by omega)
          have e : -r.step * (i : Int) = -(r.step * i) := Int.neg_mul _ _
          omega
        exact w64_id (by omega) (by omega)
    rw [List.getElem?_map]
    by_cases hi : (i : Int) < n
    · rw [List.getElem?_range (by omega)]
      simp only [Option.map_some, Option.some.injEq]
      rw [hval i hi]
      constructor
      · intro h; rw [← h]; exact ⟨rfl, (hn i).mp hi⟩
      · intro h; exact h.1.symm
    · rw [List.getElem?_eq_none (by rw [List.length_range]; omega)]
      constructor
      · intro h; cases h
      · intro h
        have := h.2
        rw [h.1] at this
        exact absurd ((hn i).mpr this) hi

/-- `a < b * q + 1` style bounds from floor division. -/
theorem count_iff {d s : Int} (hs : 0 < s) (i : Int) :
    i < Int.fdiv (d - 1) s + 1 ↔ s * i < d := by
  rw [Int.fdiv_eq_ediv_of_nonneg _ (by omega)]
  rw [Int.lt_add_one_iff, Int.le_ediv_iff_mul_le hs, Int.mul_comm]
  omega

/-- C68 `range_loop_partial`.

`for x in range(start, stop, step)` visits exactly the items of Python's range, for all 64-bit
integers `start`, `stop` and `step` whose distances `stop - start` and `start - stop` are 64-bit
integers, except for `step = 0` and the least step.

Missing: ranges longer than that, `step = 0` and `step = -2^63`; see `range_loop_refuted`. -/
theorem range_loop_partial (r : Rng) (hf : r.Fits) (h0 : r.step ≠ 0) (hmin : r.step ≠ -2 ^ 63)
    (hd : I64 (r.stop - r.start)) (hd' : I64 (r.start - r.stop)) :
    ∃ l, visited r = .ok l ∧ Items r l := by
  obtain ⟨h1, h2, h3⟩ := hf
  have hf : r.Fits := ⟨h1, h2, h3⟩
  unfold I64 at h1 h2 h3 hd hd'
  by_cases hone : r.step = 1
  · refine visited_items (n := r.stop - r.start) ?_ hf ?_
    · unfold size
      rw [if_pos hone, w64_id hd.1 hd.2]
    · intro i
      unfold Before
      rw [hone]
      simp only [gt_iff_lt, Int.zero_lt_one, if_true]
      omega
  · by_cases hp : r.step > 0
    · have hb : I64 (r.stop - r.start - 1) := by unfold I64; omega
      have hb' := fdiv_bounds hb (show r.step ≠ 0 by omega) (by omega)
      refine visited_items (n := Int.fdiv (r.stop - r.start - 1) r.step + 1) ?_ hf ?_
      · unfold size
        rw [if_neg hone, if_pos hp, w64_id hd.1 hd.2, w64_id hb.1 hb.2,
          rtFloorDivI_eq hb (by omega) (by omega)]
        have hup : Int.fdiv (r.stop - r.start - 1) r.step < 4611686018427387904 * 2 - 1 := by
          rw [Int.fdiv_eq_ediv_of_nonneg _ (by omega)]
          apply Int.ediv_lt_of_lt_mul hp
          nlinarith
        change Except.ok (w64 _) = _
        rw [w64_id (by have := hb'.1; omega) (by omega)]
      · intro i
        rw [count_iff hp]
        unfold Before
        rw [if_pos hp]
        omega
    · have hp' : 0 < -r.step := by omega
      have hb : I64 (r.start - r.stop - 1) := by unfold I64; omega
      have hw : w64 (-r.step) = -r.step := w64_id (by omega) (by
        have : r.step ≠ -9223372036854775808 := hmin
        omega)
      have hb' := fdiv_bounds hb (show -r.step ≠ 0 by omega) (by omega)
      refine visited_items (n := Int.fdiv (r.start - r.stop - 1) (-r.step) + 1) ?_ hf ?_
      · unfold size
        rw [if_neg hone, if_neg hp, w64_id hd'.1 hd'.2, w64_id hb.1 hb.2, hw,
          rtFloorDivI_eq hb (by omega) (by omega)]
        have hup : Int.fdiv (r.start - r.stop - 1) (-r.step) < 9223372036854775807 := by
          rw [Int.fdiv_eq_ediv_of_nonneg _ (by omega)]
          apply Int.ediv_lt_of_lt_mul hp'
          nlinarith
        change Except.ok (w64 _) = _
        rw [w64_id (by have := hb'.1; omega) (by omega)]
      · intro i
        rw [count_iff hp']
        unfold Before
        rw [if_neg hp]
        have e : -r.step * (i : Int) = -(r.step * i) := Int.neg_mul _ _
        omega

/-- Its hypotheses hold of `range(10, 0, -3)`, for which the items are `10, 7, 4, 1`. -/
example : (∃ l, visited ⟨10, 0, -3⟩ = .ok l ∧ Items ⟨10, 0, -3⟩ l) ∧
    visited ⟨10, 0, -3⟩ = .ok [10, 7, 4, 1] :=
  ⟨range_loop_partial _ (by unfold Rng.Fits I64; decide) (by decide) (by decide)
    (by unfold I64; decide) (by unfold I64; decide), by decide +kernel⟩

/-- The items of a range are unique. -/
theorem Items.unique {r : Rng} {l l' : List Int} (h : Items r l) (h' : Items r l') : l = l' := by
  apply List.ext_getElem?
  intro i
  rcases hx : l[i]? with _ | x
  · rcases hy : l'[i]? with _ | y
    · rfl
    · have := (h i y).mpr ((h' i y).mp hy)
      rw [hx] at this; cases this
  · exact ((h' i x).mpr ((h i x).mp hx)).symm

/-- `range(-2^62, 2^62)` has 2^63 items, the first of which is `-2^62`; the compiled loop visits
nothing. -/
theorem long_range_empty :
    visited ⟨-2 ^ 62, 2 ^ 62, 1⟩ = .ok [] ∧ ¬ Items ⟨-2 ^ 62, 2 ^ 62, 1⟩ [] := by
  constructor
  · decide +kernel
  · intro h
    have := (h 0 (-2 ^ 62)).mpr ⟨by decide, by decide⟩
    cases this

/-- `range(5, 0, -2^63)` has one item; the compiled loop visits none. -/
theorem least_step_empty :
    visited ⟨5, 0, -2 ^ 63⟩ = .ok [] ∧ Items ⟨5, 0, -2 ^ 63⟩ [5] := by
  constructor
  · decide +kernel
  · intro i x
    rcases i with _ | i
    · simp only [List.getElem?_cons_zero, Option.some.injEq]
      constructor
      · rintro rfl; exact ⟨by simp, by decide⟩
      · rintro ⟨rfl, _⟩; simp
    · simp only [List.getElem?_cons_succ, List.getElem?_nil]
      constructor
      · intro h; cases h
      · rintro ⟨rfl, h⟩
        unfold Before at h
        simp only [gt_iff_lt] at h
        rw [if_neg (by decide)] at h
        push_cast at h
        omega

/-- `range(0, 5, 0)` raises `ValueError` in Python when it is called; the compiled loop raises
`ZeroDivisionError`, for every range with step zero, and only when the loop begins. -/
theorem zero_step (start stop : Int) : visited ⟨start, stop, 0⟩ = .error .zeroDivision := by
  unfold visited size
  simp only [show (0 : Int) ≠ 1 by decide, if_false, show ¬ (0 : Int) > 0 by decide]
  rfl

/-- C68 `range_loop_refuted`: the statement of `range_loop_partial` for all ranges of 64-bit
integers with a step is false. -/
theorem range_loop_refuted :
    ¬ ∀ r : Rng, r.Fits → r.step ≠ 0 → ∃ l, visited r = .ok l ∧ Items r l := by
  intro h
  obtain ⟨l, h1, h2⟩ := h ⟨-2 ^ 62, 2 ^ 62, 1⟩ (by unfold Rng.Fits I64; decide) (by decide)
  rw [long_range_empty.1] at h1
  cases h1
  exact long_range_empty.2 h2

/-! ### `iter(range(...))` -/

theorem cursor_eq (r : Rng) : ∀ n : Nat, cursor r n = w64 (r.start + r.step * ((n : Int) - 1))
  | 0 => by
    unfold cursor iterStart
    congr 1
    simp [Int.sub_eq_add_neg]
  | n + 1 => by
    rw [cursor, fastnext, cursor_eq r n, w64_w64_add]
    congr 1
    push_cast
    ring_nf

/-- What any call of `next` produces. -/
theorem next_eq (r : Rng) (n : Nat) :
    next r n = if Before r (w64 (r.start + r.step * n)) then some (w64 (r.start + r.step * n))
      else none := by
  have e : w64 (cursor r n + r.step) = w64 (r.start + r.step * n) := by
    rw [cursor_eq, w64_w64_add]
    congr 1
    ring
  unfold next fastnext Before
  rw [e]
  by_cases hp : r.step > 0
  · simp only [hp, if_true]
    by_cases h : w64 (r.start + r.step * n) < r.stop
    · simp only [h, decide_true, if_true]
    · simp only [h, decide_false, if_false]
  · simp only [hp, if_false]
    by_cases h : r.stop < w64 (r.start + r.step * n)
    · simp only [gt_iff_lt, h, decide_true, if_true]
    · simp only [gt_iff_lt, h, decide_false, if_false]

/-- C68 `range_iterator_partial`.

Call `n` of `next` on `iter(range(start, stop, step))` produces `start + step * n` if that is before
the end, and raises `StopIteration` otherwise, as long as `start + step * n` is a 64-bit integer.

Missing: later calls; see `exhausted_range_resumes`. -/
theorem range_iterator_partial (r : Rng) (n : Nat) (h : I64 (r.start + r.step * n)) :
    next r n = if Before r (r.start + r.step * n) then some (r.start + r.step * n) else none := by
  rw [next_eq, w64_id h.1 h.2]

example : I64 ((10 : Int) + -3 * (3 : Nat)) ∧ next ⟨10, 0, -3⟩ 3 = some 1 ∧
    next ⟨10, 0, -3⟩ 4 = none := by
  refine ⟨by unfold I64; omega, by decide +kernel, by decide +kernel⟩

/-- `range(2^63 - 3, 2^63 - 1, 5)` has one item; its iterator does not stop then. -/
theorem range_iterator_wraps :
    next ⟨2 ^ 63 - 3, 2 ^ 63 - 1, 5⟩ 0 = some (2 ^ 63 - 3) ∧
    next ⟨2 ^ 63 - 3, 2 ^ 63 - 1, 5⟩ 1 = some (-2 ^ 63 + 2) := by
  constructor <;> decide +kernel

/-- An iterator over `range(0, 3, 2^62)` that has raised `StopIteration` produces an item at the next
call. -/
theorem exhausted_range_resumes :
    next ⟨0, 3, 2 ^ 62⟩ 0 = some 0 ∧ next ⟨0, 3, 2 ^ 62⟩ 1 = none ∧
    next ⟨0, 3, 2 ^ 62⟩ 2 = some (-2 ^ 63) := by
  refine ⟨?_, ?_, ?_⟩ <;> decide +kernel

/-! ### `range(...)` as a value -/

/-- C68 `range_is_a_triple`: whatever the range, its length is 3, it is true, and its "items" are its
three parameters; `x in range(...)` asks whether `x` is one of them. -/
theorem range_is_a_triple (r : Rng) :
    len r = 3 ∧ truth r = true ∧
    getitem r 0 = some r.start ∧ getitem r 1 = some r.stop ∧ getitem r 2 = some r.step ∧
    (∀ x, contains r x = true ↔ x = r.start ∨ x = r.stop ∨ x = r.step) := by
  refine ⟨rfl, rfl, rfl, rfl, rfl, fun x => ?_⟩
  unfold contains
  simp only [Bool.or_eq_true, beq_iff_eq]
  constructor
  · rintro ((h | h) | h) <;> simp [h]
  · rintro (h | h | h) <;> simp [h]

/-- C68 `range_value_refuted`: `len`, truth, indexing, `in` and `==` are not those of Python: of
`range(0)`, which has no items; of `range(5)`, whose items are `0, ..., 4`; and of `range(0, 3, 2)` and
`range(0, 4, 2)`, whose items are the same. -/
theorem range_value_refuted :
    (Items ⟨0, 0, 1⟩ [] ∧ len ⟨0, 0, 1⟩ ≠ 0 ∧ truth ⟨0, 0, 1⟩ ≠ false) ∧
    (Items ⟨0, 5, 1⟩ [0, 1, 2, 3, 4] ∧ getitem ⟨0, 5, 1⟩ 1 = some 5 ∧ getitem ⟨0, 5, 1⟩ 4 = none ∧
      contains ⟨0, 5, 1⟩ 3 = false ∧ contains ⟨0, 5, 1⟩ 5 = true) ∧
    (visited ⟨0, 3, 2⟩ = visited ⟨0, 4, 2⟩ ∧ eq ⟨0, 3, 2⟩ ⟨0, 4, 2⟩ = false) := by
  have key : ∀ (r : Rng) (l : List Int), r.Fits → r.step ≠ 0 → r.step ≠ -2 ^ 63 →
      I64 (r.stop - r.start) → I64 (r.start - r.stop) → visited r = .ok l → Items r l := by
    intro r l h1 h2 h3 h4 h5 h6
    obtain ⟨l', e, hl⟩ := range_loop_partial r h1 h2 h3 h4 h5
    rw [h6] at e
    cases e
    exact hl
  refine ⟨⟨?_, by decide, by decide⟩, ⟨?_, by decide, by decide, by decide, by decide⟩,
    by decide +kernel, by decide⟩
  · exact key _ _ (by unfold Rng.Fits I64; decide) (by decide) (by decide) (by unfold I64; decide)
      (by unfold I64; decide) (by decide +kernel)
  · exact key _ _ (by unfold Rng.Fits I64; decide) (by decide) (by decide) (by unfold I64; decide)
      (by unfold I64; decide) (by decide +kernel)

end Verif.Loops.Range
