import Verif.PyDict.Props
import Verif.PyCmp.Wrong
/-
Concrete cases that meet the hypotheses, and where comparing a Dict or a ConstDict with a plain dictionary answers something else than Python.
-/
namespace Verif.PyDict.Wrong

open Verif.PyCmp
open Verif.PyCmp.Wrong (machine exact machine_sound)
open Verif.Conv (Ty Data Reg Env Fits Level Py conv Has)

/-! ### The hypotheses can be met -/

/-- A `Dict(Int8, ListOf(str))`. -/
def small : List (Data × Data) := [(.num (.int 3), .seq [.str [65], .str []]), (.num (.int (-4)), .seq []), (.num (.int 1), .seq [.str [66]])]

/-- `{1: ["B"], -4: [], 3: ["A", ""]}`, in another order and with `True` for 1. -/
def other : List (Obj × Obj) := [(.bool true, .list [.str [66]]), (.int (-4), .list []), (.int 3, .list [.str [65], .str []])]

theorem small_table : Table machine.env (.reg .i8) (.listOf .str) small where
  keys p hp := by
    simp only [small, List.mem_cons, List.not_mem_nil, or_false] at hp
    rcases hp with rfl | rfl | rfl <;> exact .reg (by simp [Fits])
  values p hp := by
    simp only [small, List.mem_cons, List.not_mem_nil, or_false] at hp
    rcases hp with rfl | rfl | rfl <;> refine .listOf fun d hd => ?_ <;> simp at hd
    · rcases hd with rfl | rfl <;> exact .str
    · subst hd; exact .str
  nodup := by decide

theorem small_tame : ∀ p ∈ small, Tame false (contents (.listOf .str) p.2) := by
  intro p hp
  simp only [small, List.mem_cons, List.not_mem_nil, or_false] at hp
  rcases hp with rfl | rfl | rfl <;> simp [contents, Tame, Tames]

theorem other_plain : Plain exact false other where
  keys := by simp [DistinctKeys, other, python, number, numbers, Op.of]
  values q hq := by
    simp only [other, List.mem_cons, List.not_mem_nil, or_false] at hq
    rcases hq with rfl | rfl | rfl <;> simp [Tame, Tames]

theorem other_kept : ∀ q ∈ other, Kept machine.env (.reg .i8) q.1 := by
  intro q hq
  simp only [other, List.mem_cons, List.not_mem_nil, or_false] at hq
  rcases hq with rfl | rfl | rfl <;> simp [Kept, Fits]

theorem whole_i8 : KeyType (.reg .i8) := .inr (.inr ⟨.i8, rfl, by decide, by decide⟩)

example : dict machine (.reg .i8) (.listOf .str) .eq small (some other) = some true :=
  (dict_partial machine_sound .eq whole_i8 small_table small_tame (o := some other)
    (fun _ h => by cases h; exact ⟨other_plain, other_kept⟩)).trans (by rfl)

example : dict machine (.reg .i8) (.listOf .str) .ne small (some (other.drop 1)) = some true := by rfl
example : dict machine (.reg .i8) (.listOf .str) .lt small (some other) = none := by rfl
example : dict machine (.reg .i8) (.listOf .str) .eq small none = some false := by rfl
example : dictRight machine (.reg .i8) (.listOf .str) .eq small (some other) = some true :=
  (dictRight_partial machine_sound .eq whole_i8 small_table small_tame other_plain.values other_kept).trans (by rfl)

/-- A `ConstDict(str, int)` with `{"a": 1, "b": 2}`. -/
def words : List (Data × Data) := [(.str [97], .num (.int 1)), (.str [98], .num (.int 2))]

example : constDict machine .str (.reg .i64) .eq words (some [(.str [98], .int 2), (.str [97], .bool true)]) = some true := by rfl
example : constDict machine .str (.reg .i64) .eq words (some [(.str [98], .int 2), (.int 5, .bool true)]) = some false := by rfl
example : pythonDict exact .eq (contentsDict .str (.reg .i64) words) (some [(.str [98], .int 2), (.str [97], .bool true)]) = some true := by rfl

/-! ### Keys that the conversion changes -/

/-- `Dict(int, V)({n: v}) == {x: v}` for every float `x` that is cut to `n`, whether or not Python says that the two are equal: 1 and 1.5. -/
theorem float_keys (m : Machine) (P : Floats) {n : Int} {x : Nat} (V : Ty) {w : Data} {v : Obj} (hx : m.env.trunc x = n) (hn : -2 ^ 63 ≤ n ∧ n < 2 ^ 63)
    (hp : P.intEq n x = false) (hv : compare m V .eq w v = some true) :
    dict m (.reg .i64) V .eq [(.num (.int n), w)] (some [(.float x, v)]) = some true ∧
    pythonDict P .eq (contentsDict (.reg .i64) V [(.num (.int n), w)]) (some [(.float x, v)]) = some false := by
  have hc : conv m.env (.reg .i64) (toPy (.float x)) .implicit = some (.num (.int n)) := by
    have : Conv.isValidConversion .f64 .i64 .implicit = true := by decide
    simp [conv, Conv.copyOr, Conv.convTo, Conv.convReg, toPy, this, Conv.cast, hx, Conv.Reg.bits, Conv.Reg.isUnsigned, wrap_i64 hn.1 hn.2]
  constructor
  · simp [dict, compareDict, equals, loop, hc, lookup, hv]
  · simp [pythonDict, pythonEqual, contentsDict, contents, plainNum, python, number, numbers, Op.of, hp]

/-- Two keys that are cut to the same number are one key: `Dict(int, int)({1: 5, 2: 6}) == {1.25: 5, 1.5: 5}`, and nothing is said of the key 2. -/
theorem keys_fall_together (m : Machine) (P : Floats) {n k : Int} {x y : Nat} (V : Ty) {w w' : Data} {v : Obj} (hx : m.env.trunc x = n) (hy : m.env.trunc y = n)
    (hn : -2 ^ 63 ≤ n ∧ n < 2 ^ 63) (hp : P.intEq k x = false) (hq : P.intEq k y = false) (hk : k ≠ n) (hv : compare m V .eq w v = some true) :
    dict m (.reg .i64) V .eq [(.num (.int n), w), (.num (.int k), w')] (some [(.float x, v), (.float y, v)]) = some true ∧
    pythonDict P .eq (contentsDict (.reg .i64) V [(.num (.int n), w), (.num (.int k), w')]) (some [(.float x, v), (.float y, v)]) = some false := by
  have hc : ∀ z, m.env.trunc z = n → conv m.env (.reg .i64) (toPy (.float z)) .implicit = some (.num (.int n)) := by
    intro z hz
    have : Conv.isValidConversion .f64 .i64 .implicit = true := by decide
    simp [conv, Conv.copyOr, Conv.convTo, Conv.convReg, toPy, this, Conv.cast, hz, Conv.Reg.bits, Conv.Reg.isUnsigned, wrap_i64 hn.1 hn.2]
  constructor
  · simp [dict, compareDict, equals, loop, hc x hx, hc y hy, lookup, hv]
  · simp [pythonDict, pythonEqual, contentsDict, contents, plainNum, python, number, numbers, Op.of, hp, hq]

/-- Large numbers lose their upper bits: `Dict(Int8, V)({n: v}) == {n + 256: v}`, and the same for every multiple of 256. -/
theorem large_keys (m : Machine) (P : Floats) {n k : Int} (V : Ty) {w : Data} {v : Obj} (hn : -2 ^ 7 ≤ n ∧ n < 2 ^ 7) (hk : k ≠ 0)
    (hv : compare m V .eq w v = some true) :
    dict m (.reg .i8) V .eq [(.num (.int n), w)] (some [(.int (n + 256 * k), v)]) = some true ∧
    pythonDict P .eq (contentsDict (.reg .i8) V [(.num (.int n), w)]) (some [(.int (n + 256 * k), v)]) = some false := by
  have hc : conv m.env (.reg .i8) (toPy (.int (n + 256 * k))) .implicit = some (.num (.int n)) := by
    have : Conv.isValidConversion .i64 .i8 .implicit = true := by decide
    simp only [conv, Conv.copyOr, Conv.convTo, Conv.convReg, toPy, this, if_true, Conv.fromInt, Conv.Reg.isFloat, Bool.false_eq_true, if_false, Conv.longBits]
    split <;> simp [Conv.cast, Conv.wrap, Conv.Reg.bits, Conv.Reg.isUnsigned] <;> omega
  constructor
  · simp [dict, compareDict, equals, loop, hc, lookup, hv]
  · simp [pythonDict, pythonEqual, contentsDict, contents, plainNum, python, number, numbers, Op.of]
    omega

/-- `Dict(bool, V)({True: v})` equals `{n: v}` for every integer of 64 bits but 0. -/
theorem true_keys (m : Machine) (P : Floats) {n : Int} (V : Ty) {w : Data} {v : Obj} (hn : -2 ^ 63 ≤ n ∧ n < 2 ^ 63) (h0 : n ≠ 0) (h1 : n ≠ 1)
    (hv : compare m V .eq w v = some true) :
    dict m (.reg .bool) V .eq [(.num (.int 1), w)] (some [(.int n, v)]) = some true ∧
    pythonDict P .eq (contentsDict (.reg .bool) V [(.num (.int 1), w)]) (some [(.int n, v)]) = some false := by
  have hc : conv m.env (.reg .bool) (toPy (.int n)) .implicit = some (.num (.int 1)) := by
    have : Conv.isValidConversion .i64 .bool .implicit = true := by decide
    have hb : Conv.longBits n = n := by
      simp only [Conv.longBits]
      exact if_pos (by simp only [Conv.inInt64, Bool.and_eq_true, decide_eq_true_eq]; exact hn)
    simp [conv, Conv.copyOr, Conv.convTo, Conv.convReg, toPy, this, Conv.fromInt, Conv.Reg.isFloat, hb, Conv.cast, h0]
  constructor
  · simp [dict, compareDict, equals, loop, hc, lookup, hv]
  · simp [pythonDict, pythonEqual, contentsDict, contents, plainNum, python, number, numbers, Op.of]
    omega

/-- Doubles that hold halves: the number `n / 2` has the bits `n + 2 ** 61`. -/
def halves : Machine := { machine with env := { machine.env with trunc := fun x => ((x : Int) - 2 ^ 61).tdiv 2 } }

/-- Python on these doubles. -/
def halfFloats : Floats := { exact with intEq := fun n x => 2 * n + 2 ^ 61 = x }

/-- 1.5 -/
def oneAndAHalf : Nat := 2 ^ 61 + 3

example : halves.env.trunc oneAndAHalf = 1 ∧ halfFloats.intEq 1 oneAndAHalf = false ∧
    PyCmp.compare halves (.reg .i64) .eq (.num (.int 5)) (.int 5) = some true := ⟨by decide, by decide, by rfl⟩

/-- `Dict(int, int)({1: 5}) == {1.5: 5}`. -/
example : dict halves (.reg .i64) (.reg .i64) .eq [(.num (.int 1), .num (.int 5))] (some [(.float oneAndAHalf, .int 5)]) = some true :=
  (float_keys halves halfFloats (.reg .i64) (w := .num (.int 5)) (v := .int 5) (by decide) (by decide) (by decide) (by rfl)).1

/-- `Dict(int, int)({-1: 5, 2: 6}) == {-1.5: 5, -1.0: 5}`. -/
example : dict halves (.reg .i64) (.reg .i64) .eq [(.num (.int (-1)), .num (.int 5)), (.num (.int 2), .num (.int 6))]
    (some [(.float (2 ^ 61 - 3), .int 5), (.float (2 ^ 61 - 2), .int 5)]) = some true :=
  (keys_fall_together halves halfFloats (.reg .i64) (n := -1) (k := 2) (by decide) (by decide) (by decide) (by decide) (by decide) (by decide) (by rfl)).1

/-! ### Keys that a ConstDict refuses -/

/-- A ConstDict whose keys are integers of another width than 64 bits, or booleans, is never equal to a plain dictionary that has an `int` among
its keys, not even to the one with its own contents. -/
theorem constDict_refuses (m : Machine) (V : Ty) {r : Reg} (hw : Whole r) (hr : r ≠ .i64) (table : List (Data × Data)) (n : Int) (v : Obj) (rest : List (Obj × Obj)) :
    constDict m (.reg r) V .eq table (some ((.int n, v) :: rest)) = some false := by
  have hc : conv m.env (.reg r) (toPy (.int n)) .upcastContainers = none := by
    have h1 : Conv.isValidConversion .i64 r .upcastContainers = false := by
      cases r <;> first | rfl | exact absurd rfl hr | exact absurd rfl hw.1 | exact absurd rfl hw.2
    have h2 : ¬ (Level.new ≤ Level.upcastContainers) := by decide
    simp [conv, Conv.copyOr, Conv.convTo, Conv.convReg, toPy, h1, h2]
  simp only [constDict, compareDict, equals, loop, hc]
  split <;> rfl

/-- So `ConstDict(Int32, V)({n: v}) == {n: v}` is False. -/
theorem constDict_not_itself (m : Machine) (P : Floats) (V : Ty) {n : Int} {w : Data} {v : Obj} (hv : python P .eq (contents V w) v = some true) :
    constDict m (.reg .i32) V .eq [(.num (.int n), w)] (some [(.int n, v)]) = some false ∧
    pythonDict P .eq (contentsDict (.reg .i32) V [(.num (.int n), w)]) (some [(.int n, v)]) = some true := by
  refine ⟨constDict_refuses m V (r := .i32) ⟨by decide, by decide⟩ (by decide) _ _ _ _, ?_⟩
  simp [pythonDict, pythonEqual, contentsDict, contents, plainNum, python, number, numbers, Op.of, hv]

end Verif.PyDict.Wrong
