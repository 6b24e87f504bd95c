import Verif.PyCmp.Props
/-
Concrete cases that meet the hypotheses, and where comparing a typed value with a plain Python object answers something else than
Python.
-/
namespace Verif.PyCmp.Wrong

open Verif.Conv (Reg Num Const Ty Data Env Has Fits cast promotesTo inInt64)

/-! ### A machine to compute with -/

/-- `memcmp` as the C libraries have it: the difference of the first two bytes that differ. -/
def byteDifference : List Nat → List Nat → Int
  | a :: as, b :: bs => if a = b then byteDifference as bs else a - b
  | _, _ => 0

/-- Doubles that hold whole numbers only: the number `n` has the bits `n + 2 ** 60`. -/
def machine : Machine where
  env :=
    { double := fun n => (n + 2 ^ 60).toNat
      single := fun n => (n + 2 ^ 60).toNat
      narrow := id
      trunc := fun x => x - 2 ^ 60
      nonzero := fun x => x ≠ 2 ^ 60
      feq := fun x y => x = y
      truth := fun _ => none
      long := fun _ => none
      float := fun _ => none
      str := fun _ => none
      bytes := fun _ => none }
  less := fun x y => x < y
  memcmp := byteDifference

/-- Python on these doubles. -/
def exact : Floats where
  eq := fun x y => x = y
  less := fun x y => x < y
  intEq := fun n x => n + 2 ^ 60 = x
  intLess := fun n x => n + 2 ^ 60 < x
  lessInt := fun x n => (x : Int) < n + 2 ^ 60

theorem byteDifference_same : ∀ a, byteDifference a a = 0
  | [] => rfl
  | a :: as => by simp [byteDifference, byteDifference_same as]

theorem byteDifference_differ : ∀ a b : List Nat, a.length = b.length → (∀ n ∈ a, n < 256) → (∀ n ∈ b, n < 256) → a ≠ b →
    byteDifference a b % 256 ≠ 0
  | [], [], _, _, _, h => absurd rfl h
  | [], _ :: _, h, _, _, _ => by simp at h
  | _ :: _, [], h, _, _, _ => by simp at h
  | a :: as, b :: bs, hl, ha, hb, h => by
    simp only [byteDifference]
    split
    · rename_i he
      subst he
      exact byteDifference_differ as bs (by simpa using hl) (fun n hn => ha n (by simp [hn])) (fun n hn => hb n (by simp [hn]))
        (fun he => h (by rw [he]))
    · have := ha a (by simp)
      have := hb b (by simp)
      omega

theorem machine_sound : Sound machine exact where
  eq _ _ := rfl
  less _ _ := rfl
  intEq n x h1 h2 := by simp only [exact, machine, decide_eq_decide]; omega
  intLess n x h1 h2 := by simp only [exact, machine, decide_eq_decide]; omega
  lessInt n x h1 h2 := by simp only [exact, machine, decide_eq_decide]; omega
  symm x y := by simp [machine, eq_comm]
  zero := rfl
  one := rfl
  same := byteDifference_same
  differ := byteDifference_differ

theorem machine_line : Line machine (fun _ => True) where
  apart x y _ _ h := by
    simp only [machine, decide_eq_false_iff_not] at h ⊢
    by_cases h' : x < y <;> simp [h'] <;> omega
  equal x y _ _ h := by
    simp only [machine, decide_eq_true_eq] at h ⊢
    subst h; simp
  ints _ := trivial

/-- A `Tuple(OneOf(None, int), str, ListOf(float))`. -/
def mixed : Ty := .tuple [.oneOf [.none, .reg .i64], .str, .listOf (.reg .f64)]

/-- `(7, "héé", [1.0])` -/
def mixedData : Data := .seq [.tag 1 (.num (.int 7)), .str [104, 233, 233], .seq [.num (.flt (2 ^ 60 + 1))]]

theorem mixed_has : Has machine.env mixed mixedData := by
  refine .tuple rfl fun i t d ht hd => ?_
  match i with
  | 0 => simp at ht hd; subst ht; subst hd; exact .oneOf (t := .reg .i64) rfl (.reg (by simp [Fits, Conv.InInt64]))
  | 1 => simp at ht hd; subst ht; subst hd; exact .str
  | 2 => simp at ht hd; subst ht; subst hd; exact .listOf (by intro d hd; simp at hd; subst hd; exact .reg (by simp [Fits]))
  | n + 3 => simp at ht

/-- The hypotheses of `equality_partial` are met: `(7, "héé", [1.0]) == (7, "héé", [1])`, and not with another text. -/
example : onLeft machine mixed mixedData .eq (.tuple [.int 7, .str [104, 233, 233], .list [.int 1]]) = some true ∧
    onLeft machine mixed mixedData .eq (.tuple [.int 7, .str [104, 233, 0x1F600], .list [.int 1]]) = some false ∧
    Tame true (contents mixed mixedData) ∧ Tame true (.tuple [.int 7, .str [104, 233, 233], .list [.int 1]]) := by
  refine ⟨?_, ?_, ?_, ?_⟩
  · rw [equality_partial (fl := true) machine_sound mixed_has (Or.inl rfl) (by simp [mixed, mixedData, contents, contentsAll, contentsAt, Tame, Tames, plainNum])
      (by simp [Tame, Tames])]
    decide +kernel
  · rw [equality_partial (fl := true) machine_sound mixed_has (Or.inl rfl) (by simp [mixed, mixedData, contents, contentsAll, contentsAt, Tame, Tames, plainNum])
      (by simp [Tame, Tames])]
    decide +kernel
  · simp [mixed, mixedData, contents, contentsAll, contentsAt, Tame, Tames, plainNum]
  · simp [Tame, Tames]

/-- The hypotheses of `order_partial` are met: `TupleOf(TupleOf(Int32))(((1, 2), (3,))) < ((1, 2), (3, 0))`. -/
example : onLeft machine (.tupleOf (.tupleOf (.reg .i32))) (.seq [.seq [.num (.int 1), .num (.int 2)], .seq [.num (.int 3)]]) .lt
    (.tuple [.tuple [.int 1, .int 2], .tuple [.int 3, .int 0]]) = some true := by
  rw [order_partial (fl := false) (ok := fun _ => True) machine_sound machine_line]
  · decide +kernel
  · refine .tupleOf fun d hd => ?_
    simp at hd
    rcases hd with rfl | rfl <;> refine .tupleOf fun d hd => ?_ <;> simp at hd
    · rcases hd with rfl | rfl <;> exact .reg (by simp [Fits])
    · subst hd; exact .reg (by simp [Fits])
  · simp [contents, Tame, Tames, plainNum]
  · simp [Tame, Tames]
  · simp [contents, Numeric, Numerics, plainNum]
  · simp [Numeric, Numerics]

/-! ### Text and bytes are ordered backwards -/

theorem width_prefix_one {s u : List Nat} (h : ∀ p ∈ s ++ u, p < 256) : width s = 1 ∧ width (s ++ u) = 1 := by
  have h1 : (s.all (· < 2 ^ 8)) = true := by
    simp only [List.all_eq_true, decide_eq_true_eq]
    intro p hp; have := h p (by simp [hp]); omega
  have h2 : ((s ++ u).all (· < 2 ^ 8)) = true := by
    simp only [List.all_eq_true, decide_eq_true_eq]
    intro p hp; have := h p hp; omega
  exact ⟨by simp only [width, h1, if_true], by simp only [width, h2, if_true]⟩

theorem before_append : ∀ (s u : List Nat), u ≠ [] → before s (s ++ u) = true
  | [], [], h => absurd rfl h
  | [], _ :: _, _ => rfl
  | a :: s, u, h => by simp [before, before_append s u h]

/-- In Python a text is less than the same text with something appended; in a tuple, a list or a record it is greater when the other
side is a plain object: `TupleOf(str)(("a",)) > ("ab",)`.  It is so for every text of Latin letters, on every machine. -/
theorem text_backwards (m : Machine) (P : Floats) {s u : List Nat} (h : ∀ p ∈ s ++ u, p < 256) (hu : u ≠ []) (hm : ∀ a, m.memcmp a a = 0) :
    onLeft m (.tupleOf .str) (.seq [.str s]) .gt (.tuple [.str (s ++ u)]) = some true ∧
    onLeft m (.tupleOf .str) (.seq [.str s]) .lt (.tuple [.str (s ++ u)]) = some false ∧
    python P .lt (contents (.tupleOf .str) (.seq [.str s])) (.tuple [.str (s ++ u)]) = some true := by
  obtain ⟨w1, w2⟩ := width_prefix_one h
  have hlen : (s ++ u).length > s.length := by
    cases u with
    | nil => exact absurd rfl hu
    | cons _ _ => simp
  have hn : ¬ (s ++ u).length < s.length := by omega
  have key : ∀ op, compareStr m op s (.str (s ++ u)) = some (holds op 1) := by
    intro op
    simp only [compareStr, w1, w2, ne_eq, not_true_eq_false, if_false, hn, hlen, if_true]
  have e1 : holds .eq 1 = false := by decide +kernel
  have e2 : holds .lt 1 = false := by decide +kernel
  have hne : s ≠ s ++ u := fun he => by
    have := congrArg List.length he
    omega
  refine ⟨?_, ?_, ?_⟩
  · simp only [onLeft, compare, compareElts, element, key, e1, e2]
    decide +kernel
  · simp only [onLeft, compare, compareElts, element, key, e1, e2]
    decide +kernel
  · simp only [contents, python, List.map_cons, List.map_nil, pythons, Op.of]
    simp [hne, before_append s u hu]

/-- The same for bytes objects. -/
theorem bytes_backwards (m : Machine) (P : Floats) {s u : List Nat} (hu : u ≠ []) :
    onLeft m (.listOf .bytes) (.seq [.bytes s]) .gt (.list [.bytes (s ++ u)]) = some true ∧
    python P .gt (contents (.listOf .bytes) (.seq [.bytes s])) (.list [.bytes (s ++ u)]) = some false := by
  have hlen : (s ++ u).length > s.length := by
    cases u with
    | nil => exact absurd rfl hu
    | cons _ _ => simp
  have hn : ¬ (s ++ u).length < s.length := by omega
  have key : ∀ op, compareBytes m op s (.bytes (s ++ u)) = some (holds op 1) := by
    intro op
    simp only [compareBytes, hn, hlen, if_false, if_true]
  have e1 : holds .eq 1 = false := by decide +kernel
  have e2 : holds .lt 1 = false := by decide +kernel
  have hne : s ≠ s ++ u := fun he => by
    have := congrArg List.length he
    omega
  have hnb : before (s ++ u) s = false := by
    clear key hne hlen hn
    induction s with
    | nil => cases u <;> rfl
    | cons a s ih => simp [before, ih]
  refine ⟨?_, ?_⟩
  · simp only [onLeft, compare, compareElts, element, key, e1, e2]
    decide +kernel
  · simp only [contents, python, List.map_cons, List.map_nil, pythons, Op.of]
    simp [hne, hnb]

/-- Of the same length, single bytes are in the reverse order when they are less than 128 apart and in the right order when they are
further apart, so what is answered is not an order: b"\x00" < b"\xf0" < b"\x80" < b"\x10" and so on. -/
theorem bytes_twisted (a b : Nat) (ha : a < 256) (hb : b < 256) (h : a ≠ b) :
    onLeft machine (.tupleOf .bytes) (.seq [.bytes [a]]) .lt (.tuple [.bytes [b]]) =
      some (if a < b then decide (b - a > 127) else decide (a - b ≤ 128)) := by
  have key : ∀ op, compareBytes machine op [a] (.bytes [b]) = some (holds op ((b : Int) - a)) := by
    intro op
    simp only [compareBytes, List.length_singleton, lt_self_iff_false, gt_iff_lt, if_false, machine, byteDifference, if_neg (Ne.symm h)]
  have e1 : holds .eq ((b : Int) - a) = false := by
    rw [holds_eq, decide_eq_false_iff_not]; omega
  have e2 : holds .lt ((b : Int) - a) = if a < b then decide (b - a > 127) else decide (a - b ≤ 128) := by
    have wr : Conv.wrap 8 true ((b : Int) - a) = ((b : Int) - a + 128) % 256 - 128 := rfl
    simp only [holds, wr]
    split <;> simp only [decide_eq_decide] <;> omega
  simp only [onLeft, compare, compareElts, element, key, e1, e2]
  generalize (if a < b then decide (b - a > 127) else decide (a - b ≤ 128)) = c
  cases c <;> decide +kernel

/-- Three bytes in a circle: each is less than the next. -/
theorem bytes_circle :
    onLeft machine (.tupleOf .bytes) (.seq [.bytes [0xC0]]) .lt (.tuple [.bytes [0x80]]) = some true ∧
    onLeft machine (.tupleOf .bytes) (.seq [.bytes [0x80]]) .lt (.tuple [.bytes [0x20]]) = some true ∧
    onLeft machine (.tupleOf .bytes) (.seq [.bytes [0x20]]) .lt (.tuple [.bytes [0xC0]]) = some true := by
  refine ⟨?_, ?_, ?_⟩ <;> rw [bytes_twisted _ _ (by omega) (by omega) (by omega)] <;> decide

/-- The C standard only promises the sign of what `memcmp` returns.  With one that returns multiples of 256, all texts of a length and
width are equal. -/
theorem text_equal_memcmp (m : Machine) (hm : ∀ a b, m.memcmp a b % 256 = 0) {s o : List Nat} (hl : s.length = o.length) (hw : width s = width o) :
    onLeft m .str (.str s) .eq (.str o) = some true := by
  have h1 : ¬ o.length < s.length := by omega
  have h2 : ¬ o.length > s.length := by omega
  simp only [onLeft, compare, compareStr, holds_eq, hw, ne_eq, not_true_eq_false, if_false, h1, h2, hm, decide_true]

/-! ### Objects that Python does not order -/

/-- Python refuses to order text and a number; a text in a tuple is less than any number, and greater than none. -/
theorem text_before_numbers (m : Machine) (P : Floats) (s : List Nat) (n : Int) :
    onLeft m (.tupleOf .str) (.seq [.str s]) .lt (.tuple [.int n]) = some true ∧
    python P .lt (contents (.tupleOf .str) (.seq [.str s])) (.tuple [.int n]) = none := by
  refine ⟨?_, by simp only [contents, python, List.map_cons, List.map_nil, pythons, unordered]⟩
  have e1 : holds .eq (-1) = false := by decide +kernel
  have e2 : holds .lt (-1) = true := by decide +kernel
  simp [onLeft, compare, compareElts, element, compareStr, e1, e2]

/-- `None` is greater than everything else, where Python refuses. -/
theorem none_after_all (m : Machine) (P : Floats) (n : Int) :
    onLeft m (.oneOf [.none, .reg .i64]) (.tag 0 .unit) .gt (.int n) = some true ∧
    onLeft m (.tupleOf (.oneOf [.none, .reg .i64])) (.seq [.tag 0 .unit]) .gt (.tuple [.int n]) = some true ∧
    python P .gt (contents (.tupleOf (.oneOf [.none, .reg .i64])) (.seq [.tag 0 .unit])) (.tuple [.int n]) = none := by
  have e1 : holds .eq 1 = false := by decide +kernel
  have e2 : holds .lt 1 = false := by decide +kernel
  have e3 : holds .gt 1 = true := by decide +kernel
  refine ⟨?_, ?_, ?_⟩
  · simp [onLeft, compare, compareAt, compareNone, e3]
  · simp [onLeft, compare, compareAt, compareElts, element, compareNone, e1, e2, e3]
  simp only [contents, contentsAt, python, List.map_cons, List.map_nil, pythons, unordered]

/-! ### Numbers -/

/-- An integer equals every Python integer that differs from it by a multiple of 2 ** 64: `TupleOf(int)((5,)) == (2 ** 64 + 5,)`. -/
theorem large_integers (m : Machine) (P : Floats) {n k : Int} (hn : -2 ^ 63 ≤ n ∧ n < 2 ^ 63) (hk : k ≠ 0) :
    onLeft m (.tupleOf (.reg .i64)) (.seq [.num (.int n)]) .eq (.tuple [.int (n + k * 2 ^ 64)]) = some true ∧
    python P .eq (contents (.tupleOf (.reg .i64)) (.seq [.num (.int n)])) (.tuple [.int (n + k * 2 ^ 64)]) = some false := by
  constructor
  · have hin : inInt64 (n + k * 2 ^ 64) = false := by
      simp only [inInt64, Bool.and_eq_false_iff, decide_eq_false_iff_not]
      omega
    have hc : compareReg m .eq .i64 (.int n) (.int (n + k * 2 ^ 64)) = some true := by
      have hp : promotesTo .i64 .u64 = .i64 := rfl
      have w : ∀ j : Int, cast m.env .i64 (.int j) = .int ((j + 2 ^ 63) % 2 ^ 64 - 2 ^ 63) := fun j => rfl
      simp only [compareReg, hin, Bool.false_eq_true, if_false, pyCompare, hp, w, numOp, Option.some.injEq, decide_eq_true_eq]
      omega
    generalize n + k * 2 ^ 64 = j at hc
    have e0 : holds .eq 0 = true := by decide +kernel
    simp [onLeft, compare, compareElts, element, hc, e0]
  · have : n ≠ n + k * 2 ^ 64 := by omega
    simp only [contents, List.map_cons, List.map_nil, plainNum, python, pythons, number, numbers, Op.of, decide_eq_false this]

/-- So equality is not transitive: two plain integers that are not equal both equal the typed one. -/
theorem equality_not_transitive (m : Machine) (P : Floats) {n : Int} (hn : -2 ^ 63 ≤ n ∧ n < 2 ^ 63) :
    onLeft m (.tupleOf (.reg .i64)) (.seq [.num (.int n)]) .eq (.tuple [.int (n + 1 * 2 ^ 64)]) = some true ∧
    onLeft m (.tupleOf (.reg .i64)) (.seq [.num (.int n)]) .eq (.tuple [.int (n + 2 * 2 ^ 64)]) = some true ∧
    python P .eq (.tuple [.int (n + 1 * 2 ^ 64)]) (.tuple [.int (n + 2 * 2 ^ 64)]) = some false := by
  refine ⟨(large_integers m P hn (by omega)).1, (large_integers m P hn (by omega)).1, ?_⟩
  have : n + 1 * 2 ^ 64 ≠ n + 2 * 2 ^ 64 := by omega
  simp only [python, pythons, number, numbers, Op.of, decide_eq_false this]

/-- An unsigned number beyond the signed ones equals a negative number: `UInt64(2 ** 64 - 1) == -1`. -/
theorem unsigned_negative (m : Machine) (P : Floats) {n : Int} (hn : 2 ^ 63 ≤ n ∧ n < 2 ^ 64) :
    onLeft m (.reg .u64) (.num (.int n)) .eq (.int (n - 2 ^ 64)) = some true ∧
    python P .eq (contents (.reg .u64) (.num (.int n))) (.int (n - 2 ^ 64)) = some false := by
  constructor
  · have hin : inInt64 (n - 2 ^ 64) = true := by
      simp only [inInt64, Bool.and_eq_true, decide_eq_true_eq]
      omega
    have hp : promotesTo .u64 .i64 = .i64 := rfl
    have w : ∀ j : Int, cast m.env .i64 (.int j) = .int ((j + 2 ^ 63) % 2 ^ 64 - 2 ^ 63) := fun j => rfl
    simp only [onLeft, compare, compareReg, hin, if_true, pyCompare, hp, w, numOp, Option.some.injEq, decide_eq_true_eq]
    omega
  · have : n ≠ n - 2 ^ 64 := by omega
    simp only [contents, plainNum, python, number, numbers, Op.of, decide_eq_false this]

/-- An integer equals the double it is rounded to, where Python compares exactly: 2 ** 53 + 1 and 2.0 ** 53. -/
theorem rounded (m : Machine) (P : Floats) {n : Int} {x : Nat} (hr : m.env.feq (m.env.double n) x = true) (hp : P.intEq n x = false) :
    onLeft m (.tupleOf (.reg .i64)) (.seq [.num (.int n)]) .eq (.tuple [.float x]) = some true ∧
    python P .eq (contents (.tupleOf (.reg .i64)) (.seq [.num (.int n)])) (.tuple [.float x]) = some false := by
  constructor
  · have hc : compareReg m .eq .i64 (.int n) (.float x) = some true := by
      simp only [compareReg, pyCompare, promote_float, Conv.cast, numOp, hr]
    have e0 : holds .eq 0 = true := by decide +kernel
    simp [onLeft, compare, compareElts, element, hc, e0]
  · simp only [contents, List.map_cons, List.map_nil, plainNum, python, pythons, number, numbers, Op.of, hp]

/-- A NaN in a tuple is greater than every float, where Python answers that it is not: `TupleOf(float)((nan,)) > (1.0,)`. -/
theorem nan_greater (m : Machine) (P : Floats) {x y : Nat} (h1 : m.env.feq x y = false) (h2 : m.less x y = false)
    (p1 : P.eq x y = false) (p3 : P.less y x = false) :
    onLeft m (.tupleOf (.reg .f64)) (.seq [.num (.flt x)]) .gt (.tuple [.float y]) = some true ∧
    python P .gt (contents (.tupleOf (.reg .f64)) (.seq [.num (.flt x)])) (.tuple [.float y]) = some false := by
  constructor
  · have hc : compareReg m .eq .f64 (.flt x) (.float y) = some false := by
      simp only [compareReg, pyCompare, promote_float, Conv.cast, numOp, h1]
    have hd : compareReg m .lt .f64 (.flt x) (.float y) = some false := by
      simp only [compareReg, pyCompare, promote_float, Conv.cast, numOp, h2]
    simp only [onLeft, compare, compareElts, element, hc, hd]
    decide +kernel
  · simp only [contents, List.map_cons, List.map_nil, plainNum, python, pythons, number, numbers, Op.of, p1, p3]

/-- Instances of the hypotheses of `rounded` and `nan_greater`: a machine whose doubles are all the number 0, and one whose only float is
not equal to itself. -/
example : (let m : Machine := { machine with env := { machine.env with double := fun _ => 0 } }
    m.env.feq (m.env.double 5) 0 = true ∧ exact.intEq 5 0 = false) ∧
    (let m : Machine := { machine with env := { machine.env with feq := fun _ _ => false }, less := fun _ _ => false }
    m.env.feq 0 0 = false ∧ m.less 0 0 = false) := by decide +kernel

end Verif.PyCmp.Wrong
