import Verif.PyCmp.Model
import Verif.PyCmp.Spec
import Mathlib.Tactic.Ring
/-
Numbers, text and bytes objects: when comparing them agrees with Python.
-/
namespace Verif.PyCmp

open Verif.Conv (Reg Num Const Ty Data Env Has Fits cast promotesTo inInt64)

theorem wrap_i64 {n : Int} (h1 : -2 ^ 63 ≤ n) (h2 : n < 2 ^ 63) : Conv.wrap 64 true n = n := by
  simp only [Conv.wrap]
  norm_num
  omega

theorem cast_same {e : Env} {r : Reg} {n : Int} (h : Fits e r (.int n)) : cast e r (.int n) = .int n := by
  cases r <;> simp [Fits, Conv.InInt64] at h <;>
    simp [Conv.cast, Conv.wrap, Conv.Reg.bits, Conv.Reg.isUnsigned] <;> omega

theorem fits_bit {e : Env} {r : Reg} {n b : Int} (h : Fits e r (.int n)) (hb : b = 0 ∨ b = 1) : Fits e r (.int b) := by
  cases r <;> simp [Fits, Conv.InInt64] at h ⊢ <;> rcases hb with rfl | rfl <;> omega

theorem promote_bool (r : Reg) : promotesTo r .bool = r := by cases r <;> rfl

theorem promote_float (r : Reg) : promotesTo r .f64 = .f64 := by cases r <;> rfl

theorem promote_int {e : Env} {r : Reg} {n : Int} (h : Fits e r (.int n)) : promotesTo r .i64 = .i64 := by
  cases r <;> first | rfl | simp [Fits] at h

theorem promote_flt {e : Env} {r : Reg} {x : Nat} (h : Fits e r (.flt x)) : promotesTo r .i64 = .f64 := by
  cases r <;> first | rfl | simp [Fits] at h

theorem numOp_ints (m : Machine) (P : Floats) (op : Op) (a b : Int) : numOp m op (.int a) (.int b) = numbers P op (.int a) (.int b) := by
  cases op <;> simp only [numOp, numbers, Op.of]
  · simp
  · by_cases h1 : a < b <;> by_cases h2 : a = b <;> simp [h1, h2] <;> omega
  · by_cases h1 : b < a <;> by_cases h2 : a = b <;> simp [h1, h2] <;> omega

theorem numOp_flts {m : Machine} {P : Floats} (hs : Sound m P) (op : Op) (a b : Nat) :
    numOp m op (.flt a) (.flt b) = numbers P op (.flt a) (.flt b) := by
  cases op <;> simp [numOp, numbers, Op.of, hs.eq, hs.less]

theorem numOp_int_flt {m : Machine} {P : Floats} (hs : Sound m P) (op : Op) {a : Int} (b : Nat) (h1 : -2 ^ 53 ≤ a) (h2 : a ≤ 2 ^ 53) :
    numOp m op (.flt (m.env.double a)) (.flt b) = numbers P op (.int a) (.flt b) := by
  cases op <;> simp [numOp, numbers, Op.of, hs.intEq a b h1 h2, hs.intLess a b h1 h2, hs.lessInt a b h1 h2]

theorem numOp_flt_int {m : Machine} {P : Floats} (hs : Sound m P) (op : Op) {a : Int} (b : Nat) (h1 : -2 ^ 53 ≤ a) (h2 : a ≤ 2 ^ 53) :
    numOp m op (.flt b) (.flt (m.env.double a)) = numbers P op (.flt b) (.int a) := by
  cases op <;> simp [numOp, numbers, Op.of, hs.intEq a b h1 h2, hs.intLess a b h1 h2, hs.lessInt a b h1 h2, hs.symm b]

/-- The stored number is the number of its contents. -/
theorem number_plain {e : Env} {r : Reg} {n : Num} (h : Fits e r n) : number (plainNum r n) = some n := by
  cases n with
  | flt x => cases r <;> rfl
  | int n =>
    cases r <;> try rfl
    simp only [Fits] at h
    rcases h with rfl | rfl <;> rfl

theorem compareReg_int {m : Machine} {P : Floats} (hs : Sound m P) (op : Op) {r : Reg} {n : Num} {k : Int} {fl : Bool} (h : Fits m.env r n)
    (hn : Tame fl (plainNum r n)) (hk : Tame fl (.int k)) : compareReg m op r n (.int k) = some (numbers P op n (.int k)) := by
  simp only [Tame] at hk
  have hin : inInt64 k = true := by simp [inInt64]; omega
  simp only [compareReg, hin, if_true, Option.some.injEq, pyCompare]
  cases n with
  | int n =>
    have hn' : -2 ^ 63 ≤ n ∧ n < 2 ^ 63 := by
      cases r <;> simp [Fits, Conv.InInt64, plainNum, Tame] at h hn <;> omega
    have h64 : ∀ j : Int, -2 ^ 63 ≤ j ∧ j < 2 ^ 63 → cast m.env .i64 (.int j) = .int j := fun j hj =>
      cast_same (r := .i64) (by simpa [Fits, Conv.InInt64] using hj)
    rw [promote_int h, h64 n hn', h64 k ⟨hk.1, hk.2.1⟩, numOp_ints m P]
  | flt x =>
    have hfl : fl = true := by
      cases r <;> simp [Fits] at h <;> simpa [plainNum, Tame] using hn
    rw [promote_flt h]
    exact numOp_flt_int hs op x (hk.2.2 hfl).1 (hk.2.2 hfl).2

theorem compareReg_float {m : Machine} {P : Floats} (hs : Sound m P) (op : Op) {r : Reg} {n : Num} {y : Nat} {fl : Bool} (h : Fits m.env r n)
    (hn : Tame fl (plainNum r n)) (hk : Tame fl (.float y)) : compareReg m op r n (.float y) = some (numbers P op n (.flt y)) := by
  simp only [Tame] at hk
  simp only [compareReg, Option.some.injEq, pyCompare, promote_float]
  cases n with
  | int n =>
    have hn' : -2 ^ 53 ≤ n ∧ n ≤ 2 ^ 53 := by
      cases r <;> simp [Fits, Conv.InInt64, plainNum, Tame, hk] at h hn <;> omega
    exact numOp_int_flt hs op y hn'.1 hn'.2
  | flt x =>
    have : cast m.env .f64 (.flt x) = .flt x := rfl
    rw [this]
    exact numOp_flts hs op x y

theorem compareReg_bool {m : Machine} {P : Floats} (hs : Sound m P) (op : Op) {r : Reg} {n : Num} {b : Bool} (h : Fits m.env r n) :
    compareReg m op r n (.bool b) = some (numbers P op n (.int (if b then 1 else 0))) := by
  simp only [compareReg, Option.some.injEq, pyCompare, promote_bool]
  cases n with
  | int n =>
    rw [cast_same h, cast_same (fits_bit h (by cases b <;> simp)), numOp_ints m P]
  | flt x =>
    cases r <;> simp [Fits] at h
    · simp only [Conv.cast, h]
      have : m.env.single (if b then 1 else 0) = m.env.double (if b then 1 else 0) := by cases b <;> simp [hs.zero, hs.one]
      rw [this]
      exact numOp_flt_int hs op x (by cases b <;> simp) (by cases b <;> simp)
    · exact numOp_flt_int hs op x (by cases b <;> simp) (by cases b <;> simp)

/-- A number against a number, whatever the operator. -/
theorem compareReg_number {m : Machine} {P : Floats} (hs : Sound m P) (op : Op) {r : Reg} {n : Num} {o : Obj} {y : Num} {fl : Bool}
    (h : Fits m.env r n) (hn : Tame fl (plainNum r n)) (ho : Tame fl o) (hy : number o = some y) :
    compareReg m op r n o = some (numbers P op n y) := by
  cases o <;> simp [number] at hy <;> subst hy
  · exact compareReg_bool hs op h
  · exact compareReg_int hs op h hn ho
  · exact compareReg_float hs op h hn ho

/-- Python's comparison of something that is a number. -/
theorem python_number (P : Floats) (op : Op) {a b : Obj} {x : Num} (ha : number a = some x) :
    python P op a b = match number b with
      | some y => some (numbers P op x y)
      | none => unordered op := by
  cases a <;> simp [number] at ha <;> subst ha <;> simp only [python] <;> cases number b <;> rfl

theorem incomparable_unordered (op : Op) : incomparable op = unordered op := by cases op <;> rfl

/-- A number against any plain object. -/
theorem compareReg_agrees {m : Machine} {P : Floats} (hs : Sound m P) (op : Op) {r : Reg} {n : Num} {o : Obj} {fl : Bool} (h : Fits m.env r n)
    (hn : Tame fl (plainNum r n)) (ho : Tame fl o) : compareReg m op r n o = python P op (plainNum r n) o := by
  rw [python_number P op (number_plain h)]
  cases hy : number o with
  | some y => exact compareReg_number hs op h hn ho hy
  | none =>
    cases o <;> simp [number] at hy <;> simp only [compareReg, incomparable_unordered]

/-! ### Text -/

theorem littleEndian_length : ∀ (w n : Nat), (littleEndian w n).length = w
  | 0, _ => rfl
  | w + 1, n => by simp [littleEndian, littleEndian_length w]

theorem littleEndian_inj : ∀ (w a b : Nat), a < 256 ^ w → b < 256 ^ w → littleEndian w a = littleEndian w b → a = b
  | 0, a, b, ha, hb, _ => by simp at ha hb; omega
  | w + 1, a, b, ha, hb, h => by
    simp only [littleEndian, List.cons.injEq] at h
    have := littleEndian_inj w (a / 256) (b / 256) (by rw [Nat.pow_succ] at ha; omega) (by rw [Nat.pow_succ] at hb; omega) h.2
    omega

theorem littleEndian_byte : ∀ (w n k : Nat), k ∈ littleEndian w n → k < 256
  | 0, _, _, h => by simp [littleEndian] at h
  | w + 1, n, k, h => by
    simp only [littleEndian, List.mem_cons] at h
    rcases h with rfl | h
    · omega
    · exact littleEndian_byte w _ k h

theorem raw_byte {w : Nat} {s : List Nat} : ∀ k ∈ raw w s, k < 256 := by
  intro k hk
  simp only [raw, List.mem_flatMap] at hk
  obtain ⟨a, -, h⟩ := hk
  exact littleEndian_byte w a k h

theorem raw_length (w : Nat) : ∀ s : List Nat, (raw w s).length = w * s.length
  | [] => by simp [raw]
  | a :: s => by
    have := raw_length w s
    simp only [raw, List.flatMap_cons, List.length_append, littleEndian_length, List.length_cons] at this ⊢
    rw [this]; ring

theorem raw_inj (w : Nat) : ∀ s o : List Nat, s.length = o.length → (∀ p ∈ s, p < 256 ^ w) → (∀ p ∈ o, p < 256 ^ w) → raw w s = raw w o → s = o
  | [], [], _, _, _, _ => rfl
  | [], _ :: _, h, _, _, _ => by simp at h
  | _ :: _, [], h, _, _, _ => by simp at h
  | a :: s, b :: o, h, hs, ho, he => by
    simp only [raw, List.flatMap_cons] at he
    obtain ⟨h1, h2⟩ := List.append_inj he (by simp [littleEndian_length])
    rw [littleEndian_inj w a b (hs a (by simp)) (ho b (by simp)) h1,
      raw_inj w s o (by simpa using h) (fun p hp => hs p (by simp [hp])) (fun p hp => ho p (by simp [hp])) h2]

theorem width_holds {s : List Nat} (h : ∀ p ∈ s, p < 0x110000) : ∀ p ∈ s, p < 256 ^ width s := by
  intro p hp
  simp only [width]
  split
  · rename_i h1
    have := List.all_eq_true.mp h1 p hp
    simpa using this
  · split
    · rename_i h1
      have := List.all_eq_true.mp h1 p hp
      simpa using this
    · have := h p hp
      omega

theorem cmpPoints_zero : ∀ s o : List Nat, cmpPoints s o = 0 ↔ s = o
  | [], [] => by simp [cmpPoints]
  | [], _ :: _ => by simp [cmpPoints]
  | _ :: _, [] => by simp [cmpPoints]
  | a :: s, b :: o => by
    simp only [cmpPoints, List.cons.injEq, ← cmpPoints_zero s o]
    split
    · constructor
      · intro h; simp at h
      · intro h; omega
    · split
      · constructor
        · intro h; simp at h
        · intro h; omega
      · constructor
        · intro h; exact ⟨by omega, h⟩
        · intro h; exact h.2

theorem cmpPoints_small : ∀ s o : List Nat, -1 ≤ cmpPoints s o ∧ cmpPoints s o ≤ 1
  | [], [] => by simp [cmpPoints]
  | [], _ :: _ => by simp [cmpPoints]
  | _ :: _, [] => by simp [cmpPoints]
  | a :: s, b :: o => by
    simp only [cmpPoints]
    split
    · omega
    · split
      · omega
      · exact cmpPoints_small s o

theorem wrap8_zero (n : Int) : Conv.wrap 8 true n = 0 ↔ n % 256 = 0 := by
  simp only [Conv.wrap]
  norm_num
  omega

theorem holds_eq (n : Int) : holds .eq n = decide (n % 256 = 0) := by
  simp only [holds, wrap8_zero]

theorem holds_ne (n : Int) : holds .ne n = !decide (n % 256 = 0) := by
  simp only [holds, ne_eq, wrap8_zero, decide_not]

theorem compareStr_result {m : Machine} {P : Floats} (hs : Sound m P) {s o : List Nat} (h1 : ∀ p ∈ s, p < 0x110000) (h2 : ∀ p ∈ o, p < 0x110000) :
    ((if width o ≠ width s then (if s = [] then -1 else cmpPoints s o)
      else if o.length < s.length then -1
      else if o.length > s.length then 1
      else m.memcmp (raw (width s) o) (raw (width s) s) : Int) % 256 = 0) ↔ s = o := by
  by_cases hw : width o ≠ width s
  · rw [if_pos hw]
    have hne : s ≠ o := fun h => hw (by rw [h])
    split
    · simp [hne]
    · have := cmpPoints_small s o
      have h0 := mt (cmpPoints_zero s o).mp hne
      constructor
      · intro h; omega
      · intro h; exact absurd h hne
  · rw [if_neg hw]
    have hw' : width o = width s := by simpa using hw
    by_cases hl : o.length < s.length
    · rw [if_pos hl]
      constructor
      · intro h; simp at h
      · intro h; subst h; omega
    · rw [if_neg hl]
      by_cases hg : o.length > s.length
      · rw [if_pos hg]
        constructor
        · intro h; simp at h
        · intro h; subst h; omega
      · rw [if_neg hg]
        have hlen : s.length = o.length := by omega
        constructor
        · intro h
          by_contra hne
          refine hs.differ (raw (width s) o) (raw (width s) s) (by rw [raw_length, raw_length, hlen]) raw_byte raw_byte (fun he => hne ?_) h
          exact (raw_inj (width s) o s hlen.symm (by rw [← hw']; exact width_holds h2) (width_holds h1) he).symm
        · intro h; subst h
          rw [hs.same]; rfl

theorem compareStr_agrees {m : Machine} {P : Floats} (hs : Sound m P) {op : Op} (hop : op = .eq ∨ op = .ne) {s : List Nat} {o : Obj} {fl : Bool}
    (h1 : Tame fl (.str s)) (h2 : Tame fl o) : compareStr m op s o = python P op (.str s) o := by
  cases o <;> try (rcases hop with rfl | rfl <;> rfl)
  rename_i o
  simp only [Tame] at h1 h2
  rcases hop with rfl | rfl
  · simp only [compareStr, python, Op.of, holds_eq, compareStr_result hs h1 h2]
  · simp only [compareStr, python, Op.of, holds_ne, compareStr_result hs h1 h2]

/-! ### Bytes -/

theorem compareBytes_agrees {m : Machine} {P : Floats} (hs : Sound m P) {op : Op} (hop : op = .eq ∨ op = .ne) {s : List Nat} {o : Obj} {fl : Bool}
    (h1 : Tame fl (.bytes s)) (h2 : Tame fl o) : compareBytes m op s o = python P op (.bytes s) o := by
  cases o <;> try (rcases hop with rfl | rfl <;> rfl)
  rename_i o
  simp only [Tame] at h1 h2
  have key : ((if o.length < s.length then -1 else if o.length > s.length then 1 else m.memcmp o s : Int) % 256 = 0) ↔ s = o := by
    by_cases hl : o.length < s.length
    · rw [if_pos hl]
      constructor
      · intro h; simp at h
      · intro h; subst h; omega
    · rw [if_neg hl]
      by_cases hg : o.length > s.length
      · rw [if_pos hg]
        constructor
        · intro h; simp at h
        · intro h; subst h; omega
      · rw [if_neg hg]
        constructor
        · intro h
          by_contra hne
          exact hs.differ o s (by omega) h2 h1 (fun he => hne he.symm) h
        · intro h; subst h
          rw [hs.same]; rfl
  rcases hop with rfl | rfl
  · simp only [compareBytes, python, Op.of, holds_eq, key]
  · simp only [compareBytes, python, Op.of, holds_ne, key]

end Verif.PyCmp
