import Verif.Compare.Spec
/-
The order of values is a total order, and the interpreter's comparisons answer by it.
-/
namespace Verif.Compare
open Verif.Conv (Reg)

/-! ### Typing -/

/-- Two lists of values whose members at the same place belong to a common type. -/
def Pairs (E : Nat → List Ty) (as bs : List Data) : Prop :=
  ∀ (k : Nat) (a b : Data), as[k]? = some a → bs[k]? = some b → ∃ t, has E a t = true ∧ has E b t = true

theorem hasEach_iff (E : Nat → List Ty) (t : Ty) : ∀ ds, hasEach E ds t = true ↔ ∀ d ∈ ds, has E d t = true
  | [] => by simp [hasEach]
  | d :: ds => by simp [hasEach, hasEach_iff E t ds]

theorem hasAll_get (E : Nat → List Ty) : ∀ ds ts, hasAll E ds ts = true →
    ds.length = ts.length ∧ ∀ (k : Nat) (d : Data), ds[k]? = some d → ∃ t, ts[k]? = some t ∧ has E d t = true
  | [], [], _ => ⟨rfl, fun k d h => by simp at h⟩
  | d :: ds, t :: ts, h => by
    simp only [hasAll, Bool.and_eq_true] at h
    obtain ⟨h1, h2⟩ := hasAll_get E ds ts h.2
    refine ⟨by simp [h1], fun k e he => ?_⟩
    cases k with
    | zero =>
      simp only [List.getElem?_cons_zero, Option.some.injEq] at he
      exact ⟨t, by simp, he ▸ h.1⟩
    | succ k =>
      simp only [List.getElem?_cons_succ] at he ⊢
      exact h2 k e he
  | [], _ :: _, h => by simp [hasAll] at h
  | _ :: _, [], h => by simp [hasAll] at h

theorem pairs_each {E : Nat → List Ty} {t : Ty} {as bs : List Data} (ha : hasEach E as t = true) (hb : hasEach E bs t = true) :
    Pairs E as bs := fun _ _ _ h1 h2 =>
  ⟨t, (hasEach_iff E t as).1 ha _ (List.mem_of_getElem? h1), (hasEach_iff E t bs).1 hb _ (List.mem_of_getElem? h2)⟩

theorem pairs_all {E : Nat → List Ty} {ts : List Ty} {as bs : List Data} (ha : hasAll E as ts = true) (hb : hasAll E bs ts = true) :
    Pairs E as bs := fun k a b h1 h2 => by
  obtain ⟨t, ht, h⟩ := (hasAll_get E as ts ha).2 k a h1
  obtain ⟨t', ht', h'⟩ := (hasAll_get E bs ts hb).2 k b h2
  rw [ht] at ht'
  cases ht'
  exact ⟨t, h, h'⟩

theorem Pairs.head {E a b as bs} (h : Pairs E (a :: as) (b :: bs)) : ∃ t, has E a t = true ∧ has E b t = true :=
  h 0 a b rfl rfl

theorem Pairs.tail {E a b as bs} (h : Pairs E (a :: as) (b :: bs)) : Pairs E as bs :=
  fun k x y h1 h2 => h (k + 1) x y (by simpa using h1) (by simpa using h2)

theorem noNaNs_iff : ∀ ds, noNaNs ds = true ↔ ∀ d ∈ ds, noNaN d = true
  | [] => by simp [noNaNs]
  | d :: ds => by simp [noNaNs, noNaNs_iff ds]

/-- Two values of the same type have the same constructor, and what they hold is related in the same way. -/
inductive Like (E : Nat → List Ty) : Data → Data → Prop
  | none : Like E .none .none
  | num (r a b) : inRange r a = true → inRange r b = true → Like E (.num r a) (.num r b)
  | flt (s a b) : a < 2 ^ 64 → b < 2 ^ 64 → Like E (.flt s a) (.flt s b)
  | str (a b) : Like E (.str a) (.str b)
  | bytes (a b) : Like E (.bytes a) (.bytes b)
  | tupleOf (l as bs t) : hasEach E as t = true → hasEach E bs t = true → Like E (.tupleOf l as) (.tupleOf l bs)
  | tuple (as bs ts) : hasAll E as ts = true → hasAll E bs ts = true → Like E (.tuple as) (.tuple bs)
  | oneOf (i j a b) (ts : List Ty) (t u) : ts[i]? = some t → ts[j]? = some u → has E a t = true → has E b u = true → Like E (.oneOf i a) (.oneOf j b)
  | alt (i j a b) (ts : List Ty) (t u) : ts[i]? = some t → ts[j]? = some u → has E a t = true → has E b u = true →
      Like E (.alt i a) (.alt j b)

theorem like (E : Nat → List Ty) {a b : Data} {t : Ty} (ha : has E a t = true) (hb : has E b t = true) : Like E a b := by
  cases t <;> cases a <;> simp only [has] at ha <;> first | (cases ha; done) | skip <;>
    cases b <;> simp only [has] at hb <;> first | (cases hb; done) | skip
  · exact .none
  · simp only [Bool.and_eq_true, beq_iff_eq] at ha hb
    obtain ⟨h1, h2⟩ := ha
    obtain ⟨h3, h4⟩ := hb
    subst h1; subst h3
    exact .num _ _ _ h2 h4
  · simp only [Bool.and_eq_true, beq_iff_eq, decide_eq_true_eq] at ha hb
    obtain ⟨h1, h2⟩ := ha
    obtain ⟨h3, h4⟩ := hb
    subst h1; subst h3
    exact .flt _ _ _ h2 h4
  · exact .str _ _
  · exact .bytes _ _
  · simp only [Bool.and_eq_true, beq_iff_eq] at ha hb
    obtain ⟨h1, h2⟩ := ha
    obtain ⟨h3, h4⟩ := hb
    subst h1; subst h3
    exact .tupleOf _ _ _ _ h2 h4
  · exact .tuple _ _ _ ha hb
  · split at ha
    · split at hb
      · exact .oneOf _ _ _ _ _ _ _ ‹_› ‹_› ha hb
      · simp at hb
    · simp at ha
  · split at ha
    · split at hb
      · exact .alt _ _ _ _ _ _ _ ‹_› ‹_› ha hb
      · simp at hb
    · simp at ha

/-! ### Comparisons answer by the order -/

/-- The sign of an ordering. -/
def sgn : Ordering → Int
  | .lt => -1
  | .eq => 0
  | .gt => 1

theorem ofSign_sgn (o : Ordering) (op : Op) : ofSign (sgn o) op = op.holds o := by
  cases o <;> cases op <;> decide

theorem sgn_compare_int (a b : Int) : (if a < b then (-1 : Int) else if b < a then 1 else 0) = sgn (compare a b) := by
  rcases Int.lt_trichotomy a b with h | h | h
  · rw [if_pos h, Int.compare_eq_lt.2 h, sgn]
  · subst h
    simp [sgn]
  · rw [if_neg (by omega), if_pos h, Int.compare_eq_gt.2 h, sgn]

theorem textSign_eq : ∀ a b, textSign a b = sgn (textOrder a b)
  | [], [] => rfl
  | [], _ :: _ => rfl
  | _ :: _, [] => rfl
  | x :: xs, y :: ys => by
    rw [textSign, textOrder]
    rcases Nat.lt_trichotomy x y with h | h | h
    · rw [if_pos h, Nat.compare_eq_lt.2 h]; rfl
    · subst h
      simp [textSign_eq xs ys, Ordering.then]
    · rw [if_neg (by omega), if_pos h, Nat.compare_eq_gt.2 h]; rfl

theorem sgn_float {a b : Nat} (ha : isNaN a = false) (hb : isNaN b = false) :
    (if flt a b = true then (-1 : Int) else if flt b a = true then 1 else 0) = sgn (compare (fkey a) (fkey b)) := by
  simp only [flt, ha, hb, Bool.not_false, Bool.true_and, decide_eq_true_eq]
  exact sgn_compare_int _ _

theorem case_then {i j : Nat} {o : Ordering} {op : Op} {r : Bool} (h : i = j → r = op.holds o) :
    (if i < j then ofSign (-1) op else if j < i then ofSign 1 op else r) = op.holds ((compare i j).then o) := by
  rcases Nat.lt_trichotomy i j with h1 | h1 | h1
  · rw [if_pos h1, Nat.compare_eq_lt.2 h1]; exact ofSign_sgn .lt op
  · rw [if_neg (by omega), if_neg (by omega), h h1, h1]; simp [Ordering.then]
  · rw [if_neg (by omega), if_pos h1, Nat.compare_eq_gt.2 h1]; exact ofSign_sgn .gt op

/-- The elements of two lists are compared as the order says. -/
def Compared (as bs : List Data) : Prop :=
  ∀ (k : Nat) (a b : Data), as[k]? = some a → bs[k]? = some b → ∀ op, cmp a b op = op.holds (order a b)

theorem Compared.tail {a b as bs} (h : Compared (a :: as) (b :: bs)) : Compared as bs :=
  fun k x y h1 h2 => h (k + 1) x y (by simpa using h1) (by simpa using h2)

theorem anyNe_eq : ∀ as bs, Compared as bs → as.length = bs.length → anyNe as bs = (orderAll as bs != .eq)
  | [], [], _, _ => by simp [anyNe, orderAll]
  | [], _ :: _, _, h => by simp at h
  | _ :: _, [], _, h => by simp at h
  | a :: as, b :: bs, h, hl => by
    rw [anyNe, orderAll, h 0 a b rfl rfl .ne, anyNe_eq as bs h.tail (by simpa using hl)]
    cases order a b <;> simp [Op.holds, Ordering.then]

theorem firstNe_eq : ∀ as bs, Compared as bs →
    (firstNe as bs = 0 ∧ orderAll as bs = compare as.length bs.length) ∨
    (firstNe as bs = sgn (orderAll as bs) ∧ orderAll as bs ≠ .eq)
  | [], [], _ => .inl ⟨by simp [firstNe], by simp [orderAll]⟩
  | [], b :: bs, _ => .inl ⟨by simp [firstNe], by simp [orderAll]; exact (Nat.compare_eq_lt.2 (by omega)).symm⟩
  | a :: as, [], _ => .inl ⟨by simp [firstNe], by simp [orderAll]; exact (Nat.compare_eq_gt.2 (by omega)).symm⟩
  | a :: as, b :: bs, h => by
    rw [firstNe, orderAll, h 0 a b rfl rfl .ne, h 0 a b rfl rfl .lt]
    have hlen : compare (a :: as).length (b :: bs).length = compare as.length bs.length := by
      simp only [List.length_cons]
      rcases Nat.lt_trichotomy as.length bs.length with h | h | h
      · rw [Nat.compare_eq_lt.2 h, Nat.compare_eq_lt.2 (by omega)]
      · rw [h]; simp
      · rw [Nat.compare_eq_gt.2 h, Nat.compare_eq_gt.2 (by omega)]
    rw [hlen]
    cases ho : order a b with
    | lt => exact .inr ⟨by simp [Op.holds, Ordering.then, sgn], by simp [Ordering.then]⟩
    | gt => exact .inr ⟨by simp [Op.holds, Ordering.then, sgn], by simp [Ordering.then]⟩
    | eq => simpa [Op.holds, Ordering.then] using firstNe_eq as bs h.tail

theorem compared_tuple {as bs : List Data} (h : Compared as bs) (hl : as.length = bs.length) (op : Op) :
    cmp (.tuple as) (.tuple bs) op = op.holds (orderAll as bs) := by
  have h1 := anyNe_eq as bs h hl
  have h2 : firstNe as bs = sgn (orderAll as bs) := by
    rcases firstNe_eq as bs h with h2 | h2
    · rw [h2.1, h2.2, hl]; simp [sgn]
    · exact h2.1
  cases op <;> simp only [cmp, h1, h2, ofSign_sgn] <;> simp [Op.holds, bne]

theorem orderAll_ne_of_length : ∀ as bs, as.length ≠ bs.length → orderAll as bs ≠ .eq
  | [], [], h => absurd rfl h
  | [], _ :: _, _ => by simp [orderAll]
  | _ :: _, [], _ => by simp [orderAll]
  | a :: as, b :: bs, h => by
    rw [orderAll]
    have := orderAll_ne_of_length as bs (by simpa using h)
    cases order a b <;> simp [Ordering.then, this]

theorem compared_tupleOf {as bs : List Data} (h : Compared as bs) (l l' : Bool) (op : Op) :
    cmp (.tupleOf l as) (.tupleOf l' bs) op = op.holds (orderAll as bs) := by
  cases as with
  | nil => cases bs with
    | nil => cases op <;> simp [cmp, orderAll, Op.holds, ofSign]
    | cons b bs => cases op <;> simp [cmp, orderAll, Op.holds, ofSign]
  | cons a as => cases bs with
    | nil => cases op <;> simp [cmp, orderAll, Op.holds, ofSign]
    | cons b bs =>
      have heq : (((a :: as).length == (b :: bs).length) && !anyNe (a :: as) (b :: bs)) = (orderAll (a :: as) (b :: bs) == .eq) := by
        by_cases hl : (a :: as).length = (b :: bs).length
        · rw [anyNe_eq _ _ h hl]; simp [hl, bne]
        · have := orderAll_ne_of_length _ _ hl
          rw [beq_eq_false_iff_ne.2 hl, beq_eq_false_iff_ne.2 this]; rfl
      have hord : ∀ op, (if firstNe (a :: as) (b :: bs) != 0 then ofSign (firstNe (a :: as) (b :: bs)) op
          else if (a :: as).length < (b :: bs).length then ofSign (-1) op
          else if (b :: bs).length < (a :: as).length then ofSign 1 op else ofSign 0 op) = op.holds (orderAll (a :: as) (b :: bs)) := by
        intro op
        rcases firstNe_eq _ _ h with h2 | h2
        · rw [h2.1, h2.2]
          have := case_then (i := (a :: as).length) (j := (b :: bs).length) (o := .eq) (op := op) (r := ofSign 0 op)
            (fun _ => ofSign_sgn .eq op)
          simpa using this
        · have hne : sgn (orderAll (a :: as) (b :: bs)) ≠ 0 := by
            cases ho : orderAll (a :: as) (b :: bs) <;> simp_all [sgn]
          rw [h2.1, ofSign_sgn]
          simp [hne]
      cases op
      · simp only [cmp, List.isEmpty_cons, Bool.false_and, Bool.false_eq_true, if_false]
        exact heq
      · simp only [cmp, List.isEmpty_cons, Bool.false_and, Bool.false_eq_true, if_false]
        rw [heq]; rfl
      all_goals
        simp only [cmp, List.isEmpty_cons, Bool.false_and, Bool.false_eq_true, if_false]
        exact hord _

/-- Values of the same type without NaN are compared as the order says. -/
theorem cmp_order (E : Nat → List Ty) : ∀ a b t, has E a t = true → has E b t = true → noNaN a = true → noNaN b = true → ∀ op,
    cmp a b op = op.holds (order a b) := by
  intro a
  have lists : ∀ as bs : List Data, (∀ d ∈ as, ∀ b t, has E d t = true → has E b t = true → noNaN d = true → noNaN b = true → ∀ op,
      cmp d b op = op.holds (order d b)) → Pairs E as bs → noNaNs as = true → noNaNs bs = true → Compared as bs := by
    intro as bs ih hp ha hb k x y h1 h2 op
    obtain ⟨t, ht, ht'⟩ := hp k x y h1 h2
    exact ih x (List.mem_of_getElem? h1) y t ht ht' ((noNaNs_iff as).1 ha x (List.mem_of_getElem? h1))
      ((noNaNs_iff bs).1 hb y (List.mem_of_getElem? h2)) op
  induction a using Data.ind with
  | none =>
    intro b t ha hb _ _ op
    cases like E ha hb
    cases op <;> rfl
  | num r n =>
    intro b t ha hb _ _ op
    cases like E ha hb
    rw [cmp, sgn_compare_int, ofSign_sgn, order]
  | flt s x =>
    intro b t ha hb na nb op
    cases like E ha hb
    simp only [noNaN, Bool.not_eq_true'] at na nb
    rw [cmp, sgn_float na nb, ofSign_sgn, order]
  | str p =>
    intro b t ha hb _ _ op
    cases like E ha hb
    rw [cmp, textSign_eq, ofSign_sgn, order]
  | bytes p =>
    intro b t ha hb _ _ op
    cases like E ha hb
    rw [cmp, textSign_eq, ofSign_sgn, order]
  | tupleOf l ds ih =>
    intro b t ha hb na nb op
    cases like E ha hb with
    | tupleOf _ _ bs t h1 h2 =>
      simp only [noNaN] at na nb
      rw [compared_tupleOf (lists ds bs ih (pairs_each h1 h2) na nb), order]
  | tuple ds ih =>
    intro b t ha hb na nb op
    cases like E ha hb with
    | tuple _ bs ts h1 h2 =>
      simp only [noNaN] at na nb
      rw [compared_tuple (lists ds bs ih (pairs_all h1 h2) na nb)
        ((hasAll_get E _ _ h1).1.trans (hasAll_get E _ _ h2).1.symm), order]
  | oneOf i d ih =>
    intro b t ha hb na nb op
    cases like E ha hb with
    | oneOf _ j _ b ts t u h1 h2 h3 h4 =>
      simp only [noNaN] at na nb
      rw [cmp, order]
      refine case_then fun hij => ?_
      subst hij
      rw [h1] at h2
      cases h2
      exact ih b t h3 h4 na nb op
  | alt i d ih =>
    intro b t ha hb na nb op
    cases like E ha hb with
    | alt _ j _ b ts t u h1 h2 h3 h4 =>
      simp only [noNaN] at na nb
      rw [cmp, order]
      refine case_then fun hij => ?_
      subst hij
      rw [h1] at h2
      cases h2
      exact ih b t h3 h4 na nb op

end Verif.Compare
