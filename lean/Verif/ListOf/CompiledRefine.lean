import Verif.ListOf.Compiled
import Verif.ListOf.Refine
/-
The compiled calls do what the specification says, when element arguments are passed by value.
-/
namespace Verif.ListOf
open Spec

variable {α : Type}

theorem cReserve_ok {s : L α} {xs : List α} (h : Rep s xs) (n : Int) (hn : n < 2 ^ 31) :
    ∃ s', cReserve s n = .ok s' ∧ Rep s' xs ∧ n ≤ s'.reserved := by
  have hroom := h.room
  have hlim := h.limit
  unfold cReserve
  simp only [h.count]
  rw [h.cells, realloc_store xs _ _ h.room (by split <;> omega) (by split <;> omega)]
  exact ⟨_, rfl, ⟨rfl, by simp only; split <;> omega, by simp only; split <;> omega, rfl⟩, by simp only; split <;> omega⟩

theorem cAppend_ok (moves : Bool) {s : L α} {xs : List α} (h : Rep s xs) (v : α) (hx : xs.length < 2 ^ 30) :
    ∃ s', cAppend moves s (.val v) = .ok s' ∧ Rep s' (xs ++ [v]) := by
  unfold cAppend
  by_cases hr : s.reserved < s.count + 1
  · rw [if_pos hr, h.count]
    obtain ⟨s', e, k, hb⟩ := cReserve_ok h ((xs.length * 5 / 4 + 1 : Nat) : Int) (by omega)
    have hroom : xs.length < s'.reserved := by omega
    rw [e]
    simp only [cLoad]
    rw [k.count, k.cells, construct_store xs _ v hroom]
    exact ⟨_, rfl, ⟨by simp, by simp; omega, k.limit, rfl⟩⟩
  · rw [if_neg hr]
    have hroom : xs.length < s.reserved := by have := h.count; omega
    simp only [cLoad]
    rw [h.count, h.cells, construct_store xs _ v hroom]
    exact ⟨_, rfl, ⟨by simp, by simp; omega, h.limit, rfl⟩⟩

/-- An element of the list passed by reference: fine as long as the storage does not move. -/
theorem cAppend_ref_ok (moves : Bool) {s : L α} {xs : List α} (h : Rep s xs) (j : Nat) (hj : j < xs.length) (hroom : xs.length < s.reserved) :
    ∃ s', cAppend moves s (.ref j) = .ok s' ∧ Rep s' (xs ++ [xs[j]]) := by
  unfold cAppend
  rw [if_neg (by have := h.count; omega)]
  simp only [cLoad, Bool.false_eq_true, if_false]
  rw [rep_read h j hj]
  simp only
  rw [h.count, h.cells, construct_store xs _ _ hroom]
  exact ⟨_, rfl, ⟨by simp, by simp; omega, h.limit, rfl⟩⟩

theorem cAppend_ref_stale {s : L α} {xs : List α} (h : Rep s xs) (j : Nat) (hx : xs.length < 2 ^ 30)
    (hfull : s.reserved = xs.length) : cAppend true s (.ref j) = .error .useAfterFree := by
  unfold cAppend
  rw [if_pos (by have := h.count; omega), h.count]
  obtain ⟨s', e, _⟩ := cReserve_ok h ((xs.length * 5 / 4 + 1 : Nat) : Int) (by omega)
  rw [e]
  rfl

theorem cExtend_ok (moves : Bool) (vs : List α) : ∀ {s : L α} {xs : List α} (_ : Rep s xs) (_ : xs.length + vs.length < 2 ^ 30),
    ∃ s', cExtend moves vs s = .ok s' ∧ Rep s' (xs ++ vs) := by
  induction vs with
  | nil =>
    intro s xs h _
    exact ⟨s, rfl, by simpa using h⟩
  | cons v vs ih =>
    intro s xs h hl
    simp only [List.length_cons] at hl
    obtain ⟨s1, e1, h1⟩ := cAppend_ok moves h v (by omega)
    obtain ⟨s2, e2, h2⟩ := ih h1 (by simp; omega)
    exact ⟨s2, by simp only [cExtend, e1, e2], by simpa using h2⟩

theorem cExtendSelfLoop_ok (moves : Bool) (xs : List α) : ∀ (n i : Nat) {s : L α} (_ : Rep s (xs ++ xs.take i)) (_ : i + n = xs.length)
    (_ : xs.length + xs.length < 2 ^ 30), ∃ s', cExtendSelfLoop moves false n i s = .ok s' ∧ Rep s' (xs ++ xs) := by
  intro n
  induction n with
  | zero =>
    intro i s h hi hl
    refine ⟨s, rfl, ?_⟩
    rwa [List.take_of_length_le (by omega)] at h
  | succ n ih =>
    intro i s h hi hl
    have hlt : i < xs.length := by omega
    have hr := rep_read h i (by simp; omega)
    rw [List.getElem_append_left hlt] at hr
    obtain ⟨s1, e1, h1⟩ := cAppend_ok moves h xs[i] (by simp; omega)
    rw [List.append_assoc, List.take_append_getElem] at h1
    obtain ⟨s2, e2, h2⟩ := ih (i + 1) h1 (by omega) hl
    exact ⟨s2, by simp only [cExtendSelfLoop, hr, Bool.false_eq_true, if_false, e1, e2], h2⟩

theorem cExtendSelf_ok (moves : Bool) {s : L α} {xs : List α} (h : Rep s xs) (hl : xs.length + xs.length < 2 ^ 30) :
    ∃ s', cExtendSelf moves false s = .ok s' ∧ Rep s' (xs ++ xs) := by
  unfold cExtendSelf
  rw [h.count]
  exact cExtendSelfLoop_ok moves xs xs.length 0 (by simpa using h) (by omega) hl

theorem cPop_ok {s : L α} {xs : List α} (d : α) (h : Rep s xs) (i : Int) :
    ∃ s' r, cPop s i = .ok (s', r) ∧ Rep s' (step d xs (.pop i)).1 ∧ ResRel r (step d xs (.pop i)).2 := by
  unfold cPop
  simp only [h.count, step]
  rcases position_spec xs.length i with ⟨h1, h2⟩ | ⟨h1, h2, h3⟩
  · rw [if_pos (Or.comm.mp h1), h2]
    exact ⟨_, _, rfl, h, .error _⟩
  · rw [if_neg (fun hh => h1 (Or.comm.mp hh)), h2, rep_read h _ h3]
    simp only [List.getElem?_eq_getElem h3]
    obtain ⟨m, e1, e2⟩ := remove_store xs s.reserved _ h3 h.room
    have e3 : m = s.cells.set (if i < 0 then i + xs.length else i).toNat none := by
      rw [h.cells]
      simp only [destroy, store_lt xs s.reserved _ h3] at e1
      cases e1
      rfl
    rw [← e3, show xs.length - 1 - (if i < 0 then i + xs.length else i).toNat = xs.length - (if i < 0 then i + xs.length else i).toNat - 1 by omega, e2]
    have := List.length_eraseIdx_of_lt h3
    have := h.room
    exact ⟨_, _, rfl, ⟨by simp only; omega, by simp only; omega, h.limit, rfl⟩, .ok (.val _)⟩

theorem cResize_ok {s : L α} {xs : List α} (h : Rep s xs) (n : Int) (v : α) (hn : 0 ≤ n) (hl : n < 2 ^ 31) :
    ∃ s', cResize s n v = .ok s' ∧ Rep s' (xs.take n.toNat ++ List.replicate (n.toNat - xs.length) v) := by
  have hroom := h.room
  have hlim := h.limit
  unfold cResize
  rw [h.count]
  by_cases h1 : (xs.length : Int) = n
  · rw [if_pos h1]
    have : n.toNat - xs.length = 0 := by omega
    rw [this, List.take_of_length_le (by omega)]
    exact ⟨s, rfl, by simpa using h⟩
  · rw [if_neg h1]
    by_cases h2 : (xs.length : Int) < n
    · rw [if_pos h2]
      have hg : ∃ s', (if (s.reserved : Int) < n then cReserve s n else .ok s) = .ok s' ∧ Rep s' xs ∧ n ≤ s'.reserved := by
        split
        · exact cReserve_ok h n hl
        · exact ⟨s, rfl, h, by omega⟩
      obtain ⟨s', e, k, hb⟩ := hg
      rw [e]
      simp only [k.count]
      have := fillLoop_ok (fun _ _ => .ok (some v)) xs (List.replicate (n - xs.length).toNat v) s'.reserved (by simp; omega) (by simp)
      simp only [List.length_replicate] at this
      rw [k.cells, this, List.take_of_length_le (by omega)]
      have e2 : (n - xs.length).toNat = n.toNat - xs.length := by omega
      have := k.limit
      rw [e2]
      exact ⟨_, rfl, ⟨by simp; omega, by simp; omega, k.limit, rfl⟩⟩
    · rw [if_neg h2, if_neg (by omega), h.cells, destroyLoop_store xs _ n.toNat (by omega) h.room]
      have : n.toNat - xs.length = 0 := by omega
      rw [this]
      exact ⟨_, rfl, ⟨by simp; omega, by simp; omega, h.limit, by simp⟩⟩

theorem cClear_ok {s : L α} {xs : List α} (h : Rep s xs) : ∃ s', cClear s = .ok s' ∧ Rep s' [] := by
  have := destroyLoop_store xs s.reserved 0 (by omega) h.room
  simp only [Nat.sub_zero, List.take_zero] at this
  unfold cClear
  rw [h.count, h.cells, this]
  exact ⟨_, rfl, ⟨rfl, Nat.zero_le _, h.limit, rfl⟩⟩

theorem rep_empty : Rep (⟨0, 1, [none]⟩ : L α) [] := ⟨rfl, by simp, by simp, rfl⟩

theorem cCopy_ok {s : L α} {xs : List α} (h : Rep s xs) : ∃ l, cCopy s = .ok l ∧ Rep l xs := by
  have hroom := h.room
  have hlim := h.limit
  unfold cCopy
  rw [h.count]
  obtain ⟨out, e, k, hb⟩ := cReserve_ok (rep_empty (α := α)) (xs.length : Int) (by omega)
  rw [e]
  simp only
  have := fillLoop_ok (fun _ i => elt (read s.cells i)) [] xs out.reserved (by simp; omega) (fun j hj _ => elt_read h j hj)
  simp only [List.length_nil, List.nil_append] at this
  rw [k.cells, this]
  exact ⟨_, rfl, ⟨rfl, by simp only; omega, k.limit, rfl⟩⟩

theorem cGet_ok {s : L α} {xs : List α} (d : α) (h : Rep s xs) (i : Int) :
    ∃ r, cGet s i = .ok r ∧ ResRel r (step d xs (.get i)).2 ∧ (step d xs (.get i)).1 = xs := by
  unfold cGet
  simp only [h.count, step]
  rcases position_spec xs.length i with ⟨h1, h2⟩ | ⟨h1, h2, h3⟩
  · rw [if_neg (by omega), h2]
    exact ⟨_, rfl, .error _, rfl⟩
  · rw [if_pos (by omega), h2, rep_read h _ h3]
    simp only [List.getElem?_eq_getElem h3]
    exact ⟨_, rfl, .ok (.val _), trivial⟩

theorem cSet_ok {s : L α} {xs : List α} (d : α) (h : Rep s xs) (i : Int) (v : α) :
    ∃ s' r, cSet s i v = .ok (s', r) ∧ Rep s' (step d xs (.set i (some v))).1 ∧ ResRel r (step d xs (.set i (some v))).2 := by
  unfold cSet
  simp only [h.count, step]
  rcases position_spec xs.length i with ⟨h1, h2⟩ | ⟨h1, h2, h3⟩
  · rw [if_neg (by omega), h2]
    exact ⟨_, _, rfl, h, .error _⟩
  · rw [if_pos (by omega), h2, h.cells, assign_store xs _ _ v h3]
    exact ⟨_, _, rfl, ⟨by simp, by simpa using h.room, h.limit, rfl⟩, .ok .unit⟩

theorem preReserved_ok (n : Nat) (h : n < 2 ^ 31) : preReserved (n : Int) = .ok (⟨0, n, store ([] : List α) n⟩ : L α) := by
  unfold preReserved
  rw [if_neg (by omega), Int.toNat_natCast, malloc_store n h]

theorem cConcat_ok {s r : L α} {xs ys : List α} (h : Rep s xs) (h' : Rep r ys) (hl : xs.length + ys.length < 2 ^ 31) :
    ∃ l, cConcat s r = .ok (.ok (.new l)) ∧ Rep l (xs ++ ys) := by
  unfold cConcat
  rw [h.count, h'.count, preReserved_ok _ hl]
  simp only
  have e1 := fillLoop_ok (fun _ i => elt (read s.cells i)) [] xs (xs.length + ys.length) (by simp) (fun j hj _ => elt_read h j hj)
  simp only [List.length_nil, List.nil_append] at e1
  rw [e1]
  simp only
  rw [fillLoop_ok (fun _ i => elt (read r.cells i)) xs ys (xs.length + ys.length) (by simp) (fun j hj _ => elt_read h' j hj)]
  exact ⟨_, rfl, ⟨by simp, by simp, hl, rfl⟩⟩

/-! ### slicing -/

theorem fdiv_count (a b st : Int) (hst : 0 < st) : (max 0 ((b - a + (st - 1)).fdiv st)).toNat = (sliceLength a b st).toNat := by
  rw [Int.fdiv_eq_ediv_of_nonneg _ (by omega)]
  unfold sliceLength
  rw [if_neg (by omega)]
  by_cases h : a < b
  · rw [if_pos h]
    have e : b - a + (st - 1) = (b - a - 1) + st := by omega
    rw [e, Int.add_ediv_of_dvd_right (Int.dvd_refl st), Int.ediv_self (by omega)]
    have : 0 ≤ (b - a - 1) / st := Int.ediv_nonneg (by omega) (by omega)
    omega
  · rw [if_neg h]
    have : (b - a + (st - 1)) / st < 1 := Int.ediv_lt_of_lt_mul hst (by omega)
    omega

theorem up_lt (a b st : Int) (hst : 0 < st) (k : Nat) : a + k * st < b ↔ k < (sliceLength a b st).toNat := by
  constructor
  · intro h
    have h0 : (0 : Int) ≤ k * st := Int.mul_nonneg (by omega) (by omega)
    obtain ⟨k', hk, e⟩ := (up_iff a b st (a + k * st) hst).mpr ⟨by omega, h, by
      rw [show a + k * st - a = k * st by ring]
      exact Int.mul_emod_left _ _⟩
    have : (k' : Int) * st = k * st := by omega
    have := Int.eq_of_mul_eq_mul_right (by omega) this
    omega
  · intro h
    exact ((up_iff a b st _ hst).mp ⟨k, h, rfl⟩).2.1

theorem down_gt (a b st : Int) (hst : st < 0) (k : Nat) : a + k * st > b ↔ k < (sliceLength a b st).toNat := by
  have h := up_lt (-a) (-b) (-st) (by omega) k
  have e1 : sliceLength (-a) (-b) (-st) = sliceLength a b st := by
    unfold sliceLength
    rw [if_neg (by omega), if_pos hst]
    by_cases hb : b < a
    · rw [if_pos (by omega), if_pos hb]
      congr 2
      omega
    · rw [if_neg (by omega), if_neg hb]
  rw [e1] at h
  rw [← h, show -a + (k : Int) * -st = -(a + k * st) by ring]
  omega

theorem w64_small (x : Int) (h : -(2 ^ 63) ≤ x) (h' : x < 2 ^ 63) : w64 x = x := by
  unfold w64
  exact Int.bmod_eq_of_le (by omega) (by omega)

theorem cSliceLoop_ok {s : L α} {xs : List α} (hs : Rep s xs) (up : Bool) (a b st : Int) (d : α)
    (hcond : ∀ k : Nat, ((up && decide (a + k * st < b)) || (!up && decide (a + k * st > b))) = decide (k < (sliceLength a b st).toNat))
    (hin : ∀ k : Nat, k < (sliceLength a b st).toNat → 0 ≤ a + k * st ∧ a + k * st < xs.length)
    (hst : -(2 ^ 62) < st ∧ st < 2 ^ 62) (hx : xs.length < 2 ^ 30) :
    ∀ (n k fuel : Nat), k + n = (sliceLength a b st).toNat → n < fuel →
      cSliceLoop s.cells up b st fuel (a + k * st) k
          (store (((visited a b st).map (fun p => xs[p]?.getD d)).take k) (sliceLength a b st).toNat)
        = .ok (store ((visited a b st).map (fun p => xs[p]?.getD d)) (sliceLength a b st).toNat) := by
  have hvl : ((visited a b st).map (fun p => xs[p]?.getD d)).length = (sliceLength a b st).toNat := by simp [visited]
  intro n
  induction n with
  | zero =>
    intro k fuel hk hf
    obtain ⟨f, rfl⟩ : ∃ f, fuel = f + 1 := ⟨fuel - 1, by omega⟩
    simp only [cSliceLoop, hcond k]
    rw [if_neg (by simp; omega), List.take_of_length_le (by omega)]
  | succ n ih =>
    intro k fuel hk hf
    obtain ⟨f, rfl⟩ : ∃ f, fuel = f + 1 := ⟨fuel - 1, by omega⟩
    obtain ⟨h0, h1⟩ := hin k (by omega)
    simp only [cSliceLoop, hcond k]
    rw [if_pos (by simp; omega), if_neg (by omega), rep_read hs (a + k * st).toNat (by omega)]
    simp only
    have hlen : (((visited a b st).map (fun p => xs[p]?.getD d)).take k).length = k := by
      rw [List.length_take, hvl]
      omega
    have hc := construct_store (((visited a b st).map (fun p => xs[p]?.getD d)).take k) (sliceLength a b st).toNat
      (xs[(a + k * st).toNat]'(by omega)) (by omega)
    rw [hlen] at hc
    rw [hc]
    simp only
    have hg : ((visited a b st).map (fun p => xs[p]?.getD d))[k]'(by omega) = xs[(a + k * st).toNat]'(by omega) := by
      simp only [visited, List.getElem_map, List.getElem_range]
      rw [List.getElem?_eq_getElem (by omega)]
      rfl
    rw [← hg, List.take_append_getElem, w64_small _ (by omega) (by omega)]
    have := ih (k + 1) f (by omega) (by omega)
    rw [show a + ((k + 1 : Nat) : Int) * st = a + k * st + st by push_cast; ring] at this
    exact this

theorem cSliceCore_up {s : L α} {xs : List α} (hs : Rep s xs) (start stop st : Int) (hst : 0 < st) (hst2 : st < 2 ^ 62) (hx : xs.length < 2 ^ 30)
    (ha : -(2 ^ 61) < start ∧ start < 2 ^ 61) (hb : -(2 ^ 61) < stop ∧ stop < 2 ^ 61) :
    ∃ l, cSliceCore s start stop st = .ok l ∧
      Rep l ((slicePositions xs.length (some start) (some stop) st).filterMap (xs[·]?)) := by
  unfold cSliceCore
  simp only [hs.count, gt_iff_lt, hst, if_true]
  have hi : max 0 (if start < 0 then start + (xs.length : Int) else start) = sliceStart xs.length (some start) st := by
    unfold sliceStart
    simp only [gt_iff_lt, hst, if_true]
    omega
  rw [hi]
  have hi0 : 0 ≤ sliceStart xs.length (some start) st := by rw [← hi]; omega
  have hi1 : sliceStart xs.length (some start) st < 2 ^ 62 := by rw [← hi]; split <;> omega
  have hj : (if stop < 0 then stop + (xs.length : Int) else stop) = sliceStop xs.length (some stop) st := rfl
  rw [hj]
  have hj1 : -(2 ^ 62) < sliceStop xs.length (some stop) st := by rw [← hj]; split <;> omega
  have hpos : visited (sliceStart xs.length (some start) st) (min (xs.length : Int) (sliceStop xs.length (some stop) st)) st
      = slicePositions xs.length (some start) (some stop) st := by
    rw [visited_up xs.length _ _ st hst hi0 (by omega)]
    unfold slicePositions
    simp only [gt_iff_lt, hst, if_true]
    apply List.filter_congr
    intro x hxm
    have : x < xs.length := by simpa using hxm
    rw [decide_eq_decide]
    constructor <;> (rintro ⟨p, q, r⟩; exact ⟨p, by omega, r⟩)
  generalize sliceStart xs.length (some start) st = A at *
  have hBn : min (xs.length : Int) (sliceStop xs.length (some stop) st) ≤ xs.length := by omega
  have hB0 : -(2 ^ 62) < min (xs.length : Int) (sliceStop xs.length (some stop) st) := by omega
  generalize min (xs.length : Int) (sliceStop xs.length (some stop) st) = B at *
  have hcount := fdiv_count A B st hst
  have hvl : (visited A B st).length = (sliceLength A B st).toNat := by simp [visited]
  have hle : (sliceLength A B st).toNat ≤ xs.length := by
    rw [← hvl, hpos]
    exact positions_length _ _ _ _
  rw [w64_small _ (by omega) (by omega)]
  generalize hc : max 0 ((B - A + (st - 1)).fdiv st) = c at *
  have hc0 : c = ((sliceLength A B st).toNat : Int) := by omega
  rw [hc0, preReserved_ok _ (by omega)]
  simp only
  rw [← hpos]
  have hlt : ∀ x ∈ visited A B st, x < xs.length := by
    rw [hpos]
    exact positions_lt _ _ _ _
  cases xs with
  | nil =>
    have hz : (sliceLength A B st).toNat = 0 := by simpa using hle
    have hv : visited A B st = [] := List.eq_nil_of_length_eq_zero (by omega)
    rw [hz, hv]
    have : ¬ A < B := by
      have := (up_lt A B st hst 0).not.mpr (by omega)
      simpa using this
    simp [cSliceLoop, this]
    exact ⟨rfl, by simp, by simp, rfl⟩
  | cons d xs =>
    rw [filterMap_get (d :: xs) d (visited A B st) hlt]
    have := cSliceLoop_ok hs true A B st d (by intro k; simp [up_lt A B st hst k]) (by
        intro k hk
        have h1 := (up_iff A B st (A + k * st) hst).mp ⟨k, hk, rfl⟩
        exact ⟨by omega, by omega⟩) (by omega) hx (sliceLength A B st).toNat 0 ((d :: xs).length + 1) (by omega) (by omega)
    simp only [Nat.cast_zero, Int.zero_mul, Int.add_zero, List.take_zero] at this
    rw [this]
    refine ⟨_, rfl, ?_⟩
    exact ⟨by simp only [Int.toNat_natCast, List.length_map, hvl], by simp only [List.length_map, hvl]; omega, by simp only; omega, rfl⟩

theorem fdiv_count_down (a b st : Int) (hst : st < 0) : (max 0 ((a - b + (-st - 1)).fdiv (-st))).toNat = (sliceLength a b st).toNat := by
  have := fdiv_count (-a) (-b) (-st) (by omega)
  rw [show -b - -a + (-st - 1) = a - b + (-st - 1) by omega] at this
  rw [this]
  congr 1
  unfold sliceLength
  rw [if_neg (by omega), if_pos hst]
  by_cases hb : b < a
  · rw [if_pos (by omega), if_pos hb]
    congr 2
    omega
  · rw [if_neg (by omega), if_neg hb]

theorem cSliceCore_down {s : L α} {xs : List α} (hs : Rep s xs) (start stop st : Int) (hst : st < 0) (hst2 : -(2 ^ 62) < st) (hx : xs.length < 2 ^ 30)
    (ha : -(2 ^ 61) < start ∧ start < 2 ^ 61) (hb : -(2 ^ 61) < stop ∧ stop < 2 ^ 61) :
    ∃ l, cSliceCore s start stop st = .ok l ∧
      Rep l ((slicePositions xs.length (some start) (some stop) st).filterMap (xs[·]?)) := by
  unfold cSliceCore
  have hns : ¬ st > 0 := by omega
  simp only [hs.count, hns, if_false]
  have hi : min ((xs.length : Int) - 1) (if start < 0 then start + (xs.length : Int) else start) = sliceStart xs.length (some start) st := by
    unfold sliceStart
    simp only [hns, if_false]
    omega
  rw [hi]
  have hi0 : sliceStart xs.length (some start) st < xs.length := by rw [← hi]; omega
  have hi1 : -(2 ^ 61) < sliceStart xs.length (some start) st := by rw [← hi]; split <;> omega
  have hj : (if stop < 0 then stop + (xs.length : Int) else stop) = sliceStop xs.length (some stop) st := rfl
  rw [hj]
  have hj1 : sliceStop xs.length (some stop) st < 2 ^ 61 := by rw [← hj]; split <;> omega
  have hpos : visited (sliceStart xs.length (some start) st) (max (-1) (sliceStop xs.length (some stop) st)) st
      = slicePositions xs.length (some start) (some stop) st := by
    rw [visited_down xs.length _ _ st hst hi0 (by omega)]
    unfold slicePositions
    simp only [hns, if_false]
    apply List.filter_congr
    intro x hxm
    have : x < xs.length := by simpa using hxm
    rw [decide_eq_decide]
    constructor <;> (rintro ⟨p, q, r⟩; exact ⟨p, by omega, r⟩)
  generalize sliceStart xs.length (some start) st = A at *
  have hBn : -1 ≤ max (-1) (sliceStop xs.length (some stop) st) := by omega
  have hB0 : max (-1) (sliceStop xs.length (some stop) st) < 2 ^ 61 := by omega
  generalize max (-1) (sliceStop xs.length (some stop) st) = B at *
  have hcount := fdiv_count_down A B st hst
  have hvl : (visited A B st).length = (sliceLength A B st).toNat := by simp [visited]
  have hle : (sliceLength A B st).toNat ≤ xs.length := by
    rw [← hvl, hpos]
    exact positions_length _ _ _ _
  rw [w64_small _ (by omega) (by omega)]
  generalize hc : max 0 ((A - B + (-st - 1)).fdiv (-st)) = c at *
  have hc0 : c = ((sliceLength A B st).toNat : Int) := by omega
  rw [hc0, preReserved_ok _ (by omega)]
  simp only
  rw [← hpos]
  have hlt : ∀ x ∈ visited A B st, x < xs.length := by
    rw [hpos]
    exact positions_lt _ _ _ _
  cases xs with
  | nil =>
    have hz : (sliceLength A B st).toNat = 0 := by simpa using hle
    have hv : visited A B st = [] := List.eq_nil_of_length_eq_zero (by omega)
    rw [hz, hv]
    have : ¬ A > B := by
      have := (down_gt A B st hst 0).not.mpr (by omega)
      simpa using this
    simp [cSliceLoop, this]
    exact ⟨rfl, by simp, by simp, rfl⟩
  | cons d xs =>
    rw [filterMap_get (d :: xs) d (visited A B st) hlt]
    have := cSliceLoop_ok hs false A B st d (by intro k; simp only [Bool.false_and, Bool.not_false, Bool.true_and, Bool.false_or, down_gt A B st hst k]) (by
        intro k hk
        have h1 := (down_iff A B st (A + k * st) hst).mp ⟨k, hk, rfl⟩
        exact ⟨by omega, by omega⟩) (by omega) hx (sliceLength A B st).toNat 0 ((d :: xs).length + 1) (by omega) (by omega)
    simp only [Nat.cast_zero, Int.zero_mul, Int.add_zero, List.take_zero] at this
    rw [this]
    refine ⟨_, rfl, ?_⟩
    exact ⟨by simp only [Int.toNat_natCast, List.length_map, hvl], by simp only [List.length_map, hvl]; omega, by simp only; omega, rfl⟩

/-- A slice argument that keeps the 64-bit arithmetic from overflowing. -/
def Modest (x : Option Int) : Prop := ∀ i, x = some i → -(2 ^ 61) < i ∧ i < 2 ^ 61

theorem positions_default_start (n : Nat) (stop : Option Int) (step : Int) :
    slicePositions n none stop step = slicePositions n (some (if step > 0 then 0 else (n : Int) - 1)) stop step ∨ n = 0 := by
  by_cases h : step > 0
  · left
    simp [slicePositions, sliceStart, h]
  · by_cases hn : n = 0
    · right
      exact hn
    · left
      have e : sliceStart n none step = sliceStart n (some ((n : Int) - 1)) step := by
        unfold sliceStart
        simp only [h, if_false]
        split <;> omega
      unfold slicePositions
      simp only [h, if_false, e]

theorem positions_zero (start stop : Option Int) (step : Int) : slicePositions 0 start stop step = [] := by
  simp [slicePositions]

theorem positions_default_stop (n : Nat) (start : Option Int) (step : Int) :
    slicePositions n start none step = slicePositions n start (some (if step > 0 then (n : Int) else -1 - n)) step := by
  have e : sliceStop n none step = sliceStop n (some (if step > 0 then (n : Int) else -1 - n)) step := by
    unfold sliceStop
    simp only
    split <;> split <;> omega
  unfold slicePositions
  simp only [e]

theorem cSlice_ok {s : L α} {xs : List α} (hs : Rep s xs) (a b c : Option Int) (ha : Modest a) (hb : Modest b) (hc : Modest c)
    (hx : xs.length < 2 ^ 30) :
    (∃ e, slice xs a b c = .error e ∧ cSlice s a b c = .ok (.error e)) ∨
    (∃ ys l, slice xs a b c = .ok ys ∧ cSlice s a b c = .ok (.ok (.new l)) ∧ Rep l ys) := by
  have hcb : -(2 ^ 61) < c.getD 1 ∧ c.getD 1 < 2 ^ 61 := by
    cases c with
    | none => simp
    | some x => exact hc x rfl
  unfold slice cSlice
  simp only [hs.count]
  by_cases h0 : c.getD 1 = 0
  · left
    rw [if_pos h0, if_pos h0]
    exact ⟨_, rfl, rfl⟩
  · right
    rw [if_neg h0, if_neg h0]
    generalize c.getD 1 = st at *
    have key : ∀ start stop : Int, (-(2 ^ 61) < start ∧ start < 2 ^ 61) → (-(2 ^ 61) < stop ∧ stop < 2 ^ 61) → ∃ l, cSliceCore s start stop st = .ok l ∧
        Rep l ((slicePositions xs.length (some start) (some stop) st).filterMap (xs[·]?)) := by
      intro start stop h1 h2
      rcases Int.lt_or_lt_of_ne h0 with h | h
      · exact cSliceCore_down hs start stop st h (by omega) hx h1 h2
      · exact cSliceCore_up hs start stop st h (by omega) hx h1 h2
    have hA : ∃ A : Int, cStart xs.length a st = A ∧
        (-(2 ^ 61) < A ∧ A < 2 ^ 61) ∧ ∀ stop, slicePositions xs.length a stop st = slicePositions xs.length (some A) stop st := by
      cases a with
      | none =>
        refine ⟨_, rfl, by simp only [cStart]; split <;> omega, ?_⟩
        intro stop
        rcases positions_default_start xs.length stop st with h | h
        · exact h
        · rw [h, positions_zero, positions_zero]
      | some x => exact ⟨x, rfl, ha x rfl, fun _ => rfl⟩
    have hB : ∃ B : Int, cStop xs.length b st = B ∧
        (-(2 ^ 61) < B ∧ B < 2 ^ 61) ∧ ∀ start, slicePositions xs.length start b st = slicePositions xs.length start (some B) st := by
      cases b with
      | none =>
        refine ⟨_, rfl, by simp only [cStop]; split <;> omega, ?_⟩
        intro start
        exact positions_default_stop xs.length start st
      | some x => exact ⟨x, rfl, hb x rfl, fun _ => rfl⟩
    obtain ⟨A, e1, hA1, hA2⟩ := hA
    obtain ⟨B, e2, hB1, hB2⟩ := hB
    obtain ⟨l, e3, hr⟩ := key A B hA1 hB1
    refine ⟨_, l, rfl, ?_, by rw [hA2, hB2]; exact hr⟩
    rw [e1, e2, e3]

end Verif.ListOf
