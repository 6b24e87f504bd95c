import Verif.ListOf.Slice
/-
Every call on a list object does what the specification says.
-/
namespace Verif.ListOf
open Spec

variable {α : Type}

/-- An object and a sequence of elements returned by a call. -/
inductive RetRel : Ret α (L α) → Ret α (List α) → Prop
  | unit : RetRel .unit .unit
  | val (a : α) : RetRel (.val a) (.val a)
  | new {l : L α} {ys : List α} (h : Rep l ys) : RetRel (.new l) (.new ys)

/-- The same exception, or related results. -/
inductive ResRel : Except PyErr (Ret α (L α)) → Except PyErr (Ret α (List α)) → Prop
  | error (e : PyErr) : ResRel (.error e) (.error e)
  | ok {r : Ret α (L α)} {r' : Ret α (List α)} (h : RetRel r r') : ResRel (.ok r) (.ok r')

/-- The sizes and indices the representation has room for: fewer than 2^30 elements, indices of 64 bits, sizes that are not
negative. -/
def Within (d : α) (xs : List α) (op : Op α) : Prop :=
  (step d xs op).1.length < 2 ^ 30 ∧
  (match op with
   | .reserve n => 0 ≤ n ∧ n < 2 ^ 31
   | .resize n | .resizeWith n _ => 0 ≤ n ∧ n < 2 ^ 63
   | .pop i | .get i | .set i _ => -(2 ^ 63) ≤ i ∧ i < 2 ^ 63
   | .concat vs => xs.length + vs.length < 2 ^ 30
   | .concatSeq vs _ => xs.length + vs.length < 2 ^ 30
   | _ => True)

theorem asLongLong_small (n : Int) (h : -(2 ^ 63) ≤ n ∧ n < 2 ^ 63) : asLongLong n = (n, false) := by
  unfold asLongLong
  rw [if_pos h]

theorem toSize_small (n : Int) (h : 0 ≤ n ∧ n < 2 ^ 64) : toSize n = n.toNat := by
  unfold toSize
  rw [Int.emod_eq_of_lt h.1 h.2]

theorem elt_read {s : L α} {xs : List α} (h : Rep s xs) (i : Nat) (hi : i < xs.length) : elt (read s.cells i) = .ok (some xs[i]) := by
  rw [h.cells, read_store xs _ i hi]
  rfl

theorem rep_read {s : L α} {xs : List α} (h : Rep s xs) (i : Nat) (hi : i < xs.length) : read s.cells i = .ok xs[i] := by
  rw [h.cells]
  exact read_store xs _ i hi

theorem rep_ofList (vs : List α) (h : vs.length < 2 ^ 31) : Rep (ofList vs) vs :=
  ⟨rfl, Nat.le_max_right _ _, by simp only [ofList]; omega, rfl⟩

/-- What the index calls make of an index. -/
theorem position_spec (n : Nat) (i : Int) :
    (((if i < 0 then i + n else i) ≥ n ∨ (if i < 0 then i + n else i) < 0) ∧ position n i = none) ∨
    (¬ ((if i < 0 then i + n else i) ≥ n ∨ (if i < 0 then i + n else i) < 0) ∧
      position n i = some (if i < 0 then i + n else i).toNat ∧ (if i < 0 then i + n else i).toNat < n) := by
  unfold position
  by_cases h : i < 0
  · simp only [h, if_true]
    rw [if_neg (by omega)]
    by_cases h2 : 0 ≤ i + n
    · right
      rw [if_pos ⟨trivial, h2⟩]
      exact ⟨by omega, rfl, by omega⟩
    · left
      rw [if_neg (by omega)]
      exact ⟨by omega, rfl⟩
  · simp only [h, if_false]
    by_cases h2 : i < n
    · right
      rw [if_pos ⟨by omega, h2⟩]
      exact ⟨by rintro (p | p) <;> first | omega | exact p, rfl, by omega⟩
    · left
      rw [if_neg (fun hh => h2 hh.2), if_neg (fun hh => hh.1.elim)]
      exact ⟨by omega, rfl⟩

theorem getItem_ok {s : L α} {xs : List α} (d : α) (h : Rep s xs) (i : Int) (hi : -(2 ^ 63) ≤ i ∧ i < 2 ^ 63) :
    ∃ r, getItem s i = .ok r ∧ ResRel r (step d xs (.get i)).2 ∧ (step d xs (.get i)).1 = xs := by
  unfold getItem
  rw [asLongLong_small i hi]
  simp only [h.count, step]
  rcases position_spec xs.length i with ⟨h1, h2⟩ | ⟨h1, h2, h3⟩
  · rw [if_pos h1, h2]
    exact ⟨_, rfl, .error _, rfl⟩
  · rw [if_neg h1, h2, rep_read h _ h3]
    simp only [List.getElem?_eq_getElem h3]
    exact ⟨_, rfl, .ok (.val _), trivial⟩

theorem setItem_ok {s : L α} {xs : List α} (d : α) (h : Rep s xs) (i : Int) (v : Option α) (hi : -(2 ^ 63) ≤ i ∧ i < 2 ^ 63) :
    ∃ s' r, setItem s i v = .ok (s', r) ∧ Rep s' (step d xs (.set i v)).1 ∧ ResRel r (step d xs (.set i v)).2 := by
  unfold setItem
  rw [asLongLong_small i hi]
  simp only [h.count, step]
  rcases position_spec xs.length i with ⟨h1, h2⟩ | ⟨h1, h2, h3⟩
  · rw [if_pos h1, h2]
    exact ⟨_, _, rfl, h, .error _⟩
  · rw [if_neg h1, h2]
    cases v with
    | none => exact ⟨_, _, rfl, h, .error _⟩
    | some v =>
      simp only
      rw [h.cells, assign_store xs _ _ v h3]
      exact ⟨_, _, rfl, ⟨by simp, by simpa using h.room, h.limit, rfl⟩, .ok .unit⟩

theorem listPop_ok {s : L α} {xs : List α} (d : α) (h : Rep s xs) (i : Int) (hi : -(2 ^ 63) ≤ i ∧ i < 2 ^ 63) :
    ∃ s' r, listPop s i = .ok (s', r) ∧ Rep s' (step d xs (.pop i)).1 ∧ ResRel r (step d xs (.pop i)).2 := by
  unfold listPop
  rw [asLongLong_small i hi]
  simp only [h.count, step]
  by_cases h0 : xs.length = 0
  · have hp : position xs.length i = none := by
      rw [h0]
      unfold position
      rw [if_neg (by simp), if_neg (by simp)]
    rw [if_pos h0, hp]
    exact ⟨_, _, rfl, h, .error _⟩
  · rw [if_neg h0]
    rcases position_spec xs.length i with ⟨h1, h2⟩ | ⟨h1, h2, h3⟩
    · rw [if_pos (Or.comm.mp h1), h2]
      exact ⟨_, _, rfl, h, .error _⟩
    · rw [if_neg (fun hh => h1 (Or.comm.mp hh)), h2, rep_read h _ h3]
      simp only [List.getElem?_eq_getElem h3]
      obtain ⟨s', e, hr⟩ := remove_ok h _ h3
      rw [e]
      exact ⟨_, _, rfl, hr, .ok (.val _)⟩

theorem listResize_some {s : L α} {xs : List α} (d : α) (h : Rep s xs) (n : Int) (v : α) (hn : 0 ≤ n)
    (hl : (xs.take n.toNat ++ List.replicate (n.toNat - xs.length) v).length < 2 ^ 30) (hx : xs.length < 2 ^ 31) :
    ∃ s' r, listResize d s n (some v) = .ok (s', r) ∧ Rep s' (xs.take n.toNat ++ List.replicate (n.toNat - xs.length) v) ∧
      ResRel r (.ok .unit) := by
  simp only [List.length_append, List.length_take, List.length_replicate] at hl
  unfold listResize
  rw [asLongLong_small n (by omega)]
  simp only [h.count, toSize_small n (by omega)]
  by_cases hlt : (xs.length : Int) > n
  · rw [if_pos hlt]
    obtain ⟨s', e, hr⟩ := resize_ok h n.toNat d (by omega)
    rw [e]
    have : n.toNat - xs.length = 0 := by omega
    rw [this] at hr ⊢
    exact ⟨_, _, rfl, hr, .ok .unit⟩
  · rw [if_neg hlt]
    obtain ⟨s', e, hr⟩ := resize_ok h n.toNat v (by omega)
    rw [e]
    exact ⟨_, _, rfl, hr, .ok .unit⟩

theorem listResize_none {s : L α} {xs : List α} (d : α) (h : Rep s xs) (n : Int) (hn : 0 ≤ n) (hn2 : n < 2 ^ 63) :
    ∃ s' r, listResize d s n none = .ok (s', r) ∧ Rep s' (step d xs (.resizeWith n none)).1 ∧
      ResRel r (step d xs (.resizeWith n none)).2 := by
  unfold listResize
  rw [asLongLong_small n (by omega)]
  simp only [h.count, toSize_small n (by omega), step]
  have := h.room
  have := h.limit
  by_cases hlt : (xs.length : Int) > n
  · rw [if_pos hlt, if_pos hlt]
    obtain ⟨s', e, hr⟩ := resize_ok h n.toNat d (by omega)
    rw [e]
    have : n.toNat - xs.length = 0 := by omega
    rw [this, List.replicate_zero, List.append_nil] at hr
    exact ⟨_, _, rfl, hr, .ok .unit⟩
  · rw [if_neg hlt, if_neg hlt]
    exact ⟨_, _, rfl, h, .error _⟩

theorem getSlice_ok {s : L α} {xs : List α} (h : Rep s xs) (a b c : Option Int) :
    (∃ e, slice xs a b c = .error e ∧ getSlice s a b c = .ok (.error e)) ∨
    (∃ ys l, slice xs a b c = .ok ys ∧ getSlice s a b c = .ok (.ok (.new l)) ∧ Rep l ys) := by
  have hroom := h.room
  have hlim := h.limit
  unfold slice getSlice
  by_cases h0 : c.getD 1 = 0
  · left
    rw [if_pos h0, sliceUnpack_zero a b c h0]
    exact ⟨_, rfl, rfl⟩
  · right
    rw [if_neg h0, sliceUnpack_eq a b c h0]
    simp only [h.count]
    have hpos := positions_eq xs.length (by omega) a b (c.getD 1) h0
    have hnn := visited_nonneg xs.length (by omega) a b (c.getD 1) h0
    simp only at hnn
    generalize sliceAdjust xs.length (unpackStart a (clipStep (c.getD 1))) (clipStep (c.getD 1)) = A at *
    generalize sliceAdjust xs.length (unpackStop b (clipStep (c.getD 1))) (clipStep (c.getD 1)) = B at *
    generalize clipStep (c.getD 1) = st at *
    have hlt : ∀ x ∈ visited A B st, x < xs.length := by
      rw [hpos]
      exact positions_lt _ _ _ _
    have hlen : (visited A B st).length ≤ xs.length := by
      rw [hpos]
      exact positions_length _ _ _ _
    have hvl : (visited A B st).length = (sliceLength A B st).toNat := by simp [visited]
    rw [← hpos]
    cases xs with
    | nil =>
      have hz : (sliceLength A B st).toNat = 0 := by simpa [hvl] using hlen
      have hv : visited A B st = [] := by
        apply List.eq_nil_of_length_eq_zero
        omega
      rw [hz, hv]
      obtain ⟨l, e, hr⟩ := constructor_ok (α := α) (fun _ k =>
        if A + k * st < 0 then .error .outOfBounds
        else
          elt (read s.cells (A + k * st).toNat)) [] (by simp) (by simp)
      simp only [List.length_nil] at e
      rw [e]
      exact ⟨_, _, rfl, rfl, hr⟩
    | cons d xs =>
      have hf := filterMap_get (d :: xs) d (visited A B st) hlt
      have hfl : ((visited A B st).map (fun p => (d :: xs)[p]?.getD d)).length = (sliceLength A B st).toNat := by
        rw [List.length_map, hvl]
      obtain ⟨l, e, hr⟩ := constructor_ok (α := α) (fun _ k =>
        if A + k * st < 0 then .error .outOfBounds
        else
          elt (read s.cells (A + k * st).toNat)) ((visited A B st).map (fun p => (d :: xs)[p]?.getD d)) (by rw [hfl]; omega) (by
            intro m j hj
            rw [hfl] at hj
            have hk := hnn j hj
            rw [if_neg (by omega)]
            have hmem : (A + j * st).toNat ∈ visited A B st := by
              unfold visited
              exact List.mem_map.mpr ⟨j, List.mem_range.mpr hj, rfl⟩
            have hl := hlt _ hmem
            rw [elt_read h _ hl]
            simp only [List.getElem_map]
            have hg : (visited A B st)[j]'(by rw [hvl]; exact hj) = (A + j * st).toNat := by
              simp [visited]
            rw [hg, List.getElem?_eq_getElem hl]
            rfl)
      rw [hfl] at e
      rw [e, hf]
      exact ⟨_, _, rfl, rfl, hr⟩

theorem concat_ok {s r : L α} {xs ys : List α} (h : Rep s xs) (h' : Rep r ys) (hl : xs.length + ys.length < 2 ^ 31) :
    ∃ l, concat s r = .ok (.ok (.new l)) ∧ Rep l (xs ++ ys) := by
  unfold concat
  obtain ⟨l, e, hr⟩ := constructor_ok (fun _ k =>
      elt (if k < s.count then read s.cells k else read r.cells (k - s.count))) (xs ++ ys) (by simpa using hl) (by
        intro m j hj
        simp only [h.count]
        by_cases hlt : j < xs.length
        · rw [if_pos hlt, elt_read h j hlt]
          simp [hlt]
        · rw [if_neg hlt, elt_read h' (j - xs.length) (by simp at hj; omega)]
          rw [List.getElem_append_right (by omega)])
  rw [List.length_append, ← h.count, ← h'.count] at e
  rw [e]
  exact ⟨_, rfl, hr⟩

theorem copy_ok {s : L α} {xs : List α} (h : Rep s xs) :
    ∃ l, copyListObject s = .ok (.ok (.new l)) ∧ Rep l xs := by
  unfold copyListObject
  obtain ⟨l, e, hr⟩ := constructor_ok (fun _ k =>
      elt (read s.cells k)) xs (by have := h.room; have := h.limit; omega) (by
        intro m j hj
        rw [elt_read h j hj])
  rw [← h.count] at e
  rw [e]
  exact ⟨_, rfl, hr⟩

theorem convertible_append_left (xs : List α) (vs : List (Option α)) :
    convertible (xs.map some ++ vs) = (xs ++ (convertible vs).1, (convertible vs).2) := by
  induction xs with
  | nil => simp
  | cons x xs ih => simp [convertible, ih]

theorem convertible_append_right (vs : List (Option α)) (xs : List α) :
    convertible (vs ++ xs.map some) = (if (convertible vs).2 then (convertible vs).1 ++ xs else (convertible vs).1, (convertible vs).2) := by
  induction vs with
  | nil => simp [convertible, convertible_some]
  | cons v vs ih =>
    cases v with
    | none => simp [convertible]
    | some v =>
      simp only [List.cons_append, convertible, ih]
      split <;> simp [*]

theorem concatSeq_ok {s : L α} {xs : List α} (d : α) (h : Rep s xs) (vs : List (Option α)) (rev : Bool) (hl : xs.length + vs.length < 2 ^ 31) :
    ∃ r, concatSeq s vs rev = .ok r ∧ ResRel r (step d xs (.concatSeq vs rev)).2 ∧ (step d xs (.concatSeq vs rev)).1 = xs := by
  have key := constructor_store (fun _ k =>
      if (rev = false ∧ k < s.count) ∨ (rev = true ∧ k ≥ vs.length) then
        elt (read s.cells (if rev then k - vs.length else k))
      else
        item vs (if rev then k else k - s.count)) (if rev then vs ++ xs.map some else xs.map some ++ vs) (by split <;> simp <;> omega) (by
          intro m j hj
          cases rev with
          | false =>
            simp only [Bool.false_eq_true, if_false, List.length_append, List.length_map] at hj ⊢
            simp only [true_and, false_and, or_false, h.count]
            by_cases hlt : j < xs.length
            · rw [if_pos hlt, elt_read h j hlt]
              simp [hlt]
            · rw [if_neg hlt, item, List.getElem?_eq_getElem (by omega)]
              simp only
              rw [List.getElem_append_right (by simp; omega)]
              simp
          | true =>
            simp only [if_true, List.length_append, List.length_map] at hj ⊢
            simp only [true_and, false_and, Bool.true_eq_false, false_or]
            by_cases hlt : j ≥ vs.length
            · rw [if_pos hlt, elt_read h (j - vs.length) (by omega)]
              rw [List.getElem_append_right hlt]
              simp
            · rw [if_neg hlt, item, List.getElem?_eq_getElem (by omega)]
              simp only
              rw [List.getElem_append_left (by omega)])
  have hlen : (if rev then vs ++ xs.map some else xs.map some ++ vs).length = s.count + vs.length := by
    rw [h.count]
    split <;> simp <;> omega
  rw [hlen] at key
  unfold concatSeq
  have hc1 : (convertible (if rev then vs ++ xs.map some else xs.map some ++ vs)).2 = (convertible vs).2 := by
    split <;> simp [convertible_append_left, convertible_append_right]
  rw [hc1] at key
  rcases key with ⟨k1, l, e, hr⟩ | ⟨k1, e⟩
  · rw [e]
    simp only [step, k1, if_true]
    refine ⟨_, rfl, .ok (.new ?_), trivial⟩
    cases rev <;> simpa [convertible_append_left, convertible_append_right, k1] using hr
  · rw [e]
    simp only [step, k1]
    exact ⟨_, rfl, .error _, rfl⟩

theorem apply_ok {s : L α} {xs : List α} (d : α) (h : Rep s xs) (op : Op α) (hw : Within d xs op) (hx : xs.length < 2 ^ 30) :
    ∃ s' r, apply d s op = .ok (s', r) ∧ Rep s' (step d xs op).1 ∧ ResRel r (step d xs op).2 := by
  obtain ⟨hw1, hw2⟩ := hw
  cases op with
  | append v =>
    cases v with
    | none => exact ⟨_, _, rfl, h, .error _⟩
    | some v =>
      obtain ⟨s', e, hr⟩ := append_ok h v hx
      exact ⟨s', .ok .unit, by simp [apply, done, e], hr, .ok .unit⟩
  | extend vs =>
    simp only [step, List.length_append] at hw1
    have hr' := rep_ofList vs (by omega)
    obtain ⟨s', e, hr⟩ := extend_ok h vs (by omega) (fun _ i =>
        elt (read (ofList vs).cells i)) (by
          intro r j hj ws'
          rw [elt_read hr' j hj])
    refine ⟨s', .ok .unit, ?_, hr, .ok .unit⟩
    rw [← hr'.count] at e
    simp only [apply, e]
  | extendSelf =>
    simp only [step, List.length_append] at hw1
    obtain ⟨s', e, hr⟩ := extend_ok h xs (by omega) (fun m i =>
        elt (read m i)) (by
          intro r j hj ws'
          rw [read_store _ _ _ (by simp; omega), List.getElem_append_left hj]
          rfl)
    refine ⟨s', .ok .unit, ?_, hr, .ok .unit⟩
    rw [← h.count] at e
    simp only [apply, e]
  | extendIter vs =>
    simp only [step, List.length_append] at hw1
    obtain ⟨s', e, hr⟩ := appendAll_ok vs h hw1
    refine ⟨s', _, e, hr, ?_⟩
    simp only [step]
    split
    · exact .ok .unit
    · exact .error _
  | clear =>
    obtain ⟨s', e, hr⟩ := resize_ok h 0 d (by omega)
    refine ⟨s', .ok .unit, by simp only [apply, done, e], ?_, .ok .unit⟩
    simpa [step] using hr
  | reserve n =>
    have e0 : toSize (Int.bmod n (2 ^ 32)) = n.toNat := by
      rw [Int.bmod_eq_of_le (by simp only at hw2; omega) (by simp only at hw2; omega), toSize_small n (by simp only at hw2; omega)]
    obtain ⟨s', e, hr, _⟩ := reserve_ok h n.toNat (by simp only at hw2; omega)
    exact ⟨s', .ok .unit, by simp only [apply, done, e0, e], hr, .ok .unit⟩
  | resize n =>
    exact listResize_some d h n d hw2.1 hw1 (by omega)
  | resizeWith n v =>
    cases v with
    | none => exact listResize_none d h n hw2.1 hw2.2
    | some v => exact listResize_some d h n v hw2.1 hw1 (by omega)
  | pop i => exact listPop_ok d h i hw2
  | get i =>
    obtain ⟨r, e, hr, hs⟩ := getItem_ok d h i hw2
    exact ⟨s, r, by simp only [apply, keep, e], by rw [hs]; exact h, hr⟩
  | set i v => exact setItem_ok d h i v hw2
  | slice a b c =>
    rcases getSlice_ok h a b c with ⟨er, e1, e2⟩ | ⟨ys, l, e1, e2, hr⟩
    · exact ⟨s, .error er, by simp only [apply, keep, e2], by simp only [step, e1]; exact h, by simp only [step, e1]; exact .error _⟩
    · exact ⟨s, .ok (.new l), by simp only [apply, keep, e2], by simp only [step, e1]; exact h,
        by simp only [step, e1]; exact .ok (.new hr)⟩
  | concat vs =>
    simp only at hw2
    obtain ⟨l, e, hr⟩ := concat_ok h (rep_ofList vs (by omega)) (by omega)
    exact ⟨s, .ok (.new l), by simp only [apply, keep, e], h, .ok (.new hr)⟩
  | concatSeq vs rev =>
    simp only at hw2
    obtain ⟨r, e, hr, hs⟩ := concatSeq_ok d h vs rev (by omega)
    exact ⟨s, r, by simp only [apply, keep, e], by rw [hs]; exact h, hr⟩
  | copy =>
    obtain ⟨l, e, hr⟩ := copy_ok h
    exact ⟨s, .ok (.new l), by simp only [apply, keep, e], h, .ok (.new hr)⟩

end Verif.ListOf
