import Verif.Bytes.Model
import Verif.Str.Search
/-
Searching in bytes: proofs about the compiled loops.
-/
namespace Verif.Bytes
open Verif.Str (At)

theorem item_nat {x : B} {i : Nat} (h : i < (text x).length) : item x (i : Int) = .ok (text x)[i] := by
  unfold item
  simp only
  rw [if_neg (by omega), if_neg (by omega), Int.toNat_natCast, List.getElem?_eq_getElem h]

theorem item_spec (x : B) (i : Int) :
    item x i = match Str.Spec.index (text x) i with | some b => .ok b | none => .error .index := by
  unfold item Str.Spec.index
  simp only
  by_cases h : i < -((text x).length : Int) ∨ i ≥ (text x).length
  · rw [if_pos h]
    by_cases h0 : i < 0
    · rw [if_pos h0, if_pos (by omega)]
    · rw [if_neg h0, List.getElem?_eq_none (by omega)]
  · rw [if_neg h]
    by_cases h0 : i < 0
    · simp only [if_pos h0]
      rw [if_neg (by omega), List.getElem?_eq_getElem (by omega)]
    · simp only [if_neg h0]
      rw [List.getElem?_eq_getElem (by omega)]

theorem range_eq (x : B) (start stop : Int) :
    range x start stop = ((Str.Spec.searchStart (text x).length start : Int), (Str.Spec.searchStop (text x).length stop : Int)) := by
  unfold range Str.Spec.searchStart Str.Spec.searchStop
  simp only [Prod.mk.injEq]
  constructor
  · split
    · split <;> omega
    · omega
  · split
    · split <;> split <;> omega
    · split <;> omega

theorem affixRange_eq (x : B) (start stop : Int) :
    affixRange x start stop =
      ((Str.Spec.searchStart (text x).length start : Int), (Str.Spec.searchStop (text x).length stop : Int)) := by
  unfold affixRange Str.Spec.searchStart Str.Spec.searchStop
  simp only [Prod.mk.injEq]
  constructor
  · split
    · split <;> omega
    · omega
  · split
    · split <;> omega
    · split <;> omega

theorem affixLoop_spec (x : B) : ∀ (sub : List Nat) (i : Nat), i + sub.length ≤ (text x).length →
    affixLoop x sub i = .ok (decide (At (text x) sub i))
  | [], i, _ => by simp [affixLoop, Str.at_nil]
  | c :: sub, i, h => by
    have hi : i < (text x).length := by simp at h; omega
    rw [affixLoop, item_nat hi]
    simp only
    by_cases hc : (text x)[i] = c
    · rw [if_neg (by simpa using hc)]
      have := affixLoop_spec x sub (i + 1) (by simp at h; omega)
      rw [Int.natCast_succ] at this
      rw [this]
      congr 1
      rw [decide_eq_decide, Str.at_cons _ _ _ _ hi]
      exact ⟨fun a => ⟨hc, a⟩, fun a => a.2⟩
    · rw [if_pos (by simpa using hc)]
      congr 1
      rw [eq_comm, decide_eq_false_iff_not, Str.at_cons _ _ _ _ hi]
      exact fun a => hc a.1

theorem matches_go (x sub : B) (i : Nat) : ∀ (todo k : Nat), todo + k = (text sub).length → i + (text sub).length ≤ (text x).length →
    matches_ x sub i todo k = .ok (decide (At (text x) ((text sub).drop k) (i + k)))
  | 0, k, h, _ => by
    rw [matches_, List.drop_eq_nil_of_le (by omega)]
    simp [Str.at_nil]
  | todo + 1, k, h, hl => by
    have hk : k < (text sub).length := by omega
    have hx : i + k < (text x).length := by omega
    rw [matches_, show (i : Int) + k = ((i + k : Nat) : Int) by omega, item_nat hx, item_nat hk]
    simp only
    rw [List.drop_eq_getElem_cons hk]
    by_cases hc : (text x)[i + k] = (text sub)[k]
    · rw [if_neg (by simpa using hc), show (k : Int) + 1 = ((k + 1 : Nat) : Int) by omega, matches_go x sub i todo (k + 1) (by omega) hl]
      congr 1
      rw [decide_eq_decide, Str.at_cons _ _ _ _ hx]
      exact ⟨fun a => ⟨hc, a⟩, fun a => a.2⟩
    · rw [if_pos (by simpa using hc)]
      congr 1
      rw [eq_comm, decide_eq_false_iff_not, Str.at_cons _ _ _ _ hx]
      exact fun a => hc a.1

theorem matches_spec (x sub : B) (i : Nat) (h : i + (text sub).length ≤ (text x).length) :
    matches_ x sub i (text sub).length 0 = .ok (decide (At (text x) (text sub) i)) := by
  have := matches_go x sub i (text sub).length 0 (by omega) h
  simpa using this

theorem findLoop_eq (x sub : B) (stop : Int) : ∀ (n i fuel : Nat), n < fuel → (i : Int) + n = stop - (text sub).length + 1 →
    i + n + (text sub).length ≤ (text x).length + 1 → ∀ r, Str.findLoop (text x) (text sub) n i = .ok r →
    findLoop x sub stop fuel i = .ok r
  | 0, i, fuel + 1, _, h, hl, r, e => by
    rw [Str.findLoop] at e
    rw [findLoop, if_neg (by omega)]
    exact congrArg Except.ok (Except.ok.inj e)
  | n + 1, i, fuel + 1, hf, h, hl, r, e => by
    rw [Str.findLoop, Str.matchAt_spec _ _ _ (by omega)] at e
    rw [findLoop, if_pos (by omega), matches_spec _ _ _ (by omega)]
    by_cases ha : At (text x) (text sub) i
    · simp only [ha, decide_true] at e ⊢
      exact congrArg Except.ok (Except.ok.inj e)
    · simp only [ha, decide_false] at e ⊢
      have := findLoop_eq x sub stop n (i + 1) fuel (by omega) (by omega) (by omega) r e
      rwa [Int.natCast_succ] at this

theorem rfindLoop_eq (x sub : B) (start : Nat) : ∀ (n fuel : Nat), n < fuel →
    start + n + (text sub).length ≤ (text x).length + 1 → ∀ r, Str.rfindLoop (text x) (text sub) start n = .ok r →
    rfindLoop x sub start fuel ((start : Int) + n - 1) = .ok r
  | 0, fuel + 1, _, hl, r, e => by
    rw [Str.rfindLoop] at e
    rw [rfindLoop, if_neg (by omega)]
    exact congrArg Except.ok (Except.ok.inj e)
  | n + 1, fuel + 1, hf, hl, r, e => by
    rw [Str.rfindLoop, Str.matchAt_spec _ _ _ (by omega)] at e
    rw [rfindLoop, if_pos (by omega), show ((start : Int) + (n + 1 : Nat) - 1) = ((start + n : Nat) : Int) by omega,
      matches_spec _ _ _ (by omega)]
    by_cases ha : At (text x) (text sub) (start + n)
    · simp only [ha, decide_true] at e ⊢
      exact congrArg Except.ok (Except.ok.inj e)
    · simp only [ha, decide_false] at e ⊢
      have := rfindLoop_eq x sub start n fuel (by omega) (by omega) r e
      rwa [show ((start + n : Nat) : Int) - 1 = (start : Int) + n - 1 by omega]

/-- `find` is the least position. -/
theorem find_spec (x sub : B) (start stop : Int) :
    ∃ r, find x sub start stop = .ok r ∧ Str.Spec.IsFirst (Str.Spec.OccursAt (text x) (text sub) start stop) r := by
  unfold find
  simp only [range_eq]
  have hb : Str.Spec.searchStop (text x).length stop ≤ (text x).length := by unfold Str.Spec.searchStop; omega
  generalize hS : Str.Spec.searchStart (text x).length start = S at *
  generalize hE : Str.Spec.searchStop (text x).length stop = E at *
  by_cases h0 : (text sub).length = 0
  · rw [if_pos h0]
    have hn : text sub = [] := List.length_eq_zero_iff.1 h0
    split
    · refine ⟨-1, rfl, Or.inr ⟨rfl, fun i hi => ?_⟩⟩
      unfold Str.Spec.OccursAt at hi
      rw [hS, hE] at hi
      omega
    · refine ⟨S, rfl, Or.inl ⟨S, rfl, ?_, fun j hj hc => ?_⟩⟩
      · unfold Str.Spec.OccursAt
        rw [hS, hE]
        refine ⟨by omega, by omega, by simp [hn]⟩
      · unfold Str.Spec.OccursAt at hc
        rw [hS] at hc
        omega
  · rw [if_neg h0]
    by_cases hlt : S + (text sub).length ≤ E
    · obtain ⟨r, hr, hspec⟩ := Str.findLoop_spec (text x) (text sub) (E + 1 - (text sub).length - S) S (by omega)
      refine ⟨r, findLoop_eq x sub E _ S _ (by omega) (by omega) (by omega) r hr, ?_⟩
      rcases hspec with ⟨k, a, b, c, d, e⟩ | ⟨a, b⟩
      · refine Or.inl ⟨k, a, ⟨by omega, by omega, d⟩, fun j hj hc => ?_⟩
        unfold Str.Spec.OccursAt at hc
        rw [hS] at hc
        exact e j hc.1 hj hc.2.2
      · refine Or.inr ⟨a, fun j hc => ?_⟩
        unfold Str.Spec.OccursAt at hc
        rw [hS, hE] at hc
        exact b j hc.1 (by omega) hc.2.2
    · refine ⟨-1, ?_, Or.inr ⟨rfl, fun j hc => ?_⟩⟩
      · rw [findLoop, if_neg (by omega)]
      · unfold Str.Spec.OccursAt at hc
        rw [hS, hE] at hc
        omega

/-- `rfind` is the greatest position. -/
theorem rfind_spec (x sub : B) (start stop : Int) :
    ∃ r, rfind x sub start stop = .ok r ∧ Str.Spec.IsLast (Str.Spec.OccursAt (text x) (text sub) start stop) r := by
  unfold rfind
  simp only [range_eq]
  have hb : Str.Spec.searchStop (text x).length stop ≤ (text x).length := by unfold Str.Spec.searchStop; omega
  generalize hS : Str.Spec.searchStart (text x).length start = S at *
  generalize hE : Str.Spec.searchStop (text x).length stop = E at *
  by_cases h0 : (text sub).length = 0
  · rw [if_pos h0]
    have hn : text sub = [] := List.length_eq_zero_iff.1 h0
    split
    · refine ⟨-1, rfl, Or.inr ⟨rfl, fun i hi => ?_⟩⟩
      unfold Str.Spec.OccursAt at hi
      rw [hS, hE] at hi
      omega
    · refine ⟨E, rfl, Or.inl ⟨E, rfl, ?_, fun j hj hc => ?_⟩⟩
      · unfold Str.Spec.OccursAt
        rw [hS, hE]
        refine ⟨by omega, by omega, by simp [hn]⟩
      · unfold Str.Spec.OccursAt at hc
        rw [hE] at hc
        omega
  · rw [if_neg h0]
    by_cases hlt : S + (text sub).length ≤ E
    · obtain ⟨r, hr, hspec⟩ := Str.rfindLoop_spec (text x) (text sub) S (E + 1 - (text sub).length - S) (by omega)
      have := rfindLoop_eq x sub S _ ((text x).length + 1) (by omega) (by omega) r hr
      rw [show (S : Int) + ((E + 1 - (text sub).length - S : Nat) : Int) - 1 = (E : Int) - (text sub).length by omega] at this
      refine ⟨r, this, ?_⟩
      rcases hspec with ⟨k, a, b, c, d, e⟩ | ⟨a, b⟩
      · refine Or.inl ⟨k, a, ⟨by omega, by omega, d⟩, fun j hj hc => ?_⟩
        unfold Str.Spec.OccursAt at hc
        rw [hS, hE] at hc
        exact e j hj (by omega) hc.2.2
      · refine Or.inr ⟨a, fun j hc => ?_⟩
        unfold Str.Spec.OccursAt at hc
        rw [hS, hE] at hc
        exact b j hc.1 (by omega) hc.2.2
    · refine ⟨-1, ?_, Or.inr ⟨rfl, fun j hc => ?_⟩⟩
      · rw [rfindLoop, if_neg (by omega)]
      · unfold Str.Spec.OccursAt at hc
        rw [hS, hE] at hc
        omega

theorem matches_single (x : B) (b i : Nat) (h : i < (text x).length) :
    matches_ x (some [b]) i (text (some [b])).length 0 = .ok (decide ((text x)[i] = b)) := by
  rw [matches_spec x (some [b]) i (show i + 1 ≤ _ from h)]
  congr 1
  rw [decide_eq_decide, show text (some [b]) = [b] from rfl, Str.at_cons _ _ _ _ h]
  exact ⟨fun a => a.1, fun a => ⟨a, Str.at_nil _ _⟩⟩

theorem findSingleLoop_eq (x : B) (b : Nat) (stop : Nat) (hs : stop ≤ (text x).length) : ∀ (fuel i : Nat),
    findSingleLoop x b stop fuel i = findLoop x (some [b]) stop fuel i
  | 0, _ => rfl
  | fuel + 1, i => by
    rw [findSingleLoop, findLoop]
    have hone : ((text (some [b])).length : Int) = 1 := rfl
    by_cases h : i < stop
    · rw [if_pos (by omega), if_pos (by omega), item_nat (by omega), matches_single x b i (by omega)]
      simp only
      by_cases hb : (text x)[i]'(by omega) = b
      · rw [if_pos (by exact_mod_cast hb)]
        simp [hb]
      · rw [if_neg (by exact_mod_cast hb)]
        simp only [hb, decide_false]
        have := findSingleLoop_eq x b stop hs fuel (i + 1)
        rwa [Int.natCast_succ] at this
    · rw [if_neg (by omega), if_neg (by omega)]

theorem rfindSingleLoop_eq (x : B) (b : Nat) (start : Nat) : ∀ (fuel : Nat) (i : Int), i < (text x).length →
    rfindSingleLoop x b start fuel i = rfindLoop x (some [b]) start fuel i
  | 0, _, _ => rfl
  | fuel + 1, i, hi => by
    rw [rfindSingleLoop, rfindLoop]
    by_cases h : i ≥ start
    · obtain ⟨k, rfl⟩ : ∃ k : Nat, i = k := ⟨i.toNat, by omega⟩
      rw [if_pos h, if_pos h, item_nat (by omega), matches_single x b k (by omega)]
      simp only
      by_cases hb : (text x)[k]'(by omega) = b
      · rw [if_pos (by exact_mod_cast hb)]
        simp [hb]
      · rw [if_neg (by exact_mod_cast hb)]
        simp only [hb, decide_false]
        exact rfindSingleLoop_eq x b start fuel _ (by omega)
    · rw [if_neg h, if_neg h]

theorem countSingleLoop_eq (x : B) (b : Nat) (stop : Nat) (hs : stop ≤ (text x).length) : ∀ (fuel i : Nat) (c : Int),
    countSingleLoop x b stop fuel i c = countLoop x (some [b]) stop fuel i c
  | 0, _, _ => rfl
  | fuel + 1, i, c => by
    rw [countSingleLoop, countLoop]
    have hone : ((text (some [b])).length : Int) = 1 := rfl
    by_cases h : i < stop
    · rw [if_pos (by omega), if_pos (by omega), item_nat (by omega), matches_single x b i (by omega)]
      simp only
      by_cases hb : (text x)[i]'(by omega) = b
      · rw [if_pos (by exact_mod_cast hb)]
        simp only [hb, decide_true, hone]
        have := countSingleLoop_eq x b stop hs fuel (i + 1) (c + 1)
        rw [Int.natCast_succ] at this
        rw [this]
        simp
      · rw [if_neg (by exact_mod_cast hb)]
        simp only [hb, decide_false]
        have := countSingleLoop_eq x b stop hs fuel (i + 1) c
        rwa [Int.natCast_succ] at this
    · rw [if_neg (by omega), if_neg (by omega)]

theorem occurrences_skip (sub : List Nat) : ∀ (k : Nat) (w : List Nat), k ≤ w.length →
    Str.Spec.occurrences sub w k = Str.Spec.occurrences sub (w.drop k) 0
  | 0, w, _ => by simp
  | k + 1, [], h => by simp at h
  | k + 1, c :: t, h => by
    rw [Str.Spec.occurrences, List.drop_succ_cons]
    exact occurrences_skip sub k t (by simpa using h)

theorem countLoop_spec (x sub : B) (stop : Nat) (hs : stop ≤ (text x).length) (hn : text sub ≠ []) :
    ∀ (fuel i : Nat) (c : Int), 0 < fuel → stop < fuel + i →
    countLoop x sub stop fuel i c = .ok (c + (Str.Spec.occurrences (text sub) (((text x).take stop).drop i) 0 : Nat)) := by
  have hpos : 0 < (text sub).length := List.length_pos_of_ne_nil hn
  intro fuel
  induction fuel with
  | zero =>
    intro i c h
    omega
  | succ fuel ih =>
    intro i c _ h
    rw [countLoop]
    by_cases hi : i + (text sub).length ≤ stop
    · rw [if_pos (by omega), matches_spec _ _ _ (by omega)]
      have hp := Str.at_prefix (text x) (text sub) stop i hi
      have hlen : i < ((text x).take stop).length := by rw [List.length_take]; omega
      rw [List.drop_eq_getElem_cons hlen] at hp ⊢
      rw [Str.Spec.occurrences]
      by_cases ha : At (text x) (text sub) i
      · simp only [ha, decide_true]
        rw [if_pos (hp.1 ha), occurrences_skip _ _ _ (by rw [List.length_drop, List.length_take]; omega), List.drop_drop]
        have := ih (i + (text sub).length) (c + 1) (by omega) (by omega)
        rw [show (i : Int) + ((text sub).length - 1) + 1 = ((i + (text sub).length : Nat) : Int) by omega, this,
          show i + 1 + ((text sub).length - 1) = i + (text sub).length by omega]
        congr 1
        omega
      · simp only [ha, decide_false]
        rw [if_neg (fun hh => ha (hp.2 hh))]
        have := ih (i + 1) c (by omega) (by omega)
        rwa [Int.natCast_succ] at this
    · rw [if_neg (by omega), Str.occurrences_short _ hn _ _ (by rw [List.length_drop, List.length_take]; omega)]
      simp

end Verif.Bytes
