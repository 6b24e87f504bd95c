import Verif.Bytes.Search
import Verif.Str.Affix
/-
C101: searching in bytes, indexing, slicing, prefixes and suffixes.
-/
namespace Verif.Bytes
open Verif.Str (At)
open Verif.Str.Spec

/-- C101: `x.find(sub, start, stop)` is the least position in the range where `sub` occurs, or -1. It reads nothing outside of
the bytes and ends. -/
theorem find_least (x sub : B) (start stop r : Int) :
    find x sub start stop = .ok r ↔ IsFirst (OccursAt (text x) (text sub) start stop) r := by
  obtain ⟨r', e, h⟩ := find_spec x sub start stop
  rw [e, Except.ok.injEq]
  exact ⟨fun a => a ▸ h, fun a => Str.isFirst_unique h a⟩

example : find (some [1, 2, 1, 2]) (some [1, 2]) 1 4 = .ok 2 ∧ find (some [1, 2, 1, 2]) (some [1, 2]) (-2) (-1) = .ok (-1) ∧
    find none none 0 0 = .ok 0 ∧ find (some [1]) none 2 5 = .ok (-1) := by decide +kernel

/-- C101: `x.rfind(sub, start, stop)` is the greatest position. -/
theorem rfind_greatest (x sub : B) (start stop r : Int) :
    rfind x sub start stop = .ok r ↔ IsLast (OccursAt (text x) (text sub) start stop) r := by
  obtain ⟨r', e, h⟩ := rfind_spec x sub start stop
  rw [e, Except.ok.injEq]
  exact ⟨fun a => a ▸ h, fun a => Str.isLast_unique h a⟩

example : rfind (some [1, 2, 1, 2]) (some [1, 2]) 0 4 = .ok 2 ∧ rfind (some [1, 2, 1, 2]) (some [1, 2]) 0 3 = .ok 0 ∧
    rfind (some [1, 2]) none 0 2 = .ok 2 := by decide +kernel

theorem count_spec (x sub : B) (start stop : Int) :
    count x sub start stop = .ok (Str.Spec.count (text x) (text sub) start stop : Int) := by
  unfold count Str.Spec.count
  simp only [range_eq]
  have hb : searchStop (text x).length stop ≤ (text x).length := by unfold searchStop; omega
  generalize searchStart (text x).length start = S at *
  generalize searchStop (text x).length stop = E at *
  by_cases h0 : (text sub).length = 0
  · rw [if_pos h0]
    have hn : text sub = [] := List.length_eq_zero_iff.1 h0
    rw [hn, Str.occurrences_empty, List.length_drop, List.length_take]
    by_cases h1 : (S : Int) > (text x).length
    · rw [if_pos h1, if_neg (by omega)]
      rfl
    · rw [if_neg h1]
      congr 1
      by_cases h2 : S ≤ E
      · rw [if_neg (by omega), if_pos h2]
        omega
      · rw [if_neg h2]
        split <;> omega
  · rw [if_neg h0]
    have hn : text sub ≠ [] := fun h => h0 (by rw [h]; rfl)
    rw [countLoop_spec x sub E hb hn _ S 0 (by omega) (by omega)]
    congr 1
    by_cases h2 : S ≤ E
    · rw [if_pos h2]
      omega
    · rw [if_neg h2, Str.occurrences_short _ hn _ _ (by rw [List.length_drop, List.length_take]; omega)]
      rfl

/-- C101: `x.count(sub, start, stop)` is the number of occurrences without overlap, searching from the left; the empty bytes
occur before every byte and at the end. -/
theorem count_occurrences (x sub : B) (start stop n : Int) :
    count x sub start stop = .ok n ↔ n = (Str.Spec.count (text x) (text sub) start stop : Int) := by
  rw [count_spec, Except.ok.injEq, eq_comm]

example : count (some [7, 7, 7, 7, 7]) (some [7, 7]) 0 5 = .ok 2 ∧ count none none 0 0 = .ok 1 ∧
    count (some [1, 2, 3]) none 1 3 = .ok 3 ∧ count (some [1, 2, 3]) none 3 1 = .ok 0 := by decide +kernel

/-- C101: where an integer is looked for, it is the byte with that value, and other integers raise ValueError. -/
theorem single_is_byte (x : B) (start stop : Int) :
    (∀ b : Nat, b < 256 →
      findSingle x b start stop = find x (some [b]) start stop ∧
      rfindSingle x b start stop = rfind x (some [b]) start stop ∧
      countSingle x b start stop = count x (some [b]) start stop) ∧
    (∀ s : Int, s < 0 ∨ 255 < s →
      findSingle x s start stop = .error .value ∧ rfindSingle x s start stop = .error .value ∧
      countSingle x s start stop = .error .value) := by
  have hb : searchStop (text x).length stop ≤ (text x).length := by unfold searchStop; omega
  refine ⟨fun b h => ⟨?_, ?_, ?_⟩, fun s h => ⟨?_, ?_, ?_⟩⟩
  · unfold findSingle find
    rw [if_neg (by omega), if_neg (show ¬ (text (some [b])).length = 0 by simp [text])]
    simp only [range_eq]
    exact findSingleLoop_eq x b _ hb _ _
  · unfold rfindSingle rfind
    rw [if_neg (by omega), if_neg (show ¬ (text (some [b])).length = 0 by simp [text])]
    simp only [range_eq]
    exact rfindSingleLoop_eq x b _ _ _ (by omega)
  · unfold countSingle count
    rw [if_neg (by omega), if_neg (show ¬ (text (some [b])).length = 0 by simp [text])]
    simp only [range_eq]
    exact countSingleLoop_eq x b _ hb _ _ _
  · unfold findSingle; rw [if_pos (by omega)]
  · unfold rfindSingle; rw [if_pos (by omega)]
  · unfold countSingle; rw [if_pos (by omega)]

example : findSingle (some [5, 6, 7, 6]) 6 0 4 = .ok 1 ∧ rfindSingle (some [5, 6, 7, 6]) 6 0 4 = .ok 3 ∧
    countSingle (some [5, 6, 7, 6]) 6 0 4 = .ok 2 ∧ findSingle (some [5]) 256 0 1 = .error .value := by decide +kernel

/-- C101: `index` and `rindex` raise ValueError exactly if there is no occurrence, and otherwise give what `find` and `rfind`
give. -/
theorem index_raises_iff (x sub : B) (start stop : Int) :
    (indexResult (find x sub start stop) = .error .value ↔ ∀ i, ¬ OccursAt (text x) (text sub) start stop i) ∧
    (indexResult (rfind x sub start stop) = .error .value ↔ ∀ i, ¬ OccursAt (text x) (text sub) start stop i) ∧
    (∀ r, indexResult (find x sub start stop) = .ok r ↔ r ≠ -1 ∧ find x sub start stop = .ok r) ∧
    (∀ r, indexResult (rfind x sub start stop) = .ok r ↔ r ≠ -1 ∧ rfind x sub start stop = .ok r) := by
  obtain ⟨f, ef, hf⟩ := find_spec x sub start stop
  obtain ⟨g, eg, hg⟩ := rfind_spec x sub start stop
  rw [ef, eg]
  unfold indexResult
  simp only
  refine ⟨?_, ?_, fun r => ?_, fun r => ?_⟩
  · rcases hf with ⟨i, a, b, _⟩ | ⟨a, b⟩
    · rw [if_neg (by omega)]
      exact ⟨fun h => (by cases h), fun h => absurd b (h i)⟩
    · rw [if_pos a]
      exact ⟨fun _ => b, fun _ => rfl⟩
  · rcases hg with ⟨i, a, b, _⟩ | ⟨a, b⟩
    · rw [if_neg (by omega)]
      exact ⟨fun h => (by cases h), fun h => absurd b (h i)⟩
    · rw [if_pos a]
      exact ⟨fun _ => b, fun _ => rfl⟩
  · split
    · rename_i h
      exact ⟨fun h => (by cases h), fun ⟨a, b⟩ => absurd ((Except.ok.inj b).symm.trans h) a⟩
    · rename_i h
      exact ⟨fun e => ⟨fun h' => h ((Except.ok.inj e).trans h'), e⟩, fun e => e.2⟩
  · split
    · rename_i h
      exact ⟨fun h => (by cases h), fun ⟨a, b⟩ => absurd ((Except.ok.inj b).symm.trans h) a⟩
    · rename_i h
      exact ⟨fun e => ⟨fun h' => h ((Except.ok.inj e).trans h'), e⟩, fun e => e.2⟩

example : indexResult (find (some [1, 2]) (some [3]) 0 2) = .error .value ∧
    indexResult (rfind (some [1, 2, 1]) (some [1]) 0 3) = .ok 2 := by decide +kernel

theorem searchStop_self (n : Nat) : searchStop n (n : Int) = n := by
  unfold searchStop
  rw [if_neg (by omega)]
  simp

theorem occurs_whole (s sub : List Nat) (i : Nat) :
    OccursAt s sub 0 s.length i ↔ i + sub.length ≤ s.length ∧ At s sub i := by
  unfold OccursAt At
  rw [searchStop_self, show searchStart s.length 0 = 0 from rfl]
  exact ⟨fun h => h.2, fun h => ⟨Nat.zero_le _, h⟩⟩

theorem at_cut {s sub : List Nat} {i : Nat} (h : At s sub i) :
    s = s.take i ++ sub ++ s.drop (i + sub.length) := by
  unfold At at h
  rw [List.append_assoc]
  conv_rhs => rw [← h]
  rw [h, ← List.drop_drop]
  conv_lhs => rw [← List.take_append_drop i s, ← List.take_append_drop sub.length (s.drop i), h]

/-- C101: `sub in x` says whether `sub` occurs in `x`. -/
theorem contains_iff (x sub : B) :
    (contains x sub = .ok true ↔ ∃ a b, text x = a ++ text sub ++ b) ∧
    (contains x sub = .ok false ↔ ¬ ∃ a b, text x = a ++ text sub ++ b) := by
  have hex : (∃ i, OccursAt (text x) (text sub) 0 (text x).length i) ↔ ∃ a b, text x = a ++ text sub ++ b := by
    constructor
    · rintro ⟨i, h⟩
      exact ⟨_, _, at_cut ((occurs_whole _ _ _).1 h).2⟩
    · rintro ⟨a, b, h⟩
      refine ⟨a.length, (occurs_whole _ _ _).2 ⟨?_, ?_⟩⟩
      · rw [h]; simp
      · unfold At; rw [h]; simp
  unfold contains
  obtain ⟨r, e, h⟩ := find_spec x sub 0 (text x).length
  rw [e, ← hex]
  simp only [Except.ok.injEq, decide_eq_true_eq, decide_eq_false_iff_not]
  rcases h with ⟨i, a, b, c⟩ | ⟨a, b⟩
  · exact ⟨⟨fun _ => ⟨i, b⟩, fun _ => by omega⟩, ⟨fun h => by omega, fun h => absurd ⟨i, b⟩ h⟩⟩
  · exact ⟨⟨fun h => by omega, fun ⟨i, h⟩ => absurd h (b i)⟩, ⟨fun _ ⟨i, h⟩ => b i h, fun _ => by omega⟩⟩

example : contains (some [1, 2, 3]) (some [2, 3]) = .ok true ∧ contains (some [1, 2, 3]) (some [3, 2]) = .ok false ∧
    contains none none = .ok true := by decide +kernel

/-- C101: `x[i]` is the byte there, counting from the end if `i` is negative, and raises IndexError outside. -/
theorem item_index (x : B) (i : Int) :
    (∀ b, item x i = .ok b ↔ index (text x) i = some b) ∧ (item x i = .error .index ↔ index (text x) i = none) := by
  rw [item_spec]
  cases index (text x) i <;> simp

example : item (some [5, 6, 7]) (-1) = .ok 7 ∧ item (some [5, 6, 7]) 3 = .error .index ∧ item none 0 = .error .index := by
  decide +kernel

/-- C101: `x[start:stop]`. -/
theorem slice_spec (x : B) (start stop : Int) : text (getslice x start stop) = slice (text x) (some start) (some stop) := by
  cases x with
  | none => simp [getslice, text, slice]
  | some ps =>
    unfold getslice slice
    simp only [text, Option.getD_some]
    have hS : ∀ i : Int, (if (if (if i < 0 then i + (ps.length : Int) else i) < 0 then 0 else
        (if i < 0 then i + (ps.length : Int) else i)) > ps.length then (ps.length : Int) else
        (if (if i < 0 then i + (ps.length : Int) else i) < 0 then 0 else (if i < 0 then i + (ps.length : Int) else i))) =
        ((min ps.length (searchStart ps.length i) : Nat) : Int) := by
      intro i
      unfold searchStart
      split
      · split
        · split <;> omega
        · split <;> omega
      · split <;> omega
    have hE : searchStop ps.length stop = min ps.length (searchStart ps.length stop) := rfl
    rw [hS, hS, ← hE]
    have hb : searchStop ps.length stop ≤ ps.length := by unfold searchStop; omega
    generalize searchStart ps.length start = S
    generalize searchStop ps.length stop = E at *
    split
    · rename_i h
      rw [List.drop_eq_nil_of_le (by rw [List.length_take]; omega)]
      rfl
    · rename_i h
      simp only [Option.getD_some, Int.toNat_natCast]
      rw [List.drop_take, show ((E : Int) - (min ps.length S : Nat)).toNat = E - S by omega, Nat.min_eq_right (by omega)]

example : getslice (some [1, 2, 3, 4]) 1 (-1) = some [2, 3] ∧ getslice (some [1, 2]) 2 1 = none ∧
    getslice (some [1, 2]) (-9) 9 = some [1, 2] := by decide +kernel

/-- C101: `startswith` and `endswith`, with and without a range. -/
theorem affix_spec (x y : B) (start stop : Int) :
    startswith x y = .ok (decide (text y <+: text x)) ∧
    endswith x y = .ok (decide (text y <:+ text x)) ∧
    startswithRange x y start stop = .ok (decide (StartsWith (text x) (text y) start stop)) ∧
    endswithRange x y start stop = .ok (decide (EndsWith (text x) (text y) start stop)) := by
  have hb : searchStop (text x).length stop ≤ (text x).length := by unfold searchStop; omega
  have hp := Str.prefix_stands (text x) (text y) 0 (text x).length (Nat.zero_le _) (Nat.le_refl _)
  have hs := Str.suffix_stands (text x) (text y) 0 (text x).length (Nat.zero_le _) (Nat.le_refl _)
  rw [List.take_length, List.drop_zero, Nat.zero_add] at hp hs
  refine ⟨?_, ?_, ?_, ?_⟩
  · unfold startswith
    split
    · rename_i h
      congr 1
      rw [eq_comm, decide_eq_false_iff_not, hp]
      omega
    · rename_i h
      have := affixLoop_spec x (text y) 0 (by omega)
      rw [show ((0 : Nat) : Int) = 0 from rfl] at this
      rw [this]
      congr 1
      rw [decide_eq_decide, hp]
      exact ⟨fun a => ⟨by omega, a⟩, fun a => a.2⟩
  · unfold endswith
    simp only
    split
    · rename_i h
      congr 1
      rw [eq_comm, decide_eq_false_iff_not, hs]
      omega
    · rename_i h
      rw [show ((text x).length : Int) - (text y).length = (((text x).length - (text y).length : Nat) : Int) by omega,
        affixLoop_spec x (text y) _ (by omega)]
      congr 1
      rw [decide_eq_decide, hs]
      exact ⟨fun a => ⟨by omega, a⟩, fun a => a.2⟩
  · unfold startswithRange
    simp only [affixRange_eq]
    split
    · rename_i h
      congr 1
      rw [eq_comm, decide_eq_false_iff_not, Str.startsWith_stands]
      omega
    · rename_i h
      rw [affixLoop_spec x (text y) _ (by omega)]
      congr 1
      rw [decide_eq_decide, Str.startsWith_stands]
      exact ⟨fun a => ⟨by omega, a⟩, fun a => a.2⟩
  · unfold endswithRange
    simp only [affixRange_eq]
    split
    · rename_i h
      congr 1
      rw [eq_comm, decide_eq_false_iff_not, Str.endsWith_stands]
      omega
    · rename_i h
      rw [if_neg (by omega), show (searchStop (text x).length stop : Int) - (text y).length =
        ((searchStop (text x).length stop - (text y).length : Nat) : Int) by omega, affixLoop_spec x (text y) _ (by omega)]
      congr 1
      rw [decide_eq_decide, Str.endsWith_stands]
      exact ⟨fun a => ⟨by omega, a⟩, fun a => a.2⟩

example : startswith (some [1, 2, 3]) (some [1, 2]) = .ok true ∧ endswith (some [1, 2, 3]) (some [2, 3]) = .ok true ∧
    startswithRange (some [1, 2, 3]) none 4 9 = .ok false ∧ endswithRange (some [1, 2, 3]) (some [2]) (-3) (-1) = .ok true := by
  decide +kernel

theorem slice_left (x : B) (p : Nat) (h : p ≤ (text x).length) : text (getslice x 0 p) = (text x).take p := by
  have := Str.slice_nat (text x) 0 p h
  rw [slice_spec, show (0 : Int) = ((0 : Nat) : Int) from rfl, this, List.drop_zero]

theorem slice_right (x : B) (p : Nat) : text (getslice x p (text x).length) = (text x).drop p := by
  rw [slice_spec, Str.slice_nat _ _ _ (Nat.le_refl _), List.take_length]

/-- C101: `x.partition(sep)` cuts at the first occurrence of the separator: the three pieces together are `x`, and without an
occurrence the first is `x`. An empty separator raises ValueError. -/
theorem partition_spec (x sep : B) (hs : text sep ≠ []) :
    ∃ a m b, partition x sep = .ok (a, m, b) ∧
      (((∀ i, ¬ StandsAt (text x) (text sep) i) ∧ a = x ∧ text m = [] ∧ text b = []) ∨
       (text x = text a ++ text m ++ text b ∧ text m = text sep ∧
        ∀ i < (text a).length, ¬ StandsAt (text x) (text sep) i)) := by
  unfold partition
  rw [if_neg (fun h => hs (List.length_eq_zero_iff.1 h))]
  obtain ⟨r, e, h⟩ := find_spec x sep 0 (text x).length
  rw [e]
  simp only
  rcases h with ⟨i, a, b, c⟩ | ⟨a, b⟩
  · rw [if_neg (by omega)]
    have ho := (occurs_whole _ _ _).1 b
    refine ⟨_, _, _, rfl, Or.inr ⟨?_, rfl, ?_⟩⟩
    · rw [a, slice_left x i (by omega), show (i : Int) + (text sep).length = ((i + (text sep).length : Nat) : Int) by omega,
        slice_right]
      exact at_cut ho.2
    · intro j hj hc
      rw [a, slice_left x i (by omega), List.length_take] at hj
      exact c j (by omega) ((occurs_whole _ _ _).2 ⟨Str.stands_fits _ _ _ hs hc, hc⟩)
  · rw [if_pos a]
    exact ⟨_, _, _, rfl, Or.inl ⟨fun i hi => b i ((occurs_whole _ _ _).2 ⟨Str.stands_fits _ _ _ hs hi, hi⟩), rfl, rfl, rfl⟩⟩

/-- C101: `x.rpartition(sep)` cuts at the last occurrence; without one the last piece is `x`. -/
theorem rpartition_spec (x sep : B) (hs : text sep ≠ []) :
    ∃ a m b, rpartition x sep = .ok (a, m, b) ∧
      (((∀ i, ¬ StandsAt (text x) (text sep) i) ∧ b = x ∧ text m = [] ∧ text a = []) ∨
       (text x = text a ++ text m ++ text b ∧ text m = text sep ∧
        ∀ i > (text a).length, ¬ StandsAt (text x) (text sep) i)) := by
  unfold rpartition
  rw [if_neg (fun h => hs (List.length_eq_zero_iff.1 h))]
  obtain ⟨r, e, h⟩ := rfind_spec x sep 0 (text x).length
  rw [e]
  simp only
  rcases h with ⟨i, a, b, c⟩ | ⟨a, b⟩
  · rw [if_neg (by omega)]
    have ho := (occurs_whole _ _ _).1 b
    refine ⟨_, _, _, rfl, Or.inr ⟨?_, rfl, ?_⟩⟩
    · rw [a, slice_left x i (by omega), show (i : Int) + (text sep).length = ((i + (text sep).length : Nat) : Int) by omega,
        slice_right]
      exact at_cut ho.2
    · intro j hj hc
      rw [a, slice_left x i (by omega), List.length_take] at hj
      exact c j (by omega) ((occurs_whole _ _ _).2 ⟨Str.stands_fits _ _ _ hs hc, hc⟩)
  · rw [if_pos a]
    exact ⟨_, _, _, rfl, Or.inl ⟨fun i hi => b i ((occurs_whole _ _ _).2 ⟨Str.stands_fits _ _ _ hs hi, hi⟩), rfl, rfl, rfl⟩⟩

/-- C101: an empty separator raises ValueError. -/
theorem partition_empty (x sep : B) (hs : text sep = []) :
    partition x sep = .error .value ∧ rpartition x sep = .error .value := by
  unfold partition rpartition
  rw [hs]
  exact ⟨rfl, rfl⟩

example : partition (some [1, 2, 3, 2, 4]) (some [2]) = .ok (some [1], some [2], some [3, 2, 4]) ∧
    rpartition (some [1, 2, 3, 2, 4]) (some [2]) = .ok (some [1, 2, 3], some [2], some [4]) ∧
    partition (some [1]) (some [2]) = .ok (some [1], none, none) := ⟨rfl, rfl, rfl⟩

end Verif.Bytes
