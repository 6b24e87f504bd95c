import Verif.Str.SplitWords
/-
C23: split, rsplit, splitlines, join, partition and rpartition.
-/
namespace Verif.Str

open Spec (StandsAt)

theorem room0 : Room ⟨10, []⟩ := ⟨Nat.le_refl _, Nat.zero_le _⟩

theorem remaining0 (max : Int) : remaining max 0 = Spec.limit max := by
  unfold remaining
  cases Spec.limit max <;> rfl

theorem good_valid {l : Str} (hl : Valid l) {ps : List Str} (h : Good l ps) : ∀ p ∈ ps, Normal p := by
  intro p hp
  obtain ⟨qs, e, hq⟩ := h p hp
  rw [e]
  cases l with
  | none =>
    have : qs = [] := List.eq_nil_iff_forall_not_mem.2 (fun c hc => by simpa [text] using hq c hc)
    rw [this]
    trivial
  | some l => exact construct_valid l.width l.points qs hl hq

/-- C23: `s.split(sep, max)` cuts `s` at the separators from left to right, at most `max` times (any number of times if `max`
is negative), and raises ValueError exactly if the separator is empty. -/
theorem split_as_python (s sep : Str) (max : Int) :
    (split s sep max = .ok none ↔ text sep = []) ∧
    (text sep ≠ [] → ∃ ps, split s sep max = .ok (some ps) ∧ Spec.Split (text sep) (Spec.limit max) (text s) (ps.map text) ∧
      (Normal s → ∀ p ∈ ps, Normal p)) := by
  have main : text sep ≠ [] → ∃ ps, split s sep max = .ok (some ps) ∧
      Spec.Split (text sep) (Spec.limit max) (text s) (ps.map text) ∧ (Normal s → ∀ p ∈ ps, Normal p) := by
    intro hs
    unfold split
    rw [if_neg (by rw [List.length_eq_zero_iff]; exact hs)]
    by_cases hn : (text s).length = 0
    · rw [if_pos hn]
      refine ⟨_, rfl, .uncut _ _ (Or.inr (fun i hi => ?_)), fun h p hp => ?_⟩
      · have := stands_fits _ _ _ hs hi
        have := List.length_pos_iff.2 hs
        omega
      · rw [List.mem_singleton.1 hp]
        exact h
    · rw [if_neg hn]
      obtain ⟨r, ps, e, hg, h⟩ := splitLoop_spec s sep max hs ((text s).length + 1) 0 0 ⟨10, []⟩ (by omega) (Nat.zero_le _) room0
      rw [e]
      rw [remaining0, List.drop_zero] at h
      exact ⟨ps, rfl, h, fun hv => good_valid (normal_valid hv) hg⟩
  refine ⟨⟨fun h => ?_, fun h => ?_⟩, main⟩
  · by_contra hs
    obtain ⟨ps, e, _⟩ := main hs
    rw [e] at h
    simp at h
  · unfold split
    rw [if_pos (by rw [h]; rfl)]

/-- C23: `s.rsplit(sep, max)` cuts from right to left. -/
theorem rsplit_as_python (s sep : Str) (max : Int) :
    (rsplit s sep max = .ok none ↔ text sep = []) ∧
    (text sep ≠ [] → ∃ ps, rsplit s sep max = .ok (some ps) ∧ Spec.RSplit (text sep) (Spec.limit max) (text s) (ps.map text) ∧
      (Normal s → ∀ p ∈ ps, Normal p)) := by
  have main : text sep ≠ [] → ∃ ps, rsplit s sep max = .ok (some ps) ∧
      Spec.RSplit (text sep) (Spec.limit max) (text s) (ps.map text) ∧ (Normal s → ∀ p ∈ ps, Normal p) := by
    intro hs
    unfold rsplit
    rw [if_neg (by rw [List.length_eq_zero_iff]; exact hs)]
    by_cases hn : (text s).length = 0
    · rw [if_pos hn]
      refine ⟨_, rfl, .uncut _ _ (Or.inr (fun i hi => ?_)), fun h p hp => ?_⟩
      · have := stands_fits _ _ _ hs hi
        have := List.length_pos_iff.2 hs
        omega
      · rw [List.mem_singleton.1 hp]
        exact h
    · rw [if_neg hn]
      obtain ⟨r, ps, e, hg, h⟩ := rsplitLoop_spec s sep max hs ((text s).length + 1) (text s).length 0 ⟨10, []⟩ (by omega)
        (Nat.le_refl _) room0
      rw [e]
      simp only [remaining0, List.take_length] at h
      refine ⟨ps.reverse, by rw [List.nil_append], ?_, fun hv p hp => good_valid (normal_valid hv) hg p (List.mem_reverse.1 hp)⟩
      rw [List.map_reverse]
      exact h
  refine ⟨⟨fun h => ?_, fun h => ?_⟩, main⟩
  · by_contra hs
    obtain ⟨ps, e, _⟩ := main hs
    rw [e] at h
    simp at h
  · unfold rsplit
    rw [if_pos (by rw [h]; rfl)]

/-- "aaa,b,,c" and "aaaa" split at "," and "aa". -/
example : split (some ⟨1, [97, 97, 97, 44, 98, 44, 44, 99]⟩) (some ⟨1, [44]⟩) 2 =
      .ok (some [some ⟨1, [97, 97, 97]⟩, some ⟨1, [98]⟩, some ⟨1, [44, 99]⟩]) ∧
    split (some ⟨1, [97, 97, 97]⟩) (some ⟨1, [97, 97]⟩) (-1) = .ok (some [none, some ⟨1, [97]⟩]) ∧
    rsplit (some ⟨1, [97, 97, 97]⟩) (some ⟨1, [97, 97]⟩) (-1) = .ok (some [some ⟨1, [97]⟩, none]) ∧
    rsplit (some ⟨1, [97, 97, 97, 44, 98, 44, 44, 99]⟩) (some ⟨1, [44]⟩) 2 =
      .ok (some [some ⟨1, [97, 97, 97, 44, 98]⟩, none, some ⟨1, [99]⟩]) := by decide

/-! ### what follows from the specification -/

theorem split_nonempty {sep s : List Nat} {lim : Option Nat} {ps : List (List Nat)} (h : Spec.Split sep lim s ps) : ps ≠ [] := by
  cases h <;> simp

theorem join_cons (sep x : List Nat) {ps : List (List Nat)} (h : ps ≠ []) : Spec.join sep (x :: ps) = x ++ sep ++ Spec.join sep ps := by
  cases ps with
  | nil => exact absurd rfl h
  | cons y t => rfl

theorem join_append (sep y : List Nat) : ∀ {ps : List (List Nat)}, ps ≠ [] →
    Spec.join sep (ps ++ [y]) = Spec.join sep ps ++ sep ++ y
  | [], h => absurd rfl h
  | [x], _ => rfl
  | x :: z :: t, _ => by
    rw [List.cons_append, join_cons sep x (by simp), join_append sep y (ps := z :: t) (by simp), join_cons sep x (by simp)]
    simp [List.append_assoc]

theorem join_split {sep s : List Nat} {lim : Option Nat} {ps : List (List Nat)} (h : Spec.Split sep lim s ps) :
    Spec.join sep ps = s := by
  induction h with
  | uncut => rfl
  | cut _ a b ps _ _ rest ih => rw [join_cons _ _ (split_nonempty rest), ih]

theorem rsplit_nonempty {sep s : List Nat} {lim : Option Nat} {ps : List (List Nat)} (h : Spec.RSplit sep lim s ps) : ps ≠ [] := by
  cases h <;> simp

theorem join_rsplit {sep s : List Nat} {lim : Option Nat} {ps : List (List Nat)} (h : Spec.RSplit sep lim s ps) :
    Spec.join sep ps = s := by
  induction h with
  | uncut => rfl
  | cut _ a b ps _ _ rest ih => rw [join_append _ _ (rsplit_nonempty rest), ih]

theorem split_length {sep s : List Nat} {lim : Option Nat} {ps : List (List Nat)} (h : Spec.Split sep lim s ps) :
    ∀ n, lim = some n → ps.length ≤ n + 1 := by
  induction h with
  | uncut => intro n _; simp
  | cut lim a b ps h _ rest ih =>
    intro n hn
    have hn' : n ≠ 0 := fun h0 => h (by rw [hn, h0])
    have := ih (n - 1) (by rw [hn]; rfl)
    simp only [List.length_cons]
    omega

theorem rsplit_length {sep s : List Nat} {lim : Option Nat} {ps : List (List Nat)} (h : Spec.RSplit sep lim s ps) :
    ∀ n, lim = some n → ps.length ≤ n + 1 := by
  induction h with
  | uncut => intro n _; simp
  | cut lim a b ps h _ rest ih =>
    intro n hn
    have hn' : n ≠ 0 := fun h0 => h (by rw [hn, h0])
    have := ih (n - 1) (by rw [hn]; rfl)
    simp only [List.length_append, List.length_singleton]
    omega

theorem stands_append_left (a t sep : List Nat) (i : Nat) (hs : sep ≠ []) (h : StandsAt a sep i) : StandsAt (a ++ t) sep i := by
  have hl := stands_fits _ _ _ hs h
  unfold StandsAt at h ⊢
  rw [List.drop_append_of_le_length (by omega), List.take_append_of_le_length (by rw [List.length_drop]; omega)]
  exact h

theorem stands_append_right (a t sep : List Nat) (i : Nat) (h : StandsAt t sep i) : StandsAt (a ++ t) sep (a.length + i) := by
  unfold StandsAt at h ⊢
  rw [List.drop_append, List.drop_eq_nil_of_le (by omega), Nat.add_sub_cancel_left, List.nil_append]
  exact h

theorem split_pieces {sep s : List Nat} (hs : sep ≠ []) {lim : Option Nat} {ps : List (List Nat)} (h : Spec.Split sep lim s ps) :
    (∀ p ∈ ps.dropLast, ∀ i, ¬ StandsAt p sep i) ∧ (lim = none → ∀ p ∈ ps, ∀ i, ¬ StandsAt p sep i) := by
  induction h with
  | uncut lim s h =>
    refine ⟨by simp, fun hn p hp => ?_⟩
    rw [List.mem_singleton.1 hp]
    rcases h with h | h
    · rw [hn] at h; simp at h
    · exact h
  | cut lim a b ps h first rest ih =>
    have ha : ∀ i, ¬ StandsAt a sep i := by
      intro i hi
      have hl := stands_fits _ _ _ hs hi
      have hpos := List.length_pos_iff.2 hs
      refine first i (by omega) ?_
      rw [List.append_assoc]
      exact stands_append_left _ _ _ _ hs hi
    constructor
    · rw [List.dropLast_cons_of_ne_nil (split_nonempty rest)]
      intro p hp
      rcases List.mem_cons.1 hp with hp | hp
      · rw [hp]; exact ha
      · exact ih.1 p hp
    · intro hn p hp
      rcases List.mem_cons.1 hp with hp | hp
      · rw [hp]; exact ha
      · exact ih.2 (by rw [hn]; rfl) p hp

theorem rsplit_pieces {sep s : List Nat} (hs : sep ≠ []) {lim : Option Nat} {ps : List (List Nat)} (h : Spec.RSplit sep lim s ps) :
    (∀ p ∈ ps.tail, ∀ i, ¬ StandsAt p sep i) ∧ (lim = none → ∀ p ∈ ps, ∀ i, ¬ StandsAt p sep i) := by
  induction h with
  | uncut lim s h =>
    refine ⟨by simp, fun hn p hp => ?_⟩
    rw [List.mem_singleton.1 hp]
    rcases h with h | h
    · rw [hn] at h; simp at h
    · exact h
  | cut lim a b ps h last rest ih =>
    have hb : ∀ i, ¬ StandsAt b sep i := by
      intro i hi
      have hpos := List.length_pos_iff.2 hs
      refine last ((a ++ sep).length + i) (by simp; omega) ?_
      exact stands_append_right _ _ _ _ hi
    constructor
    · rw [List.tail_append_of_ne_nil (rsplit_nonempty rest)]
      intro p hp
      rcases List.mem_append.1 hp with hp | hp
      · exact ih.1 p hp
      · rw [List.mem_singleton.1 hp]; exact hb
    · intro hn p hp
      rcases List.mem_append.1 hp with hp | hp
      · exact ih.2 (by rw [hn]; rfl) p hp
      · rw [List.mem_singleton.1 hp]; exact hb

/-- C23: `sep.join(s.split(sep, max)) == s`; no piece but the remainder contains the separator, and none at all without a
limit; there are at most `max + 1` pieces. The same for `rsplit`. -/
theorem join_inverts_split (s sep : Str) (max : Int) (hs : Normal s) (hsep : Normal sep) (hne : text sep ≠ []) :
    ∃ ps qs r q, split s sep max = .ok (some ps) ∧ join sep ps = .ok r ∧ text r = text s ∧
      (∀ p ∈ ps.dropLast, ∀ i, ¬ StandsAt (text p) (text sep) i) ∧
      (max < 0 → ∀ p ∈ ps, ∀ i, ¬ StandsAt (text p) (text sep) i) ∧ (0 ≤ max → (ps.length : Int) ≤ max + 1) ∧
      rsplit s sep max = .ok (some qs) ∧ join sep qs = .ok q ∧ text q = text s ∧
      (∀ p ∈ qs.tail, ∀ i, ¬ StandsAt (text p) (text sep) i) ∧
      (max < 0 → ∀ p ∈ qs, ∀ i, ¬ StandsAt (text p) (text sep) i) ∧ (0 ≤ max → (qs.length : Int) ≤ max + 1) := by
  obtain ⟨ps, e1, h1, v1⟩ := (split_as_python s sep max).2 hne
  obtain ⟨qs, e2, h2, v2⟩ := (rsplit_as_python s sep max).2 hne
  obtain ⟨r, e3, h3⟩ := join_spec sep ps (normal_valid hsep) (fun p hp => normal_valid (v1 hs p hp))
  obtain ⟨q, e4, h4⟩ := join_spec sep qs (normal_valid hsep) (fun p hp => normal_valid (v2 hs p hp))
  have hlim : max < 0 → Spec.limit max = none := fun h => by unfold Spec.limit; rw [if_pos h]
  have hlim' : 0 ≤ max → Spec.limit max = some max.toNat := fun h => by unfold Spec.limit; rw [if_neg (by omega)]
  refine ⟨ps, qs, r, q, e1, e3, by rw [h3, join_split h1], ?_, ?_, ?_, e2, e4, by rw [h4, join_rsplit h2], ?_, ?_, ?_⟩
  · intro p hp
    exact (split_pieces hne h1).1 (text p) (by rw [← List.map_dropLast]; exact List.mem_map_of_mem hp)
  · intro hm p hp
    exact (split_pieces hne h1).2 (hlim hm) (text p) (List.mem_map_of_mem hp)
  · intro hm
    have := split_length h1 _ (hlim' hm)
    rw [List.length_map] at this
    omega
  · intro p hp
    exact (rsplit_pieces hne h2).1 (text p) (by rw [← List.map_tail]; exact List.mem_map_of_mem hp)
  · intro hm p hp
    exact (rsplit_pieces hne h2).2 (hlim hm) (text p) (List.mem_map_of_mem hp)
  · intro hm
    have := rsplit_length h2 _ (hlim' hm)
    rw [List.length_map] at this
    omega

example : Normal (some ⟨1, [97, 44, 98]⟩) ∧ Normal (some ⟨1, [44]⟩) :=
  ⟨⟨⟨by simp, by decide, by decide⟩, by decide⟩, ⟨⟨by simp, by decide, by decide⟩, by decide⟩⟩

/-- C23: `sep.join(parts)`: the parts with the separator between them, for any strings of any widths. -/
theorem join_as_python (sep : Str) (parts : List Str) (hs : Valid sep) (hp : ∀ p ∈ parts, Valid p) :
    ∃ r, join sep parts = .ok r ∧ text r = Spec.join (text sep) (parts.map text) :=
  join_spec sep parts hs hp

example : join (some ⟨2, [8364]⟩) [some ⟨1, [97]⟩, none, some ⟨1, [98, 99]⟩] =
    .ok (some ⟨2, [97, 8364, 8364, 98, 99]⟩) := by decide

/-- The code violates C20/C23: joining empty strings gives an empty string that is stored, and so is not equal to "". The
compiled `"".join(["", ""]) == ""` is False. -/
theorem join_of_empty_not_empty :
    join none [none, none] = .ok (some ⟨1, []⟩) ∧ cmp .eq (some ⟨1, []⟩) none = .ok false := by decide

/-- C23: `s.split()` and `s.split(None, max)` give the words. It is missing a string of only white space with `max` zero:
see `split_blank_zero`. -/
theorem split_words_partial (space : Nat → Bool) (s : Str) (max : Int) (hz : max ≠ 0 ∨ text s = [] ∨ ∃ c ∈ text s, space c = false) :
    ∃ ps, splitWords space s max = .ok ps ∧ Spec.Words space (Spec.limit max) (text s) (ps.map text) := by
  unfold splitWords
  by_cases hn : (text s).length = 0
  · rw [if_pos hn]
    refine ⟨[], rfl, .blank _ _ ?_⟩
    rw [List.length_eq_zero_iff.1 hn]
    simp
  · rw [if_neg hn]
    have hz' : max ≠ 0 ∨ ∃ c ∈ text s, space c = false := by
      rcases hz with h | h | h
      · exact Or.inl h
      · exact absurd (by rw [h]; rfl) hn
      · exact Or.inr h
    obtain ⟨r, ps, e, _, h⟩ := wordsLoop_spec space s max hz' ((text s).length + 1) 0 0 ⟨10, []⟩ (by omega) (Nat.zero_le _) room0
      (fun _ => rfl)
    rw [e]
    rw [remaining0, List.drop_zero] at h
    exact ⟨ps, rfl, h⟩

/-- C23: the same for `rsplit`. -/
theorem rsplit_words_partial (space : Nat → Bool) (s : Str) (max : Int) (hz : max ≠ 0 ∨ text s = [] ∨ ∃ c ∈ text s, space c = false) :
    ∃ ps, rsplitWords space s max = .ok ps ∧ Spec.RWords space (Spec.limit max) (text s) (ps.map text) := by
  unfold rsplitWords
  by_cases hn : (text s).length = 0
  · rw [if_pos hn]
    refine ⟨[], rfl, .blank _ _ ?_⟩
    rw [List.length_eq_zero_iff.1 hn]
    simp
  · rw [if_neg hn]
    have hz' : max ≠ 0 ∨ ∃ c ∈ text s, space c = false := by
      rcases hz with h | h | h
      · exact Or.inl h
      · exact absurd (by rw [h]; rfl) hn
      · exact Or.inr h
    obtain ⟨r, ps, e, _, h⟩ := rwordsLoop_spec space s max hz' ((text s).length + 1) (text s).length 0 ⟨10, []⟩ (by omega)
      (Nat.le_refl _) room0 (fun _ => rfl)
    rw [e]
    simp only [remaining0, List.take_length] at h
    refine ⟨ps.reverse, by rw [List.nil_append], ?_⟩
    rw [List.map_reverse]
    exact h

/-- "  ab c  d " in words. -/
example : splitWords (· == 32) (some ⟨1, [32, 32, 97, 98, 32, 99, 32, 32, 100, 32]⟩) (-1) =
      .ok [some ⟨1, [97, 98]⟩, some ⟨1, [99]⟩, some ⟨1, [100]⟩] ∧
    splitWords (· == 32) (some ⟨1, [32, 32, 97, 98, 32, 99, 32, 32, 100, 32]⟩) 1 =
      .ok [some ⟨1, [97, 98]⟩, some ⟨1, [99, 32, 32, 100, 32]⟩] ∧
    rsplitWords (· == 32) (some ⟨1, [32, 32, 97, 98, 32, 99, 32, 32, 100, 32]⟩) 1 =
      .ok [some ⟨1, [32, 32, 97, 98, 32, 99]⟩, some ⟨1, [100]⟩] := by decide

/-- The code violates C23: `"  ".split(None, 0)` is [""] where Python gives []. -/
theorem split_blank_zero :
    splitWords (· == 32) (some ⟨1, [32, 32]⟩) 0 = .ok [none] ∧ Spec.Words (· == 32) (Spec.limit 0) [32, 32] [] ∧
    rsplitWords (· == 32) (some ⟨1, [32, 32]⟩) 0 = .ok [none] :=
  ⟨by decide, .blank _ _ (by simp), by decide⟩

/-- C23: `s.splitlines(keep)`. -/
theorem splitlines_as_python (s : Str) (keep : Bool) :
    ∃ ps, splitlines s keep = .ok ps ∧ Spec.Lines keep (text s) (ps.map text) ∧ (Normal s → ∀ p ∈ ps, Normal p) := by
  unfold splitlines
  obtain ⟨ps, e, hg, h⟩ := linesLoop_spec s keep ((text s).length + 1) 0 ⟨10, []⟩ (by omega) (Nat.zero_le _) room0
  rw [List.drop_zero] at h
  exact ⟨ps, e, h, fun hv => good_valid (normal_valid hv) hg⟩

theorem lines_join {s : List Nat} {ps : List (List Nat)} (h : Spec.Lines true s ps) : ps.flatten = s := by
  induction h with
  | empty => rfl
  | last => simp
  | line a e b ps _ _ _ ih => simp [ih]

theorem join_nil : ∀ ps : List (List Nat), Spec.join [] ps = ps.flatten
  | [] => rfl
  | [x] => by simp [Spec.join]
  | x :: y :: t => by
    rw [join_cons [] x (by simp), join_nil (y :: t)]
    simp

/-- C23: `"".join(s.splitlines(True)) == s`. -/
theorem join_inverts_splitlines (s : Str) (hs : Normal s) :
    ∃ ps r, splitlines s true = .ok ps ∧ join none ps = .ok r ∧ text r = text s := by
  obtain ⟨ps, e, h, v⟩ := splitlines_as_python s true
  obtain ⟨r, e', h'⟩ := join_spec none ps trivial (fun p hp => normal_valid (v hs p hp))
  refine ⟨ps, r, e, e', ?_⟩
  rw [h']
  change Spec.join [] (ps.map text) = _
  rw [join_nil, lines_join h]

/-- "a\r\nb\n\nc" in lines. -/
example : splitlines (some ⟨1, [97, 13, 10, 98, 10, 10, 99]⟩) true =
      .ok [some ⟨1, [97, 13, 10]⟩, some ⟨1, [98, 10]⟩, some ⟨1, [10]⟩, some ⟨1, [99]⟩] ∧
    splitlines (some ⟨1, [97, 13, 10, 98, 10, 10]⟩) false = .ok [some ⟨1, [97]⟩, some ⟨1, [98]⟩, none] := by decide

/-! ### partition -/

theorem parts_spec (x sep : Str) (p : Nat) (h : StandsAt (text x) (text sep) p) (hs : text sep ≠ []) :
    ∃ a b, parts x sep p = .ok (some (a, sep, b)) ∧ text a = (text x).take p ∧ text x = text a ++ text sep ++ text b := by
  unfold parts
  have hl := stands_fits _ _ _ hs h
  have e1 : getsubstr x 0 (p : Int) = .ok (construct (width x) ((text x).take p)) := by
    have := getsubstr_spec x ((0 : Nat) : Int) (p : Int)
    rw [slice_nat _ _ _ (by omega), List.drop_zero] at this
    exact this
  have e2 : getsubstr x ((p : Int) + (text sep).length) (text x).length =
      .ok (construct (width x) ((text x).drop (p + (text sep).length))) := by
    have := getsubstr_spec x ((p + (text sep).length : Nat) : Int) (text x).length
    rw [slice_nat _ _ _ (Nat.le_refl _), List.take_length] at this
    rw [← this]
    rfl
  rw [e1, e2]
  refine ⟨_, _, rfl, text_construct _ _, ?_⟩
  rw [text_construct, text_construct]
  unfold StandsAt at h
  conv_lhs => rw [← List.take_append_drop p (text x), ← List.take_append_drop (text sep).length ((text x).drop p), h, List.drop_drop]
  rw [List.append_assoc]

/-- C23: `s.partition(sep)` cuts at the first separator, `s.rpartition(sep)` at the last; the pieces concatenate to `s`. Both
raise ValueError exactly if the separator is empty. -/
theorem partition_as_python (s sep : Str) :
    (partition s sep = .ok none ↔ text sep = []) ∧ (rpartition s sep = .ok none ↔ text sep = []) ∧
    (text sep ≠ [] → (∀ i, ¬ StandsAt (text s) (text sep) i) →
      partition s sep = .ok (some (s, none, none)) ∧ rpartition s sep = .ok (some (none, none, s))) ∧
    (text sep ≠ [] → (∃ i, StandsAt (text s) (text sep) i) →
      (∃ a b, partition s sep = .ok (some (a, sep, b)) ∧ text s = text a ++ text sep ++ text b ∧
        ∀ i < (text a).length, ¬ StandsAt (text s) (text sep) i) ∧
      (∃ a b, rpartition s sep = .ok (some (a, sep, b)) ∧ text s = text a ++ text sep ++ text b ∧
        ∀ i > (text a).length, ¬ StandsAt (text s) (text sep) i)) := by
  have hocc : text sep ≠ [] → ∀ i, Spec.OccursAt (text s) (text sep) 0 (text s).length i ↔ StandsAt (text s) (text sep) i := by
    intro hs i
    have hlo : Spec.searchStart (text s).length 0 = 0 := rfl
    have hhi : Spec.searchStop (text s).length ((text s).length : Int) = (text s).length := by
      unfold Spec.searchStop
      rw [if_neg (by omega)]
      simp
    unfold Spec.OccursAt
    rw [hlo, hhi]
    exact ⟨fun h => h.2.2, fun h => ⟨Nat.zero_le _, stands_fits _ _ _ hs h, h⟩⟩
  have hno : text sep ≠ [] → (∀ i, ¬ StandsAt (text s) (text sep) i) →
      partition s sep = .ok (some (s, none, none)) ∧ rpartition s sep = .ok (some (none, none, s)) := by
    intro hs hn
    unfold partition rpartition
    rw [if_neg (by rw [List.length_eq_zero_iff]; exact hs), if_neg (by rw [List.length_eq_zero_iff]; exact hs)]
    have h1 := (find_least s sep 0 (text s).length (-1)).2 (Or.inr ⟨rfl, fun i h => hn i ((hocc hs i).1 h)⟩)
    have h2 := (rfind_greatest s sep 0 (text s).length (-1)).2 (Or.inr ⟨rfl, fun i h => hn i ((hocc hs i).1 h)⟩)
    rw [h1, h2]
    exact ⟨rfl, rfl⟩
  have hyes : text sep ≠ [] → (∃ i, StandsAt (text s) (text sep) i) →
      (∃ a b, partition s sep = .ok (some (a, sep, b)) ∧ text s = text a ++ text sep ++ text b ∧
        ∀ i < (text a).length, ¬ StandsAt (text s) (text sep) i) ∧
      (∃ a b, rpartition s sep = .ok (some (a, sep, b)) ∧ text s = text a ++ text sep ++ text b ∧
        ∀ i > (text a).length, ¬ StandsAt (text s) (text sep) i) := by
    rintro hs ⟨j, hj⟩
    unfold partition rpartition
    rw [if_neg (by rw [List.length_eq_zero_iff]; exact hs), if_neg (by rw [List.length_eq_zero_iff]; exact hs)]
    constructor
    · obtain ⟨r, e, h⟩ := find_spec s sep 0 (text s).length
      rw [e]
      rcases h with ⟨i, h1, h2, h3⟩ | ⟨h1, h2⟩
      · rw [hocc hs] at h2
        simp only [h1]
        rw [if_neg (by omega)]
        obtain ⟨a, b, e1, e2, e3⟩ := parts_spec s sep i h2 hs
        refine ⟨a, b, e1, e3, fun k hk hst => ?_⟩
        rw [e2, List.length_take] at hk
        exact h3 k (by omega) ((hocc hs k).2 hst)
      · exact absurd ((hocc hs j).2 hj) (h2 j)
    · obtain ⟨r, e, h⟩ := rfind_spec s sep 0 (text s).length
      rw [e]
      rcases h with ⟨i, h1, h2, h3⟩ | ⟨h1, h2⟩
      · rw [hocc hs] at h2
        simp only [h1]
        rw [if_neg (by omega)]
        obtain ⟨a, b, e1, e2, e3⟩ := parts_spec s sep i h2 hs
        refine ⟨a, b, e1, e3, fun k hk hst => ?_⟩
        have := stands_fits _ _ _ hs h2
        rw [e2, List.length_take] at hk
        exact h3 k (by omega) ((hocc hs k).2 hst)
      · exact absurd ((hocc hs j).2 hj) (h2 j)
  have hempty : text sep = [] → partition s sep = .ok none ∧ rpartition s sep = .ok none := by
    intro h
    unfold partition rpartition
    rw [if_pos (by rw [h]; rfl), if_pos (by rw [h]; rfl)]
    exact ⟨rfl, rfl⟩
  have hsome : text sep ≠ [] → partition s sep ≠ .ok none ∧ rpartition s sep ≠ .ok none := by
    intro hs
    by_cases hex : ∃ i, StandsAt (text s) (text sep) i
    · obtain ⟨⟨a, b, e, _⟩, ⟨a', b', e', _⟩⟩ := hyes hs hex
      rw [e, e']
      simp
    · obtain ⟨e, e'⟩ := hno hs (fun i hi => hex ⟨i, hi⟩)
      rw [e, e']
      simp
  exact ⟨⟨fun h => by by_contra hs; exact (hsome hs).1 h, fun h => (hempty h).1⟩,
    ⟨fun h => by by_contra hs; exact (hsome hs).2 h, fun h => (hempty h).2⟩, hno, hyes⟩

example : partition (some ⟨1, [97, 44, 98, 44, 99]⟩) (some ⟨1, [44]⟩) =
      .ok (some (some ⟨1, [97]⟩, some ⟨1, [44]⟩, some ⟨1, [98, 44, 99]⟩)) ∧
    rpartition (some ⟨1, [97, 44, 98, 44, 99]⟩) (some ⟨1, [44]⟩) =
      .ok (some (some ⟨1, [97, 44, 98]⟩, some ⟨1, [44]⟩, some ⟨1, [99]⟩)) := by decide

end Verif.Str
