import Verif.Bytes.SplitProofs
/-
C102: splitting and joining bytes.
-/
namespace Verif.Bytes
open Verif.Str (remaining remaining_zero remaining_succ remaining0)
open Verif.Str.Spec (Split RSplit Words RWords limit)

theorem limit_nonzero {max : Int} (h : max ≠ 0) : remaining max 0 ≠ some 0 := by
  intro e
  rw [remaining_zero] at e
  omega

theorem map_text_some (qs : List (List Nat)) : (qs.map some).map text = qs := by
  rw [List.map_map]
  have : (text ∘ some) = (id : List Nat → List Nat) := rfl
  rw [this, List.map_id]

theorem limit_zero : limit 0 = some 0 := rfl

/-- C102: `x.split(sep, max)` cuts at the occurrences of the separator from the left, at most `max` times, and keeps what is
between them. What is missing: the empty bytes with `max` zero (see `split_empty_zero`). -/
theorem split_partial (x sep : B) (max : Int) (hs : text sep ≠ []) (hz : max ≠ 0 ∨ text x ≠ []) :
    ∃ ps, splitMethod split x (some sep) max = .ok ps ∧ Split (text sep) (limit max) (text x) (ps.map text) := by
  unfold splitMethod split
  simp only
  rw [if_neg (fun h => hs (List.length_eq_zero_iff.1 h))]
  cases sep with
  | none => exact absurd rfl hs
  | some s =>
    by_cases h0 : max = 0
    · have hx := hz.resolve_left (fun h => h h0)
      simp only [if_pos h0, reduceCtorEq, if_false, ne_eq, hx, not_false_eq_true, if_true]
      refine ⟨_, rfl, ?_⟩
      rw [h0, limit_zero]
      exact .uncut _ _ (Or.inl rfl)
    · rw [if_neg h0]
      obtain ⟨qs, e, h⟩ := splitLoop_sep s hs max ((text x).length + 1) (text x) 0 [] (by omega) (limit_nonzero h0)
      refine ⟨_, e, ?_⟩
      rw [List.nil_append, map_text_some, ← remaining0]
      exact h

example : splitMethod split (some [1, 9, 2, 9, 9]) (some (some [9])) (-1) = .ok [some [1], some [2], some [], some []] ∧
    splitMethod split (some [1, 9, 9, 9, 2]) (some (some [9, 9])) 1 = .ok [some [1], some [9, 2]] ∧
    splitMethod split none (some (some [9])) (-1) = .ok [some []] ∧
    splitMethod split (some [1]) (some none) 1 = .error .value := by decide +kernel

/-- C102: `x.rsplit(sep, max)` cuts from the right. -/
theorem rsplit_partial (x sep : B) (max : Int) (hs : text sep ≠ []) (hz : max ≠ 0 ∨ text x ≠ []) :
    ∃ ps, splitMethod rsplit x (some sep) max = .ok ps ∧ RSplit (text sep) (limit max) (text x) (ps.map text) := by
  unfold splitMethod rsplit
  simp only
  rw [if_neg (fun h => hs (List.length_eq_zero_iff.1 h))]
  cases sep with
  | none => exact absurd rfl hs
  | some s =>
    by_cases h0 : max = 0
    · have hx := hz.resolve_left (fun h => h h0)
      simp only [if_pos h0, reduceCtorEq, if_false, ne_eq, List.reverse_eq_nil_iff, hx, not_false_eq_true, if_true]
      refine ⟨_, rfl, ?_⟩
      rw [h0, limit_zero]
      simp only [List.map_cons, List.map_nil, text, Option.getD_some, List.reverse_reverse]
      exact .uncut _ _ (Or.inl rfl)
    · rw [if_neg h0]
      have hs' : s.reverse ≠ [] := by simpa [text] using hs
      obtain ⟨qs, e, h⟩ := splitLoop_sep s.reverse hs' max ((text x).length + 1) (text x).reverse 0 []
        (by rw [List.length_reverse]; omega) (limit_nonzero h0)
      have := rsplitLoop_eq (some s) max ((text x).length + 1) (text x).reverse 0 []
      rw [show mir [] = [] from rfl] at this
      rw [this, show Option.map List.reverse (some s) = some s.reverse from rfl, show (0 : Int) = ((0 : Nat) : Int) from rfl, e]
      refine ⟨_, rfl, ?_⟩
      have hr := split_reverse hs h
      rw [List.reverse_reverse] at hr
      rw [List.nil_append, ← remaining0, List.map_reverse]
      have hm : (mir (qs.map some)).map text = qs.map List.reverse := by
        unfold mir
        rw [List.map_map, List.map_map]
        rfl
      rw [hm]
      exact hr

example : splitMethod rsplit (some [1, 9, 2, 9, 3]) (some (some [9])) 1 = .ok [some [1, 9, 2], some [3]] ∧
    splitMethod rsplit (some [1, 9, 9, 9, 2]) (some (some [9, 9])) (-1) = .ok [some [1, 9], some [2]] := by decide +kernel

/-- C102: an empty separator raises ValueError. -/
theorem split_no_separator (x sep : B) (max : Int) (h : text sep = []) :
    splitMethod split x (some sep) max = .error .value ∧ splitMethod rsplit x (some sep) max = .error .value := by
  unfold splitMethod
  simp only
  rw [h]
  exact ⟨rfl, rfl⟩

theorem mem_takeWhile (p : Nat → Bool) : ∀ (s : List Nat), ∀ c ∈ s.takeWhile p, p c = true
  | [], c, h => by simp at h
  | x :: t, c, h => by
    rw [List.takeWhile_cons] at h
    split at h
    · rename_i hp
      rcases List.mem_cons.1 h with rfl | h
      · exact hp
      · exact mem_takeWhile p t c h
    · simp at h

theorem dropWhile_words (space : Nat → Bool) (s : List Nat) :
    Words space (some 0) s (if s.dropWhile space ≠ [] then [s.dropWhile space] else []) := by
  have hall : ∀ c ∈ s.takeWhile space, space c = true := mem_takeWhile space s
  by_cases h : s.dropWhile space = []
  · rw [if_neg (by simpa using h)]
    refine .blank _ _ (fun c hc => ?_)
    have := List.takeWhile_append_dropWhile (p := space) (l := s)
    rw [h, List.append_nil] at this
    exact hall c (by rw [this]; exact hc)
  · rw [if_pos h]
    have hd := List.takeWhile_append_dropWhile (p := space) (l := s)
    cases hc : s.dropWhile space with
    | nil => exact absurd hc h
    | cons c t =>
      rw [hc] at hd
      conv => arg 3; rw [← hd]
      refine .uncut _ _ _ hall ?_
      have := List.head_dropWhile_not space (l := s) h
      simpa [hc] using this

/-- C102: `x.split(None, max)`: the words between white space. What is missing: a positive `max` where two bytes of white
space are adjacent (see `split_keeps_white`). -/
theorem split_words_partial (x : B) (max : Int) (h : max ≤ 0 ∨ NoDouble isspace (text x)) :
    ∃ ps, splitMethod split x none max = .ok ps ∧ Words isspace (limit max) (text x) (ps.map text) := by
  unfold splitMethod split
  simp only
  by_cases h0 : max = 0
  · simp only [if_pos h0, if_true]
    refine ⟨_, rfl, ?_⟩
    rw [h0, limit_zero]
    have := dropWhile_words isspace (text x)
    by_cases hd : (text x).dropWhile isspace = []
    · simp only [hd, ne_eq, not_true_eq_false, if_false] at this ⊢
      exact this
    · simp only [hd, ne_eq, not_false_eq_true, if_true] at this ⊢
      exact this
  · rw [if_neg h0]
    obtain ⟨qs, e, hq⟩ := splitLoop_words max ((text x).length + 1) (text x) 0 [] (by omega) (limit_nonzero h0)
      (h.imp_left fun h => by omega)
    refine ⟨_, e, ?_⟩
    rw [List.nil_append, map_text_some, ← remaining0]
    exact hq

example : splitMethod split (some [32, 97, 32, 32, 98]) none (-1) = .ok [some [97], some [98]] ∧
    splitMethod split (some [32, 97, 32, 98, 32, 99]) none 1 = .ok [some [97], some [98, 32, 99]] ∧
    splitMethod split (some [32, 32, 97, 32]) none 0 = .ok [some [97, 32]] := by decide +kernel

example : NoDouble isspace [32, 97, 32, 98, 32, 99] := by
  intro i c d hc hd
  have hi : i < 5 := by
    have := (List.getElem?_eq_some_iff.1 hd).1
    simp at this
    omega
  match i, hi with
  | 0, _ | 1, _ | 2, _ | 3, _ | 4, _ => simp at hc hd; subst hc; subst hd; decide

/-- C102: `x.rsplit(None, max)`. -/
theorem rsplit_words_partial (x : B) (max : Int) (h : max ≤ 0 ∨ NoDouble isspace (text x)) :
    ∃ ps, splitMethod rsplit x none max = .ok ps ∧ RWords isspace (limit max) (text x) (ps.map text) := by
  unfold splitMethod rsplit
  simp only
  by_cases h0 : max = 0
  · simp only [if_pos h0, if_true]
    refine ⟨_, rfl, ?_⟩
    rw [h0, limit_zero]
    have := words_reverse (dropWhile_words isspace (text x).reverse)
    rw [List.reverse_reverse] at this
    by_cases hd : (text x).reverse.dropWhile isspace = []
    · simp only [hd, ne_eq, not_true_eq_false, if_false] at this ⊢
      exact this
    · simp only [hd, ne_eq, not_false_eq_true, if_true] at this ⊢
      exact this
  · rw [if_neg h0]
    obtain ⟨qs, e, hq⟩ := splitLoop_words max ((text x).length + 1) (text x).reverse 0 []
      (by rw [List.length_reverse]; omega) (limit_nonzero h0) (h.imp (fun h => by omega) noDouble_reverse)
    have := rsplitLoop_eq none max ((text x).length + 1) (text x).reverse 0 []
    rw [show mir [] = [] from rfl] at this
    rw [this, show Option.map List.reverse (none : B) = none from rfl, show (0 : Int) = ((0 : Nat) : Int) from rfl, e]
    refine ⟨_, rfl, ?_⟩
    have hr := words_reverse hq
    rw [List.reverse_reverse] at hr
    rw [List.nil_append, ← remaining0, List.map_reverse]
    have hm : (mir (qs.map some)).map text = qs.map List.reverse := by
      unfold mir
      rw [List.map_map, List.map_map]
      rfl
    rw [hm]
    exact hr

example : splitMethod rsplit (some [97, 32, 98, 32, 99]) none 1 = .ok [some [97, 32, 98], some [99]] ∧
    splitMethod rsplit (some [97, 32, 32, 98]) none (-1) = .ok [some [97], some [98]] := by decide +kernel

/-- C102: the white space is that of `bytes`. -/
theorem isspace_white (c : Nat) : isspace c = true ↔ Spec.White c := by
  unfold isspace Spec.White
  simp
  omega

/-! ### lines -/

theorem linesLoop_spec (keep : Bool) : ∀ (fuel : Nat) (rest : List Nat) (out : List B), rest.length < fuel →
    ∃ qs : List (List Nat), linesLoop keep fuel rest out = .ok (out ++ qs.map some) ∧ Spec.Lines keep rest qs
  | 0, _, _, h => by omega
  | fuel + 1, rest, out, hf => by
    rw [linesLoop]
    by_cases hn : rest = []
    · rw [if_pos hn]
      exact ⟨[], by simp, hn ▸ .empty⟩
    · rw [if_neg hn]
      obtain ⟨h1, h2, h3⟩ := scanByte_spec (fun c => decide (c = 10 ∨ c = 13)) rest
      simp only
      generalize scanByte (fun c => decide (c = 10 ∨ c = 13)) rest = m at *
      have h2' : ∀ c ∈ rest.take m, c ≠ 10 ∧ c ≠ 13 := fun c hc => by simpa using h2 c hc
      by_cases hlt : m < rest.length
      · have hx := h3 _ (List.getElem?_eq_getElem hlt)
        rw [decide_eq_true_eq] at hx
        have hd1 := List.drop_eq_getElem_cons hlt
        have hsplit : rest = rest.take m ++ rest.drop m := (List.take_append_drop m rest).symm
        simp only [if_pos hlt]
        have hlen : (rest.take m).length = m := by rw [List.length_take]; omega
        -- one line end of `n` bytes
        have hstep : ∀ (n : Nat) (e : List Nat), e.length = n → 0 < n → rest.drop m = e ++ rest.drop (m + n) →
            (e = [13, 10] ∨ e = [10] ∨ (e = [13] ∧ (rest.drop (m + n)).head? ≠ some 10)) →
            ∃ qs : List (List Nat),
              (if m + n > rest.length then Except.ok (out ++ [some rest]) else
                linesLoop keep fuel (rest.drop (m + n)) (out ++ [some (rest.take (m + if keep then n else 0))])) =
                .ok (out ++ qs.map some) ∧ Spec.Lines keep rest qs := by
          intro n e he hn0 hdrop hend
          have hle : m + n ≤ rest.length := by
            have := congrArg List.length hdrop
            rw [List.length_append, List.length_drop, List.length_drop, he] at this
            omega
          rw [if_neg (by omega)]
          obtain ⟨qs, eq, hq⟩ := linesLoop_spec keep fuel (rest.drop (m + n))
            (out ++ [some (rest.take (m + if keep then n else 0))]) (by rw [List.length_drop]; omega)
          refine ⟨rest.take (m + if keep then n else 0) :: qs, by rw [eq]; simp, ?_⟩
          have hrest : rest = rest.take m ++ e ++ rest.drop (m + n) := by
            rw [List.append_assoc, ← hdrop]
            exact hsplit
          have htake : rest.take (m + if keep then n else 0) = rest.take m ++ if keep then e else [] := by
            cases keep with
            | false => simp
            | true =>
              simp only [if_true]
              rw [List.take_add, hdrop, ← he, List.take_left]
          rw [htake]
          conv => arg 2; rw [hrest]
          exact .line _ _ _ _ h2' hend hq
        by_cases hcr : rest[m]? = some 13 ∧ rest[m + 1]? = some 10
        · rw [if_pos hcr]
          obtain ⟨hc1, hc2⟩ := hcr
          obtain ⟨hl2, he2⟩ := List.getElem?_eq_some_iff.1 hc2
          obtain ⟨_, he1⟩ := List.getElem?_eq_some_iff.1 hc1
          refine hstep 2 [13, 10] rfl (by omega) ?_ (Or.inl rfl)
          rw [hd1, he1, List.drop_eq_getElem_cons hl2, he2]
          rfl
        · rw [if_neg hcr]
          refine hstep 1 [rest[m]] rfl (by omega) hd1 ?_
          rcases hx with hx | hx
          · exact Or.inr (Or.inl (by rw [hx]))
          · refine Or.inr (Or.inr ⟨by rw [hx], fun hh => hcr ⟨?_, ?_⟩⟩)
            · rw [List.getElem?_eq_getElem hlt, hx]
            · rw [List.head?_drop] at hh
              exact hh
      · simp only [if_neg hlt]
        have hm : m = rest.length := by omega
        have hfin : ∀ (f : Nat) (o : List B), 0 < f → linesLoop keep f [] o = .ok o := by
          intro f o hf
          cases f with
          | zero => omega
          | succ f => rw [linesLoop, if_pos rfl]
        rw [if_neg (by omega)]
        refine ⟨[rest], ?_, ?_⟩
        · have hz : (m + if keep = true then 0 else 0) = rest.length := by split <;> omega
          rw [hz, Nat.add_zero, hm, List.drop_length, List.take_length, hfin _ _ (by
            have := List.length_pos_iff.2 hn
            omega)]
          rfl
        · refine .last _ hn (fun c hc => h2' c ?_)
          rw [hm, List.take_length]
          exact hc

/-- C102: `x.splitlines(keep)`. -/
theorem splitlines_spec (x : B) (keep : Bool) :
    ∃ ps, splitlines x keep = .ok ps ∧ Spec.Lines keep (text x) (ps.map text) := by
  obtain ⟨qs, e, h⟩ := linesLoop_spec keep ((text x).length + 1) (text x) [] (by omega)
  refine ⟨_, e, ?_⟩
  rw [List.nil_append, map_text_some]
  exact h

example : splitlines (some [97, 13, 10, 10, 98, 13]) false = .ok [some [97], some [], some [98]] ∧
    splitlines (some [97, 13, 10, 10, 98]) true = .ok [some [97, 13, 10], some [10], some [98]] := by decide +kernel

/-! ### joining -/

theorem join_length (sep : List Nat) : ∀ (ps : List (List Nat)),
    (Str.Spec.join sep ps).length = (ps.map List.length).sum + sep.length * (ps.length - 1)
  | [] => by simp [Str.Spec.join]
  | [x] => by simp [Str.Spec.join]
  | x :: y :: t => by
    rw [Str.Spec.join, List.length_append, List.length_append, join_length sep (y :: t)]
    simp only [List.map_cons, List.sum_cons, List.length_cons]
    rw [show t.length + 1 + 1 - 1 = (t.length + 1 - 1) + 1 by omega, Nat.mul_succ]
    omega

theorem joinLoop_spec (sep : B) (n size : Nat) : ∀ (i : Nat) (ps : List B) (out : List Nat), i + ps.length = n →
    out.length + (Str.Spec.join (text sep) (ps.map text)).length ≤ size →
    joinLoop sep n size i ps out = .ok (out ++ Str.Spec.join (text sep) (ps.map text))
  | _, [], out, _, _ => by simp [joinLoop, Str.Spec.join]
  | i, [p], out, h, hs => by
    rw [joinLoop]
    simp only [List.map_cons, List.map_nil, Str.Spec.join] at hs ⊢
    have hi : ¬ (sep ≠ none ∧ i ≠ n - 1) := by
      rw [List.length_singleton] at h
      omega
    simp only [if_neg hi]
    rw [if_neg (by rw [List.length_append]; omega), joinLoop]
  | i, p :: q :: t, out, h, hs => by
    rw [joinLoop]
    have hnn : (if sep ≠ none ∧ i ≠ n - 1 then out ++ text p ++ text sep else out ++ text p) = out ++ text p ++ text sep := by
      cases sep with
      | none => simp [text]
      | some s =>
        rw [if_pos ⟨by simp, by simp at h; omega⟩]
    simp only [hnn]
    rw [show (p :: q :: t).map text = text p :: text q :: t.map text from rfl, Str.Spec.join, List.length_append,
      List.length_append] at hs
    rw [if_neg (by rw [List.length_append, List.length_append]; omega)]
    have ih := joinLoop_spec sep n size (i + 1) (q :: t) (out ++ text p ++ text sep) (by simp at h ⊢; omega)
      (by rw [List.length_append, List.length_append]; simp only [List.map_cons]; omega)
    rw [ih]
    simp [Str.Spec.join]

/-- C102: `sep.join(parts)`; the result is written into as many bytes as were reserved. -/
theorem join_spec (sep : B) (parts : List B) :
    ∃ r, join sep parts = .ok r ∧ text r = Str.Spec.join (text sep) (parts.map text) := by
  unfold join
  by_cases h : parts = []
  · rw [if_pos h, h]
    exact ⟨none, rfl, rfl⟩
  · rw [if_neg h]
    have hsize : joinSize sep parts = (Str.Spec.join (text sep) (parts.map text)).length := by
      rw [join_length, joinSize, List.map_map, List.length_map]
      congr 1
      cases sep with
      | none => simp [text]
      | some s => simp
    rw [joinLoop_spec sep parts.length _ 0 parts [] (by omega) (by rw [hsize]; simp)]
    exact ⟨_, rfl, by simp [text]⟩

example : join (some [44]) [some [1], none, some [2, 3]] = .ok (some [1, 44, 44, 2, 3]) ∧ join (some [44]) [] = .ok none ∧
    join none [some [1], some [2]] = .ok (some [1, 2]) := by decide +kernel

/-- C102: joining what `split` gives gives the bytes back. -/
theorem join_of_split (x sep : B) (max : Int) (hs : text sep ≠ []) (hz : max ≠ 0 ∨ text x ≠ []) :
    ∃ ps r, splitMethod split x (some sep) max = .ok ps ∧ join sep ps = .ok r ∧ text r = text x := by
  obtain ⟨ps, e, h⟩ := split_partial x sep max hs hz
  obtain ⟨r, er, hr⟩ := join_spec sep ps
  exact ⟨ps, r, e, er, by rw [hr]; exact Str.join_split h⟩

/-! ### where the code differs -/

/-- The code violates C102: `b''.split(sep, 0)` and `b''.rsplit(sep, 0)` are empty, for every separator; Python gives `[b'']`. -/
theorem split_empty_zero (x sep : B) (hx : text x = []) (hs : text sep ≠ []) :
    splitMethod split x (some sep) 0 = .ok [] ∧ splitMethod rsplit x (some sep) 0 = .ok [] ∧
    ¬ Split (text sep) (limit 0) (text x) [] := by
  cases sep with
  | none => exact absurd rfl hs
  | some s =>
    unfold splitMethod split rsplit
    simp only
    rw [if_neg (fun h => hs (List.length_eq_zero_iff.1 h)), if_neg (fun h => hs (List.length_eq_zero_iff.1 h)), hx]
    refine ⟨by simp, by simp, fun h => ?_⟩
    have hne : ∀ {lim s' ps}, Split (text (some s)) lim s' ps → ps ≠ [] := by
      intro lim s' ps h
      cases h <;> simp
    exact hne h rfl

/-- The code violates C102: when the limit is reached, `split()` keeps the white space before what is left: for two words with
two spaces between them, `b'a  b'.split(None, 1)` is `[b'a', b' b']`, and `b'a  b'.rsplit(None, 1)` is `[b'a ', b'b']`. -/
theorem split_keeps_white :
    splitMethod split (some [97, 32, 32, 98]) none 1 = .ok [some [97], some [32, 98]] ∧
    splitMethod rsplit (some [97, 32, 32, 98]) none 1 = .ok [some [97, 32], some [98]] ∧
    splitMethod split (some [97, 32, 32]) none 1 = .ok [some [97], some [32]] ∧
    Words isspace (some 1) [97, 32, 32, 98] [[97], [98]] ∧ ¬ Words isspace (some 1) [97, 32, 32, 98] [[97], [32, 98]] := by
  refine ⟨by decide +kernel, by decide +kernel, by decide +kernel, ?_, ?_⟩
  · refine Words.word (some 1) [] [97] [32, 32, 98] [[98]] (by simp) (by simp) (by simp) (by decide) (by decide) ?_
    exact Words.uncut [32, 32] 98 [] (by decide) (by decide)
  · intro h
    have hlast : ∀ {lim s ps}, Words isspace lim s ps → ∀ p ∈ ps, p.head? ≠ some 32 := by
      intro lim s ps h
      induction h with
      | blank => simp
      | uncut a c b ha hc =>
        intro p hp
        rw [List.mem_singleton.1 hp]
        intro he
        simp at he
        rw [he] at hc
        revert hc
        decide
      | word lim a w b ps h ha hw hw' hb rest ih =>
        intro p hp
        rcases List.mem_cons.1 hp with rfl | hp
        · intro he
          have := hw' 32 (List.mem_of_mem_head? he)
          revert this
          decide
        · exact ih p hp
    exact hlast h [32, 98] (by simp) rfl

end Verif.Bytes
