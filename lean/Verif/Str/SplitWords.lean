import Verif.Str.SplitProofs
/-
Splitting at white space and at line ends, joining (C23): proofs about the loops.
-/
namespace Verif.Str

/-! ### split at white space -/

theorem words_space {space : Nat → Bool} {lim : Option Nat} {s : List Nat} {ps : List (List Nat)} (x : Nat) (hx : space x = true)
    (h : Spec.Words space lim s ps) : Spec.Words space lim (x :: s) ps := by
  have hcons : ∀ a : List Nat, (∀ y ∈ a, space y = true) → ∀ y ∈ x :: a, space y = true := by
    intro a ha y hy
    rcases List.mem_cons.1 hy with hy | hy
    · rw [hy]; exact hx
    · exact ha y hy
  cases h with
  | blank _ _ h => exact .blank _ _ (hcons s h)
  | uncut a c b ha hc => exact .uncut (x :: a) c b (hcons a ha) hc
  | word _ a w b ps h ha hw hw' hb rest => exact .word _ (x :: a) w b ps h (hcons a ha) hw hw' hb rest

theorem rwords_space {space : Nat → Bool} {lim : Option Nat} {s : List Nat} {ps : List (List Nat)} (x : Nat) (hx : space x = true)
    (h : Spec.RWords space lim s ps) : Spec.RWords space lim (s ++ [x]) ps := by
  have hcons : ∀ a : List Nat, (∀ y ∈ a, space y = true) → ∀ y ∈ a ++ [x], space y = true := by
    intro a ha y hy
    rcases List.mem_append.1 hy with hy | hy
    · exact ha y hy
    · rw [List.mem_singleton.1 hy]; exact hx
  cases h with
  | blank _ _ h => exact .blank _ _ (hcons s h)
  | uncut a c b ha hc =>
    rw [List.append_assoc]
    exact .uncut (a ++ [x]) c b (hcons a ha) hc
  | word _ a w b ps h ha hw hw' hb rest =>
    rw [List.append_assoc]
    exact .word _ (a ++ [x]) w b ps h (hcons a ha) hw hw' hb rest

/-- The end of the function: no limit is left, or the rest has no white space. -/
theorem wordsRest_spec (space : Nat → Bool) (l : Str) (max : Int) (cur count : Nat) (out : Out) (hc : cur ≤ (text l).length)
    (hr : Room out) (hz : max ≠ 0 ∨ ∃ c ∈ (text l).drop cur, space c = false)
    (h : remaining max count = some 0 ∨ cur = (text l).length ∨ ∀ c ∈ (text l).drop cur, space c = false) :
    Result l out (Spec.Words space (remaining max count) ((text l).drop cur)) (wordsRest space l max (.ok (cur, out))) := by
  unfold wordsRest
  obtain ⟨k, e, h1, h2, h3, h4⟩ := scan_spec (fun c => !space c) (text l) ((text l).length - cur) cur (by omega)
  simp only [e]
  have hsplit := drop_split (text l) cur k h1 h2
  have hsp : ∀ c ∈ ((text l).take k).drop cur, space c = true := fun c hc => by simpa using h3 c hc
  by_cases hk : k < (text l).length
  · rw [if_pos (Or.inl hk)]
    refine result_last _ succ_grows k (text l).length (Nat.le_refl _) hr ?_
    rw [List.take_length]
    have hne : space (text l)[k] = false := by
      have := h4 (text l)[k] (by rw [List.drop_eq_getElem_cons hk]; rfl)
      simpa using this
    rw [hsplit, List.drop_eq_getElem_cons hk]
    rcases h with h | h | h
    · rw [h]
      exact .uncut _ _ _ hsp hne
    · omega
    · by_cases hrem : remaining max count = some 0
      · rw [hrem]
        exact .uncut _ _ _ hsp hne
      · rw [← List.drop_eq_getElem_cons hk]
        conv => arg 3; rw [← List.append_nil (_ ++ (text l).drop k)]
        refine .word _ _ _ [] [] hrem hsp ?_ ?_ (by simp) (.blank _ _ (by simp))
        · exact List.ne_nil_of_length_pos (by rw [List.length_drop]; omega)
        · intro x hx
          refine h x ?_
          rw [hsplit]
          exact List.mem_append_right _ hx
  · have hkn : k = (text l).length := by omega
    have hall : ∀ c ∈ (text l).drop cur, space c = true := by
      rw [hsplit, hkn, List.drop_length, List.append_nil, ← hkn]
      exact hsp
    rw [if_neg]
    · exact result_none (.blank _ _ hall)
    · rintro (h' | h')
      · exact hk h'
      · rcases hz with hz | ⟨c, hc1, hc2⟩
        · exact hz h'
        · rw [hall c hc1] at hc2
          simp at hc2

theorem wordsLoop_spec (space : Nat → Bool) (l : Str) (max : Int) (hz : max ≠ 0 ∨ ∃ c ∈ text l, space c = false) :
    ∀ (fuel cur count : Nat) (out : Out), (text l).length - cur < fuel → cur ≤ (text l).length → Room out →
    (max = 0 → cur = 0) →
    Result l out (Spec.Words space (remaining max count) ((text l).drop cur))
      (wordsRest space l max (wordsLoop space l max fuel cur count out))
  | 0, _, _, _, h, _, _, _ => by omega
  | fuel + 1, cur, count, out, hf, hc, hr, hm => by
    have hz' : max ≠ 0 ∨ ∃ c ∈ (text l).drop cur, space c = false := by
      by_cases h : max = 0
      · rcases hz with hz | hz
        · exact Or.inl hz
        · right
          rw [hm h, List.drop_zero]
          exact hz
      · exact Or.inl h
    rw [wordsLoop]
    by_cases hcond : ((count : Int) < max ∨ max < 0) ∧ cur < (text l).length
    · rw [if_pos hcond]
      have hm0 : max ≠ 0 := by omega
      obtain ⟨m, e, h1, h2, h3, h4⟩ := scan_spec space (text l) ((text l).length - cur) cur (by omega)
      rw [e]
      simp only
      by_cases hmn : m ≥ (text l).length
      · rw [if_pos hmn]
        refine wordsRest_spec space l max cur count out hc hr hz' (Or.inr (Or.inr ?_))
        rw [show m = (text l).length by omega, List.take_length] at h3
        exact h3
      · rw [if_neg hmn]
        have hm' : m < (text l).length := by omega
        have hsp : space (text l)[m] = true := h4 _ (by rw [List.drop_eq_getElem_cons hm']; rfl)
        by_cases hmc : m ≠ cur
        · rw [if_pos hmc]
          obtain ⟨r, ep, hroom⟩ := pushSubstr_ok byHalf byHalf_grows out l cur m (by omega) hr
          rw [ep]
          simp only
          have hstep : ∀ qs, Spec.Words space (remaining max (count + 1)) ((text l).drop (m + 1)) qs →
              Spec.Words space (remaining max count) ((text l).drop cur) (((text l).take m).drop cur :: qs) := by
            intro qs hq
            rw [drop_split (text l) cur m h1 h2]
            refine .word _ [] _ _ qs ?_ (by simp) ?_ h3 h4 ?_
            · rw [Ne, remaining_zero]
              exact fun hn => hn hcond.1
            · intro h'
              have := congrArg List.length h'
              rw [List.length_drop, List.length_take] at this
              simp at this
              omega
            · rw [remaining_succ, List.drop_eq_getElem_cons hm']
              exact words_space _ hsp hq
          refine result_cons (out' := ⟨r, _⟩) cur m rfl hstep ?_
          by_cases hmax : max ≥ 0 ∧ ((count + 1 : Nat) : Int) ≥ max
          · rw [if_pos hmax]
            refine wordsRest_spec space l max (m + 1) (count + 1) _ (by omega) hroom (Or.inl hm0) (Or.inl ?_)
            rw [remaining_zero]
            omega
          · rw [if_neg hmax]
            exact wordsLoop_spec space l max hz fuel (m + 1) (count + 1) _ (by omega) (by omega) hroom (fun h => absurd h hm0)
        · rw [if_neg hmc]
          have hmc : m = cur := by omega
          refine result_mono (R' := Spec.Words space (remaining max count) ((text l).drop (cur + 1))) (fun qs hq => ?_) ?_
          · subst hmc
            rw [List.drop_eq_getElem_cons hm']
            exact words_space _ hsp hq
          · exact wordsLoop_spec space l max hz fuel (cur + 1) count out (by omega) (by omega) hr (fun h => absurd h hm0)
    · rw [if_neg hcond]
      refine wordsRest_spec space l max cur count out hc hr hz' ?_
      by_cases h : ((count : Int) < max ∨ max < 0)
      · right; left
        have : ¬ cur < (text l).length := fun h' => hcond ⟨h, h'⟩
        omega
      · left
        rw [remaining_zero]
        exact h

/-! ### rsplit at white space -/

theorem getLast_take {s : List Nat} {k : Nat} (hk : k < s.length) : (s.take (k + 1)).getLast? = some s[k] := by
  rw [← List.take_append_getElem hk, List.getLast?_append]
  rfl

theorem rwordsRest_spec (space : Nat → Bool) (l : Str) (max : Int) (c count : Nat) (out : Out) (hc : c ≤ (text l).length)
    (hr : Room out) (hz : max ≠ 0 ∨ ∃ x ∈ (text l).take c, space x = false)
    (h : remaining max count = some 0 ∨ c = 0 ∨ ∀ x ∈ (text l).take c, space x = false) :
    Result l out (fun qs => Spec.RWords space (remaining max count) ((text l).take c) qs.reverse)
      (rwordsRest space l max (.ok ((c : Int) - 1, out))) := by
  unfold rwordsRest
  have e0 : ((c : Int) - 1 + 1).toNat = c := by omega
  obtain ⟨k, e, h1, h3, h4⟩ := rscan_spec (fun c => !space c) (text l) c hc
  simp only [e0, e]
  have hsplit := take_split (text l) k c h1
  have hsp : ∀ x ∈ ((text l).take c).drop k, space x = true := fun x hx => by simpa using h3 x hx
  cases k with
  | succ k =>
    rw [if_pos (Or.inl (by omega))]
    have e1 : (((k + 1 : Nat) : Int) - 1 + 1) = ((k + 1 : Nat) : Int) := by omega
    rw [e1]
    refine result_last (a := 0) _ succ_grows (k + 1) (by omega) hr ?_
    rw [List.drop_zero, List.reverse_singleton]
    have hk : k < (text l).length := by omega
    have hne : space (text l)[k] = false := by
      have := h4 _ (getLast_take hk)
      simpa using this
    have hl : (text l).take (k + 1) = (text l).take k ++ [(text l)[k]] := (List.take_append_getElem hk).symm
    by_cases hrem : remaining max count = some 0
    · rw [hsplit, hl, hrem]
      exact .uncut _ _ _ hsp hne
    · rcases h with h | h | h
      · exact absurd h hrem
      · omega
      · rw [hsplit]
        have hb := Spec.RWords.word (remaining max count) _ ((text l).take (k + 1)) [] [] hrem hsp
          (List.ne_nil_of_length_pos (by rw [List.length_take]; omega)) (fun x hx => h x (by rw [hsplit]; exact List.mem_append_left _ hx)) (by simp) (.blank _ _ (by simp))
        rw [List.nil_append, List.nil_append] at hb
        exact hb
  | zero =>
    have hall : ∀ x ∈ (text l).take c, space x = true := by
      rw [List.drop_zero] at hsp
      exact hsp
    rw [if_neg]
    · exact result_none (.blank _ _ hall)
    · rintro (h' | h')
      · omega
      · rcases hz with hz | ⟨x, hx1, hx2⟩
        · exact hz h'
        · rw [hall x hx1] at hx2
          simp at hx2

theorem rwordsLoop_spec (space : Nat → Bool) (l : Str) (max : Int) (hz : max ≠ 0 ∨ ∃ c ∈ text l, space c = false) :
    ∀ (fuel c count : Nat) (out : Out), c < fuel → c ≤ (text l).length → Room out →
    (max = 0 → c = (text l).length) →
    Result l out (fun qs => Spec.RWords space (remaining max count) ((text l).take c) qs.reverse)
      (rwordsRest space l max (rwordsLoop space l max fuel ((c : Int) - 1) count out))
  | 0, _, _, _, h, _, _, _ => by omega
  | fuel + 1, c, count, out, hf, hc, hr, hm => by
    have hz' : max ≠ 0 ∨ ∃ x ∈ (text l).take c, space x = false := by
      by_cases h : max = 0
      · rcases hz with hz | hz
        · exact Or.inl hz
        · right
          rw [hm h, List.take_length]
          exact hz
      · exact Or.inl h
    rw [rwordsLoop]
    by_cases hcond : ((count : Int) < max ∨ max < 0) ∧ (c : Int) - 1 ≥ 0
    · rw [if_pos hcond]
      have hm0 : max ≠ 0 := by omega
      have e0 : ((c : Int) - 1 + 1).toNat = c := by omega
      obtain ⟨k, e, h1, h3, h4⟩ := rscan_spec space (text l) c hc
      rw [e0, e]
      simp only
      cases k with
      | zero =>
        rw [if_pos (by omega)]
        refine rwordsRest_spec space l max c count out hc hr hz' (Or.inr (Or.inr ?_))
        rw [List.drop_zero] at h3
        exact h3
      | succ k =>
        rw [if_neg (by omega)]
        have hk : k < (text l).length := by omega
        have hsp : space (text l)[k] = true := h4 _ (getLast_take hk)
        have hl : (text l).take (k + 1) = (text l).take k ++ [(text l)[k]] := (List.take_append_getElem hk).symm
        by_cases hmc : ((k + 1 : Nat) : Int) - 1 ≠ (c : Int) - 1
        · rw [if_pos hmc]
          have e1 : ((k + 1 : Nat) : Int) - 1 + 1 = ((k + 1 : Nat) : Int) := by omega
          have e2 : (c : Int) - 1 + 1 = (c : Int) := by omega
          have e3 : ((k + 1 : Nat) : Int) - 1 - 1 = (k : Int) - 1 := by omega
          rw [e1, e2, e3]
          obtain ⟨r, ep, hroom⟩ := pushSubstr_ok byHalf byHalf_grows out l (k + 1) c hc hr
          rw [ep]
          simp only
          have hstep : ∀ qs, Spec.RWords space (remaining max (count + 1)) ((text l).take k) qs.reverse →
              Spec.RWords space (remaining max count) ((text l).take c) (((text l).take c).drop (k + 1) :: qs).reverse := by
            intro qs hq
            rw [List.reverse_cons]
            have hb := Spec.RWords.word (remaining max count) [] (((text l).take c).drop (k + 1)) ((text l).take (k + 1))
              qs.reverse
              (by rw [Ne, remaining_zero]; exact fun hn => hn hcond.1) (by simp)
              (by
                intro h'
                have := congrArg List.length h'
                rw [List.length_drop, List.length_take] at this
                simp at this
                omega) h3 h4
              (by rw [remaining_succ, hl]; exact rwords_space _ hsp hq)
            rw [List.append_nil, ← take_split (text l) (k + 1) c h1] at hb
            exact hb
          refine result_cons (out' := ⟨r, _⟩) (k + 1) c rfl hstep ?_
          by_cases hmax : max ≥ 0 ∧ ((count + 1 : Nat) : Int) ≥ max
          · rw [if_pos hmax]
            refine rwordsRest_spec space l max k (count + 1) _ (by omega) hroom (Or.inl hm0) (Or.inl ?_)
            rw [remaining_zero]
            omega
          · rw [if_neg hmax]
            exact rwordsLoop_spec space l max hz fuel k (count + 1) _ (by omega) (by omega) hroom (fun h => absurd h hm0)
        · rw [if_neg hmc]
          have hmc : k + 1 = c := by omega
          have e4 : (c : Int) - 1 - 1 = (k : Int) - 1 := by omega
          rw [e4]
          refine result_mono (R' := fun qs => Spec.RWords space (remaining max count) ((text l).take k) qs.reverse)
            (fun qs hq => ?_) ?_
          · rw [← hmc, hl]
            exact rwords_space _ hsp hq
          · exact rwordsLoop_spec space l max hz fuel k count out (by omega) (by omega) hr (fun h => absurd h hm0)
    · rw [if_neg hcond]
      refine rwordsRest_spec space l max c count out hc hr hz' ?_
      by_cases h : ((count : Int) < max ∨ max < 0)
      · right; left
        have : ¬ (c : Int) - 1 ≥ 0 := fun h' => hcond ⟨h, h'⟩
        omega
      · left
        rw [remaining_zero]
        exact h

/-! ### splitlines -/

theorem linebreak_iff (c : Nat) : linebreak c = true ↔ c ∈ Spec.lineEnds := by
  unfold linebreak Spec.lineEnds
  simp [or_assoc]

/-- What `linesRest` makes of a list that is complete. -/
theorem linesLoop_spec (l : Str) (keep : Bool) : ∀ (fuel cur : Nat) (out : Out),
    (text l).length - cur < fuel → cur ≤ (text l).length → Room out →
    ∃ ps, linesRest l (linesLoop l keep fuel cur out) = .ok (out.pieces ++ ps) ∧ Good l ps ∧
      Spec.Lines keep ((text l).drop cur) (ps.map text)
  | 0, _, _, h, _, _ => by omega
  | fuel + 1, cur, out, hf, hc, hr => by
    rw [linesLoop]
    by_cases hcond : cur < (text l).length
    · rw [if_pos hcond]
      obtain ⟨m, e, h1, h2, h3, h4⟩ := scan_spec linebreak (text l) ((text l).length - cur) cur (by omega)
      rw [e]
      simp only
      have hsl : m + sepLen (text l) m ≤ (text l).length := by
        unfold sepLen
        split
        · split <;> omega
        · omega
      rw [if_neg (by omega)]
      have hno : ∀ x ∈ ((text l).take m).drop cur, x ∉ Spec.lineEnds := by
        intro x hx
        rw [← linebreak_iff, h3 x hx]
        simp
      obtain ⟨r, ep, hroom⟩ := pushSubstr_ok byHalf byHalf_grows out l cur (m + if keep = true then sepLen (text l) m else 0)
        (by split <;> omega) hr
      rw [ep]
      simp only
      have hfuel : (text l).length - (m + sepLen (text l) m) < fuel := by
        by_cases hm : m < (text l).length
        · have : 1 ≤ sepLen (text l) m := by
            unfold sepLen
            rw [if_pos hm]
            split <;> omega
          omega
        · omega
      obtain ⟨ps, eps, hg, hl⟩ := linesLoop_spec l keep fuel (m + sepLen (text l) m) _ hfuel hsl hroom
      refine ⟨_ :: ps, by rw [eps, List.append_assoc, List.singleton_append], ?_, ?_⟩
      · intro p hp
        rcases List.mem_cons.1 hp with hp | hp
        · exact ⟨_, hp, fun c hc => List.mem_of_mem_take (List.mem_of_mem_drop hc)⟩
        · exact hg p hp
      · rw [List.map_cons, text_construct]
        by_cases hm : m < (text l).length
        · -- a line end was found
          have hc : (text l)[m] ∈ Spec.lineEnds := by
            rw [← linebreak_iff]
            exact h4 _ (by rw [List.drop_eq_getElem_cons hm]; rfl)
          have hle : sepLen (text l) m = 1 ∨ sepLen (text l) m = 2 := by
            unfold sepLen
            rw [if_pos hm]
            split <;> simp
          generalize hn : sepLen (text l) m = n at *
          have hcut : (text l).drop cur = ((text l).take m).drop cur ++ ((text l).take (m + n)).drop m ++ (text l).drop (m + n) := by
            rw [drop_split (text l) cur m h1 h2, List.append_assoc, ← drop_split (text l) m (m + n) (by omega) hsl]
          have hpiece : ((text l).take (m + if keep = true then n else 0)).drop cur =
              ((text l).take m).drop cur ++ if keep = true then ((text l).take (m + n)).drop m else [] := by
            cases keep with
            | false => simp
            | true =>
              simp only [if_true]
              rw [take_split (text l) m (m + n) (by omega), List.drop_append_of_le_length (by rw [List.length_take]; omega)]
              congr 1
              rw [List.drop_left' (by rw [List.length_take]; omega)]
          rw [hcut, hpiece]
          refine Spec.Lines.line _ _ _ _ hno ?_ hl
          have hone : ∀ x, (text l)[m]? = some x → ((text l).take (m + 1)).drop m = [x] := by
            intro x hx
            rw [List.getElem?_eq_getElem hm] at hx
            injection hx with hx
            rw [← List.take_append_getElem hm, List.drop_left' (by rw [List.length_take]; omega), hx]
          unfold sepLen at hn
          rw [if_pos hm] at hn
          by_cases h2 : (text l)[m]? = some 13 ∧ m + 1 < (text l).length ∧ (text l)[m + 1]? = some 10
          · rw [if_pos h2] at hn
            left
            rw [← hn]
            have ha : (text l).take (m + 2) = (text l).take (m + 1) ++ [(text l)[m + 1]] :=
              (List.take_append_getElem h2.2.1).symm
            have hb := h2.2.2
            rw [List.getElem?_eq_getElem h2.2.1] at hb
            injection hb with hb
            rw [ha, List.drop_append_of_le_length (by rw [List.length_take]; omega), hone 13 h2.1, hb]
            rfl
          · rw [if_neg h2] at hn
            right
            refine ⟨(text l)[m], ?_, hc, ?_⟩
            · rw [← hn]
              exact hone _ (List.getElem?_eq_getElem hm)
            · rintro ⟨a, b⟩
              apply h2
              rw [← hn, List.head?_drop] at b
              refine ⟨by rw [List.getElem?_eq_getElem hm, a], ?_, b⟩
              by_contra hlt
              rw [List.getElem?_eq_none (by omega)] at b
              simp at b
        · -- the last line
          have hmn : m = (text l).length := by omega
          have hs0 : sepLen (text l) m = 0 := by
            unfold sepLen
            rw [if_neg hm]
          rw [hs0, hmn, Nat.add_zero, List.drop_length] at hl
          have hnil : ps.map text = [] := by
            generalize ps.map text = q at hl
            generalize hs : ([] : List Nat) = s at hl
            cases hl with
            | empty => rfl
            | last _ h _ => exact absurd hs.symm h
            | line a e b ps _ he _ =>
              have := congrArg List.length hs
              simp only [List.length_append, List.length_nil] at this
              exfalso
              rcases he with he | ⟨c, he, _⟩ <;> rw [he] at this <;> simp at this <;> omega
          rw [hnil, hs0, ite_self, Nat.add_zero, hmn, List.take_length]
          rw [hmn, List.take_length] at hno
          refine Spec.Lines.last _ ?_ hno
          intro h'
          have := congrArg List.length h'
          rw [List.length_drop] at this
          simp at this
          omega
    · rw [if_neg hcond]
      refine ⟨[], ?_, ?_, ?_⟩
      · unfold linesRest
        simp only
        rw [if_neg (by omega), List.append_nil]
      · intro p hp; simp at hp
      · rw [List.drop_eq_nil_of_le (by omega)]
        exact Spec.Lines.empty

/-! ### join -/

theorem joinWidth_bound (sep : Str) (items : List Str) (hs : Valid sep) (hi : ∀ s ∈ items, Valid s) (hne : items ≠ []) :
    (joinWidth sep items = 1 ∨ joinWidth sep items = 2 ∨ joinWidth sep items = 4) ∧ width sep ≤ joinWidth sep items ∧
      ∀ s ∈ items, width s ≤ joinWidth sep items := by
  unfold joinWidth
  have base : sepWidth sep = 0 ∧ sep = none ∨
      (sepWidth sep = 1 ∨ sepWidth sep = 2 ∨ sepWidth sep = 4) ∧ width sep ≤ sepWidth sep := by
    cases sep with
    | none => left; exact ⟨rfl, rfl⟩
    | some l => right; exact ⟨by simpa [sepWidth] using hs.width, by simp [width, sepWidth]⟩
  generalize sepWidth sep = w at base
  have gen : ∀ (items : List Str) (w : Nat), (∀ s ∈ items, Valid s) → (w = 1 ∨ w = 2 ∨ w = 4) →
      (items.foldl (fun m s => max m (width s)) w = 1 ∨ items.foldl (fun m s => max m (width s)) w = 2 ∨
        items.foldl (fun m s => max m (width s)) w = 4) ∧ w ≤ items.foldl (fun m s => max m (width s)) w ∧
        ∀ s ∈ items, width s ≤ items.foldl (fun m s => max m (width s)) w := by
    intro items
    induction items with
    | nil => intro w _ hw; exact ⟨hw, Nat.le_refl _, by simp⟩
    | cons s t ih =>
      intro w hv hw
      have hws := valid_width s (hv s (by simp))
      obtain ⟨a, b, c⟩ := ih (max w (width s)) (fun x hx => hv x (List.mem_cons_of_mem _ hx)) (by omega)
      rw [List.foldl_cons]
      refine ⟨a, by omega, ?_⟩
      intro x hx
      rcases List.mem_cons.1 hx with hx | hx
      · rw [hx]; omega
      · exact c x hx
  match items, hne with
  | s :: t, _ =>
    have hws := valid_width s (hi s (by simp))
    rw [List.foldl_cons]
    have hw : max w (width s) = 1 ∨ max w (width s) = 2 ∨ max w (width s) = 4 := by
      rcases base with ⟨b, _⟩ | ⟨b, _⟩ <;> omega
    obtain ⟨a, b, c⟩ := gen t (max w (width s)) (fun x hx => hi x (List.mem_cons_of_mem _ hx)) hw
    refine ⟨a, ?_, ?_⟩
    · rcases base with ⟨_, b'⟩ | ⟨_, b'⟩
      · rw [b']
        change 1 ≤ _
        omega
      · omega
    · intro x hx
      rcases List.mem_cons.1 hx with hx | hx
      · rw [hx]; omega
      · exact c x hx

theorem upgrade_text (s : Str) (hs : Valid s) (w : Nat) (hw : w = 1 ∨ w = 2 ∨ w = 4) (hle : width s ≤ w) :
    ∃ s', upgrade s w = .ok s' ∧ text s' = text s := by
  cases s with
  | none => exact ⟨none, rfl, rfl⟩
  | some l => exact ⟨_, upgrade_ok l hs w hw hle, rfl⟩

theorem upgradeAll_text (w : Nat) (hw : w = 1 ∨ w = 2 ∨ w = 4) : ∀ (items : List Str), (∀ s ∈ items, Valid s) →
    (∀ s ∈ items, width s ≤ w) → ∃ items', upgradeAll w items = .ok items' ∧ items'.map text = items.map text
  | [], _, _ => ⟨[], rfl, rfl⟩
  | s :: t, hv, hl => by
    obtain ⟨s', e, h⟩ := upgrade_text s (hv s (by simp)) w hw (hl s (by simp))
    obtain ⟨t', e', h'⟩ := upgradeAll_text w hw t (fun x hx => hv x (List.mem_cons_of_mem _ hx))
      (fun x hx => hl x (List.mem_cons_of_mem _ hx))
    refine ⟨s' :: t', ?_, by rw [List.map_cons, List.map_cons, h, h']⟩
    rw [upgradeAll, e, e']

theorem joinCopy_spec (sep : Str) : ∀ (items : List Str), joinCopy sep items = Spec.join (text sep) (items.map text)
  | [] => rfl
  | [s] => rfl
  | s :: t :: u => by
    rw [joinCopy, joinCopy_spec sep (t :: u)]
    · rfl
    · simp

theorem join_length (sep : List Nat) : ∀ (ps : List (List Nat)),
    (Spec.join sep ps).length = (ps.map List.length).sum + sep.length * (ps.length - 1)
  | [] => rfl
  | [s] => by simp [Spec.join]
  | s :: t :: u => by
    rw [Spec.join, List.length_append, List.length_append, join_length sep (t :: u)]
    simp only [List.map_cons, List.sum_cons, List.length_cons, Nat.add_sub_cancel]
    rw [Nat.mul_succ]
    omega

theorem join_spec (sep : Str) (items : List Str) (hs : Valid sep) (hi : ∀ s ∈ items, Valid s) :
    ∃ r, join sep items = .ok r ∧ text r = Spec.join (text sep) (items.map text) := by
  unfold join
  by_cases hn : items.length = 0
  · rw [if_pos hn, List.length_eq_zero_iff.1 hn]
    exact ⟨none, rfl, rfl⟩
  · rw [if_neg hn]
    obtain ⟨hw, hw1, hw2⟩ := joinWidth_bound sep items hs hi (fun h => hn (by rw [h]; rfl))
    obtain ⟨items', e, h⟩ := upgradeAll_text _ hw items hi hw2
    obtain ⟨sep', e', h'⟩ := upgrade_text sep hs _ hw hw1
    rw [e]
    simp only [e']
    have hcopy : joinCopy sep' items' = Spec.join (text sep) (items.map text) := by
      rw [joinCopy_spec, h, h']
    rw [hcopy, if_neg]
    · exact ⟨_, rfl, rfl⟩
    · rw [join_length]
      unfold joinLength
      rw [List.map_map, List.length_map]
      simp [Function.comp_def]

end Verif.Str
