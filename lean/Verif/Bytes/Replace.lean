import Verif.Bytes.Pad
/-
C103: replacing and translating bytes.
-/
namespace Verif.Bytes
open Verif.Str (remaining remaining_zero remaining_succ remaining0 stands_fits stands_drop drop_split interleave_succ interleave_nil
  interleave_zero stop_full)
open Verif.Str.Spec (StandsAt)

theorem find_from (x sep : B) (cur : Nat) (hs : text sep ≠ []) :
    ∃ r, find x sep cur (text x).length = .ok r ∧
      ((r = -1 ∧ ∀ i ≥ cur, ¬ StandsAt (text x) (text sep) i) ∨
        ∃ i : Nat, r = i ∧ cur ≤ i ∧ i + (text sep).length ≤ (text x).length ∧ StandsAt (text x) (text sep) i ∧
          ∀ j, cur ≤ j → j < i → ¬ StandsAt (text x) (text sep) j) := by
  obtain ⟨r, e, h⟩ := find_spec x sep cur (text x).length
  refine ⟨r, e, ?_⟩
  have hlo : Str.Spec.searchStart (text x).length (cur : Int) = cur := by
    unfold Str.Spec.searchStart
    rw [if_neg (by omega), Int.toNat_natCast]
  have hocc : ∀ i, Str.Spec.OccursAt (text x) (text sep) cur (text x).length i ↔ cur ≤ i ∧ StandsAt (text x) (text sep) i := by
    intro i
    unfold Str.Spec.OccursAt
    rw [hlo, stop_full]
    exact ⟨fun h => ⟨h.1, h.2.2⟩, fun h => ⟨h.1, stands_fits _ _ _ hs h.2, h.2⟩⟩
  rcases h with ⟨i, h1, h2, h3⟩ | ⟨h1, h2⟩
  · rw [hocc] at h2
    exact Or.inr ⟨i, h1, h2.1, stands_fits _ _ _ hs h2.2, h2.2, fun j a b hj => h3 j b ((hocc j).2 ⟨a, hj⟩)⟩
  · exact Or.inl ⟨h1, fun i hi hst => h2 i ((hocc i).2 ⟨hi, hst⟩)⟩

theorem find_empty (x sep : B) (cur : Nat) (hc : cur ≤ (text x).length) (hs : text sep = []) :
    find x sep cur (text x).length = .ok (cur : Int) := by
  have hlo : Str.Spec.searchStart (text x).length (cur : Int) = cur := by
    unfold Str.Spec.searchStart
    rw [if_neg (by omega), Int.toNat_natCast]
  have hocc : ∀ i, Str.Spec.OccursAt (text x) (text sep) cur (text x).length i ↔ cur ≤ i ∧ i ≤ (text x).length := by
    intro i
    unfold Str.Spec.OccursAt
    rw [hlo, stop_full, hs]
    simp
  obtain ⟨r, e, h⟩ := find_spec x sep cur (text x).length
  rw [e]
  rcases h with ⟨i, h1, h2, h3⟩ | ⟨_, h2⟩
  · rw [hocc] at h2
    have : ¬ cur < i := fun h => h3 cur h ((hocc cur).2 ⟨Nat.le_refl _, hc⟩)
    rw [h1, show i = cur by omega]
  · exact absurd ((hocc cur).2 ⟨Nat.le_refl _, hc⟩) (h2 cur)

theorem replaceLoop_sep (x old new : B) (max : Int) (ho : text old ≠ []) : ∀ (fuel pos seen : Nat) (acc : List B),
    (text x).length - pos < fuel → pos ≤ (text x).length →
    ∃ ps, replaceLoop x old new max fuel pos seen acc = join new (acc ++ ps) ∧
      Str.Spec.Split (text old) (remaining max seen) ((text x).drop pos) (ps.map text)
  | 0, _, _, _, h, _ => by omega
  | fuel + 1, pos, seen, acc, hf, hc => by
    have hpos := List.length_pos_iff.2 ho
    have hlen : (text old).length ≠ 0 := by omega
    have hlast : (remaining max seen = some 0 ∨ ∀ i, ¬ StandsAt ((text x).drop pos) (text old) i) →
        ∃ ps, join new (acc ++ [getslice x pos (text x).length]) = join new (acc ++ ps) ∧
          Str.Spec.Split (text old) (remaining max seen) ((text x).drop pos) (ps.map text) := by
      intro h
      refine ⟨_, rfl, ?_⟩
      rw [List.map_singleton, piece x pos _ (Nat.le_refl _), List.take_length]
      exact .uncut _ _ h
    rw [replaceLoop]
    by_cases hmax : max ≥ 0 ∧ (seen : Int) ≥ max
    · simp only [if_pos hmax]
      rw [if_neg (by omega)]
      exact hlast (Or.inl (by rw [remaining_zero]; omega))
    · simp only [if_neg hmax, if_pos hlen]
      obtain ⟨r, e, h⟩ := find_from x old pos ho
      rw [e]
      simp only
      rcases h with ⟨h1, h2⟩ | ⟨m, h1, h2, h3, h4, h5⟩
      · rw [if_neg (by omega)]
        refine hlast (Or.inr (fun i hi => ?_))
        rw [stands_drop] at hi
        exact h2 _ (by omega) hi
      · rw [if_pos (by omega), Int.add_zero, h1]
        obtain ⟨ps, ep, hp2⟩ := replaceLoop_sep x old new max ho fuel (m + (text old).length) (seen + 1) (acc ++ [getslice x pos m])
          (by omega) h3
        refine ⟨getslice x pos m :: ps, ?_, ?_⟩
        · rw [show (m : Int) + ((text old).length : Int) = ((m + (text old).length : Nat) : Int) by omega,
            show (seen : Int) + 1 = ((seen + 1 : Nat) : Int) by omega, ep, List.append_assoc]
          rfl
        · have hcut : (text x).drop pos = ((text x).take m).drop pos ++ text old ++ (text x).drop (m + (text old).length) := by
            rw [drop_split (text x) pos m h2 (by omega), List.append_assoc]
            congr 1
            conv_lhs => rw [← List.take_append_drop (text old).length ((text x).drop m)]
            rw [List.drop_drop]
            congr 1
          have hfirst : ∀ i < (((text x).take m).drop pos).length, ¬ StandsAt ((text x).drop pos) (text old) i := by
            intro i hi hst
            rw [List.length_drop, List.length_take] at hi
            rw [stands_drop] at hst
            exact h5 (pos + i) (by omega) (by omega) hst
          rw [List.map_cons, piece x pos m (by omega)]
          rw [hcut] at hfirst ⊢
          refine Str.Spec.Split.cut _ _ _ _ ?_ hfirst ?_
          · rw [Ne, remaining_zero]
            omega
          · rw [remaining_succ]
            exact hp2

theorem replaceLoop_empty (x old new : B) (max : Int) (ho : text old = []) :
    ∀ (fuel pos k : Nat) (acc : List B), (text x).length - pos < fuel → pos ≤ (text x).length → remaining max k ≠ some 0 →
    ∃ ps, replaceLoop x old new max fuel pos (k + 1 : Nat) acc = join new (acc ++ ps) ∧ ps ≠ [] ∧
      text new ++ Str.Spec.join (text new) (ps.map text) = Str.Spec.interleave (text new) (remaining max k) ((text x).drop pos)
  | 0, _, _, _, h, _, _ => by omega
  | fuel + 1, pos, k, acc, hf, hc, hk => by
    have hlen : ¬ (text old).length ≠ 0 := by rw [ho]; simp
    have hlast : (remaining max (k + 1) = some 0 ∨ pos = (text x).length) →
        ∃ ps, join new (acc ++ [getslice x pos (text x).length]) = join new (acc ++ ps) ∧ ps ≠ [] ∧
          text new ++ Str.Spec.join (text new) (ps.map text) =
            Str.Spec.interleave (text new) (remaining max k) ((text x).drop pos) := by
      intro h
      refine ⟨_, rfl, by simp, ?_⟩
      rw [List.map_singleton, piece x pos _ (Nat.le_refl _), List.take_length]
      change text new ++ (text x).drop pos = _
      cases hd : (text x).drop pos with
      | nil => rw [interleave_nil _ _ hk, List.append_nil]
      | cons c t =>
        rw [interleave_succ _ _ hk, remaining_succ]
        rcases h with h | h
        · rw [h, interleave_zero]
        · rw [h, List.drop_length] at hd
          simp at hd
    rw [replaceLoop]
    by_cases hmax : max ≥ 0 ∧ ((k + 1 : Nat) : Int) ≥ max
    · simp only [if_pos hmax]
      rw [if_neg (by omega)]
      exact hlast (Or.inl (by rw [remaining_zero]; omega))
    · simp only [if_neg hmax, if_neg hlen]
      rw [find_empty x old pos hc ho]
      simp only
      by_cases hp : pos = (text x).length
      · rw [if_neg (by omega)]
        exact hlast (Or.inr hp)
      · rw [if_pos (by omega), show ((pos : Int) + 1) = ((pos + 1 : Nat) : Int) by omega]
        have hk1 : remaining max (k + 1) ≠ some 0 := by
          rw [Ne, remaining_zero]
          omega
        obtain ⟨ps, ep, hp2, hp3⟩ := replaceLoop_empty x old new max ho fuel (pos + 1) (k + 1) (acc ++ [getslice x pos (pos + 1 : Nat)])
          (by omega) (by omega) hk1
        refine ⟨getslice x pos (pos + 1 : Nat) :: ps, ?_, by simp, ?_⟩
        · rw [show ((k + 1 : Nat) : Int) + 1 = ((k + 1 + 1 : Nat) : Int) by omega, ep, List.append_assoc]
          rfl
        · have hlt : pos < (text x).length := by omega
          have hone : ((text x).take (pos + 1)).drop pos = [(text x)[pos]] := by
            rw [List.drop_take, List.drop_eq_getElem_cons hlt, show pos + 1 - pos = 1 by omega, List.take_succ_cons, List.take_zero]
          rw [List.map_cons, piece x pos (pos + 1) (by omega), hone, Str.join_cons _ _ (by simpa using hp2), List.drop_eq_getElem_cons hlt,
            interleave_succ _ _ hk, remaining_succ, ← hp3]
          simp

/-- C103: `replace`: the first `max` occurrences (all if negative) are replaced; an empty `old` occurs before every byte and at
the end. `old38` only matters for the empty bytes: Python 3.8 itself gives b"" for `b"".replace(b"", new, n)`. -/
theorem replace_spec (old38 : Bool) (x old new : B) (max : Int) :
    ∃ r, replace old38 x old new max = .ok r ∧
      (text old ≠ [] → Str.Spec.Replaced (text old) (text new) (Str.Spec.limit max) (text x) (text r)) ∧
      (text old = [] → text r = if old38 = true ∧ text x = [] ∧ max ≥ 0 then [] else
        Str.Spec.interleave (text new) (Str.Spec.limit max) (text x)) := by
  unfold replace
  by_cases h : max = 0
  · rw [if_pos h, show Str.Spec.limit max = some 0 by rw [h]; rfl, interleave_zero]
    refine ⟨x, rfl, fun _ => ⟨[text x], .uncut _ _ (Or.inl rfl), rfl⟩, fun _ => ?_⟩
    split
    · rename_i h'; exact h'.2.1
    · rfl
  rw [if_neg h]
  by_cases h2 : max ≥ 0 ∧ (text x).length = 0 ∧ (text old).length = 0
  · rw [if_pos h2]
    have e1 := List.length_eq_zero_iff.1 h2.2.1
    have e2 := List.length_eq_zero_iff.1 h2.2.2
    refine ⟨_, rfl, fun h' => absurd e2 h', fun _ => ?_⟩
    have hlim : Str.Spec.limit max ≠ some 0 := by
      unfold Str.Spec.limit
      rw [if_neg (by omega)]
      simp
      omega
    cases old38 with
    | true => rw [if_pos rfl, if_pos ⟨rfl, e1, h2.1⟩, e1]
    | false => rw [if_neg (by simp), if_neg (by simp), e1, interleave_nil _ _ hlim]
  rw [if_neg h2]
  by_cases ho : text old = []
  · have hlen : (text old).length = 0 := by rw [ho]; rfl
    rw [if_pos hlen]
    obtain ⟨ps, e, h3, h4⟩ := replaceLoop_empty x old new max ho ((text x).length + 1) 0 0 [none] (by omega)
      (Nat.zero_le _) (by rw [Ne, remaining_zero]; omega)
    change replaceLoop x old new max _ 0 1 [none] = _ at e
    rw [e]
    obtain ⟨r, ej, hj⟩ := join_spec new ([none] ++ ps)
    refine ⟨r, ej, fun h' => absurd ho h', fun _ => ?_⟩
    rw [if_neg (fun h' => h2 ⟨h'.2.2, by rw [h'.2.1]; rfl, hlen⟩)]
    rw [hj, List.singleton_append, List.map_cons, Str.join_cons _ _ (by simpa using h3)]
    change [] ++ text new ++ _ = _
    rw [List.nil_append, h4, remaining0, List.drop_zero]
  · have hlen : ¬ (text old).length = 0 := by rw [List.length_eq_zero_iff]; exact ho
    rw [if_neg hlen]
    obtain ⟨ps, e, h3⟩ := replaceLoop_sep x old new max ho ((text x).length + 1) 0 0 [] (by omega) (Nat.zero_le _)
    change replaceLoop x old new max _ 0 0 [] = _ at e
    rw [e, List.nil_append]
    obtain ⟨r, ej, hj⟩ := join_spec new ps
    refine ⟨r, ej, fun _ => ⟨_, ?_, hj⟩, fun h' => absurd h' ho⟩
    rw [remaining0, List.drop_zero] at h3
    exact h3

example : replace false (some [97, 98, 99, 97, 98]) (some [97, 98]) (some [120]) 1 = .ok (some [120, 99, 97, 98]) ∧
    replace false (some [97, 98]) none (some [45]) (-1) = .ok (some [45, 97, 45, 98, 45]) ∧
    replace false (some [97, 98]) none (some [45]) 1 = .ok (some [45, 97, 98]) ∧
    replace true none none (some [45]) 1 = .ok none := by decide +kernel

/-! ### tables -/

theorem translateLoop_spec (table del : B) (ht : ∀ t, table = some t → t.length = 256) : ∀ s : List Nat, (∀ c ∈ s, c < 256) →
    translateLoop table del s = .ok (Spec.translate table (text del) s)
  | [], _ => rfl
  | c :: t, h => by
    have hdel : deleted del c = decide (c ∈ text del) := by
      cases del with
      | none => simp [text, deleted]
      | some d =>
        change d.any (c == ·) = @decide (c ∈ d) _
        by_cases h : c ∈ d
        · rw [decide_eq_true h, List.any_eq_true]
          exact ⟨c, h, by simp⟩
        · rw [decide_eq_false h, List.any_eq_false]
          intro y hy
          simp only [beq_iff_eq]
          rintro rfl
          exact h hy
    have ih := translateLoop_spec table del ht t (fun d hd => h d (List.mem_cons_of_mem _ hd))
    rw [translateLoop.eq_def]
    simp only [ih]
    rw [hdel]
    unfold Spec.translate
    by_cases hm : c ∈ text del
    · rw [if_pos (by simpa using hm), List.filter_cons_of_neg (by simpa using hm)]
    · rw [if_neg (by simpa using hm), List.filter_cons_of_pos (by simpa using hm)]
      cases table with
      | none => rfl
      | some tb =>
        have hlt : c < tb.length := by rw [ht tb rfl]; exact h c (List.mem_cons_self ..)
        simp only [List.getElem?_eq_getElem hlt, List.map_cons]
        simp [List.getD, List.getElem?_eq_getElem hlt]

/-- C103: `translate`: ValueError exactly for a table that does not have 256 bytes; no byte is looked up outside the table. -/
theorem translate_spec (x : B) (table : Option B) (del : B) (hx : ∀ c ∈ text x, c < 256) :
    (translate x table del = .error .value ↔ ∃ t, table = some t ∧ (text t).length ≠ 256) ∧
    ((∀ t, table = some t → (text t).length = 256) →
      ∃ r, translate x table del = .ok r ∧ text r = Spec.translate (table.map text) (text del) (text x)) := by
  have hgo : ∀ t : B, (∀ s, t = some s → s.length = 256) →
      ∃ r, translate.go x del t = .ok r ∧ text r = Spec.translate t (text del) (text x) := by
    intro t ht
    unfold translate.go
    cases x with
    | none => exact ⟨none, rfl, rfl⟩
    | some s =>
      simp only
      rw [translateLoop_spec t del ht s hx]
      exact ⟨_, rfl, rfl⟩
  unfold translate
  cases table with
  | none =>
    obtain ⟨r, e, h⟩ := hgo none (by simp)
    simp only
    rw [e]
    exact ⟨by simp, fun _ => ⟨r, rfl, h⟩⟩
  | some t =>
    simp only
    by_cases hl : (text t).length ≠ 256
    · rw [if_pos hl]
      exact ⟨⟨fun _ => ⟨t, rfl, hl⟩, fun _ => rfl⟩, fun h => absurd (h t rfl) hl⟩
    · rw [if_neg hl]
      cases t with
      | none => simp [text] at hl
      | some tb =>
        have htb : tb.length = 256 := by simpa [text] using hl
        obtain ⟨r, e, h⟩ := hgo (some tb) (by rintro s ⟨⟩; exact htb)
        rw [e]
        refine ⟨⟨fun h => by simp at h, fun ⟨t, h1, h2⟩ => ?_⟩, fun _ => ⟨r, rfl, h⟩⟩
        cases h1
        exact absurd h2 hl

example : translate (some [97, 98, 97, 99]) (some (some ((List.range 256).map fun c => if c = 97 then 120 else c))) (some [98]) =
      .ok (some [120, 120, 99]) ∧
    translate (some [97, 98]) none (some [98]) = .ok (some [97]) ∧ translate (some [97]) (some none) none = .error .value := by
  decide +kernel

theorem tableLoop_spec (dst : List Nat) : ∀ (src : List Nat) (j : Nat) (table : List Nat), table.length = 256 →
    j + src.length = dst.length → (∀ c ∈ src, c < 256) →
    ∃ r, tableLoop dst src j table = .ok r ∧ r.length = 256 ∧ ∀ c < 256, (c ∉ src → r[c]? = table[c]?) ∧
      ∀ k : Nat, src[k]? = some c → (∀ l > k, src[l]? ≠ some c) → r[c]? = dst[j + k]?
  | [], j, table, ht, _, _ => ⟨table, rfl, ht, fun c _ => ⟨fun _ => rfl, fun k h => by simp at h⟩⟩
  | a :: t, j, table, ht, hj, hs => by
    rw [List.length_cons] at hj
    have hlt : j < dst.length := by omega
    have ha : a < 256 := hs a (List.mem_cons_self ..)
    rw [tableLoop, List.getElem?_eq_getElem hlt]
    simp only
    rw [if_pos ha]
    obtain ⟨r, e, hr, h⟩ := tableLoop_spec dst t (j + 1) (table.set a dst[j]) (by rw [List.length_set, ht]) (by omega)
      (fun c hc => hs c (List.mem_cons_of_mem _ hc))
    refine ⟨r, e, hr, fun c hc => ⟨fun hn => ?_, fun k hk hl => ?_⟩⟩
    · rw [(h c hc).1 (fun h' => hn (List.mem_cons_of_mem _ h')), List.getElem?_set_ne]
      rintro rfl
      exact hn (List.mem_cons_self ..)
    · cases k with
      | zero =>
        simp at hk
        subst hk
        have hnot : a ∉ t := by
          intro hm
          obtain ⟨l, hl'⟩ := List.mem_iff_getElem?.1 hm
          exact hl (l + 1) (by omega) (by simpa using hl')
        rw [(h a hc).1 hnot, List.getElem?_set_self (by omega), Nat.add_zero, List.getElem?_eq_getElem hlt]
      | succ k =>
        rw [List.getElem?_cons_succ] at hk
        rw [(h c hc).2 k hk (fun l hl' h' => hl (l + 1) (by omega) (by simpa using h'))]
        rw [show j + 1 + k = j + (k + 1) by omega]

/-- C103: `bytes.maketrans`: ValueError exactly if the lengths differ. -/
theorem maketrans_spec (src dst : B) (hs : ∀ c ∈ text src, c < 256) :
    (maketrans src dst = .error .value ↔ (text src).length ≠ (text dst).length) ∧
    ((text src).length = (text dst).length → ∃ r, maketrans src dst = .ok r ∧ Spec.IsTable (text src) (text dst) (text r)) := by
  unfold maketrans
  by_cases h : (text src).length = (text dst).length
  · rw [if_neg (by simpa using h)]
    obtain ⟨r, e, hr, h'⟩ := tableLoop_spec (text dst) (text src) 0 (List.range 256) (by simp) (by omega) hs
    rw [e]
    refine ⟨by simp [h], fun _ => ⟨some r, rfl, hr, fun c hc => ⟨fun hn => ?_, fun j hj hl => ?_⟩⟩⟩
    · change r[c]? = _
      rw [(h' c hc).1 hn, List.getElem?_range hc]
    · change r[c]? = _
      rw [(h' c hc).2 j hj hl, Nat.zero_add]
  · rw [if_pos h]
    exact ⟨by simp [h], fun h' => absurd h' h⟩

example : (maketrans (some [97, 97]) (some [98, 99])).toOption.map (fun r => (text r)[97]?) = some (some 99) ∧
    maketrans (some [97]) none = .error .value := by decide +kernel

end Verif.Bytes
