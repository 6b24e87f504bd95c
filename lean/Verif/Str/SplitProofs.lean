import Verif.Str.SplitModel
/-
Splitting and joining of compiled strings (C23): proofs about the loops.
-/
namespace Verif.Str

open Spec (StandsAt)

/-! ### lists -/

theorem slice_nat (s : List Nat) (a b : Nat) (hb : b ≤ s.length) :
    Spec.slice s (some (a : Int)) (some (b : Int)) = (s.take b).drop a := by
  unfold Spec.slice
  have e1 : Spec.searchStop s.length (b : Int) = b := by
    unfold Spec.searchStop
    rw [if_neg (by omega), Int.toNat_natCast]
    omega
  have e2 : Spec.searchStart s.length (a : Int) = a := by
    unfold Spec.searchStart
    rw [if_neg (by omega), Int.toNat_natCast]
  change (s.take (Spec.searchStop s.length (b : Int))).drop (Spec.searchStart s.length (a : Int)) = _
  rw [e1, e2]

theorem drop_split (s : List Nat) (i k : Nat) (h1 : i ≤ k) (h2 : k ≤ s.length) :
    s.drop i = (s.take k).drop i ++ s.drop k := by
  conv_lhs => rw [← List.take_append_drop k s]
  rw [List.drop_append_of_le_length (by rw [List.length_take]; omega)]

theorem take_split (s : List Nat) (k c : Nat) (h1 : k ≤ c) :
    s.take c = s.take k ++ (s.take c).drop k := by
  conv_lhs => rw [← List.take_append_drop k (s.take c)]
  rw [List.take_take, Nat.min_eq_left h1]

theorem stands_fits (s sub : List Nat) (i : Nat) (hs : sub ≠ []) (h : StandsAt s sub i) : i + sub.length ≤ s.length := by
  have := congrArg List.length h
  rw [List.length_take, List.length_drop] at this
  have := List.length_pos_iff.2 hs
  omega

theorem stands_drop (s sub : List Nat) (k i : Nat) : StandsAt (s.drop k) sub i ↔ StandsAt s sub (k + i) := by
  unfold StandsAt
  rw [List.drop_drop]

theorem stands_take (s sub : List Nat) (c i : Nat) (hs : sub ≠ []) (hc : c ≤ s.length) :
    StandsAt (s.take c) sub i ↔ StandsAt s sub i ∧ i + sub.length ≤ c := by
  constructor
  · intro h
    have hl := stands_fits _ _ _ hs h
    rw [List.length_take] at hl
    have hl : i + sub.length ≤ c := by omega
    refine ⟨?_, hl⟩
    unfold StandsAt at h ⊢
    rw [List.drop_take, List.take_take, Nat.min_eq_left (by omega)] at h
    exact h
  · rintro ⟨h, hl⟩
    unfold StandsAt at h ⊢
    rw [List.drop_take, List.take_take, Nat.min_eq_left (by omega)]
    exact h

theorem stands_single (s : List Nat) (c i : Nat) : StandsAt s [c] i ↔ s[i]? = some c := by
  unfold StandsAt
  by_cases h : i < s.length
  · rw [List.drop_eq_getElem_cons h, List.getElem?_eq_getElem h, List.length_singleton, List.take_succ_cons, List.take_zero]
    simp
  · rw [List.drop_eq_nil_of_le (by omega), List.getElem?_eq_none (by omega)]
    simp

/-! ### putting pieces in the list -/

/-- What is reserved suffices. -/
def Room (out : Out) : Prop := 10 ≤ out.reserved ∧ out.pieces.length ≤ out.reserved

theorem push_ok (grow : Nat → Nat) (hg : ∀ n ≥ 10, n < grow n) (out : Out) (p : Str) (h : Room out) :
    ∃ r, push grow out p = .ok ⟨r, out.pieces ++ [p]⟩ ∧ Room ⟨r, out.pieces ++ [p]⟩ := by
  unfold push Room
  simp only
  have h' := h
  unfold Room at h'
  by_cases he : out.pieces.length = out.reserved
  · have := hg out.reserved h'.1
    rw [if_pos he, if_pos (by omega)]
    exact ⟨_, rfl, by omega, by simp; omega⟩
  · rw [if_neg he, if_pos (by omega)]
    exact ⟨_, rfl, h'.1, by simp; omega⟩

theorem pushSubstr_ok (grow : Nat → Nat) (hg : ∀ n ≥ 10, n < grow n) (out : Out) (l : Str) (a b : Nat) (hb : b ≤ (text l).length)
    (h : Room out) :
    ∃ r, pushSubstr grow out l a b = .ok ⟨r, out.pieces ++ [construct (width l) (((text l).take b).drop a)]⟩ ∧
      Room ⟨r, out.pieces ++ [construct (width l) (((text l).take b).drop a)]⟩ := by
  unfold pushSubstr
  rw [getsubstr_spec, slice_nat _ _ _ hb]
  exact push_ok grow hg out _ h

theorem byHalf_grows (n : Nat) (h : n ≥ 10) : n < byHalf n := by unfold byHalf; omega

theorem succ_grows (n : Nat) (_ : n ≥ 10) : n < (fun n => n + 1) n := Nat.lt_succ_self n

/-- Pieces of `l`. -/
def Good (l : Str) (ps : List Str) : Prop := ∀ p ∈ ps, ∃ qs, p = construct (width l) qs ∧ ∀ c ∈ qs, c ∈ text l

/-- The result adds pieces of `l` to `out`, which satisfy `R`. -/
def Result (l : Str) (out : Out) (R : List (List Nat) → Prop) (x : Except Err Out) : Prop :=
  ∃ r ps, x = .ok ⟨r, out.pieces ++ ps⟩ ∧ Good l ps ∧ R (ps.map text)

theorem result_cons {l : Str} {out out' : Out} {R R' : List (List Nat) → Prop} {x : Except Err Out} (a b : Nat)
    (ho : out'.pieces = out.pieces ++ [construct (width l) (((text l).take b).drop a)])
    (hR : ∀ qs, R' qs → R (((text l).take b).drop a :: qs)) (h : Result l out' R' x) : Result l out R x := by
  obtain ⟨r, ps, e, g, hp⟩ := h
  refine ⟨r, construct (width l) (((text l).take b).drop a) :: ps, ?_, ?_, ?_⟩
  · rw [e, ho, List.append_assoc, List.singleton_append]
  · intro p hp
    rcases List.mem_cons.1 hp with hp | hp
    · exact ⟨_, hp, fun c hc => List.mem_of_mem_take (List.mem_of_mem_drop hc)⟩
    · exact g p hp
  · rw [List.map_cons, text_construct]
    exact hR _ hp

theorem result_last {l : Str} {out : Out} {R : List (List Nat) → Prop} (grow : Nat → Nat) (hg : ∀ n ≥ 10, n < grow n) (a b : Nat)
    (hb : b ≤ (text l).length) (h : Room out) (hR : R [((text l).take b).drop a]) :
    Result l out R (pushSubstr grow out l a b) := by
  obtain ⟨r, e, _⟩ := pushSubstr_ok grow hg out l a b hb h
  refine ⟨r, _, e, ?_, ?_⟩
  · intro p hp
    rw [List.mem_singleton] at hp
    exact ⟨_, hp, fun c hc => List.mem_of_mem_take (List.mem_of_mem_drop hc)⟩
  · rw [List.map_singleton, text_construct]
    exact hR

theorem result_none {l : Str} {out : Out} {R : List (List Nat) → Prop} (hR : R []) : Result l out R (.ok out) :=
  ⟨out.reserved, [], by rw [List.append_nil], by intro p hp; simp at hp, hR⟩

theorem result_mono {l : Str} {out : Out} {R R' : List (List Nat) → Prop} {x : Except Err Out} (hR : ∀ qs, R' qs → R qs)
    (h : Result l out R' x) : Result l out R x := by
  obtain ⟨r, ps, e, g, hp⟩ := h
  exact ⟨r, ps, e, g, hR _ hp⟩

/-! ### scanning -/

theorem scan_spec (stop : Nat → Bool) (ps : List Nat) : ∀ (n i : Nat), i + n = ps.length →
    ∃ k, scan stop ps n i = .ok k ∧ i ≤ k ∧ k ≤ ps.length ∧ (∀ c ∈ (ps.take k).drop i, stop c = false) ∧
      (∀ c, (ps.drop k).head? = some c → stop c = true)
  | 0, i, h => by
    refine ⟨i, rfl, Nat.le_refl _, by omega, ?_, ?_⟩
    · intro c hc
      rw [List.drop_eq_nil_of_le (by rw [List.length_take]; omega)] at hc
      simp at hc
    · intro c hc
      rw [List.drop_eq_nil_of_le (by omega)] at hc
      simp at hc
  | n + 1, i, h => by
    have hi : i < ps.length := by omega
    rw [scan, List.getElem?_eq_getElem hi]
    simp only
    by_cases hs : stop ps[i] = true
    · rw [if_pos hs]
      refine ⟨i, rfl, Nat.le_refl _, by omega, ?_, ?_⟩
      · intro c hc
        rw [List.drop_eq_nil_of_le (by rw [List.length_take]; omega)] at hc
        simp at hc
      · intro c hc
        rw [List.drop_eq_getElem_cons hi] at hc
        simp only [List.head?_cons, Option.some.injEq] at hc
        rw [← hc]; exact hs
    · rw [if_neg hs]
      obtain ⟨k, e, h1, h2, h3, h4⟩ := scan_spec stop ps n (i + 1) (by omega)
      refine ⟨k, e, by omega, h2, ?_, h4⟩
      intro c hc
      rw [List.drop_eq_getElem_cons (by rw [List.length_take]; omega)] at hc
      rcases List.mem_cons.1 hc with hc | hc
      · rw [List.getElem_take] at hc
        rw [hc]
        simpa using hs
      · exact h3 c hc

theorem rscan_spec (stop : Nat → Bool) (ps : List Nat) : ∀ (n : Nat), n ≤ ps.length →
    ∃ k : Nat, rscan stop ps n = .ok ((k : Int) - 1) ∧ k ≤ n ∧ (∀ c ∈ (ps.take n).drop k, stop c = false) ∧
      (∀ c, (ps.take k).getLast? = some c → stop c = true)
  | 0, _ => ⟨0, rfl, Nat.le_refl _, by simp, by simp⟩
  | n + 1, h => by
    have hi : n < ps.length := by omega
    rw [rscan, List.getElem?_eq_getElem hi]
    simp only
    by_cases hs : stop ps[n] = true
    · rw [if_pos hs]
      refine ⟨n + 1, by simp, Nat.le_refl _, ?_, ?_⟩
      · intro c hc
        rw [List.drop_eq_nil_of_le (by rw [List.length_take]; omega)] at hc
        simp at hc
      · intro c hc
        rw [← List.take_append_getElem hi] at hc
        rw [List.getLast?_append] at hc
        simp only [List.getLast?_singleton, Option.some_or, Option.some.injEq] at hc
        rw [← hc]; exact hs
    · rw [if_neg hs]
      obtain ⟨k, e, h1, h2, h3⟩ := rscan_spec stop ps n (by omega)
      refine ⟨k, e, by omega, ?_, h3⟩
      intro c hc
      rw [← List.take_append_getElem hi, List.drop_append_of_le_length (by rw [List.length_take]; omega)] at hc
      rcases List.mem_append.1 hc with hc | hc
      · exact h2 c hc
      · rw [List.mem_singleton] at hc
        rw [hc]
        simpa using hs

theorem mem_slice {s : List Nat} {i j k : Nat} (h1 : i ≤ j) (h2 : j < k) (hj : j < s.length) : s[j] ∈ (s.take k).drop i := by
  rw [List.mem_iff_getElem]
  refine ⟨j - i, by rw [List.length_drop, List.length_take]; omega, ?_⟩
  rw [List.getElem_drop, List.getElem_take]
  congr 1
  omega

theorem nextSep_spec (l sep : Str) (cur : Nat) (hc : cur ≤ (text l).length) (hs : text sep ≠ []) :
    ∃ m, nextSep l sep cur = .ok m ∧
      ((m = (text l).length ∧ ∀ i ≥ cur, ¬ StandsAt (text l) (text sep) i) ∨
       (cur ≤ m ∧ m + (text sep).length ≤ (text l).length ∧ StandsAt (text l) (text sep) m ∧
         ∀ i, cur ≤ i → i < m → ¬ StandsAt (text l) (text sep) i)) := by
  unfold nextSep
  by_cases ho : oneByte l sep = true
  · rw [if_pos ho]
    obtain ⟨k, e, h1, h2, h3, h4⟩ := scan_spec (· == (text sep).headD 0) (text l) ((text l).length - cur) cur (by omega)
    have hsep := headD_single _ (oneByte_length ho)
    have hlen := oneByte_length ho
    generalize hx : (text sep).headD 0 = x at *
    have hno : ∀ i, cur ≤ i → i < k → ¬ StandsAt (text l) (text sep) i := by
      intro i a b hst
      rw [← hsep, stands_single] at hst
      have hi : i < (text l).length := by omega
      rw [List.getElem?_eq_getElem hi] at hst
      injection hst with hst
      have := h3 _ (mem_slice a b hi)
      rw [hst] at this
      simp at this
    refine ⟨k, e, ?_⟩
    by_cases hk : k = (text l).length
    · refine Or.inl ⟨hk, fun i hi hst => ?_⟩
      have := stands_fits _ _ _ hs hst
      exact hno i hi (by omega) hst
    · refine Or.inr ⟨h1, by omega, ?_, hno⟩
      have hk' : k < (text l).length := by omega
      rw [← hsep, stands_single, List.getElem?_eq_getElem hk']
      have := h4 (text l)[k] (by rw [List.drop_eq_getElem_cons hk']; rfl)
      simpa using this
  · rw [if_neg ho]
    obtain ⟨r, e, h⟩ := find_spec l sep cur (text l).length
    rw [e]
    have hlo : Spec.searchStart (text l).length (cur : Int) = cur := by
      unfold Spec.searchStart
      rw [if_neg (by omega), Int.toNat_natCast]
    have hhi : Spec.searchStop (text l).length ((text l).length : Int) = (text l).length := by
      unfold Spec.searchStop
      rw [if_neg (by omega)]
      simp
    have hocc : ∀ i, Spec.OccursAt (text l) (text sep) cur (text l).length i ↔ cur ≤ i ∧ StandsAt (text l) (text sep) i := by
      intro i
      unfold Spec.OccursAt
      rw [hlo, hhi]
      exact ⟨fun h => ⟨h.1, h.2.2⟩, fun h => ⟨h.1, stands_fits _ _ _ hs h.2, h.2⟩⟩
    rcases h with ⟨i, a, b, c⟩ | ⟨a, b⟩
    · refine ⟨i, ?_, Or.inr ?_⟩
      · simp only [a]
        rw [if_neg (by omega), Int.toNat_natCast]
      · rw [hocc] at b
        refine ⟨b.1, stands_fits _ _ _ hs b.2, b.2, fun j h1 h2 h3 => c j h2 ((hocc j).2 ⟨h1, h3⟩)⟩
    · refine ⟨(text l).length, by simp [a], Or.inl ⟨rfl, fun i hi h => b i ((hocc i).2 ⟨hi, h⟩)⟩⟩

theorem prevSep_spec (l sep : Str) (c : Nat) (hc : c ≤ (text l).length) (hs : text sep ≠ []) :
    ∃ e : Nat, prevSep l sep ((c : Int) - 1) = .ok ((e : Int) - 1) ∧
      ((e = 0 ∧ ∀ i, i + (text sep).length ≤ c → ¬ StandsAt (text l) (text sep) i) ∨
       (∃ p, e = p + (text sep).length ∧ e ≤ c ∧ StandsAt (text l) (text sep) p ∧
         ∀ i > p, i + (text sep).length ≤ c → ¬ StandsAt (text l) (text sep) i)) := by
  unfold prevSep
  have hcur : ((c : Int) - 1 + 1) = (c : Int) := by omega
  rw [hcur]
  by_cases ho : oneByte l sep = true
  · rw [if_pos ho, Int.toNat_natCast]
    obtain ⟨k, e, h1, h2, h3⟩ := rscan_spec (· == (text sep).headD 0) (text l) c hc
    have hsep := headD_single _ (oneByte_length ho)
    have hlen := oneByte_length ho
    generalize hx : (text sep).headD 0 = x at *
    have hno : ∀ i, k ≤ i → i < c → ¬ StandsAt (text l) (text sep) i := by
      intro i a b hst
      rw [← hsep, stands_single] at hst
      have hi : i < (text l).length := by omega
      rw [List.getElem?_eq_getElem hi] at hst
      injection hst with hst
      have := h2 _ (mem_slice a b hi)
      rw [hst] at this
      simp at this
    refine ⟨k, e, ?_⟩
    cases k with
    | zero => exact Or.inl ⟨rfl, fun i hi => hno i (Nat.zero_le _) (by omega)⟩
    | succ k =>
      refine Or.inr ⟨k, by omega, h1, ?_, fun i hi hi' => hno i hi (by omega)⟩
      have hk : k < (text l).length := by omega
      have := h3 (text l)[k] (by
        rw [← List.take_append_getElem hk, List.getLast?_append]; simp)
      rw [← hsep, stands_single, List.getElem?_eq_getElem hk]
      simpa using this
  · rw [if_neg ho]
    obtain ⟨r, e, h⟩ := rfind_spec l sep 0 c
    rw [e]
    have hlo : Spec.searchStart (text l).length 0 = 0 := rfl
    have hhi : Spec.searchStop (text l).length (c : Int) = c := by
      unfold Spec.searchStop
      rw [if_neg (by omega), Int.toNat_natCast]
      omega
    have hocc : ∀ i, Spec.OccursAt (text l) (text sep) 0 c i ↔ i + (text sep).length ≤ c ∧ StandsAt (text l) (text sep) i := by
      intro i
      unfold Spec.OccursAt
      rw [hlo, hhi]
      exact ⟨fun h => h.2, fun h => ⟨Nat.zero_le _, h⟩⟩
    have hpos := List.length_pos_iff.2 hs
    rcases h with ⟨i, a, b, d⟩ | ⟨a, b⟩
    · rw [hocc] at b
      refine ⟨i + (text sep).length, ?_, Or.inr ⟨i, rfl, b.1, b.2, fun j h1 h2 h3 => d j h1 ((hocc j).2 ⟨h2, h3⟩)⟩⟩
      simp only [a]
      rw [if_pos (by omega)]
      congr 1
      omega
    · refine ⟨0, by simp [a], Or.inl ⟨rfl, fun i hi h => b i ((hocc i).2 ⟨hi, h⟩)⟩⟩

/-! ### limits -/

/-- What is left of the limit. -/
def remaining (max : Int) (count : Nat) : Option Nat := (Spec.limit max).map (· - count)

theorem remaining_zero (max : Int) (count : Nat) : remaining max count = some 0 ↔ ¬ ((count : Int) < max ∨ max < 0) := by
  unfold remaining Spec.limit
  split
  · simp; omega
  · simp; omega

theorem remaining_succ (max : Int) (count : Nat) : (remaining max count).map (· - 1) = remaining max (count + 1) := by
  unfold remaining
  rw [Option.map_map]
  congr 1

/-! ### split with a separator -/

theorem rest_uncut (l sep : Str) (max : Int) (cur count : Nat) (out : Out) (hr : Room out)
    (h : remaining max count = some 0 ∨ ∀ i, ¬ StandsAt ((text l).drop cur) (text sep) i) :
    Result l out (Spec.Split (text sep) (remaining max count) ((text l).drop cur)) (splitRest l (.ok (cur, out))) := by
  refine result_last _ succ_grows cur (text l).length (Nat.le_refl _) hr ?_
  rw [List.take_length]
  exact Spec.Split.uncut _ _ h

theorem splitLoop_spec (l sep : Str) (max : Int) (hs : text sep ≠ []) : ∀ (fuel cur count : Nat) (out : Out),
    (text l).length - cur < fuel → cur ≤ (text l).length → Room out →
    Result l out (Spec.Split (text sep) (remaining max count) ((text l).drop cur))
      (splitRest l (splitLoop l sep max fuel cur count out))
  | 0, _, _, _, h, _, _ => by omega
  | fuel + 1, cur, count, out, hf, hc, hr => by
    have hpos := List.length_pos_iff.2 hs
    rw [splitLoop]
    by_cases hcond : ((count : Int) < max ∨ max < 0) ∧ cur < (text l).length
    · rw [if_pos hcond]
      obtain ⟨m, e, h⟩ := nextSep_spec l sep cur hc hs
      rw [e]
      simp only
      rcases h with ⟨h1, h2⟩ | ⟨h1, h2, h3, h4⟩
      · rw [if_pos (by omega)]
        refine rest_uncut l sep max cur count out hr (Or.inr (fun i hi => ?_))
        rw [stands_drop] at hi
        exact h2 _ (by omega) hi
      · rw [if_neg (by omega)]
        obtain ⟨r, ep, hroom⟩ := pushSubstr_ok byHalf byHalf_grows out l cur m (by omega) hr
        rw [ep]
        simp only
        have hcut : (text l).drop cur = ((text l).take m).drop cur ++ text sep ++ (text l).drop (m + (text sep).length) := by
          rw [drop_split (text l) cur m h1 (by omega), List.append_assoc]
          congr 1
          conv_lhs => rw [← List.take_append_drop (text sep).length ((text l).drop m)]
          rw [List.drop_drop]
          congr 1
        have hstep : ∀ qs, Spec.Split (text sep) (remaining max (count + 1)) ((text l).drop (m + (text sep).length)) qs →
            Spec.Split (text sep) (remaining max count) ((text l).drop cur) (((text l).take m).drop cur :: qs) := by
          intro qs hq
          have hfirst : ∀ i < (((text l).take m).drop cur).length, ¬ StandsAt ((text l).drop cur) (text sep) i := by
            intro i hi hst
            rw [List.length_drop, List.length_take] at hi
            rw [stands_drop] at hst
            exact h4 (cur + i) (by omega) (by omega) hst
          rw [hcut] at hfirst ⊢
          refine Spec.Split.cut _ _ _ _ ?_ hfirst ?_
          · rw [Ne, remaining_zero]
            exact fun hn => hn hcond.1
          · rw [remaining_succ]
            exact hq
        refine result_cons (out' := ⟨r, _⟩) cur m rfl hstep ?_
        by_cases hmax : max ≥ 0 ∧ ((count + 1 : Nat) : Int) ≥ max
        · rw [if_pos hmax]
          refine rest_uncut l sep max _ (count + 1) _ hroom (Or.inl ?_)
          rw [remaining_zero]
          omega
        · rw [if_neg hmax]
          exact splitLoop_spec l sep max hs fuel (m + (text sep).length) (count + 1) _ (by omega) h2 hroom
    · rw [if_neg hcond]
      refine rest_uncut l sep max cur count out hr ?_
      by_cases h : ((count : Int) < max ∨ max < 0)
      · right
        intro i hi
        rw [stands_drop] at hi
        have := stands_fits _ _ _ hs hi
        have : ¬ cur < (text l).length := fun h' => hcond ⟨h, h'⟩
        omega
      · left
        rw [remaining_zero]
        exact h

/-! ### rsplit with a separator -/

theorem rrest_uncut (l sep : Str) (max : Int) (c count : Nat) (hc : c ≤ (text l).length) (out : Out) (hr : Room out)
    (h : remaining max count = some 0 ∨ ∀ i, ¬ StandsAt ((text l).take c) (text sep) i) :
    Result l out (fun qs => Spec.RSplit (text sep) (remaining max count) ((text l).take c) qs.reverse)
      (rsplitRest l (.ok ((c : Int) - 1, out))) := by
  have : ((c : Int) - 1 + 1) = (c : Int) := by omega
  change Result l out _ (pushSubstr (· + 1) out l ((0 : Nat) : Int) ((c : Int) - 1 + 1))
  rw [this]
  refine result_last (a := 0) _ succ_grows c hc hr ?_
  exact Spec.RSplit.uncut _ _ h

theorem rsplitLoop_spec (l sep : Str) (max : Int) (hs : text sep ≠ []) : ∀ (fuel c count : Nat) (out : Out),
    c < fuel → c ≤ (text l).length → Room out →
    Result l out (fun qs => Spec.RSplit (text sep) (remaining max count) ((text l).take c) qs.reverse)
      (rsplitRest l (rsplitLoop l sep max fuel ((c : Int) - 1) count out))
  | 0, _, _, _, h, _, _ => by omega
  | fuel + 1, c, count, out, hf, hc, hr => by
    have hpos := List.length_pos_iff.2 hs
    rw [rsplitLoop]
    by_cases hcond : ((count : Int) < max ∨ max < 0) ∧ (c : Int) - 1 ≥ 0
    · rw [if_pos hcond]
      obtain ⟨e, he, h⟩ := prevSep_spec l sep c hc hs
      rw [he]
      simp only
      rcases h with ⟨h1, h2⟩ | ⟨p, h1, h2, h3, h4⟩
      · rw [if_pos (by omega)]
        refine rrest_uncut l sep max c count hc out hr (Or.inr (fun i hi => ?_))
        rw [stands_take _ _ _ _ hs hc] at hi
        exact h2 _ hi.2 hi.1
      · rw [if_neg (by omega)]
        have e1 : ((e : Int) - 1 + 1) = (e : Int) := by omega
        have e2 : ((c : Int) - 1 + 1) = (c : Int) := by omega
        have e3 : (e : Int) - 1 - ((text sep).length : Int) = (p : Int) - 1 := by omega
        rw [e1, e2, e3]
        obtain ⟨r, ep, hroom⟩ := pushSubstr_ok byHalf byHalf_grows out l e c hc hr
        rw [ep]
        simp only
        have hcut : (text l).take c = (text l).take p ++ text sep ++ ((text l).take c).drop e := by
          rw [take_split (text l) e c h2]
          congr 1
          · rw [take_split (text l) p e (by omega)]
            congr 1
            rw [h1, List.drop_take, Nat.add_sub_cancel_left]
            exact h3
          · rw [List.drop_left' (by rw [List.length_take]; omega)]
        have hstep : ∀ qs, Spec.RSplit (text sep) (remaining max (count + 1)) ((text l).take p) qs.reverse →
            Spec.RSplit (text sep) (remaining max count) ((text l).take c) (((text l).take c).drop e :: qs).reverse := by
          intro qs hq
          have hlast : ∀ i > ((text l).take p).length, ¬ StandsAt ((text l).take c) (text sep) i := by
            intro i hi hst
            rw [List.length_take] at hi
            rw [stands_take _ _ _ _ hs hc] at hst
            exact h4 i (by omega) hst.2 hst.1
          rw [List.reverse_cons]
          generalize hb : ((text l).take c).drop e = b at *
          rw [hcut] at hlast ⊢
          refine Spec.RSplit.cut _ _ _ _ ?_ hlast ?_
          · rw [Ne, remaining_zero]
            exact fun hn => hn hcond.1
          · rw [remaining_succ]
            exact hq
        refine result_cons (out' := ⟨r, _⟩) e c rfl hstep ?_
        by_cases hmax : max ≥ 0 ∧ ((count + 1 : Nat) : Int) ≥ max
        · rw [if_pos hmax]
          refine rrest_uncut l sep max p (count + 1) (by omega) _ hroom (Or.inl ?_)
          rw [remaining_zero]
          omega
        · rw [if_neg hmax]
          exact rsplitLoop_spec l sep max hs fuel p (count + 1) _ (by omega) (by omega) hroom
    · rw [if_neg hcond]
      refine rrest_uncut l sep max c count hc out hr ?_
      by_cases h : ((count : Int) < max ∨ max < 0)
      · right
        intro i hi
        rw [stands_take _ _ _ _ hs hc] at hi
        have : ¬ (c : Int) - 1 ≥ 0 := fun h' => hcond ⟨h, h'⟩
        omega
      · left
        rw [remaining_zero]
        exact h

end Verif.Str
