import Verif.Str.Model
import Verif.Wire.Props
import Mathlib.Tactic.NormNum
/-
Comparison, hashing and concatenation of strings (C20, C21, C24).
-/
namespace Verif.Str

open Spec (Op)

/-- What the comparison of the common prefix says about two lists. -/
structure Says (l r : List Nat) (res : Int) : Prop where
  below : res = -1 → l < r
  above : res = 1 → r < l
  three : res = -1 ∨ res = 0 ∨ res = 1
  shorter : res = 0 → l.length < r.length → l < r
  longer : res = 0 → r.length < l.length → r < l
  same : res = 0 → l.length = r.length → l = r

theorem arrayCompare_says : ∀ (l r : List Nat), ∃ res, arrayCompare l r (min l.length r.length) = .ok res ∧ Says l r res
  | [], [] => ⟨0, rfl, by simp, by simp, by simp, by simp, by simp, by simp⟩
  | [], b :: r => ⟨0, by simp [arrayCompare], by simp, by simp, by simp, by simp, by simp, by simp⟩
  | a :: l, [] => ⟨0, by simp [arrayCompare], by simp, by simp, by simp, by simp, by simp, by simp⟩
  | a :: l, b :: r => by
    have hm : min (a :: l).length (b :: r).length = min l.length r.length + 1 := by
      simp only [List.length_cons]; omega
    rw [hm, arrayCompare]
    by_cases h1 : a < b
    · rw [if_pos h1]
      exact ⟨-1, rfl, fun _ => List.cons_lt_cons_iff.2 (Or.inl h1), by simp, by simp, by simp, by simp, by simp⟩
    · rw [if_neg h1]
      by_cases h2 : a > b
      · rw [if_pos h2]
        exact ⟨1, rfl, by simp, fun _ => List.cons_lt_cons_iff.2 (Or.inl h2), by simp, by simp, by simp, by simp⟩
      · rw [if_neg h2]
        obtain ⟨res, e, s⟩ := arrayCompare_says l r
        have hab : a = b := by omega
        subst hab
        refine ⟨res, e, fun h => List.cons_lt_cons_iff.2 (Or.inr ⟨rfl, s.below h⟩),
          fun h => List.cons_lt_cons_iff.2 (Or.inr ⟨rfl, s.above h⟩), s.three, ?_, ?_, ?_⟩
        · intro h hl
          exact List.cons_lt_cons_iff.2 (Or.inr ⟨rfl, s.shorter h (by simpa using hl)⟩)
        · intro h hl
          exact List.cons_lt_cons_iff.2 (Or.inr ⟨rfl, s.longer h (by simpa using hl)⟩)
        · intro h hl
          rw [s.same h (by simpa using hl)]

theorem arrayCompare_drop : ∀ (k : Nat) (l r : List Nat) (n : Nat), k ≤ n → n ≤ l.length → n ≤ r.length →
    l.take k = r.take k → arrayCompare l r n = arrayCompare (l.drop k) (r.drop k) (n - k)
  | 0, l, r, n, _, _, _, _ => by simp
  | k + 1, [], r, n, h, h1, _, _ => by simp at h1; omega
  | k + 1, a :: l, [], n, h, _, h1, _ => by simp at h1; omega
  | k + 1, a :: l, b :: r, 0, h, _, _, _ => by omega
  | k + 1, a :: l, b :: r, n + 1, h, h1, h2, e => by
    simp only [List.take_succ_cons, List.cons.injEq] at e
    rw [arrayCompare, e.1, if_neg (by omega), if_neg (by omega), Nat.add_sub_add_right, List.drop_succ_cons,
      List.drop_succ_cons]
    exact arrayCompare_drop k l r n (by omega) (by simpa using h1) (by simpa using h2) e.2

theorem byteCompare_eq : ∀ (n : Nat) (l r : List Nat), n ≤ l.length → n ≤ r.length →
    byteCompare l r n = arrayCompare l r n := by
  intro n
  induction n using Nat.strongRecOn with
  | ind n ih =>
    intro l r h1 h2
    rw [byteCompare]
    split
    · rename_i h
      rw [ih (n - 8) (by omega) _ _ (by rw [List.length_drop]; omega) (by rw [List.length_drop]; omega),
        arrayCompare_drop 8 l r n h.1 h1 h2 h.2]
    · rfl

theorem dataCompare_says (l r : Layout) (hl : Ok l) (hr : Ok r) :
    ∃ res, dataCompare l.width r.width l.points r.points (min l.points.length r.points.length) = .ok res ∧
      Says l.points r.points res := by
  unfold dataCompare
  obtain ⟨res, e, s⟩ := arrayCompare_says l.points r.points
  refine ⟨res, ?_, s⟩
  split
  · rename_i h
    rw [h.1, Nat.one_mul, byteCompare_eq _ _ _ (by omega) (by omega), e]
  · rw [if_pos ⟨hl.width, hr.width⟩, e]

theorem lt_irrefl' (l : List Nat) : ¬ l < l := by
  induction l with
  | nil => simp
  | cons a l ih => rw [List.cons_lt_cons_iff]; simpa using ih

theorem lt_asymm' : ∀ (l r : List Nat), l < r → ¬ r < l
  | [], _, _, h => by simp at h
  | a :: l, [], h, _ => by simp at h
  | a :: l, b :: r, h, h' => by
    rw [List.cons_lt_cons_iff] at h h'
    rcases h with h | ⟨rfl, h⟩
    · rcases h' with h' | ⟨rfl, h'⟩ <;> omega
    · rcases h' with h' | ⟨_, h'⟩
      · omega
      · exact lt_asymm' l r h h'

/-- Three-way comparison with the lexicographic order. -/
def ThreeWay (l r : List Nat) (res : Int) : Prop :=
  (res = -1 ∧ l < r) ∨ (res = 0 ∧ l = r) ∨ (res = 1 ∧ r < l)

theorem opResult_threeWay {l r : List Nat} {res : Int} (h : ThreeWay l r res) (op : Op) :
    opResult op res = Spec.compare op l r := by
  rcases h with ⟨rfl, h⟩ | ⟨rfl, rfl⟩ | ⟨rfl, h⟩
  · have h1 : l ≠ r := fun e => lt_irrefl' r (e ▸ h)
    have h2 := lt_asymm' l r h
    cases op <;> simp [opResult, Spec.compare, h, h1, h2]
  · have h1 := lt_irrefl' l
    cases op <;> simp [opResult, Spec.compare, h1]
  · have h1 : l ≠ r := fun e => lt_irrefl' r (e ▸ h)
    have h2 := lt_asymm' r l h
    cases op <;> simp [opResult, Spec.compare, h, h1, h2]

theorem cmpOrd_some (l r : Layout) (hl : Ok l) (hr : Ok r) :
    ∃ res, cmpOrd (some l) (some r) = .ok res ∧ ThreeWay l.points r.points res := by
  obtain ⟨res, e, s⟩ := dataCompare_says l r hl hr
  unfold cmpOrd
  simp only
  rw [e]
  simp only
  by_cases h0 : res = 0
  · rw [if_neg (by simpa using h0)]
    by_cases h1 : l.points.length < r.points.length
    · rw [if_pos h1]; exact ⟨_, rfl, Or.inl ⟨rfl, s.shorter h0 h1⟩⟩
    · rw [if_neg h1]
      by_cases h2 : l.points.length > r.points.length
      · rw [if_pos h2]; exact ⟨_, rfl, Or.inr (Or.inr ⟨rfl, s.longer h0 h2⟩)⟩
      · rw [if_neg h2]; exact ⟨_, rfl, Or.inr (Or.inl ⟨rfl, s.same h0 (by omega)⟩)⟩
  · rw [if_pos h0]
    refine ⟨_, rfl, ?_⟩
    rcases s.three with h | h | h
    · exact Or.inl ⟨h, s.below h⟩
    · exact absurd h h0
    · exact Or.inr (Or.inr ⟨h, s.above h⟩)

theorem nil_lt_of_ne {l : List Nat} (h : l ≠ []) : [] < l := by
  cases l with
  | nil => exact absurd rfl h
  | cons a l => simp

theorem cmpOrd_normal (l r : Str) (hl : Normal l) (hr : Normal r) :
    ∃ res, cmpOrd l r = .ok res ∧ ThreeWay (text l) (text r) res := by
  cases l with
  | none =>
    cases r with
    | none => exact ⟨0, rfl, Or.inr (Or.inl ⟨rfl, rfl⟩)⟩
    | some r => exact ⟨-1, rfl, Or.inl ⟨rfl, nil_lt_of_ne hr.2⟩⟩
  | some l =>
    cases r with
    | none => exact ⟨1, rfl, Or.inr (Or.inr ⟨rfl, nil_lt_of_ne hl.2⟩)⟩
    | some r => exact cmpOrd_some l r hl.1 hr.1

theorem cmpEq_normal (l r : Str) (hl : Normal l) (hr : Normal r) : cmpEq l r = .ok (decide (text l = text r)) := by
  cases l with
  | none =>
    cases r with
    | none => simp [cmpEq, text]
    | some r => simp [cmpEq, text, Ne.symm hr.2]
  | some l =>
    cases r with
    | none => simp [cmpEq, text, hl.2]
    | some r =>
      obtain ⟨res, e, s⟩ := dataCompare_says l r hl.1 hr.1
      unfold cmpEq
      change _ = Except.ok (decide (l.points = r.points))
      simp only
      by_cases hlen : l.points.length = r.points.length
      · rw [if_neg (by simpa using hlen), e]
        simp only [Except.ok.injEq]
        rw [decide_eq_decide]
        constructor
        · exact fun h => s.same h hlen
        · intro h
          rcases s.three with h1 | h1 | h1
          · exact absurd (s.below h1) (h ▸ lt_irrefl' _)
          · exact h1
          · exact absurd (s.above h1) (h ▸ lt_irrefl' _)
      · rw [if_pos hlen]
        have : l.points ≠ r.points := fun h => hlen (by rw [h])
        simp [this]

/-! ### the comparison with an interpreter string -/

theorem toLE_inj : ∀ (n a b : Nat), a < 256 ^ n → b < 256 ^ n → Wire.toLE n a = Wire.toLE n b → a = b := by
  intro n a b ha hb h
  have h1 := Wire.fromLE_toLE n a
  have h2 := Wire.fromLE_toLE n b
  rw [h, h2, Nat.mod_eq_of_lt ha, Nat.mod_eq_of_lt hb] at h1
  exact h1.symm

theorem memcmp_zero : ∀ (l r : List Nat), l.length = r.length → (memcmp l r = 0 ↔ l = r)
  | [], [], _ => by simp [memcmp]
  | a :: l, b :: r, h => by
    rw [memcmp]
    by_cases h1 : a < b
    · rw [if_pos h1]; simp; omega
    · rw [if_neg h1]
      by_cases h2 : a > b
      · rw [if_pos h2]; simp; omega
      · rw [if_neg h2, memcmp_zero l r (by simpa using h)]
        have : a = b := by omega
        simp [this]

theorem raw_length (w : Nat) (ps : List Nat) : (raw w ps).length = ps.length * w := by
  unfold raw
  induction ps with
  | nil => simp
  | cons p ps ih => rw [List.flatMap_cons, List.length_append, ih, Wire.toLE_length, List.length_cons, Nat.add_mul]; omega

theorem raw_inj (w : Nat) (hw : w ≠ 0) : ∀ (l r : List Nat), (∀ p ∈ l, p < 256 ^ w) → (∀ p ∈ r, p < 256 ^ w) →
    raw w l = raw w r → l = r
  | [], [], _, _, _ => rfl
  | [], b :: r, _, _, h => by
    have := congrArg List.length h
    rw [raw_length, raw_length, List.length_cons, Nat.add_mul] at this
    simp at this; omega
  | a :: l, [], _, _, h => by
    have := congrArg List.length h
    rw [raw_length, raw_length, List.length_cons, Nat.add_mul] at this
    simp at this; omega
  | a :: l, b :: r, hl, hr, h => by
    have h' : Wire.toLE w a ++ raw w l = Wire.toLE w b ++ raw w r := h
    obtain ⟨e1, e2⟩ := List.append_inj h' (by rw [Wire.toLE_length, Wire.toLE_length])
    rw [toLE_inj w a b (hl a (by simp)) (hr b (by simp)) e1,
      raw_inj w hw l r (fun p hp => hl p (by simp [hp])) (fun p hp => hr p (by simp [hp])) e2]

theorem kind_width (ps : List Nat) : kind ps = 1 ∨ kind ps = 2 ∨ kind ps = 4 := by
  unfold kind
  split
  · simp
  · split <;> simp

theorem kind_fits (ps : List Nat) (h : ∀ p ∈ ps, p ≤ Spec.maxPoint) : ∀ p ∈ ps, p < 256 ^ kind ps := by
  intro p hp
  unfold kind
  split
  · rename_i h1
    have := List.all_eq_true.1 h1 p hp
    norm_num
    simpa using this
  · split
    · rename_i h1
      have := List.all_eq_true.1 h1 p hp
      norm_num
      simpa using this
    · have h' : p ≤ 1114111 := h p hp
      norm_num
      omega

theorem ok_python (ps : List Nat) (h : ∀ p ∈ ps, p ≤ Spec.maxPoint) : Ok ⟨kind ps, ps⟩ :=
  ⟨kind_width ps, kind_fits ps h, h⟩

theorem text_python (ps : List Nat) : text (fromPython ps) = ps := by
  unfold fromPython construct
  split
  · rename_i h; rw [List.length_eq_zero_iff.1 h]; rfl
  · rfl

theorem normal_python (ps : List Nat) (h : ∀ p ∈ ps, p ≤ Spec.maxPoint) : Normal (fromPython ps) := by
  unfold fromPython construct
  split
  · trivial
  · rename_i h1
    exact ⟨ok_python ps h, fun e => h1 (by simp [show ps = [] from e])⟩

theorem compareToPython_eq (self : Str) (other : List Nat) (hs : Normal self) (ho : ∀ p ∈ other, p ≤ Spec.maxPoint) :
    compareToPython .eq self other = .ok (decide (text self = other)) := by
  unfold compareToPython
  by_cases hk : kind other = width self
  · rw [if_neg (by simpa using hk)]
    by_cases h1 : other.length < (text self).length
    · rw [if_pos h1]
      have : text self ≠ other := fun e => by rw [e] at h1; omega
      simp [opResult, this]
    · rw [if_neg h1]
      by_cases h2 : other.length > (text self).length
      · rw [if_pos h2]
        have : text self ≠ other := fun e => by rw [e] at h2; omega
        simp [opResult, this]
      · rw [if_neg h2]
        have hlen : (raw (kind other) other).length = (raw (kind other) (text self)).length := by
          rw [raw_length, raw_length]; congr 1; omega
        simp only [opResult, Except.ok.injEq]
        rw [decide_eq_decide, memcmp_zero _ _ hlen]
        have hfit : ∀ p ∈ text self, p < 256 ^ kind other := by
          cases self with
          | none => simp [text]
          | some l => rw [hk]; exact hs.1.fits
        constructor
        · intro e
          exact (raw_inj (kind other) (by rcases kind_width other with h | h | h <;> omega) _ _ (kind_fits other ho) hfit e).symm
        · intro e; rw [e]
  · rw [if_pos hk]
    cases self with
    | none =>
      have : ([] : List Nat) ≠ other := by
        intro e
        rw [← e] at hk
        exact hk rfl
      simp [cmpOrd, opResult, text, this]
    | some l =>
      obtain ⟨res, e, t⟩ := cmpOrd_some l ⟨kind other, other⟩ hs.1 (ok_python other ho)
      rw [e]
      simp only [opResult_threeWay t .eq]
      rfl

/-! ### concatenation -/

theorem map_mod_id (ps : List Nat) (k : Nat) (h : ∀ p ∈ ps, p < k) : ps.map (· % k) = ps := by
  induction ps with
  | nil => rfl
  | cons p ps ih =>
    rw [List.map_cons, ih (fun x hx => h x (by simp [hx])), Nat.mod_eq_of_lt (h p (by simp))]

theorem upgrade_ok (l : Layout) (hl : Ok l) (w : Nat) (hw : w = 1 ∨ w = 2 ∨ w = 4) (h : l.width ≤ w) :
    upgrade (some l) w = .ok (some ⟨w, l.points⟩) := by
  unfold upgrade
  have hf := hl.fits
  have hlt : ∀ v, l.width ≤ v → ∀ p ∈ l.points, p < 256 ^ v := fun v hv p hp =>
    Nat.lt_of_lt_of_le (hf p hp) (Nat.pow_le_pow_right (by omega) hv)
  simp only
  by_cases h0 : w = l.width
  · rw [if_pos h0, h0]
  · rw [if_neg h0]
    rcases hl.width with h1 | h1 | h1
    · rcases hw with rfl | rfl | rfl
      · omega
      · rw [if_pos ⟨h1, rfl⟩, map_mod_id _ 65536 (hlt 2 (by omega))]
      · rw [if_neg (by omega), if_pos ⟨h1, rfl⟩, map_mod_id _ 4294967296 (hlt 4 (by omega))]
    · rcases hw with rfl | rfl | rfl
      · omega
      · omega
      · rw [if_neg (by omega), if_neg (by omega), if_pos ⟨h1, rfl⟩, map_mod_id _ 4294967296 (hlt 4 (by omega))]
    · omega

theorem ok_widen {l : Layout} (hl : Ok l) (w : Nat) (hw : w = 1 ∨ w = 2 ∨ w = 4) (h : l.width ≤ w) : Ok ⟨w, l.points⟩ :=
  ⟨hw, fun p hp => Nat.lt_of_lt_of_le (hl.fits p hp) (Nat.pow_le_pow_right (by omega) h), hl.points⟩

/-- The result of a concatenation: null if both are, else the wider of the two widths. -/
theorem concat_eq (l r : Layout) (hl : Ok l) (hr : Ok r) :
    concat (some l) (some r) = .ok (some ⟨max l.width r.width, l.points ++ r.points⟩) := by
  unfold concat
  simp only
  by_cases h1 : l.width < r.width
  · rw [if_pos h1, upgrade_ok l hl _ hr.width (by omega)]
    simp only [concatSame]
    rw [Nat.max_eq_right (by omega)]
  · rw [if_neg h1]
    by_cases h2 : r.width < l.width
    · rw [if_pos h2, upgrade_ok r hr _ hl.width (by omega)]
      simp only [concatSame]
      rw [Nat.max_eq_left (by omega)]
    · rw [if_neg h2]
      simp only [concatSame]
      rw [Nat.max_eq_left (by omega)]

end Verif.Str
