import Verif.PyDict.Model
import Verif.PyDict.Spec
import Verif.PyCmp.Props
/-
C117: a Dict or ConstDict is compared with a plain dictionary as Python compares two dictionaries.
-/
namespace Verif.PyDict

open Verif.PyCmp
open Verif.Conv (Ty Data Reg Env Fits Level Py conv Has)

/-! ### Python's equality always answers -/

theorem unordered_eq : unordered .eq = some false := rfl

mutual
theorem python_answers (P : Floats) : ∀ (a b : Obj), ∃ r, python P .eq a b = some r
  | .none, b => by cases b <;> simp [python, unordered]
  | .bool x, b => by
    simp only [python]; split <;> simp [unordered]
  | .int x, b => by
    simp only [python]; split <;> simp [unordered]
  | .float x, b => by
    simp only [python]; split <;> simp [unordered]
  | .str s, b => by cases b <;> simp [python, unordered]
  | .bytes s, b => by cases b <;> simp [python, unordered]
  | .tuple xs, b => by
    cases b <;> first | exact ⟨false, rfl⟩ | (simp only [python]; exact pythons_answers P xs _)
  | .list xs, b => by
    cases b <;> first | exact ⟨false, rfl⟩ | (simp only [python]; exact pythons_answers P xs _)
  | .other n, b => by
    cases b <;> first | exact ⟨false, rfl⟩ | (simp only [python]; split <;> simp [unordered])
termination_by structural a => a
theorem pythons_answers (P : Floats) : ∀ (as bs : List Obj), ∃ r, pythons P .eq as bs = some r
  | [], [] => ⟨_, rfl⟩
  | [], _ :: _ => ⟨_, rfl⟩
  | _ :: _, [] => ⟨_, rfl⟩
  | a :: as, b :: bs => by
    obtain ⟨r, hr⟩ := python_answers P a b
    simp only [pythons, hr]
    cases r
    · exact ⟨false, rfl⟩
    · exact pythons_answers P as bs
termination_by structural as => as
end

/-! ### As many keys -/

theorem all_of_all {α : Type} [DecidableEq α] : ∀ (xs ys : List α), xs.Nodup → (∀ x ∈ xs, x ∈ ys) → ys.length ≤ xs.length → ∀ y ∈ ys, y ∈ xs
  | [], ys, _, _, hl, y, hy => by
    have : ys = [] := List.length_eq_zero_iff.mp (by simpa using hl)
    subst this
    exact hy
  | x :: xs, ys, hn, hs, hl, y, hy => by
    rw [List.nodup_cons] at hn
    have hx := hs x (.head _)
    by_cases e : y = x
    · rw [e]; exact .head _
    · refine .tail _ (all_of_all xs (ys.erase x) hn.2 ?_ ?_ y ?_)
      · intro z hz
        exact (List.mem_erase_of_ne (show z ≠ x from fun e => hn.1 (e ▸ hz))).mpr (hs z (.tail _ hz))
      · rw [List.length_erase_of_mem hx]
        simp only [List.length_cons] at hl
        omega
      · exact (List.mem_erase_of_ne e).mpr hy

theorem lookup_mem : ∀ (table : List (Data × Data)), (table.map (·.1)).Nodup → ∀ d w, lookup table d = some w ↔ (d, w) ∈ table
  | [], _, d, w => by simp [lookup]
  | (a, b) :: table, h, d, w => by
    simp only [List.map_cons, List.nodup_cons] at h
    have ih := lookup_mem table h.2 d w
    simp only [lookup, List.lookup_cons] at ih ⊢
    cases e : (d == a)
    · have : d ≠ a := by simpa using e
      simp [ih, this]
    · have : d = a := by simpa using e
      subst this
      simp only [Option.some.injEq, List.mem_cons, Prod.mk.injEq, true_and]
      constructor
      · intro h; exact .inl h.symm
      · rintro (h1 | h1)
        · exact h1.symm
        · exact absurd (List.mem_map_of_mem (f := (·.1)) h1) h.1

/-- What the conversion of keys has to do: it gives the key that equals the object, if there is one, and equal objects for equal keys. -/
structure Faithful (m : Machine) (P : Floats) (K : Ty) (l : Level) (items : List (Obj × Obj)) : Prop where
  finds : ∀ p ∈ items, ∀ d, Has m.env K d → (python P .eq (contents K d) p.1 = some true ↔ conv m.env K (toPy p.1) l = some d)
  apart : ∀ p ∈ items, ∀ q ∈ items, ∀ d, conv m.env K (toPy p.1) l = some d → conv m.env K (toPy q.1) l = some d → python P .eq p.1 q.1 = some true

theorem apart_of {P : Floats} : ∀ {items : List (Obj × Obj)}, DistinctKeys P items → ∀ a ∈ items, ∀ b ∈ items, a ≠ b →
    python P .eq a.1 b.1 ≠ some true ∨ python P .eq b.1 a.1 ≠ some true
  | [], _, _, ha, _, _, _ => nomatch ha
  | x :: xs, hd, a, ha, b, hb, hab => by
    obtain ⟨h1, h2⟩ := List.pairwise_cons.mp hd
    rcases List.mem_cons.mp ha with rfl | ha'
    · rcases List.mem_cons.mp hb with rfl | hb'
      · exact absurd rfl hab
      · exact .inl (h1 b hb')
    · rcases List.mem_cons.mp hb with rfl | hb'
      · exact .inr (h1 a ha')
      · exact apart_of h2 a ha' b hb' hab

/-- The loop, as a statement about all entries. -/
theorem loop_spec {m : Machine} {P : Floats} {K V : Ty} {l : Level} {table : List (Data × Data)} (hn : (table.map (·.1)).Nodup) :
    ∀ (items : List (Obj × Obj)), (∀ q ∈ items, ∀ p ∈ table, compare m V .eq p.2 q.2 = python P .eq (contents V p.2) q.2) →
    ∃ b, loop m K V l table items = some b ∧
      (b = true ↔ ∀ q ∈ items, ∃ p ∈ table, conv m.env K (toPy q.1) l = some p.1 ∧ python P .eq (contents V p.2) q.2 = some true)
  | [], _ => ⟨true, rfl, by simp⟩
  | (k, v) :: rest, h => by
    obtain ⟨b, hb, hb'⟩ := loop_spec (K := K) (l := l) hn rest fun q hq => h q (.tail _ hq)
    simp only [loop]
    cases hc : conv m.env K (toPy k) l with
    | none =>
      refine ⟨false, rfl, ?_⟩
      simp only [Bool.false_eq_true, false_iff]
      intro hx
      obtain ⟨p, _, h1, _⟩ := hx (k, v) (.head _)
      rw [hc] at h1; cases h1
    | some d =>
      simp only []
      cases hl : lookup table d with
      | none =>
        refine ⟨false, rfl, ?_⟩
        simp only [Bool.false_eq_true, false_iff]
        intro hx
        obtain ⟨p, hp, h1, _⟩ := hx (k, v) (.head _)
        rw [hc] at h1
        cases h1
        rw [(lookup_mem table hn p.1 p.2).mpr hp] at hl
        cases hl
      | some w =>
        have hm := (lookup_mem table hn d w).mp hl
        have hcmp := h (k, v) (.head _) (d, w) hm
        obtain ⟨r, hr⟩ := python_answers P (contents V w) v
        simp only [] at hcmp ⊢
        rw [hcmp, hr]
        cases r with
        | false =>
          refine ⟨false, rfl, ?_⟩
          simp only [Bool.false_eq_true, false_iff]
          intro hx
          obtain ⟨p, hp, h1, h2⟩ := hx (k, v) (.head _)
          rw [hc] at h1
          have e1 : d = p.1 := Option.some.inj h1
          have e2 := (lookup_mem table hn p.1 p.2).mpr hp
          rw [← e1, hl] at e2
          rw [← Option.some.inj e2, hr] at h2
          cases h2
        | true =>
          refine ⟨b, hb, ?_⟩
          rw [hb']
          constructor
          · intro hx q hq
            rcases List.mem_cons.mp hq with rfl | hq
            · exact ⟨(d, w), hm, hc, hr⟩
            · exact hx q hq
          · exact fun hx q hq => hx q (.tail _ hq)

/-- Where the keys are converted faithfully the comparison is Python's. -/
theorem equals_python {m : Machine} {P : Floats} (hs : Sound m P) {K V : Ty} {l : Level} {fl : Bool} {table : List (Data × Data)} {items : List (Obj × Obj)}
    (hn : (table.map (·.1)).Nodup) (hK : ∀ p ∈ table, Has m.env K p.1) (hV : ∀ p ∈ table, Has m.env V p.2) (hT : ∀ p ∈ table, Tame fl (contents V p.2))
    (hd : DistinctKeys P items) (hI : ∀ q ∈ items, Tame fl q.2) (hf : Faithful m P K l items) :
    equals m K V l table (some items) = some (pythonEqual P (contentsDict K V table) items) := by
  have hcmp : ∀ q ∈ items, ∀ p ∈ table, compare m V .eq p.2 q.2 = python P .eq (contents V p.2) q.2 :=
    fun q hq p hp => equality_partial hs (hV p hp) (.inl rfl) (hT p hp) (hI q hq)
  simp only [equals, pythonEqual, contentsDict, List.length_map]
  by_cases hl : items.length = table.length
  · rw [if_pos hl]
    obtain ⟨b, hb, hb'⟩ := loop_spec (K := K) (l := l) hn items hcmp
    rw [hb]
    congr 1
    rw [Bool.eq_iff_iff, hb']
    simp only [hl.symm, decide_true, Bool.true_and, List.all_map, List.all_eq_true, Function.comp_def, List.any_eq_true, Bool.and_eq_true, beq_iff_eq]
    have hnc : (items.map fun q => conv m.env K (toPy q.1) l).Pairwise fun x y => x = y → x = .none := by
      rw [List.pairwise_map]
      refine List.Pairwise.imp_of_mem ?_ hd
      intro p q hp hq hne e
      cases h : conv m.env K (toPy p.1) l with
      | none => rfl
      | some d => exact absurd (hf.apart p hp q hq d h (e ▸ h)) hne
    constructor
    · intro hx p hp
      have hnod : (items.map fun q => conv m.env K (toPy q.1) l).Nodup := by
        refine List.Pairwise.imp_of_mem ?_ hnc
        intro x y hx' _ hxy e
        obtain ⟨q, hq, rfl⟩ := List.mem_map.mp hx'
        obtain ⟨p, _, h1, _⟩ := hx q hq
        rw [hxy e] at h1
        cases h1
      have := all_of_all _ (table.map fun p => some p.1) hnod (by
        intro x hx'
        obtain ⟨q, hq, rfl⟩ := List.mem_map.mp hx'
        obtain ⟨p, hp, h1, _⟩ := hx q hq
        rw [h1]
        exact List.mem_map_of_mem (f := fun p => some p.1) hp) (by simp [hl]) (some p.1) (List.mem_map_of_mem (f := fun p => some p.1) hp)
      obtain ⟨q, hq, hqe⟩ := List.mem_map.mp this
      obtain ⟨p', hp', h1, h2⟩ := hx q hq
      refine ⟨q, hq, (hf.finds q hq p.1 (hK p hp)).mpr hqe, ?_⟩
      rw [hqe] at h1
      have e1 : p.1 = p'.1 := Option.some.inj h1
      have e2 := (lookup_mem table hn p.1 p.2).mpr hp
      have e3 := (lookup_mem table hn p'.1 p'.2).mpr hp'
      rw [← e1, e2] at e3
      rw [Option.some.inj e3]
      exact h2
    · intro hx q hq
      have hnod : (table.map fun p => some p.1).Nodup := by
        rw [show (table.map fun p => some p.1) = (table.map (·.1)).map some by simp]
        exact List.pairwise_map.mpr (List.Pairwise.imp (fun h e => h (Option.some.inj e)) hn)
      have := all_of_all _ (items.map fun q => conv m.env K (toPy q.1) l) hnod (by
        intro x hx'
        obtain ⟨p, hp, rfl⟩ := List.mem_map.mp hx'
        obtain ⟨q, hq, h1, _⟩ := hx p hp
        rw [← (hf.finds q hq p.1 (hK p hp)).mp h1]
        exact List.mem_map_of_mem (f := fun q => conv m.env K (toPy q.1) l) hq) (by simp [hl]) _ (List.mem_map_of_mem (f := fun q => conv m.env K (toPy q.1) l) hq)
      obtain ⟨p, hp, hpe⟩ := List.mem_map.mp this
      obtain ⟨q', hq', h1, h2⟩ := hx p hp
      have h3 := (hf.finds q' hq' p.1 (hK p hp)).mp h1
      have hqq : q = q' := by
        by_cases e : q = q'
        · exact e
        · rcases apart_of hd q hq q' hq' e with h | h
          · exact absurd (hf.apart q hq q' hq' p.1 hpe.symm h3) h
          · exact absurd (hf.apart q' hq' q hq p.1 h3 hpe.symm) h
      subst hqq
      exact ⟨p, hp, h3, h2⟩
  · rw [if_neg hl]
    simp [Ne.symm hl]

/-! ### Which keys are converted faithfully -/

/-- The conversion to a machine type takes the object, or the object is not a number. -/
def Takes (l : Level) : Ty → Obj → Prop
  | .reg r, .int _ => Conv.isValidConversion .i64 r l = true
  | .reg r, .bool _ => Conv.isValidConversion .bool r l = true
  | _, _ => True

theorem fits_bit_whole {e : Env} {r : Reg} (h : Whole r) (b : Bool) : Fits e r (.int (if b then 1 else 0)) := by
  cases r <;> cases b <;> simp [Fits, Conv.InInt64, Whole] at h ⊢

theorem fits_int {e : Env} {r : Reg} {n : Conv.Num} (hw : Whole r) (h : Fits e r n) : ∃ k, n = .int k := by
  cases n with
  | int k => exact ⟨k, rfl⟩
  | flt x => cases r <;> simp [Fits, Whole] at h hw

theorem fromInt_same {e : Env} {r : Reg} {n : Int} (hw : Whole r) (h : Fits e r (.int n)) : Conv.fromInt e r n = .int n := by
  have hl : Conv.longBits n = n := by
    simp only [Conv.longBits]
    by_cases hn : Conv.inInt64 n = true
    · rw [if_pos hn]
    · rw [if_neg hn]
      simp only [Conv.inInt64, Bool.and_eq_true, decide_eq_true_eq] at hn
      cases r <;> simp [Fits, Conv.InInt64, Whole] at h hw <;> omega
  have hf : r.isFloat = false := by cases r <;> simp [Whole, Conv.Reg.isFloat] at hw ⊢
  simp only [Conv.fromInt, hf, hl]
  exact cast_same h

/-- The number or the text that an object is. -/
def keyData : Ty → Obj → Option Data
  | .str, .str s => some (.str s)
  | .bytes, .bytes b => some (.bytes b)
  | .reg _, .bool b => some (.num (.int (if b then 1 else 0)))
  | .reg _, .int n => some (.num (.int n))
  | _, _ => none

theorem conv_key {e : Env} {K : Ty} {k : Obj} {l : Level} (hK : KeyType K) (hk : Kept e K k) (ht : Takes l K k) (hl : l < .new) :
    conv e K (toPy k) l = keyData K k := by
  have hl' : ¬ (Level.new ≤ l) := by revert hl; cases l <;> decide
  rcases hK with rfl | rfl | ⟨r, rfl, hw⟩
  · cases k <;> simp [conv, Conv.copyOr, Conv.convTo, Conv.convStr, toPy, keyData, hl']
  · cases k <;> simp [conv, Conv.copyOr, Conv.convTo, Conv.convBytes, toPy, keyData, hl']
  · cases k with
    | bool b =>
      simp only [Takes] at ht
      simp [conv, Conv.copyOr, Conv.convTo, Conv.convReg, toPy, keyData, ht, cast_same (fits_bit_whole (e := e) hw b)]
    | int n =>
      simp only [Takes] at ht
      simp [conv, Conv.copyOr, Conv.convTo, Conv.convReg, toPy, keyData, ht, fromInt_same hw hk]
    | float x => exact hk.elim
    | _ => simp [conv, Conv.copyOr, Conv.convTo, Conv.convReg, toPy, keyData, hl']

theorem faithful {m : Machine} {P : Floats} {K : Ty} {l : Level} {items : List (Obj × Obj)} (hK : KeyType K) (hk : ∀ q ∈ items, Kept m.env K q.1)
    (ht : ∀ q ∈ items, Takes l K q.1) (hl : l < .new) : Faithful m P K l items where
  finds q hq d hd := by
    rw [conv_key hK (hk q hq) (ht q hq) hl]
    have hkq := hk q hq
    generalize q.1 = k at hkq
    rcases hK with rfl | rfl | ⟨r, rfl, hw⟩
    · cases hd
      cases k <;> simp [contents, python, keyData, unordered, Op.of, eq_comm]
    · cases hd
      cases k <;> simp [contents, python, keyData, unordered, Op.of, eq_comm]
    · cases hd with
      | reg hf =>
        obtain ⟨n, rfl⟩ := fits_int hw hf
        simp only [contents]
        rw [python_number P .eq (number_plain hf)]
        cases k <;> simp [number, numbers, keyData, Op.of, unordered, Kept, eq_comm] at hkq ⊢
  apart p hp q hq d h1 h2 := by
    rw [conv_key hK (hk p hp) (ht p hp) hl] at h1
    rw [conv_key hK (hk q hq) (ht q hq) hl] at h2
    generalize p.1 = a at h1
    generalize q.1 = b at h2
    rcases hK with rfl | rfl | ⟨r, rfl, hw⟩
    · cases a <;> cases b <;> simp [keyData] at h1 h2
      subst h1
      cases h2
      simp [python, Op.of]
    · cases a <;> cases b <;> simp [keyData] at h1 h2
      subst h1
      cases h2
      simp [python, Op.of]
    · cases a <;> cases b <;> simp [keyData] at h1 h2 <;> subst h1 <;> simp at h2 <;> simp [python, number, numbers, Op.of, h2]

theorem takes_implicit (K : Ty) (k : Obj) : Takes .implicit K k := by
  cases K <;> cases k <;> simp only [Takes] <;> exact if_pos (by decide)

/-! ### The comparisons -/

/-- A typed dictionary: its keys are of the key type, no two of them the same, and its values of the value type. -/
structure Table (e : Env) (K V : Ty) (table : List (Data × Data)) : Prop where
  keys : ∀ p ∈ table, Has e K p.1
  values : ∀ p ∈ table, Has e V p.2
  nodup : (table.map (·.1)).Nodup

/-- A plain dictionary: no two of its keys are equal, and its values are such that machine arithmetic agrees with Python's (C113). -/
structure Plain (P : Floats) (fl : Bool) (items : List (Obj × Obj)) : Prop where
  keys : DistinctKeys P items
  values : ∀ q ∈ items, Tame fl q.2

theorem compareDict_python {m : Machine} {P : Floats} (hs : Sound m P) {K V : Ty} {l : Level} {fl : Bool} {table : List (Data × Data)} (op : Op)
    (hT : Table m.env K V table) (hV : ∀ p ∈ table, Tame fl (contents V p.2)) {o : Option (List (Obj × Obj))}
    (ho : ∀ items, o = some items → Plain P fl items ∧ Faithful m P K l items) :
    compareDict m K V l op table o = pythonDict P op (contentsDict K V table) o := by
  cases o with
  | none => cases op <;> rfl
  | some items =>
    obtain ⟨hp, hf⟩ := ho items rfl
    have := equals_python hs hT.nodup hT.keys hT.values hV hp.keys hp.values hf
    cases op <;> simp only [compareDict, pythonDict, this, incomparable, Option.map_some]

/-- C117.  A Dict with text, bytes objects or whole numbers as keys, compared with any object by any operator, answers what Python
answers for the plain dictionary with the same contents; the keys of the other dictionary must be ones that the conversion to the key type keeps. -/
theorem dict_partial {m : Machine} {P : Floats} (hs : Sound m P) {K V : Ty} {fl : Bool} {table : List (Data × Data)} (op : Op) (hK : KeyType K)
    (hT : Table m.env K V table) (hV : ∀ p ∈ table, Tame fl (contents V p.2)) {o : Option (List (Obj × Obj))}
    (ho : ∀ items, o = some items → Plain P fl items ∧ ∀ q ∈ items, Kept m.env K q.1) :
    dict m K V op table o = pythonDict P op (contentsDict K V table) o := by
  refine compareDict_python hs op hT hV fun items h => ⟨(ho items h).1, faithful hK (ho items h).2 (fun q _ => takes_implicit K q.1) (by decide)⟩

/-- C117.  The same for a ConstDict, if numbers among the other's keys are only there where the key type is `int`, or are booleans. -/
theorem constDict_partial {m : Machine} {P : Floats} (hs : Sound m P) {K V : Ty} {fl : Bool} {table : List (Data × Data)} (op : Op) (hK : KeyType K)
    (hT : Table m.env K V table) (hV : ∀ p ∈ table, Tame fl (contents V p.2)) {o : Option (List (Obj × Obj))}
    (ho : ∀ items, o = some items → Plain P fl items ∧ ∀ q ∈ items, Kept m.env K q.1 ∧ ∀ r n, K = .reg r → q.1 = .int n → r = .i64) :
    constDict m K V op table o = pythonDict P op (contentsDict K V table) o := by
  refine compareDict_python hs op hT hV fun items h => ⟨(ho items h).1, faithful hK (fun q hq => ((ho items h).2 q hq).1) ?_ (by decide)⟩
  intro q hq
  have := ((ho items h).2 q hq).2
  revert this
  generalize q.1 = k
  intro this
  cases K <;> cases k <;> simp only [Takes]
  · rename_i r b; cases r <;> decide
  · rw [this _ _ rfl rfl]; decide

/-! ### The plain dictionary on the left -/

/-- The same comparison, read from the plain dictionary. -/
theorem equals_python_right {m : Machine} {P : Floats} (hs : Sound m P) {K V : Ty} {l : Level} {fl : Bool} {table : List (Data × Data)} {items : List (Obj × Obj)}
    (hT : Table m.env K V table) (hV : ∀ p ∈ table, Tame fl (contents V p.2)) (hI : ∀ q ∈ items, Tame fl q.2) (hf : Faithful m P K l items) :
    equals m K V l table (some items) = some (pythonEqual P items (contentsDict K V table)) := by
  have hcmp : ∀ q ∈ items, ∀ p ∈ table, compare m V .eq p.2 q.2 = python P .eq (contents V p.2) q.2 :=
    fun q hq p hp => equality_partial hs (hT.values p hp) (.inl rfl) (hV p hp) (hI q hq)
  have hm : ∀ a b, python P .eq a b = python P .eq b a := fun a b =>
    python_mirror P (fun x y => by rw [hs.eq, hs.eq, hs.symm]) .eq a b
  simp only [equals, pythonEqual, contentsDict, List.length_map]
  by_cases hl : items.length = table.length
  · rw [if_pos hl]
    obtain ⟨b, hb, hb'⟩ := loop_spec (K := K) (l := l) hT.nodup items hcmp
    rw [hb]
    congr 1
    rw [Bool.eq_iff_iff, hb']
    simp only [hl, decide_true, Bool.true_and, List.any_map, List.all_eq_true, Function.comp_def, List.any_eq_true, Bool.and_eq_true, beq_iff_eq]
    refine forall_congr' fun q => forall_congr' fun hq => exists_congr fun p => and_congr_right fun hp => ?_
    rw [← hf.finds q hq p.1 (hT.keys p hp), hm q.1, hm q.2]
  · rw [if_neg hl]
    simp [hl]

/-- C117.  With the plain dictionary on the left. -/
theorem dictRight_partial {m : Machine} {P : Floats} (hs : Sound m P) {K V : Ty} {fl : Bool} {table : List (Data × Data)} (op : Op) (hK : KeyType K)
    (hT : Table m.env K V table) (hV : ∀ p ∈ table, Tame fl (contents V p.2)) {items : List (Obj × Obj)} (hI : ∀ q ∈ items, Tame fl q.2)
    (hk : ∀ q ∈ items, Kept m.env K q.1) :
    dictRight m K V op table (some items) = pythonDict P op items (some (contentsDict K V table)) := by
  have hf : Faithful m P K .implicit items := faithful hK hk (fun q _ => takes_implicit K q.1) (by decide)
  have := equals_python_right hs hT hV hI hf
  cases op <;> simp only [dictRight, dict, reverse, compareDict, pythonDict, this, incomparable, Option.map_some]

end Verif.PyDict
