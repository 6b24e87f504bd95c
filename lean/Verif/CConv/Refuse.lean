import Verif.CConv.Sound
import Verif.Conv.Keep
/-
What the compiler refuses in advance, the interpreter refuses as well.
-/
namespace Verif.CConv

open Verif.Conv

/-- A value of a type that is not a OneOf or a constant is not an object of another type. -/
theorem extract_other {e : Env} {s t : Ty} {d : Data} (hs : Has e s d) (hp : s.plain = true) (hst : s ≠ t) : ∀ d', extract s d ≠ .inst t d' := by
  intro d' h
  cases hs <;> simp only [extract] at h
  case reg => rw [numToPy.eq_def] at h; split at h <;> cases h; exact hst rfl
  case none => cases h
  case str => cases h
  case bytes => cases h
  case value => simp [Ty.plain] at hp
  case oneOf => simp [Ty.plain] at hp
  all_goals (cases h; exact hst rfl)

/-- Numbers and other single values are not sequences and yield nothing. -/
theorem extract_num {e : Env} {r : Reg} {d : Data} (hs : Has e (.reg r) d) : isSequence (extract (.reg r) d) = false ∧ items (extract (.reg r) d) = none := by
  cases hs
  simp only [extract]
  rw [numToPy.eq_def]
  split <;> exact ⟨rfl, rfl⟩

theorem convReg_num {e : Env} {r r' : Reg} {d : Data} {l : Level} (hl : l < .new) (hs : Has e (.reg r) d) (h : isValidConversion r r' l = false) :
    convReg e r' (extract (.reg r) d) l = none := by
  have hn : ¬ Level.new ≤ l := Nat.not_le.mpr hl
  cases hs
  simp only [extract]
  rw [numToPy.eq_def]
  split <;> simp [convReg, h, hn]

theorem fieldOf_fieldNamed {ns : List String} {ss : List Ty} {ds : List Data} {n : String} :
    fieldOf ns ss ds n = (fieldNamed ns ss ds n).map fun x => extract x.1 x.2 := by
  induction ns generalizing ss ds with
  | nil => simp [fieldOf, fieldNamed]
  | cons m ns ih =>
    cases ss with
    | nil => simp [fieldOf, fieldNamed]
    | cons s ss =>
      cases ds with
      | nil => simp [fieldOf, fieldNamed]
      | cons d ds =>
        rw [fieldOf, fieldNamed]
        split
        · rfl
        · exact ih

/-- The levels of elements and fields are not above the level of the whole, except at `implicit`. -/
theorem seqChild_le {b : Bool} {v : Py} {l l' c : Level} (hl : l' ≤ l) (hn : l < .new) (hi : l ≠ .implicit) (h : seqChild b v l' = some c) : c ≤ l := by
  rw [Level.le_iff] at *
  rw [Level.lt_iff] at hn
  cases l <;> cases l' <;> simp_all [seqChild, Level.le_iff, Level.lt_iff, Level.toInt] <;> (try subst h) <;> (try obtain ⟨_, _, rfl⟩ := h) <;> simp

theorem compChild_le {v : Py} {l l' c : Level} (hl : l' ≤ l) (hn : l < .new) (h : compChild v l' = some c) : c ≤ l := by
  rw [Level.le_iff] at *
  rw [Level.lt_iff] at hn
  cases l <;> cases l' <;> simp_all [compChild, Level.le_iff, Level.lt_iff, Level.toInt] <;> (try subst h) <;> (try obtain ⟨_, rfl⟩ := h) <;> simp

theorem mapM_none {α β : Type} {f : α → Option β} {xs : List α} {x : α} (hx : x ∈ xs) (h : f x = none) : xs.mapM f = none := by
  cases hm : xs.mapM f with
  | none => rfl
  | some ys =>
    obtain ⟨h1, h2⟩ := mapM_some hm
    obtain ⟨i, hi, rfl⟩ := List.mem_iff_getElem.mp hx
    have := h2 i ys[i] xs[i] (List.getElem?_eq_getElem (by omega)) (List.getElem?_eq_getElem hi)
    rw [h] at this
    cases this

/-- Fields of two tuples, position by position. -/
theorem zip_refused {e : Env} {ts ss : List Ty} {ds : List Data} {l : Level} (hlen : ss.length = ds.length)
    (h : ∃ (i : Nat) (t s : Ty) (d : Data), ts[i]? = some t ∧ ss[i]? = some s ∧ ds[i]? = some d ∧ conv e t (extract s d) l = none) :
    convZip e ts (List.zipWith extract ss ds) l = none := by
  cases hz : convZip e ts (List.zipWith extract ss ds) l with
  | none => rfl
  | some xs =>
    obtain ⟨h1, h2, h3⟩ := convZip_some hz
    obtain ⟨i, t, s, d, ht, hs, hd, hn⟩ := h
    have hit := (List.getElem?_eq_some_iff.mp ht).1
    have := h3 i t xs[i] (extract s d) ht (List.getElem?_eq_getElem (by omega)) (by simp [List.getElem?_zipWith, hs, hd])
    rw [hn] at this
    cases this

theorem zip_index {ts ss : List Ty} {q : Ty × Ty} (h : q ∈ ts.zip ss) : ∃ i : Nat, ts[i]? = some q.1 ∧ ss[i]? = some q.2 := by
  obtain ⟨i, hi, rfl⟩ := List.mem_iff_getElem.mp h
  rw [List.length_zip] at hi
  refine ⟨i, ?_, ?_⟩ <;> rw [List.getElem_zip] <;> exact List.getElem?_eq_getElem (by omega)

/-- What the induction is about. -/
def Refused (e : Env) (t : Ty) : Prop := Good e t → ∀ s d l l', canConvert s t l = .no → l ≠ .implicit → l < .new → l' ≤ l → Has e s d →
  conv e t (extract s d) l' = none

theorem elements_refused {e : Env} {u s : Ty} {d : Data} {l c : Level} (ih : Refused e u) (hu : Good e u) (hs : Has e s d)
    (hi : l ≠ .implicit) (hl : l < .new) (hc : c ≤ l) (h : canItems s (fun v => canConvert v u l) = .no) :
    rawBytes u (extract s d) = none ∧ (∀ xs, items (extract s d) = some xs → xs.mapM (fun x => copyOr u x (convTo e u x c)) = none) := by
  cases hs <;> simp only [canItems] at h
  case none => exact ⟨by simp [extract, rawBytes], by simp [extract, items]⟩
  case reg r n hn =>
    have := extract_num (e := e) (.reg hn)
    refine ⟨?_, by simp [this.2]⟩
    simp only [extract]
    rw [numToPy.eq_def]
    split <;> simp [rawBytes]
  case str => cases h
  case bytes => cases h
  case value => cases h
  case oneOf => cases h
  case tupleOf => split at h <;> cases h
  case listOf => split at h <;> cases h
  case tuple ss ds hlen hd =>
    refine ⟨by simp [extract, rawBytes], fun xs hx => ?_⟩
    simp only [extract, items, Option.some.injEq] at hx
    subst hx
    obtain ⟨v, hv, hn⟩ := foldr_both_no h
    obtain ⟨i, hi', rfl⟩ := List.mem_iff_getElem.mp hv
    have hid : i < ds.length := by omega
    refine mapM_none (x := extract ss[i] ds[i]) ?_ (ih hu _ _ l c hn hi hl hc (hd i _ _ (List.getElem?_eq_getElem hi') (List.getElem?_eq_getElem hid)))
    exact List.mem_of_getElem? (i := i) (by simp [List.getElem?_zipWith, hi', hid])
  case named ns ss ds hlen hd =>
    refine ⟨by simp [extract, rawBytes], fun xs hx => ?_⟩
    simp only [extract, items, Option.some.injEq] at hx
    subst hx
    obtain ⟨v, hv, hn⟩ := foldr_both_no h
    obtain ⟨i, hi', rfl⟩ := List.mem_iff_getElem.mp hv
    have hid : i < ds.length := by omega
    refine mapM_none (x := extract ss[i] ds[i]) ?_ (ih hu _ _ l c hn hi hl hc (hd i _ _ (List.getElem?_eq_getElem hi') (List.getElem?_eq_getElem hid)))
    exact List.mem_of_getElem? (i := i) (by simp [List.getElem?_zipWith, hi', hid])

theorem seqChild_low {b : Bool} {v : Py} {l : Level} (h : l < .upcastContainers) : seqChild b v l = none := by
  rw [Level.lt_iff] at h
  cases l <;> simp_all [seqChild, Level.lt_iff, Level.toInt]

theorem seqChild_list_low {v : Py} {l : Level} (h : l < .implicitContainers) : seqChild true v l = none := by
  simp [seqChild, h]

theorem compChild_low {v : Py} {l : Level} (h : l < .upcast) : compChild v l = none := by
  simp [compChild, h]

theorem compChild_single {v : Py} {l : Level} (h : isSequence v = false) (hl : l < .new) : compChild v l = none := by
  rw [compChild]
  split
  · rfl
  · simp [h, hl]

theorem level_lt {a b c : Level} (h : a ≤ b) (hb : b < c) : a < c := by
  rw [Level.lt_iff] at *
  rw [Level.le_iff] at h
  omega

theorem refused_all {e : Env} (t : Ty) : Refused e t := by
  induction t using Ty.ind with
  | none =>
    intro hg s d l l' h hi hl hl' hs
    have := (canConvert_no.mp h).2.2
    rw [canFrom] at this
    split at this <;> cases this
  | value c =>
    intro hg s d l l' h hi hl hl' hs
    have := (canConvert_no.mp h).2.2
    rw [canFrom] at this
    split at this <;> cases this
  | oneOf ts ih =>
    intro hg s d l l' h hi hl hl' hs
    have := (canConvert_no.mp h).2.2
    rw [canFrom] at this
    split at this <;> cases this
  | reg r =>
    intro hg s d l l' h hi hl hl' hs
    obtain ⟨hst, h1, h2⟩ := canConvert_no.mp h
    have hn : ¬ Level.new ≤ l' := Nat.not_le.mpr (level_lt hl' hl)
    have hp : s.plain = true := by cases s <;> simp_all [canTo, Ty.plain]
    rw [conv, copyOr_other (extract_other hs hp hst), convTo]
    cases hs with
    | reg hf =>
      rename_i r' n
      refine convReg_num (level_lt hl' hl) (.reg hf) ?_
      cases hv : isValidConversion r' r l' with
      | false => rfl
      | true =>
        have := isValidConversion_mono hl' hv
        simp only [canTo, this, Bool.not_true, Bool.false_eq_true, if_false] at h1
        split at h1 <;> cases h1
    | value => simp [Ty.plain] at hp
    | oneOf => simp [Ty.plain] at hp
    | _ => simp [extract, convReg, hn]
  | str =>
    intro hg s d l l' h hi hl hl' hs
    obtain ⟨hst, h1, h2⟩ := canConvert_no.mp h
    have hn : ¬ Level.new ≤ l' := Nat.not_le.mpr (level_lt hl' hl)
    have hp : s.plain = true := by cases s <;> simp_all [canTo, Ty.plain]
    rw [conv, copyOr_other (extract_other hs hp hst), convTo]
    cases hs with
    | reg hf => simp only [extract]; rw [numToPy.eq_def]; split <;> simp [convStr, hn]
    | value => simp [Ty.plain] at hp
    | oneOf => simp [Ty.plain] at hp
    | str => exact absurd rfl hst
    | _ => simp [extract, convStr, hn]
  | bytes =>
    intro hg s d l l' h hi hl hl' hs
    obtain ⟨hst, h1, h2⟩ := canConvert_no.mp h
    have hn : ¬ Level.new ≤ l' := Nat.not_le.mpr (level_lt hl' hl)
    have hp : s.plain = true := by cases s <;> simp_all [canTo, Ty.plain]
    rw [conv, copyOr_other (extract_other hs hp hst), convTo]
    cases hs with
    | reg hf => simp only [extract]; rw [numToPy.eq_def]; split <;> simp [convBytes, hn]
    | value => simp [Ty.plain] at hp
    | oneOf => simp [Ty.plain] at hp
    | bytes => exact absurd rfl hst
    | _ => simp [extract, convBytes, hn]
  | tupleOf u ih =>
    intro hg s d l l' h hi hl hl' hs
    obtain ⟨hst, h1, h2⟩ := canConvert_no.mp h
    have hp : s.plain = true := by cases s <;> simp_all [canTo, Ty.plain]
    rw [conv, copyOr_other (extract_other hs hp hst), convTo]
    cases hg with
    | tupleOf hu =>
    rw [canFrom] at h2
    split at h2
    · rename_i hlow
      rw [seqChild_low (level_lt hl' hlow)]
    · cases hc : seqChild false (extract s d) l' with
      | none => rfl
      | some c =>
        have := elements_refused ih hu hs hi hl (seqChild_le hl' hl hi hc) h2
        simp only [this.1]
        cases hx : items (extract s d) with
        | none => rfl
        | some xs => simp only [this.2 xs hx]; rfl
  | listOf u ih =>
    intro hg s d l l' h hi hl hl' hs
    obtain ⟨hst, h1, h2⟩ := canConvert_no.mp h
    have hp : s.plain = true := by cases s <;> simp_all [canTo, Ty.plain]
    rw [conv, copyOr_other (extract_other hs hp hst), convTo]
    cases hg with
    | listOf hu =>
    rw [canFrom] at h2
    split at h2
    · rename_i hlow
      rw [seqChild_list_low (level_lt hl' hlow)]
    · cases hc : seqChild true (extract s d) l' with
      | none => rfl
      | some c =>
        have := elements_refused ih hu hs hi hl (seqChild_le hl' hl hi hc) h2
        simp only [this.1]
        cases hx : items (extract s d) with
        | none => rfl
        | some xs => simp only [this.2 xs hx]; rfl
  | tuple ts ih =>
    intro hg s d l l' h hi hl hl' hs
    obtain ⟨hst, h1, h2⟩ := canConvert_no.mp h
    have hp : s.plain = true := by cases s <;> simp_all [canTo, Ty.plain]
    rw [conv, copyOr_other (extract_other hs hp hst), convTo]
    cases hg with
    | tuple hg =>
    have hzip : ∀ {ss : List Ty} {ds : List Data} {c : Level}, ss.length = ds.length →
        (∀ (i : Nat) (t : Ty) (d : Data), ss[i]? = some t → ds[i]? = some d → Has e t d) → c ≤ l → canZip ts ss l = .no →
        convZip e ts (List.zipWith extract ss ds) c = none := by
      intro ss ds c hlen hd hc hz
      obtain ⟨q, hq, hqn⟩ := canZip_no hz
      obtain ⟨i, ht, hs⟩ := zip_index hq
      have his := (List.getElem?_eq_some_iff.mp hs).1
      have hid : ds[i]? = some ds[i] := List.getElem?_eq_getElem (by omega)
      exact zip_refused hlen ⟨i, _, _, _, ht, hs, hid,
        ih _ (List.mem_of_getElem? ht) (hg _ (List.mem_of_getElem? ht)) _ _ l c hqn hi hl hc (hd i _ _ hs hid)⟩
    cases hc : compChild (extract s d) l' with
    | none => rfl
    | some c =>
      have hcl := compChild_le hl' hl hc
      have hlow : ¬ l < .upcast := by
        intro hlt
        rw [compChild_low (level_lt hl' hlt)] at hc
        cases hc
      have hone : isSequence (extract s d) ≠ false := by
        intro hq
        rw [compChild_single hq (level_lt hl' hl)] at hc
        cases hc
      cases hs with
      | @tuple ss ds hlen hd =>
        simp only [extract, length, items, Option.map_some, List.length_zipWith]
        split
        · rename_i hle
          rw [canFrom] at h2
          simp only [if_neg hlow] at h2
          rw [if_neg (by simp; omega)] at h2
          rw [hzip hlen hd hcl h2]
          rfl
        · rfl
      | @named ns ss ds hlen hd =>
        simp only [extract, length, items, Option.map_some, List.length_zipWith]
        split
        · rename_i hle
          rw [canFrom] at h2
          simp only [if_neg hlow] at h2
          rw [if_neg (by simp; omega)] at h2
          rw [hzip hlen hd hcl h2]
          rfl
        · rfl
      | tupleOf => simp [canFrom] at h2
      | listOf => simp [canFrom] at h2
      | none => simp [extract, isSequence] at hone
      | str => simp [extract, isSequence] at hone
      | bytes => simp [extract, isSequence] at hone
      | reg hf => exact absurd (extract_num (e := e) (.reg hf)).1 hone
      | value => simp [Ty.plain] at hp
      | oneOf => simp [Ty.plain] at hp
  | named ns ts ih =>
    intro hg s d l l' h hi hl hl' hs
    obtain ⟨hst, h1, h2⟩ := canConvert_no.mp h
    have hp : s.plain = true := by cases s <;> simp_all [canTo, Ty.plain]
    rw [conv, copyOr_other (extract_other hs hp hst)]
    cases hg with
    | named hnd hnl hg =>
    cases hs with
    | @tuple ss ds hlen hd =>
      simp only [extract, convTo, length, items, Option.map_some, List.length_zipWith]
      cases hc : compChild (.inst (.tuple ss) (.seq ds)) l' with
      | none => rfl
      | some c =>
        have hcl := compChild_le hl' hl hc
        have hlow : ¬ l < .upcast := by
          intro hlt
          rw [compChild_low (level_lt hl' hlt)] at hc
          cases hc
        simp only
        split
        · rename_i hle
          rw [canFrom] at h2
          simp only [if_neg hlow] at h2
          rw [if_neg (by simp; omega)] at h2
          obtain ⟨q, hq, hqn⟩ := canZip_no h2
          obtain ⟨i, ht, hs⟩ := zip_index hq
          have his := (List.getElem?_eq_some_iff.mp hs).1
          have hid : ds[i]? = some ds[i] := List.getElem?_eq_getElem (by omega)
          rw [zip_refused hlen ⟨i, _, _, _, ht, hs, hid,
            ih _ (List.mem_of_getElem? ht) (hg _ (List.mem_of_getElem? ht)) _ _ l c hqn hi hl hcl (hd i _ _ hs hid)⟩]
          rfl
        · rfl
    | @named ns' ss ds hlen hd =>
      simp only [extract, convTo]
      cases hc : compChild (.inst (.named ns' ss) (.seq ds)) l' with
      | none => rfl
      | some c =>
        have hcl := compChild_le hl' hl hc
        have hlow : ¬ l < .upcast := by
          intro hlt
          rw [compChild_low (level_lt hl' hlt)] at hc
          cases hc
        simp only
        split
        · rename_i hall
          rw [canFrom] at h2
          simp only [if_neg hlow] at h2
          rw [if_pos hall] at h2
          obtain ⟨i, t, hti, hm⟩ := canFields_no h2
          have hit := (List.getElem?_eq_some_iff.mp hti).1
          have hin : i < ns.length := by omega
          rw [List.getElem?_eq_getElem hin, Option.getD_some, typeOf_fieldNamed hlen] at hm
          cases hf : convFields e ns ts (fieldOf ns' ss ds) c with
          | none => rfl
          | some xs =>
            obtain ⟨h3, h4⟩ := convFields_some hf
            have := h4 i ns[i] t xs[i] (List.getElem?_eq_getElem hin) hti (List.getElem?_eq_getElem (by omega))
            rw [fieldOf_fieldNamed] at this
            cases hfn : fieldNamed ns' ss ds ns[i] with
            | none =>
              rw [hfn] at this hm
              simp only [Option.map_none] at this hm
              rw [hm] at this
              cases this
            | some x =>
              rw [hfn] at this hm
              simp only [Option.map_some] at this hm
              obtain ⟨j, _, hj1, hj2⟩ := fieldNamed_mem hfn
              rw [ih _ (List.mem_of_getElem? hti) (hg _ (List.mem_of_getElem? hti)) _ _ l c hm hi hl hcl (hd j _ _ hj1 hj2)] at this
              cases this
        · rfl
    | tupleOf => simp [canFrom] at h2
    | listOf => simp [canFrom] at h2
    | none => simp only [extract, convTo]; rw [compChild_single rfl (level_lt hl' hl)]
    | str => simp only [extract, convTo]; rw [compChild_single rfl (level_lt hl' hl)]
    | bytes => simp only [extract, convTo]; rw [compChild_single rfl (level_lt hl' hl)]
    | reg hf =>
      have := (extract_num (e := e) (.reg hf)).1
      revert this
      simp only [extract]
      rw [numToPy.eq_def]
      split <;> intro this <;> simp only [convTo] <;> rw [compChild_single this (level_lt hl' hl)]
    | value => simp [Ty.plain] at hp
    | oneOf => simp [Ty.plain] at hp

end Verif.CConv
