import Verif.Conv.OneOf
/-
A value that is read and converted back to its type is the same value.
-/
namespace Verif.Conv

theorem wrap_id {bits : Nat} {signed : Bool} {n : Int} (hb : 0 < bits)
    (h : if signed then -2 ^ (bits - 1) ≤ n ∧ n < 2 ^ (bits - 1) else 0 ≤ n ∧ n < 2 ^ bits) : wrap bits signed n = n := by
  have hp : (2 : Int) ^ bits = 2 ^ (bits - 1) + 2 ^ (bits - 1) := by
    obtain ⟨k, rfl⟩ : ∃ k, bits = k + 1 := ⟨bits - 1, by omega⟩
    rw [Nat.add_sub_cancel, Int.pow_succ]
    omega
  cases signed with
  | true =>
    simp only [if_true] at h
    simp only [wrap, if_true]
    rw [Int.emod_eq_of_lt (by omega) (by omega)]
    omega
  | false =>
    simp only [Bool.false_eq_true, if_false] at h
    simp only [wrap, Bool.false_eq_true, if_false]
    exact Int.emod_eq_of_lt h.1 h.2

/-- A number of a machine type is what that type makes of it. -/
theorem cast_fits {e : Env} {r : Reg} {n : Num} (h : Fits e r n) : cast e r n = n := by
  cases n with
  | int n =>
    cases r <;> simp only [Fits, InInt64] at h
    case bool =>
      rcases h with rfl | rfl <;> rfl
    all_goals
      simp only [cast, Num.int.injEq]
      exact wrap_id (by decide) (by simpa [Reg.isUnsigned, Reg.bits] using h)
  | flt x =>
    cases r <;> simp only [Fits] at h
    · simp only [cast, h]
    · rfl

theorem inInt64_iff {n : Int} : inInt64 n = true ↔ InInt64 n := by
  simp [inInt64, InInt64]

theorem longBits_fits {n : Int} (h : InInt64 n) : longBits n = n := by
  rw [longBits, if_pos (inInt64_iff.mpr h)]

theorem sameNum_refl {e : Env} {n : Num} (h : ∀ x, n = .flt x → e.feq x x = true) : sameNum e n n = true := by
  cases n with
  | int n => simp [sameNum]
  | flt x => exact h x rfl

theorem constEq_self {e : Env} {c : Const} (h : c.ok e) (b : Bool) : constEq e c (constToPy c) b = true := by
  cases c with
  | str s => simp [constEq, constToPy]
  | bytes s => simp [constEq, constToPy]
  | num r n =>
    cases r <;> simp only [Const.ok] at h
    case bool =>
      cases n with
      | int n =>
        simp only [Fits] at h
        rcases h with rfl | rfl <;>
          simp [constEq, constToPy, numToPy, exactNum, eqNumPy, eqNum, promotesTo, cast, sameNum]
      | flt x => simp [Fits] at h
    case i64 =>
      cases n with
      | int n =>
        simp only [constEq, constToPy, numToPy, exactNum, Bool.not_true, Bool.and_false, Bool.false_eq_true, if_false, eqNumPy]
        rw [if_pos (inInt64_iff.mpr h)]
        rw [eqNum, show promotesTo .i64 .i64 = Reg.i64 from by decide]
        exact sameNum_refl nofun
      | flt x => simp [Fits] at h
    case f64 =>
      cases n with
      | int n => simp at h
      | flt x => simpa [constEq, constToPy, numToPy, exactNum, eqNumPy, eqNum, promotesTo, cast, sameNum, Reg.isFloat, Reg.bits] using h

/-- Of itself, without any conversion. -/
theorem restore_signature {e : Env} {t : Ty} {d : Data} (h : Has e t d) (ht : ∀ ts, t ≠ .oneOf ts) :
    conv e t (extract t d) .signature = some d := by
  cases h with
  | oneOf _ _ => exact absurd rfl (ht _)
  | none => rfl
  | str => rfl
  | bytes _ => rfl
  | value h =>
    simp only [extract]
    rename_i c
    have hother : ∀ d, constToPy c ≠ .inst (.value c) d := by
      intro d hd
      cases c with
      | num r n =>
        simp only [constToPy, numToPy] at hd
        split at hd <;> cases hd
      | _ => cases hd
    rw [conv, copyOr_other hother, convTo, if_pos (constEq_self h _)]
  | tupleOf _ => simp [conv, copyOr, extract]
  | listOf _ => simp [conv, copyOr, extract]
  | tuple _ _ => simp [conv, copyOr, extract]
  | named _ _ => simp [conv, copyOr, extract]
  | @reg r n h =>
    simp only [extract]
    by_cases hp : r = .i64 ∨ r = .f64 ∨ r = .bool
    · rcases hp with rfl | rfl | rfl
      · cases n with
        | int n =>
          simp only [Fits] at h
          have hv : conv e (.reg .i64) (numToPy .i64 (.int n)) .signature = some (Data.num (fromInt e .i64 n)) := rfl
          rw [hv, fromInt]
          simp only [Reg.isFloat, Bool.false_eq_true, if_false]
          rw [longBits_fits h, cast_fits (show Fits e .i64 (.int n) from h)]
        | flt x => simp [Fits] at h
      · cases n with
        | int n => simp [Fits] at h
        | flt x => rfl
      · cases n with
        | int n =>
          simp only [Fits] at h
          rcases h with rfl | rfl <;> rfl
        | flt x => simp [Fits] at h
    · have : numToPy r n = .inst (.reg r) (.num n) := by
        cases r <;> simp_all [numToPy]
      rw [this]
      simp [conv, copyOr]

/-- What a value read from data of a type can be, when it is a number. -/
theorem extract_bool {e : Env} {t : Ty} {d : Data} {b : Bool} (h : Has e t d) (ht : ∀ ts, t ≠ .oneOf ts) (hb : extract t d = .bool b) :
    t = .reg .bool ∨ ∃ m, t = .value (.num .bool m) := by
  cases h with
  | oneOf _ _ => exact absurd rfl (ht _)
  | @reg r n h =>
    simp only [extract, numToPy] at hb
    split at hb <;> first | (cases hb; done) | exact .inl rfl
  | @value c h =>
    simp only [extract] at hb
    cases c with
    | num r n =>
      simp only [constToPy, numToPy] at hb
      split at hb <;> first | (cases hb; done) | exact .inr ⟨_, rfl⟩
    | _ => cases hb
  | _ => simp [extract] at hb

theorem extract_int {e : Env} {t : Ty} {d : Data} {m : Int} (h : Has e t d) (ht : ∀ ts, t ≠ .oneOf ts) (hb : extract t d = .int m) :
    InInt64 m := by
  cases h with
  | oneOf _ _ => exact absurd rfl (ht _)
  | @reg r n h =>
    simp only [extract, numToPy] at hb
    split at hb <;> first | (cases hb; done) | (cases hb; exact h)
  | @value c h =>
    simp only [extract] at hb
    cases c with
    | num r n =>
      simp only [constToPy, numToPy] at hb
      split at hb <;> first | (cases hb; done) | (cases hb; exact h)
    | _ => cases hb
  | _ => simp [extract] at hb

theorem clear_const {e : Env} {ts : List Ty} {c : Const} {t : Ty} {d : Data} (hclear : Clear e ts) (hc : .value c ∈ ts)
    (hok : c.ok e) (ht : t ∈ ts) (hne : ∀ us, t ≠ .oneOf us) (hd : Has e t d) (heq : constEq e c (extract t d) true = true) :
    constToPy c = extract t d := by
  have hcl := hclear c hc
  generalize hv : extract t d = v at heq
  cases c with
  | str s =>
    cases v <;> simp_all [constEq, constToPy]
  | bytes s =>
    cases v <;> simp_all [constEq, constToPy]
  | num r n =>
    simp only [constEq, Bool.true_and] at heq
    split at heq
    · cases heq
    rename_i hex
    simp only [Bool.not_eq_true', Bool.not_eq_false] at hex
    cases r <;> simp only [Const.ok] at hok
    case bool =>
      cases n with
      | flt x => simp [Fits] at hok
      | int n =>
        cases v <;> simp only [exactNum, Bool.false_eq_true] at hex
        rename_i b
        simp only [Fits] at hok
        rcases hok with rfl | rfl <;> cases b <;>
          simp_all [constToPy, numToPy, eqNumPy, eqNum, promotesTo, cast, sameNum]
    case i64 =>
      cases n with
      | flt x => simp [Fits] at hok
      | int n =>
        simp only [Fits] at hok
        cases v <;> simp only [exactNum, Bool.false_eq_true] at hex
        · rename_i b
          rcases extract_bool hd hne hv with rfl | ⟨m, rfl⟩
          · have h01 : n = 0 ∨ n = 1 := by
              have h1 := cast_fits (e := e) (show Fits e .i64 (.int n) from hok)
              have h2 := cast_fits (e := e) (r := .i64) (n := .int (if b then 1 else 0)) (by cases b <;> simp [Fits, InInt64])
              simp only [eqNumPy, eqNum, promotesTo, reduceCtorEq, if_false, if_true] at heq
              rw [h1, h2] at heq
              simp only [sameNum, decide_eq_true_eq] at heq
              cases b <;> simp_all
            exact absurd ht (hcl h01).1
          · have h01 : n = 0 ∨ n = 1 := by
              have h1 := cast_fits (e := e) (show Fits e .i64 (.int n) from hok)
              have h2 := cast_fits (e := e) (r := .i64) (n := .int (if b then 1 else 0)) (by cases b <;> simp [Fits, InInt64])
              simp only [eqNumPy, eqNum, promotesTo, reduceCtorEq, if_false, if_true] at heq
              rw [h1, h2] at heq
              simp only [sameNum, decide_eq_true_eq] at heq
              cases b <;> simp_all
            exact absurd ht ((hcl h01).2 m)
        · rename_i m
          have hm := extract_int hd hne hv
          have h1 := cast_fits (e := e) (show Fits e .i64 (.int n) from hok)
          have h2 := cast_fits (e := e) (show Fits e .i64 (.int m) from hm)
          simp only [eqNumPy] at heq
          rw [if_pos (inInt64_iff.mpr hm), eqNum, show promotesTo .i64 .i64 = Reg.i64 from by decide, h1, h2] at heq
          simp only [sameNum, decide_eq_true_eq] at heq
          rw [heq]
          rfl
    case f64 =>
      cases n with
      | int n => simp at hok
      | flt x =>
        cases v <;> simp only [exactNum, Bool.false_eq_true] at hex
        rename_i y
        have : e.feq x y = true := by
          simpa [eqNumPy, eqNum, promotesTo, cast, sameNum, Reg.isFloat, Reg.bits] using heq
        rw [← hcl y this]
        rfl

theorem extractAt_eq {ts : List Ty} {k : Nat} {t : Ty} {d : Data} (h : ts[k]? = some t) : extractAt ts k d = extract t d := by
  induction ts generalizing k with
  | nil => simp at h
  | cons u ts ih =>
    cases k with
    | zero =>
      simp only [List.getElem?_cons_zero, Option.some.injEq] at h
      rw [extractAt, h]
    | succ k =>
      rw [extractAt]
      exact ih (by simpa using h)

theorem extract_proper {e : Env} {t : Ty} {d : Data} (h : Has e t d) (ht : ∀ ts, t ≠ .oneOf ts) : (extract t d).proper = true := by
  cases h with
  | oneOf _ _ => exact absurd rfl (ht _)
  | @reg r n _ => simp only [extract, numToPy]; split <;> rfl
  | @value c _ =>
    simp only [extract]
    cases c with
    | num r n => simp only [constToPy, numToPy]; split <;> rfl
    | _ => rfl
  | _ => simp [extract, Py.proper]

/-- What is accepted without conversion by a type that is no choice is given back unchanged. -/
theorem signature_extract {e : Env} {ts : List Ty} {t u : Ty} {d d' : Data} (hclear : Clear e ts) (hok : ∀ c, .value c ∈ ts → c.ok e)
    (hflat : ∀ us, .oneOf us ∉ ts) (ht : t ∈ ts) (hd : Has e t d) (hu : u ∈ ts) (h : conv e u (extract t d) .signature = some d') :
    extract u d' = extract t d := by
  have htne : ∀ us, t ≠ .oneOf us := by
    rintro us rfl
    exact hflat us ht
  by_cases hv : ∃ c, u = .value c
  · obtain ⟨c, rfl⟩ := hv
    have heq : constEq e c (extract t d) true = true := by
      by_cases hi : ∃ d'', extract t d = .inst (.value c) d''
      · obtain ⟨d'', hi⟩ := hi
        exfalso
        cases hd with
        | @reg r n _ =>
          simp only [extract, numToPy] at hi
          split at hi <;> cases hi
        | @value c _ =>
          simp only [extract] at hi
          cases c with
          | num r n =>
            simp only [constToPy, numToPy] at hi
            split at hi <;> cases hi
          | _ => cases hi
        | oneOf _ _ => exact htne _ rfl
        | _ => simp [extract] at hi
      · rw [conv, copyOr_other (fun d'' hd'' => hi ⟨d'', hd''⟩), convTo] at h
        split at h
        · rename_i hc
          exact hc
        · cases h
    rw [← clear_const hclear hu (hok c hu) ht htne hd heq]
    simp [extract]
  · have hplain : u.plain = true := by
      cases u with
      | value c => exact absurd ⟨c, rfl⟩ hv
      | oneOf us => exact absurd hu (hflat us)
      | _ => rfl
    have hty := (signature_is_type (e := e) hplain).mp ⟨d', h⟩
    by_cases htv : ∃ c, t = .value c
    · obtain ⟨c, rfl⟩ := htv
      have hokc := hok c ht
      simp only [extract] at h hty ⊢
      cases c with
      | str s =>
        simp only [constToPy, pyType, Option.some.injEq] at hty
        subst hty
        simp only [conv, copyOr, constToPy, convTo, convStr, Option.some.injEq] at h
        subst h
        rfl
      | bytes s =>
        simp only [constToPy, pyType, Option.some.injEq] at hty
        subst hty
        simp only [conv, copyOr, constToPy, convTo, convBytes, Option.some.injEq] at h
        subst h
        rfl
      | num r n =>
        have hfit : Fits e r n ∧ constToPy (.num r n) = extract (.reg r) (.num n) ∧ pyType (constToPy (.num r n)) = some (.reg r) := by
          cases r <;> simp only [Const.ok] at hokc
          case bool => cases n <;> simp_all [Fits, extract, constToPy, numToPy, pyType]
          case i64 => cases n <;> simp_all [Fits, extract, constToPy, numToPy, pyType]
          case f64 => cases n <;> simp_all [Fits, extract, constToPy, numToPy, pyType]
        rw [hfit.2.2] at hty
        simp only [Option.some.injEq] at hty
        subst hty
        rw [hfit.2.1, restore_signature (.reg hfit.1) nofun] at h
        cases h
        exact hfit.2.1.symm
    · have hpt : pyType (extract t d) = some t := by
        refine (signature_is_type (e := e) ?_).mp ⟨d, restore_signature hd htne⟩
        cases t with
        | value c => exact absurd ⟨c, rfl⟩ htv
        | oneOf us => exact absurd rfl (htne us)
        | _ => rfl
      rw [hpt] at hty
      cases hty
      rw [restore_signature hd htne] at h
      cases h
      rfl

/-- A value of a type that is no choice, read and converted back at any level, is the same data. -/
theorem read_and_convert_back {e : Env} {t : Ty} {d : Data} (h : Has e t d) (ht : ∀ ts, t ≠ .oneOf ts) (l : Level) :
    conv e t (extract t d) l = some d :=
  conversion_monotone (restore_signature h ht) (Nat.zero_le _)

/-- A value of a `OneOf`, read and converted back at any level, reads the same, when no constant among the alternatives is
ambiguous. -/
theorem read_and_convert_back_oneOf_partial {e : Env} {ts : List Ty} {x : Data} (h : Has e (.oneOf ts) x) (hflat : ∀ us, .oneOf us ∉ ts)
    (hok : ∀ c, .value c ∈ ts → c.ok e) (hclear : Clear e ts) (l : Level) :
    ∃ x', conv e (.oneOf ts) (extract (.oneOf ts) x) l = some x' ∧ extract (.oneOf ts) x' = extract (.oneOf ts) x := by
  cases h with
  | @oneOf _ k t d hk hd =>
    have ht := List.mem_of_getElem? hk
    have htne : ∀ us, t ≠ .oneOf us := by
      rintro us rfl
      exact hflat us ht
    have hx : extract (.oneOf ts) (.tag k d) = extract t d := by
      rw [extract]
      exact extractAt_eq hk
    rw [hx]
    have hp := extract_proper hd htne
    obtain ⟨x', hx'⟩ := (oneOf_accepts (e := e) (ts := ts) (v := extract t d) (l := .signature) hp).mpr
      ⟨t, ht, d, restore_signature hd htne⟩
    refine ⟨x', conversion_monotone hx' (Nat.zero_le _), ?_⟩
    obtain ⟨s, j, u, d', h1, _, rfl, hj, hc, _, _⟩ := (oneOf_takes_first_at_least_level hp).mp hx'
    have hs : s = .signature := by
      revert h1
      cases s <;> decide
    subst hs
    rw [extract, extractAt_eq hj]
    exact signature_extract hclear hok hflat ht hd (List.mem_of_getElem? hj) hc

end Verif.Conv
