import Verif.Conv.Keep
/-
What a conversion stores is a value of the type, at every level.
-/
namespace Verif.Conv

theorem wrap_range (bits : Nat) (signed : Bool) (n : Int) (hb : 0 < bits) :
    if signed then -2 ^ (bits - 1) ≤ wrap bits signed n ∧ wrap bits signed n < 2 ^ (bits - 1)
    else 0 ≤ wrap bits signed n ∧ wrap bits signed n < 2 ^ bits := by
  have hp : (2 : Int) ^ bits = 2 ^ (bits - 1) + 2 ^ (bits - 1) := by
    obtain ⟨k, rfl⟩ : ∃ k, bits = k + 1 := ⟨bits - 1, by omega⟩
    rw [Nat.add_sub_cancel, Int.pow_succ]
    omega
  have hpos : (0 : Int) < 2 ^ bits := Int.pow_pos (by decide)
  cases signed with
  | true =>
    simp only [if_true, wrap]
    have h1 := Int.emod_nonneg (n + 2 ^ (bits - 1)) (Int.ne_of_gt hpos)
    have h2 := Int.emod_lt_of_pos (n + 2 ^ (bits - 1)) hpos
    omega
  | false =>
    simp only [Bool.false_eq_true, if_false, wrap]
    exact ⟨Int.emod_nonneg _ (Int.ne_of_gt hpos), Int.emod_lt_of_pos _ hpos⟩

/-- What a machine type makes of a number fits it. -/
theorem fits_cast {e : Env} (he : e.Lawful) (r : Reg) (n : Num) : Fits e r (cast e r n) := by
  cases n with
  | int n =>
    cases r
    case bool =>
      simp only [cast, Fits]
      split <;> simp
    case f32 => exact he.narrow_single n
    case f64 => trivial
    all_goals
      simp only [cast, Fits, InInt64]
      first
      | exact wrap_range 8 true n (by decide)
      | exact wrap_range 16 true n (by decide)
      | exact wrap_range 32 true n (by decide)
      | exact wrap_range 64 true n (by decide)
      | exact wrap_range 8 false n (by decide)
      | exact wrap_range 16 false n (by decide)
      | exact wrap_range 32 false n (by decide)
      | exact wrap_range 64 false n (by decide)
  | flt x =>
    cases r
    case bool =>
      simp only [cast, Fits]
      split <;> simp
    case f32 => exact he.narrow_narrow x
    case f64 => trivial
    all_goals
      simp only [cast, Fits, InInt64]
      first
      | exact wrap_range 8 true (e.trunc x) (by decide)
      | exact wrap_range 16 true (e.trunc x) (by decide)
      | exact wrap_range 32 true (e.trunc x) (by decide)
      | exact wrap_range 64 true (e.trunc x) (by decide)
      | exact wrap_range 8 false (e.trunc x) (by decide)
      | exact wrap_range 16 false (e.trunc x) (by decide)
      | exact wrap_range 32 false (e.trunc x) (by decide)
      | exact wrap_range 64 false (e.trunc x) (by decide)

theorem reg_has {e : Env} (he : e.Lawful) {r : Reg} {v : Py} {l : Level} {d : Data} (h : convReg e r v l = some d) : Has e (.reg r) d := by
  have hexp : ∀ d, (if Level.new ≤ l then
      if r = .bool then (e.truth v).map fun b => Data.num (.int (if b then 1 else 0))
      else if r.isFloat then (e.float v).map fun x => .num (cast e r (.flt x))
      else (e.long v).map fun n => .num (cast e r (.int (longBits n)))
    else none) = some d → Has e (.reg r) d := by
    intro d h
    split at h
    · split at h
      · rename_i hr
        obtain ⟨b, _, rfl⟩ := map_some h
        subst hr
        exact .reg (by cases b <;> simp [Fits])
      · split at h
        · obtain ⟨b, _, rfl⟩ := map_some h
          exact .reg (fits_cast he _ _)
        · obtain ⟨b, _, rfl⟩ := map_some h
          exact .reg (fits_cast he _ _)
    · cases h
  have key : ∀ src n, (if isValidConversion src r l = true then some (Data.num n) else (if Level.new ≤ l then
      if r = .bool then (e.truth v).map fun b => Data.num (.int (if b then 1 else 0))
      else if r.isFloat then (e.float v).map fun x => .num (cast e r (.flt x))
      else (e.long v).map fun n => .num (cast e r (.int (longBits n)))
    else none)) = some d → Fits e r n → Has e (.reg r) d := by
    intro src n hh hn
    split at hh
    · cases hh
      exact .reg hn
    · exact hexp d hh
  cases v with
  | bool b => exact key _ _ h (fits_cast he _ _)
  | int n =>
    refine key _ _ h ?_
    rw [fromInt]
    split <;> exact fits_cast he _ _
  | float x => exact key _ _ h (fits_cast he _ _)
  | inst t' d' =>
    cases t' with
    | reg src =>
      cases d' with
      | num n => exact key _ _ h (fits_cast he _ _)
      | _ => exact hexp d h
    | _ => exact hexp d h
  | _ => exact hexp d h

/-- The default of a type is a value of it. -/
theorem dfltAll_has {e : Env} : ∀ {ts : List Ty} {ds : List Data}, (∀ t ∈ ts, ∀ d, dflt t = some d → Has e t d) → dfltAll ts = some ds →
    ts.length = ds.length ∧ ∀ (i : Nat) (t : Ty) (d : Data), ts[i]? = some t → ds[i]? = some d → Has e t d
  | [], ds, _, h => by
    rw [dfltAll] at h
    cases h
    simp
  | t :: ts, ds, ih, h => by
    rw [dfltAll] at h
    obtain ⟨d, h1, h2⟩ := Option.bind_eq_some_iff.mp h
    obtain ⟨ds', h3, rfl⟩ := map_some h2
    obtain ⟨h4, h5⟩ := dfltAll_has (fun u hu => ih u (by simp [hu])) h3
    refine ⟨by simp [h4], ?_⟩
    intro i t' d' ht' hd'
    cases i with
    | zero =>
      simp only [List.getElem?_cons_zero, Option.some.injEq] at ht' hd'
      rw [← ht', ← hd']
      exact ih t (by simp) d h1
    | succ i => exact h5 i t' d' (by simpa using ht') (by simpa using hd')

theorem dfltAny_some : ∀ {ts : List Ty} {k : Nat} {x : Data}, dfltAny k ts = some x →
    ∃ j t d, x = .tag (k + j) d ∧ ts[j]? = some t ∧ dflt t = some d ∧ ∀ i, i < j → ∀ u, ts[i]? = some u → dflt u = none
  | [], k, x, h => by rw [dfltAny] at h; cases h
  | t :: ts, k, x, h => by
    rw [dfltAny] at h
    cases hd : dflt t with
    | some d =>
      rw [hd] at h
      cases h
      exact ⟨0, t, d, rfl, rfl, hd, by simp⟩
    | none =>
      rw [hd] at h
      obtain ⟨j, t', d', rfl, h1, h2, h3⟩ := dfltAny_some h
      refine ⟨j + 1, t', d', by rw [Nat.add_right_comm, Nat.add_assoc], by simpa using h1, h2, ?_⟩
      intro i hi u hu
      cases i with
      | zero =>
        simp only [List.getElem?_cons_zero, Option.some.injEq] at hu
        rw [← hu]
        exact hd
      | succ i => exact h3 i (by omega) u (by simpa using hu)

theorem dflt_has {e : Env} (he : e.Lawful) (t : Ty) : TyOk e t → ∀ d, dflt t = some d → Has e t d := by
  refine Ty.ind (P := fun t => TyOk e t → ∀ d, dflt t = some d → Has e t d) ?_ ?_ ?_ ?_ ?_ ?_ ?_ ?_ ?_ ?_ t
  · intro _ d h
    rw [dflt] at h
    cases h
    exact .none
  · intro r _ d h
    rw [dflt] at h
    cases h
    refine .reg ?_
    cases r <;> simp [zero, Reg.isFloat, Fits, InInt64, he.narrow_zero]
  · intro _ d h
    rw [dflt] at h
    cases h
    exact .str
  · intro _ d h
    rw [dflt] at h
    cases h
    exact .bytes (by simp)
  · intro c hok d h
    rw [dflt] at h
    cases h
    cases hok with
    | value hc => exact .value hc
  · intro t _ _ d h
    rw [dflt] at h
    cases h
    exact .tupleOf (by simp)
  · intro t _ _ d h
    rw [dflt] at h
    cases h
    exact .listOf (by simp)
  · intro ts ih hok d h
    rw [dflt] at h
    obtain ⟨ds, h1, rfl⟩ := map_some h
    cases hok with
    | tuple hok =>
      obtain ⟨h2, h3⟩ := dfltAll_has (fun t ht => ih t ht (hok t ht)) h1
      exact .tuple h2 h3
  · intro ns ts ih hok d h
    rw [dflt] at h
    obtain ⟨ds, h1, rfl⟩ := map_some h
    cases hok with
    | named _ hok =>
      obtain ⟨h2, h3⟩ := dfltAll_has (fun t ht => ih t ht (hok t ht)) h1
      exact .named h2 h3
  · intro ts ih hok d h
    rw [dflt] at h
    obtain ⟨j, t, d', rfl, h1, h2, -⟩ := dfltAny_some h
    rw [Nat.zero_add]
    cases hok with
    | oneOf hok =>
      have ht := List.mem_of_getElem? h1
      exact .oneOf h1 (ih t ht (hok t ht) d' h2)

/-- The default of a `OneOf` is that of its first alternative that has one. -/
theorem oneOf_default {ts : List Ty} {k : Nat} {d : Data} (h : dflt (.oneOf ts) = some (.tag k d)) :
    ∃ t, ts[k]? = some t ∧ dflt t = some d ∧ ∀ i, i < k → ∀ u, ts[i]? = some u → dflt u = none := by
  rw [dflt] at h
  obtain ⟨j, t, d', hx, h1, h2, h3⟩ := dfltAny_some h
  rw [Nat.zero_add] at hx
  cases hx
  exact ⟨t, h1, h2, h3⟩

/-- All that a sound value yields is sound. -/
theorem items_sound {e : Env} {v : Py} {xs : List Py} (hv : Sound e v) (h : items v = some xs) : ∀ x ∈ xs, Sound e x := by
  by_cases hs : isSequence v = true
  · exact contents_sound (items_contents hs h) hv
  · cases v with
    | tuple _ => simp [isSequence] at hs
    | list _ => simp [isSequence] at hs
    | dict ks vs =>
      cases h
      cases hv with
      | dict hk _ => exact hk
    | iter b ys =>
      cases h
      cases hv with
      | iter hh => exact hh
    | str s =>
      cases h
      intro x hx
      obtain ⟨c, _, rfl⟩ := List.mem_map.mp hx
      exact .str
    | bytes b =>
      cases h
      cases hv with
      | bytes hb =>
        intro x hx
        obtain ⟨c, hc, rfl⟩ := List.mem_map.mp hx
        have := hb c hc
        exact .int ⟨by omega, by omega⟩
    | inst t d => cases t <;> simp_all [items, isSequence]
    | _ => simp [items] at h

/-- What the induction is about. -/
def Typed (e : Env) (t : Ty) : Prop := TyOk e t → ∀ v l d, Sound e v → conv e t v l = some d → Has e t d

theorem typed_of_convTo {e : Env} {t : Ty} (h : TyOk e t → ∀ v l d, Sound e v → convTo e t v l = some d → Has e t d) : Typed e t := by
  intro hok v l d hv hc
  by_cases hi : ∃ d', v = .inst t d'
  · obtain ⟨d', rfl⟩ := hi
    simp only [conv, copyOr, if_true, Option.some.injEq] at hc
    subst hc
    cases hv with
    | inst hd => exact hd
  · rw [conv, copyOr_other (fun d' hd => hi ⟨d', hd⟩)] at hc
    exact h hok v l d hv hc

theorem seq_has {e : Env} {t : Ty} {b : Bool} {v : Py} {l : Level} {d : Data} (ih : Typed e t) (hok : TyOk e t) (hv : Sound e v)
    (h : (match seqChild b v l with
      | none => none
      | some child => match rawBytes t v with
        | some d => some d
        | none => match items v with
          | none => none
          | some xs => (xs.mapM fun x => copyOr t x (convTo e t x child)).map Data.seq) = some d) :
    ∃ ds, d = .seq ds ∧ ∀ d ∈ ds, Has e t d := by
  cases hs : seqChild b v l with
  | none => rw [hs] at h; cases h
  | some s =>
    rw [hs] at h
    simp only at h
    cases hr : rawBytes t v with
    | some d' =>
      rw [hr] at h
      cases h
      rw [rawBytes.eq_def] at hr
      split at hr
      · cases hr
        refine ⟨_, rfl, ?_⟩
        intro d hd
        obtain ⟨n, hn, rfl⟩ := List.mem_map.mp hd
        cases hv with
        | bytes hb =>
          have := hb n hn
          exact .reg (by simp only [Fits]; omega)
      · cases hr
    | none =>
      rw [hr] at h
      simp only at h
      cases hi : items v with
      | none => rw [hi] at h; cases h
      | some xs =>
        rw [hi] at h
        simp only at h
        obtain ⟨ds, h3, rfl⟩ := map_some h
        obtain ⟨h4, h5⟩ := mapM_some h3
        refine ⟨ds, rfl, ?_⟩
        intro d hd
        obtain ⟨i, hi', rfl⟩ := List.mem_iff_getElem.mp hd
        have hx : i < xs.length := h4 ▸ hi'
        exact ih hok xs[i] s _ (items_sound hv hi _ (List.getElem_mem hx))
          (h5 i _ _ (List.getElem?_eq_getElem hi') (List.getElem?_eq_getElem hx))

theorem pos_has {e : Env} {ts : List Ty} {v : Py} {l : Level} {d : Data} (ih : ∀ t ∈ ts, Typed e t) (hok : ∀ t ∈ ts, TyOk e t)
    (hv : Sound e v)
    (h : (match compChild v l with
      | none => none
      | some child => match length v, items v with
        | some n, some xs => if n = ts.length then (convZip e ts xs child).map Data.seq else none
        | _, _ => none) = some d) :
    ∃ ds, d = .seq ds ∧ ts.length = ds.length ∧
      ∀ (i : Nat) (t : Ty) (d : Data), ts[i]? = some t → ds[i]? = some d → Has e t d := by
  cases hs : compChild v l with
  | none => rw [hs] at h; cases h
  | some s =>
    rw [hs] at h
    simp only at h
    cases hn : length v with
    | none => rw [hn] at h; cases h
    | some n =>
      cases hi : items v with
      | none => rw [hn, hi] at h; cases h
      | some xs =>
        rw [hn, hi] at h
        simp only at h
        split at h
        · obtain ⟨ds, h3, rfl⟩ := map_some h
          obtain ⟨h4, h5, h6⟩ := convZip_some h3
          refine ⟨ds, rfl, h5.trans h4.symm, ?_⟩
          intro i t d ht hd
          have hlt : i < xs.length := by
            rw [← h4]
            exact (List.getElem?_eq_some_iff.mp hd).1
          have hx := List.getElem?_eq_getElem hlt
          exact ih t (List.mem_of_getElem? ht) (hok t (List.mem_of_getElem? ht)) xs[i] s d
            (items_sound hv hi _ (List.getElem_mem hlt)) (h6 i t d _ ht hd hx)
        · cases h

theorem typed {e : Env} (he : e.Lawful) (t : Ty) : Typed e t := by
  refine Ty.ind (P := Typed e) ?_ ?_ ?_ ?_ ?_ ?_ ?_ ?_ ?_ ?_ t
  · refine typed_of_convTo fun _ v l d _ h => ?_
    cases v <;> simp [convTo] at h
    subst h
    exact .none
  · refine fun r => typed_of_convTo fun _ v l d _ h => ?_
    rw [convTo] at h
    exact reg_has he h
  · refine typed_of_convTo fun _ v l d _ h => ?_
    rw [convTo, convStr.eq_def] at h
    split at h
    · cases h
      exact .str
    · split at h
      · obtain ⟨s, _, rfl⟩ := map_some h
        exact .str
      · cases h
  · refine typed_of_convTo fun _ v l d hv h => ?_
    rw [convTo, convBytes.eq_def] at h
    split at h
    · cases h
      cases hv with
      | bytes hb => exact .bytes hb
    · split at h
      · obtain ⟨s, hs, rfl⟩ := map_some h
        exact .bytes (he.bytes _ _ hs)
      · cases h
  · refine fun c => typed_of_convTo fun hok v l d _ h => ?_
    rw [convTo] at h
    split at h
    · cases h
      cases hok with
      | value hc => exact .value hc
    · cases h
  · refine fun t ih => typed_of_convTo fun hok v l d hv h => ?_
    rw [convTo] at h
    cases hok with
    | tupleOf hok =>
      obtain ⟨ds, rfl, h'⟩ := seq_has ih hok hv h
      exact .tupleOf h'
  · refine fun t ih => typed_of_convTo fun hok v l d hv h => ?_
    rw [convTo] at h
    cases hok with
    | listOf hok =>
      obtain ⟨ds, rfl, h'⟩ := seq_has ih hok hv h
      exact .listOf h'
  · refine fun ts ih => typed_of_convTo fun hok v l d hv h => ?_
    rw [convTo] at h
    cases hok with
    | tuple hok =>
      obtain ⟨ds, rfl, h1, h2⟩ := pos_has ih hok hv h
      exact .tuple h1 h2
  · refine fun ns ts ih => typed_of_convTo fun hok v l d hv h => ?_
    cases hok with
    | named hlen hok =>
      have byName : ∀ (get : String → Option Py) s ds, (∀ n x, get n = some x → Sound e x) →
          convFields e ns ts get s = some ds → Has e (.named ns ts) (.seq ds) := by
        intro get s ds hsound hconv
        obtain ⟨h4, h5⟩ := convFields_some hconv
        refine .named h4.symm ?_
        intro i t d ht hd
        have hlt : i < ns.length := by
          rw [hlen]
          exact (List.getElem?_eq_some_iff.mp ht).1
        have hi := h5 i _ t d (List.getElem?_eq_getElem hlt) ht hd
        have hm := List.mem_of_getElem? ht
        cases hg : get ns[i] with
        | some x =>
          rw [hg] at hi
          exact ih t hm (hok t hm) x s d (hsound _ _ hg) hi
        | none =>
          rw [hg] at hi
          exact dflt_has he t (hok t hm) d hi
      have pos : (match compChild v l with
          | none => none
          | some child => match length v, items v with
            | some n, some xs => if n = ts.length then (convZip e ts xs child).map Data.seq else none
            | _, _ => none) = some d → Has e (.named ns ts) d := by
        intro hh
        obtain ⟨ds, rfl, h1, h2⟩ := pos_has ih hok hv hh
        exact .named h1 h2
      cases v with
      | dict ks vs =>
        rw [convTo] at h
        split at h
        · split at h
          · obtain ⟨ds, h3, rfl⟩ := map_some h
            refine byName _ _ ds ?_ h3
            intro n x hx
            cases hv with
            | dict _ hv => exact hv x (dictGet_mem hx)
          · cases h
        · cases h
      | inst t' d' =>
        cases t' with
        | named ns' ts' =>
          cases d' with
          | seq ds =>
            rw [convTo] at h
            cases hs : compChild (.inst (.named ns' ts') (.seq ds)) l with
            | none => rw [hs] at h; cases h
            | some s =>
              rw [hs] at h
              simp only at h
              split at h
              · obtain ⟨ds', h3, rfl⟩ := map_some h
                refine byName _ s ds' ?_ h3
                intro n x hx
                cases hv with
                | inst hh =>
                  cases hh with
                  | named _ hh => exact fieldOf_sound hh hx
              · cases h
          | _ => simp only [convTo] at h; exact pos h
        | _ => simp only [convTo] at h; exact pos h
      | _ => simp only [convTo] at h; exact pos h
  · refine fun ts ih => typed_of_convTo fun hok v l d hv h => ?_
    rw [convTo, findSome_levels] at h
    obtain ⟨s, h1, h2, h3, -⟩ := h
    obtain ⟨k, t, d', rfl, h5, h6, -⟩ := (convAny_eq h2).mp h3
    rw [Nat.zero_add]
    cases hok with
    | oneOf hok =>
      have ht := List.mem_of_getElem? h5
      exact .oneOf h5 (ih t ht (hok t ht) v s d' hv h6)

/-- What a conversion stores, at any level, is a value of the type: every number in the range of its type, every item of a container,
field of a tuple and alternative of a choice a value of its type. -/
theorem conversion_typed {e : Env} (he : e.Lawful) {t : Ty} {v : Py} {l : Level} {d : Data} (ht : TyOk e t) (hv : Sound e v)
    (h : conv e t v l = some d) : Has e t d :=
  typed he t ht v l d hv h

/-- And what is then read converts back to the same data. -/
theorem conversion_restored {e : Env} (he : e.Lawful) {t : Ty} {v : Py} {l l' : Level} {d : Data} (ht : TyOk e t) (hv : Sound e v)
    (hone : ∀ ts, t ≠ .oneOf ts) (h : conv e t v l = some d) : conv e t (extract t d) l' = some d :=
  read_and_convert_back (conversion_typed he ht hv h) hone l'

end Verif.Conv
