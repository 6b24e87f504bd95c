import Verif.CConv.Basic
/-
What the compiler says in advance, and what happens.
-/
namespace Verif.CConv

open Verif.Conv

theorem good_ok {e : Env} {t : Ty} (h : Good e t) : TyOk e t := by
  induction h with
  | none => exact .none
  | reg => exact .reg
  | str => exact .str
  | bytes => exact .bytes
  | value h => exact .value h
  | tupleOf _ ih => exact .tupleOf ih
  | listOf _ ih => exact .listOf ih
  | tuple _ ih => exact .tuple ih
  | named _ h _ ih => exact .named h ih
  | oneOf _ _ ih => exact .oneOf ih

theorem into_resolve {e : Env} {p : Fp} {t s : Ty} {d : Data} {l : Level} (h : Has e s d) :
    into e p t s d l = into e p t (resolve s d).1 (resolve s d).2 l := by
  have hr := resolve_plain (d := (resolve s d).2) (resolve_has h).2
  rw [into.eq_def, into.eq_def e p t (resolve s d).1 (resolve s d).2 l, hr]

/-! ### The source alone -/

/-- What the source does by itself is never wrongly reported. -/
theorem own_sound {e : Env} {p : Fp} (he : Laws e) {s t : Ty} {d : Data} {l : Level} {o : Out} (hs : Has e s d)
    (h : own e p s d t l = some o) : o ≠ .junk ∧ ∀ d', o = .ok d' → Has e t d' := by
  have htruth : ∀ b, Has e (.reg .bool) (truth b) := by
    intro b
    refine .reg ?_
    cases b <;> simp [Fits]
  cases hs with
  | none =>
    simp only [own] at h
    split at h <;> cases h
    · exact ⟨nofun, fun d' hd => by cases hd; exact htruth _⟩
    · exact ⟨nofun, fun d' hd => by cases hd; exact .str⟩
  | @reg r n hn =>
    simp only [own] at h
    split at h
    · split at h
      · cases h
        rename_i r' _
        rw [numTo.eq_def]
        split
        · exact ⟨nofun, fun d' hd => by cases hd; exact .reg (fits_cast he.toLawful _ _)⟩
        · split
          · rename_i hb
            subst hb
            exact ⟨nofun, fun d' hd => by cases hd; exact htruth _⟩
          · split
            · split
              · exact ⟨nofun, fun d' hd => by cases hd; exact .reg (fits_cast he.toLawful _ _)⟩
              · exact ⟨nofun, nofun⟩
            · exact ⟨nofun, fun d' hd => by cases hd; exact .reg (fits_cast he.toLawful _ _)⟩
      · cases h
    · cases h
  | str =>
    simp only [own] at h
    split at h <;> cases h
    exact ⟨nofun, fun d' hd => by cases hd; exact .str⟩
  | bytes hb =>
    simp only [own] at h
    split at h <;> cases h
    · exact ⟨nofun, fun d' hd => by cases hd; exact htruth _⟩
    · split
      · rename_i n hn
        exact ⟨nofun, fun d' hd => by cases hd; exact .reg (he.long _ _ hn)⟩
      · exact ⟨nofun, nofun⟩
    · split
      · exact ⟨nofun, fun d' hd => by cases hd; exact .reg (by simp [Fits])⟩
      · exact ⟨nofun, nofun⟩
  | value _ => simp [own] at h
  | tupleOf _ =>
    simp only [own] at h
    split at h <;> cases h
    exact ⟨nofun, fun d' hd => by cases hd; exact htruth _⟩
  | listOf _ =>
    simp only [own] at h
    split at h <;> cases h
    exact ⟨nofun, fun d' hd => by cases hd; exact htruth _⟩
  | tuple _ _ =>
    simp only [own] at h
    split at h <;> cases h
    exact ⟨nofun, fun d' hd => by cases hd; exact htruth _⟩
  | named _ _ =>
    simp only [own] at h
    split at h <;> cases h
    exact ⟨nofun, fun d' hd => by cases hd; exact htruth _⟩
  | oneOf _ _ => simp [own] at h

/-- Nothing but numbers and text is converted by the source alone. -/
theorem own_none {e : Env} {p : Fp} {s t : Ty} {d : Data} {l : Level} (h1 : ∀ r, t ≠ .reg r) (h2 : t ≠ .str) : own e p s d t l = none := by
  rw [own.eq_def]
  repeat' split
  all_goals simp_all

/-! ### Elements and fields -/

theorem elements_has {e : Env} {s : Ty} {d : Data} {xs : List (Ty × Data)} (hs : Has e s d) (h : elements s d = some xs) :
    ∀ x ∈ xs, Has e x.1 x.2 := by
  cases hs <;> simp only [elements] at h <;> cases h
  case str => intro x hx; obtain ⟨c, _, rfl⟩ := List.mem_map.mp hx; exact .str
  case bytes b hb =>
    intro x hx
    obtain ⟨c, hc, rfl⟩ := List.mem_map.mp hx
    have := hb c hc
    refine .reg ?_
    simp only [Fits, InInt64]
    omega
  case tupleOf v ds hd => intro x hx; obtain ⟨c, hc, rfl⟩ := List.mem_map.mp hx; exact hd c hc
  case listOf v ds hd => intro x hx; obtain ⟨c, hc, rfl⟩ := List.mem_map.mp hx; exact hd c hc
  case tuple ss ds hl hd =>
    intro x hx
    obtain ⟨i, hi, rfl⟩ := List.mem_iff_getElem.mp hx
    rw [List.length_zip] at hi
    rw [List.getElem_zip]
    exact hd i _ _ (List.getElem?_eq_getElem (by omega)) (List.getElem?_eq_getElem (by omega))
  case named ns ss ds hl hd =>
    intro x hx
    obtain ⟨i, hi, rfl⟩ := List.mem_iff_getElem.mp hx
    rw [List.length_zip] at hi
    rw [List.getElem_zip]
    exact hd i _ _ (List.getElem?_eq_getElem (by omega)) (List.getElem?_eq_getElem (by omega))

theorem foldr_both_yes {f : Ty → Verdict} : ∀ {ss : List Ty}, ss.foldr (fun v rest => (f v).both rest) .yes = .yes → ∀ s ∈ ss, f s = .yes := by
  intro ss
  induction ss with
  | nil => simp
  | cons s ss ih =>
    intro h u hu
    rw [List.foldr_cons, both_yes] at h
    rcases List.mem_cons.mp hu with rfl | hu
    · exact h.1
    · exact ih h.2 u hu

theorem foldr_both_no {f : Ty → Verdict} : ∀ {ss : List Ty}, ss.foldr (fun v rest => (f v).both rest) .yes = .no → ∃ s ∈ ss, f s = .no := by
  intro ss
  induction ss with
  | nil => simp
  | cons s ss ih =>
    intro h
    rw [List.foldr_cons, both_no] at h
    rcases h with h | h
    · exact ⟨s, by simp, h⟩
    · obtain ⟨u, hu, h⟩ := ih h
      exact ⟨u, by simp [hu], h⟩

/-- When the verdict on the elements is yes, it is yes on each of them. -/
theorem canItems_yes {e : Env} {s : Ty} {d : Data} {f : Ty → Verdict} {xs : List (Ty × Data)} (hs : Has e s d) (h : canItems s f = .yes)
    (hx : elements s d = some xs) : ∀ x ∈ xs, f x.1 = .yes := by
  cases hs <;> simp only [elements] at hx <;> cases hx <;> simp only [canItems] at h
  case str => cases h
  case bytes => cases h
  case tupleOf v ds hd =>
    intro x hx; obtain ⟨c, hc, rfl⟩ := List.mem_map.mp hx
    split at h
    · assumption
    · cases h
  case listOf v ds hd =>
    intro x hx; obtain ⟨c, hc, rfl⟩ := List.mem_map.mp hx
    split at h
    · assumption
    · cases h
  case tuple ss ds hl hd => intro x hx; exact foldr_both_yes h _ (List.of_mem_zip hx).1
  case named ns ss ds hl hd => intro x hx; exact foldr_both_yes h _ (List.of_mem_zip hx).1

/-- Only what has no elements cannot be iterated over, and of that the verdict is no. -/
theorem elements_some {e : Env} {s : Ty} {d : Data} {f : Ty → Verdict} (hs : Has e s d) (hp : s.plain = true) (h : canItems s f ≠ .no) :
    ∃ xs, elements s d = some xs := by
  cases hs <;> simp_all [canItems, elements, Ty.plain]

/-- What the induction is about: no success is reported of a slot that was not initialised, what is stored is of the type, and what the
compiler was sure of succeeds. -/
def Sure (e : Env) (p : Fp) (t : Ty) : Prop := Good e t → ∀ s d l, Has e s d → l < .new →
  into e p t s d l ≠ .junk ∧ (∀ d', into e p t s d l = .ok d' → Has e t d') ∧
    (canConvert s t l = .yes → ∃ d', into e p t s d l = .ok d')

theorem seq_sure {e : Env} {p : Fp} {u : Ty} {l : Level} (ih : Sure e p u) (hu : Good e u) (hl : l < .new) {t s : Ty} {d : Data}
    {v : Verdict} (mk : ∀ ds, (∀ d ∈ ds, Has e u d) → Has e t (.seq ds)) (hs : Has e s d) (hp : s.plain = true)
    (hv : v = .no ∨ v = canItems s fun v => canConvert v u l) :
    seqSelf t s d v (fun x => into e p u x.1 x.2 l) ≠ .junk ∧
      (∀ d', seqSelf t s d v (fun x => into e p u x.1 x.2 l) = .ok d' → Has e t d') ∧
      (s = t ∧ v = .no ∨ v = .yes → ∃ d', seqSelf t s d v (fun x => into e p u x.1 x.2 l) = .ok d') := by
  rw [seqSelf]
  by_cases hn : v = .no
  · rw [if_pos hn]
    split
    · rename_i hst
      exact ⟨nofun, fun d' h => by cases h; exact hst ▸ hs, fun _ => ⟨_, rfl⟩⟩
    · rename_i hst
      refine ⟨nofun, nofun, fun h => ?_⟩
      rcases h with ⟨h, _⟩ | h
      · exact absurd h hst
      · rw [hn] at h; cases h
  · rw [if_neg hn]
    have hv' := hv.resolve_left hn
    obtain ⟨xs, hxs⟩ := elements_some hs hp (hv' ▸ hn)
    rw [hxs]
    simp only
    have hyes : v = .yes → ∀ x ∈ xs, ∃ d', into e p u x.1 x.2 l = .ok d' := by
      intro h x hx
      have := canItems_yes hs (hv' ▸ h) hxs x hx
      exact (ih hu x.1 x.2 l (elements_has hs hxs x hx) hl).2.2 this
    rcases each_cases (f := fun x : Ty × Data => into e p u x.1 x.2 l) (k := fun ds => .ok (.seq ds)) xs with h | ⟨x, hx, h1, h2⟩
    · obtain ⟨ds, h1, h2, h3⟩ := each_ok (k := fun ds => Out.ok (.seq ds)) h
      rw [h1, promised]
      simp only [reduceCtorEq, and_false, if_false]
      refine ⟨nofun, ?_, fun _ => ⟨_, rfl⟩⟩
      intro d' hd
      cases hd
      refine mk ds ?_
      intro d hd
      obtain ⟨i, hi, rfl⟩ := List.mem_iff_getElem.mp hd
      have hx := List.getElem?_eq_getElem (h2 ▸ hi)
      exact (ih hu _ _ l (elements_has hs hxs _ (List.getElem_mem _)) hl).2.1 _ (h3 i _ _ hx (List.getElem?_eq_getElem hi))
    · rw [h2, promised]
      have hvn : v ≠ .yes := by
        intro h
        obtain ⟨d', hd⟩ := hyes h x hx
        exact h1 _ hd
      simp only [hvn, false_and, if_false]
      refine ⟨(ih hu x.1 x.2 l (elements_has hs hxs x hx) hl).1, ?_, ?_⟩
      · intro d' hd
        exact absurd hd (h1 _)
      · intro h
        rcases h with ⟨_, h⟩ | h
        · exact absurd h hn
        · exact h.elim

theorem zip_has {e : Env} {ss : List Ty} {ds : List Data}
    (hd : ∀ (i : Nat) (t : Ty) (d : Data), ss[i]? = some t → ds[i]? = some d → Has e t d) : ∀ x ∈ ss.zip ds, Has e x.1 x.2 := by
  intro x hx
  obtain ⟨i, hi, rfl⟩ := List.mem_iff_getElem.mp hx
  rw [List.length_zip] at hi
  rw [List.getElem_zip]
  exact hd i _ _ (List.getElem?_eq_getElem (by omega)) (List.getElem?_eq_getElem (by omega))

/-- Field by field, by position. -/
theorem zip_sure {e : Env} {p : Fp} {ts ss : List Ty} {ds : List Data} {l : Level} {v : Verdict} (ih : ∀ t ∈ ts, Sure e p t)
    (hg : ∀ t ∈ ts, Good e t) (hl : l < .new) (hlen : ss.length = ts.length) (hlen' : ss.length = ds.length)
    (hd : ∀ (i : Nat) (t : Ty) (d : Data), ss[i]? = some t → ds[i]? = some d → Has e t d)
    (hv : v = .yes → ∀ q ∈ ts.zip ss, canConvert q.2 q.1 l = .yes) :
    promised v (intoZip e p ts (ss.zip ds) l fun ds => .ok (.seq ds)) ≠ .junk ∧
      (∀ d', promised v (intoZip e p ts (ss.zip ds) l fun ds => .ok (.seq ds)) = .ok d' → ∃ ds', d' = .seq ds' ∧ ts.length = ds'.length ∧
        ∀ (i : Nat) (t : Ty) (d : Data), ts[i]? = some t → ds'[i]? = some d → Has e t d) ∧
      ((∀ q ∈ ts.zip ss, canConvert q.2 q.1 l = .yes) →
        ∃ d', promised v (intoZip e p ts (ss.zip ds) l fun ds => .ok (.seq ds)) = .ok d') := by
  rw [intoZip_each]
  have hmem : ∀ q ∈ ts.zip (ss.zip ds), q.1 ∈ ts ∧ Has e q.2.1 q.2.2 ∧ (q.1, q.2.1) ∈ ts.zip ss := by
    intro q hq
    refine ⟨(List.of_mem_zip hq).1, zip_has hd _ (List.of_mem_zip hq).2, ?_⟩
    obtain ⟨i, hi, rfl⟩ := List.mem_iff_getElem.mp hq
    simp only [List.length_zip] at hi
    simp only [List.getElem_zip]
    refine List.mem_iff_getElem.mpr ⟨i, by simp only [List.length_zip]; omega, by simp⟩
  have hq : ∀ q ∈ ts.zip (ss.zip ds), into e p q.1 q.2.1 q.2.2 l ≠ .junk ∧ (∀ d', into e p q.1 q.2.1 q.2.2 l = .ok d' → Has e q.1 d') ∧
      (canConvert q.2.1 q.1 l = .yes → ∃ d', into e p q.1 q.2.1 q.2.2 l = .ok d') := by
    intro q hq
    obtain ⟨h1, h2, _⟩ := hmem q hq
    exact ih _ h1 (hg _ h1) _ _ l h2 hl
  rcases each_cases (f := fun q : Ty × Ty × Data => into e p q.1 q.2.1 q.2.2 l) (k := fun ds => .ok (.seq ds)) (ts.zip (ss.zip ds))
    with h | ⟨q, hqm, h1, h2⟩
  · obtain ⟨ds', h1, h2, h3⟩ := each_ok (k := fun ds => Out.ok (.seq ds)) h
    rw [h1, promised]
    simp only [reduceCtorEq, and_false, if_false]
    refine ⟨nofun, ?_, fun _ => ⟨_, rfl⟩⟩
    intro d' hd'
    cases hd'
    simp only [List.length_zip] at h2
    refine ⟨ds', rfl, by omega, ?_⟩
    intro i t d hi hdi
    obtain ⟨hi', rfl⟩ := List.getElem?_eq_some_iff.mp hi
    have hz : (ts.zip (ss.zip ds))[i]? = some (ts[i], ss[i], ds[i]) := by
      rw [List.getElem?_eq_some_iff]
      exact ⟨by simp only [List.length_zip]; omega, by simp⟩
    exact (hq _ (List.mem_of_getElem? hz)).2.1 _ (h3 i _ _ hz hdi)
  · rw [h2, promised]
    have hno : ¬ ∀ q ∈ ts.zip ss, canConvert q.2 q.1 l = .yes := by
      intro h
      obtain ⟨d', hd'⟩ := (hq q hqm).2.2 (h _ (hmem q hqm).2.2)
      exact h1 _ hd'
    have hvn : v ≠ .yes := fun h => hno (hv h)
    rw [if_neg (fun h => hvn h.1)]
    refine ⟨(hq q hqm).1, fun d' hd' => absurd hd' (h1 _), fun h => absurd h hno⟩

/-- Field by field, by name. -/
theorem slots_sure {e : Env} {p : Fp} {ns ns' : List String} {ts ss : List Ty} {ds : List Data} {l : Level} {v : Verdict} (he : Laws e)
    (ih : ∀ t ∈ ts, Sure e p t) (hg : ∀ t ∈ ts, Good e t) (hl : l < .new)
    (hd : ∀ (i : Nat) (t : Ty) (d : Data), ss[i]? = some t → ds[i]? = some d → Has e t d)
    (hv : v = .yes → ∀ (i : Nat) (t : Ty), ts[i]? = some t → match fieldNamed ns' ss ds (ns[i]?.getD "") with
      | some s => canConvert s.1 t l = .yes
      | none => (dflt t).isSome = true) :
    promised v (intoFields e p ns ts (fieldNamed ns' ss ds) l fun ds => .ok (.seq ds)) ≠ .junk ∧
      (∀ d', promised v (intoFields e p ns ts (fieldNamed ns' ss ds) l fun ds => .ok (.seq ds)) = .ok d' →
        ∃ ds', d' = .seq ds' ∧ ts.length = ds'.length ∧
        ∀ (i : Nat) (t : Ty) (d : Data), ts[i]? = some t → ds'[i]? = some d → Has e t d) ∧
      ((∀ (i : Nat) (t : Ty), ts[i]? = some t → match fieldNamed ns' ss ds (ns[i]?.getD "") with
          | some s => canConvert s.1 t l = .yes
          | none => (dflt t).isSome = true) →
        ∃ d', promised v (intoFields e p ns ts (fieldNamed ns' ss ds) l fun ds => .ok (.seq ds)) = .ok d') := by
  rw [intoFields_each]
  have hmem : ∀ q ∈ slots (fieldNamed ns' ss ds) ns ts, ∃ i : Nat, ts[i]? = some q.1 ∧ q.2 = fieldNamed ns' ss ds (ns[i]?.getD "") := by
    intro q hq
    obtain ⟨i, hi, rfl⟩ := List.mem_iff_getElem.mp hq
    rw [slots_length] at hi
    have h1 := slots_get (get := fieldNamed ns' ss ds) (ns := ns) (List.getElem?_eq_getElem hi)
    obtain ⟨h2, h3⟩ := List.getElem?_eq_some_iff.mp h1
    exact ⟨i, by rw [h3]; exact List.getElem?_eq_getElem hi, by rw [h3]⟩
  have hq : ∀ q ∈ slots (fieldNamed ns' ss ds) ns ts, slotOut e p l q ≠ .junk ∧ (∀ d', slotOut e p l q = .ok d' → Has e q.1 d') ∧
      ((match q.2 with
        | some s => canConvert s.1 q.1 l = .yes
        | none => (dflt q.1).isSome = true) → ∃ d', slotOut e p l q = .ok d') := by
    intro q hq
    obtain ⟨i, h1, h2⟩ := hmem q hq
    have ht := List.mem_of_getElem? h1
    obtain ⟨t, x⟩ := q
    simp only at h1 h2 ht ⊢
    cases x with
    | some x =>
      obtain ⟨j, _, h3, h4⟩ := fieldNamed_mem h2.symm
      exact ih _ ht (hg _ ht) _ _ l (hd j _ _ h3 h4) hl
    | none =>
      simp only [slotOut]
      cases hdf : dflt t with
      | none => exact ⟨nofun, nofun, by simp⟩
      | some d =>
        refine ⟨nofun, fun d' h => ?_, fun _ => ⟨_, rfl⟩⟩
        cases h
        exact dflt_has he.toLawful t (good_ok (hg _ ht)) _ hdf
  rcases each_cases (f := slotOut e p l) (k := fun ds => .ok (.seq ds)) (slots (fieldNamed ns' ss ds) ns ts) with h | ⟨q, hqm, h1, h2⟩
  · obtain ⟨ds', h1, h2, h3⟩ := each_ok (k := fun ds => Out.ok (.seq ds)) h
    rw [h1, promised]
    simp only [reduceCtorEq, and_false, if_false]
    refine ⟨nofun, ?_, fun _ => ⟨_, rfl⟩⟩
    intro d' hd'
    cases hd'
    rw [slots_length] at h2
    refine ⟨ds', rfl, h2.symm, ?_⟩
    intro i t d hi hdi
    have hz := slots_get (get := fieldNamed ns' ss ds) (ns := ns) hi
    exact (hq _ (List.mem_of_getElem? hz)).2.1 _ (h3 i _ _ hz hdi)
  · rw [h2, promised]
    have hno : ¬ ∀ (i : Nat) (t : Ty), ts[i]? = some t → match fieldNamed ns' ss ds (ns[i]?.getD "") with
          | some s => canConvert s.1 t l = .yes
          | none => (dflt t).isSome = true := by
      intro h
      obtain ⟨i, hi, hx⟩ := hmem q hqm
      have := h i _ hi
      rw [← hx] at this
      obtain ⟨d', hd'⟩ := (hq q hqm).2.2 this
      exact h1 _ hd'
    have hvn : v ≠ .yes := fun h => hno (hv h)
    rw [if_neg (fun h => hvn h.1)]
    refine ⟨(hq q hqm).1, fun d' hd' => absurd hd' (h1 _), fun h => absurd h hno⟩

/-! ### Choices -/

/-- At the first round nothing raises: only what is of the type already, or equal to a constant, is looked at. -/
theorem first_round {e : Env} {p : Fp} {s t : Ty} {d : Data} (hs : Has e s d) (hp : s.plain = true) (ht : ∀ us, t ≠ .oneOf us) (hst : s ≠ t)
    (hc : canConvert s t .signature ≠ .no) : into e p t s d .signature ≠ .raise := by
  have hr := resolve_plain (d := d) hp
  have hno : canTo s t .signature = .no → canFrom t s .signature = .no → False := fun h1 h2 => hc (canConvert_no.mpr ⟨hst, h1, h2⟩)
  have hto : (∀ r, t ≠ .reg r) → canTo s t .signature = .no := by
    intro h
    cases s with
    | reg r => cases t <;> simp_all [canTo]
    | _ => simp [canTo, Ty.plain] at hp ⊢
  cases t with
  | none =>
    rw [into, own_none (by simp) (by simp), hr]
    simp only
    split <;> exact nofun
  | bytes =>
    rw [into, own_none (by simp) (by simp), hr]
    simp only
    split <;> exact nofun
  | value c =>
    rw [into, own_none (by simp) (by simp), hr]
    simp only
    split <;> exact nofun
  | str => exact (hno (hto (by simp)) (by simp [canFrom])).elim
  | reg r =>
    cases hs with
    | @reg r' n hn =>
      rw [into, hr]
      simp only [own]
      have hv : isValidConversion r' r .signature = true := by
        cases hv : isValidConversion r' r .signature with
        | true => rfl
        | false => exact (hno (by simp [canTo, hv]) (by simp [canFrom])).elim
      rw [if_pos hv]
      intro h
      change numTo e p r' n r = .raise at h
      rw [numTo.eq_def] at h
      split at h
      · cases h
      · split at h
        · cases h
        · split at h
          · split at h <;> cases h
          · cases h
    | value _ => simp [Ty.plain] at hp
    | oneOf _ _ => simp [Ty.plain] at hp
    | _ => exact (hno (by simp [canTo]) (by simp [canFrom])).elim
  | tupleOf u => exact (hno (hto (by simp)) (by rw [canFrom]; rfl)).elim
  | listOf u => exact (hno (hto (by simp)) (by rw [canFrom]; rfl)).elim
  | tuple ts =>
    cases hs with
    | tuple _ _ => exact (hno (hto (by simp)) (by rw [canFrom]; rfl)).elim
    | named _ _ => exact (hno (hto (by simp)) (by rw [canFrom]; rfl)).elim
    | tupleOf _ => rw [into, own_none (by simp) (by simp), hr]; exact nofun
    | listOf _ => rw [into, own_none (by simp) (by simp), hr]; exact nofun
    | value _ => simp [Ty.plain] at hp
    | oneOf _ _ => simp [Ty.plain] at hp
    | _ => exact (hno (hto (by simp)) (by simp [canFrom])).elim
  | named ns ts =>
    cases hs with
    | tuple _ _ => exact (hno (hto (by simp)) (by rw [canFrom]; rfl)).elim
    | named _ _ => exact (hno (hto (by simp)) (by rw [canFrom]; rfl)).elim
    | tupleOf _ => rw [into, own_none (by simp) (by simp), hr]; exact nofun
    | listOf _ => rw [into, own_none (by simp) (by simp), hr]; exact nofun
    | value _ => simp [Ty.plain] at hp
    | oneOf _ _ => simp [Ty.plain] at hp
    | _ => exact (hno (hto (by simp)) (by simp [canFrom])).elim
  | oneOf ts => exact absurd rfl (ht ts)

theorem isConst_self {e : Env} {c : Const} (h : c.ok e) : isConst e c (constTy c) (constData c) = true := by
  have := constEq_self h false
  cases c with
  | str s => simp [isConst, constTy, constData]
  | bytes b => simp [isConst, constTy, constData]
  | num r n =>
    simp only [isConst, constTy, constData]
    cases r <;> simp only [Const.ok] at h
    case bool =>
      cases n with
      | int n =>
        simp only [Fits] at h
        rcases h with rfl | rfl <;> simp [eqNum, promotesTo, Conv.cast, sameNum]
      | flt x => simp [Fits] at h
    case i64 =>
      rw [eqNum, show promotesTo .i64 .i64 = Reg.i64 from by decide]
      refine sameNum_refl ?_
      intro x hx
      cases n with
      | int n => simp [Conv.cast] at hx
      | flt x => simp [Fits] at h
    case f64 =>
      cases n with
      | int n => simp at h
      | flt x => simpa [eqNum, promotesTo, Conv.cast, sameNum, Reg.isFloat, Reg.bits] using h

/-- A value of an alternative is taken at the first round. -/
theorem any_first {e : Env} {p : Fp} {us : List Ty} {u s : Ty} {d d' : Data} (hs : Has e s d) (hp : s.plain = true) (hu : u ∈ us)
    (hok : ∀ t ∈ us, into e p t s d .signature ≠ .junk) (hflat : ∀ t ∈ us, ∀ vs, t ≠ .oneOf vs)
    (h : resolve u d' = (s, d) ∧ Has e u d') (k : Nat) : ∃ x, intoAny e p us s d .signature k = .ok x := by
  induction us generalizing k with
  | nil => simp at hu
  | cons t us ih =>
    rw [intoAny]
    by_cases hts : t = s
    · exact ⟨_, by rw [if_pos hts]⟩
    · rw [if_neg hts]
      have hnot : ∀ c, t = .value c → u = t → ∃ x, into e p t s d .signature = .ok x ∧ canConvert s t .signature ≠ .no := by
        rintro c rfl rfl
        obtain ⟨h1, h2⟩ := h
        rw [resolve_value] at h1
        simp only [Prod.mk.injEq] at h1
        obtain ⟨rfl, rfl⟩ := h1
        cases h2 with
        | value hc =>
          refine ⟨.unit, ?_, ?_⟩
          · rw [into, own_none (by simp) (by simp), resolve_plain (constTy_plain c)]
            simp only
            rw [if_pos (isConst_self hc)]
          · intro hcn
            have := (canConvert_no.mp hcn).2.2
            rw [canFrom] at this
            split at this <;> cases this
      by_cases hc : canConvert s t .signature = .no
      · rw [if_pos (show verdict s t .signature (canFrom t s .signature) = .no from hc)]
        refine ih ?_ (fun t ht => hok t (by simp [ht])) (fun t ht => hflat t (by simp [ht])) _
        rcases List.mem_cons.mp hu with rfl | hu
        · by_cases hv : ∃ c, u = .value c
          · obtain ⟨c, hv⟩ := hv
            exact absurd hc (hnot c hv rfl).choose_spec.2
          · have hpu : u.plain = true := by
              have := hflat u (by simp)
              cases u <;> simp_all [Ty.plain]
            rw [resolve_plain hpu] at h
            simp only [Prod.mk.injEq] at h
            exact absurd h.1.1 hts
        · exact hu
      · rw [if_neg (show ¬ verdict s t .signature (canFrom t s .signature) = .no from hc)]
        cases hi : into e p t s d .signature with
        | ok x => exact ⟨_, rfl⟩
        | raise => exact absurd hi (first_round hs hp (hflat t (by simp)) (fun h => hts h.symm) hc)
        | junk => exact absurd hi (hok t (by simp))
        | fail =>
          simp only
          refine ih ?_ (fun t ht => hok t (by simp [ht])) (fun t ht => hflat t (by simp [ht])) _
          rcases List.mem_cons.mp hu with rfl | hu
          · by_cases hv : ∃ c, u = .value c
            · obtain ⟨c, hv⟩ := hv
              obtain ⟨x, h1, _⟩ := hnot c hv rfl
              rw [hi] at h1
              cases h1
            · have hpu : u.plain = true := by
                have := hflat u (by simp)
                cases u <;> simp_all [Ty.plain]
              rw [resolve_plain hpu] at h
              simp only [Prod.mk.injEq] at h
              exact absurd h.1.1 hts
          · exact hu

/-- What a round stores is of one of the alternatives. -/
theorem any_sound {e : Env} {p : Fp} {us : List Ty} {s : Ty} {d : Data} {l : Level} (hs : Has e s d)
    (hok : ∀ t ∈ us, into e p t s d l ≠ .junk ∧ ∀ d', into e p t s d l = .ok d' → Has e t d') (k : Nat) :
    intoAny e p us s d l k ≠ .junk ∧
      ∀ x, intoAny e p us s d l k = .ok x → ∃ (i : Nat) (t : Ty) (d' : Data), us[i]? = some t ∧ x = .tag (k + i) d' ∧ Has e t d' := by
  induction us generalizing k with
  | nil => rw [intoAny]; exact ⟨nofun, nofun⟩
  | cons t us ih =>
    have ih' := ih (fun t ht => hok t (by simp [ht])) (k + 1)
    have step : intoAny e p us s d l (k + 1) ≠ .junk ∧ ∀ x, intoAny e p us s d l (k + 1) = .ok x →
        ∃ (i : Nat) (t' : Ty) (d' : Data), (t :: us)[i]? = some t' ∧ x = .tag (k + i) d' ∧ Has e t' d' := by
      refine ⟨ih'.1, fun x hx => ?_⟩
      obtain ⟨i, t', d', h1, h2, h3⟩ := ih'.2 x hx
      exact ⟨i + 1, t', d', by simpa using h1, by rw [h2]; congr 1; omega, h3⟩
    rw [intoAny]
    split
    · rename_i hts
      refine ⟨nofun, fun x hx => ?_⟩
      cases hx
      exact ⟨0, t, d, by simp, rfl, hts ▸ hs⟩
    · split
      · exact step
      · cases hi : into e p t s d l with
        | ok d' =>
          refine ⟨nofun, fun x hx => ?_⟩
          cases hx
          exact ⟨0, t, d', by simp, rfl, (hok t (by simp)).2 _ hi⟩
        | fail => exact step
        | raise => exact ⟨nofun, nofun⟩
        | junk => exact absurd hi (hok t (by simp)).1

/-- One round after another. -/
def rounds (f : Level → Out) (ls : List Level) : Out :=
  ls.foldr (fun l rest => match f l with
    | .fail => rest
    | o => o) .fail

theorem rounds_cases {f : Level → Out} {ls : List Level} : rounds f ls = .fail ∨ ∃ l ∈ ls, rounds f ls = f l := by
  induction ls with
  | nil => exact .inl rfl
  | cons l ls ih =>
    have hc : rounds f (l :: ls) = match f l with
      | .fail => rounds f ls
      | o => o := rfl
    cases hf : f l with
    | fail =>
      rw [hf] at hc
      rw [hc]
      rcases ih with h | ⟨m, hm, h⟩
      · exact .inl h
      · exact .inr ⟨m, by simp [hm], h⟩
    | _ => rw [hf] at hc; exact .inr ⟨l, by simp, by rw [hc, hf]⟩

theorem level_trans {a b : Level} (h : a ≤ b) (hb : b < .new) : a < .new := by
  rw [Level.lt_iff] at *
  rw [Level.le_iff] at h
  omega

theorem oneOf_sure {e : Env} {p : Fp} {ts : List Ty} (ih : ∀ t ∈ ts, Sure e p t) : Sure e p (.oneOf ts) := by
  intro hg s d l hs hl
  cases hg with
  | oneOf hg hflat =>
  obtain ⟨hs', hp⟩ := resolve_has hs
  obtain ⟨ls, hls⟩ := levels_cons l
  have hlev : ∀ m ∈ oneOfLevels.filter (· ≤ l), m < .new := by
    intro m hm
    exact level_trans (by simpa using (List.mem_filter.mp hm).2) hl
  have hin : into e p (.oneOf ts) s d l = promised (canFrom (.oneOf ts) (resolve s d).1 l)
      (rounds (fun l' => intoAny e p ts (resolve s d).1 (resolve s d).2 l' 0) (oneOfLevels.filter (· ≤ l))) := by
    rw [into, own_none (by simp) (by simp)]
    rfl
  have hsound : ∀ m : Level, m < .new → _ := fun m hm => any_sound (e := e) (p := p) (us := ts) (l := m) hs'
    (fun t ht => ⟨(ih t ht (hg t ht) _ _ m hs' hm).1, (ih t ht (hg t ht) _ _ m hs' hm).2.1⟩) 0
  have hfirst : (∃ u ∈ ts, ∃ d', resolve u d' = resolve s d ∧ Has e u d') →
      ∃ x, rounds (fun l' => intoAny e p ts (resolve s d).1 (resolve s d).2 l' 0) (oneOfLevels.filter (· ≤ l)) = .ok x := by
    rintro ⟨u, hu, d', h1, h2⟩
    obtain ⟨x, hx⟩ := any_first (e := e) (p := p) (us := ts) hs' hp hu
      (fun t ht => (ih t ht (hg t ht) _ _ .signature hs' (by decide)).1) hflat ⟨h1, h2⟩ 0
    refine ⟨x, ?_⟩
    rw [hls, rounds, List.foldr_cons, hx]
  have hsure : canFrom (.oneOf ts) (resolve s d).1 l = .yes → ∃ u ∈ ts, ∃ d', resolve u d' = resolve s d ∧ Has e u d' := by
    intro h
    rw [canFrom] at h
    split at h
    · rename_i hc
      rcases hc with hc | hc
      · exact absurd hc ((plain_cases hp).2 _)
      · exact ⟨_, hc, (resolve s d).2, resolve_plain hp, hs'⟩
    · cases h
  rw [hin]
  refine ⟨?_, ?_, ?_⟩
  · rw [promised]
    split
    · rename_i h
      obtain ⟨x, hx⟩ := hfirst (hsure h.1)
      rw [hx] at h
      cases h.2
    · rcases rounds_cases (f := fun l' => intoAny e p ts (resolve s d).1 (resolve s d).2 l' 0) (ls := oneOfLevels.filter (· ≤ l)) with h | ⟨m, hm, h⟩
      · rw [h]; exact nofun
      · rw [h]; exact (hsound m (hlev m hm)).1
  · intro x hx
    rw [promised] at hx
    split at hx
    · cases hx
    · rcases rounds_cases (f := fun l' => intoAny e p ts (resolve s d).1 (resolve s d).2 l' 0) (ls := oneOfLevels.filter (· ≤ l)) with h | ⟨m, hm, h⟩
      · rw [h] at hx; cases hx
      · rw [h] at hx
        obtain ⟨i, t, d', h1, rfl, h3⟩ := (hsound m (hlev m hm)).2 x hx
        rw [Nat.zero_add]
        exact .oneOf h1 h3
  · intro h
    have : ∃ u ∈ ts, ∃ d', resolve u d' = resolve s d ∧ Has e u d' := by
      have hcase : s = .oneOf ts ∨ s ∈ ts := by
        rcases canConvert_yes.mp h with h | h | h
        · exact .inl h
        · obtain ⟨_, _, _, h, _⟩ := canTo_yes h
          cases h
        · rw [canFrom] at h
          split at h
          · assumption
          · cases h
      rcases hcase with rfl | hc
      · cases hs with
        | oneOf hk hd => exact ⟨_, List.mem_of_getElem? hk, _, (resolve_oneOf hk).symm, hd⟩
      · exact ⟨s, hc, d, rfl, hs⟩
    obtain ⟨x, hx⟩ := hfirst this
    rw [hx]
    exact ⟨x, by rw [promised]; simp⟩

/-- A source that is not a OneOf and not a constant is enough, when only the type itself is sure to accept the others. -/
theorem sure_of_plain {e : Env} {p : Fp} {t : Ty}
    (h : Good e t → ∀ s d l, Has e s d → l < .new → s.plain = true →
      into e p t s d l ≠ .junk ∧ (∀ d', into e p t s d l = .ok d' → Has e t d') ∧ (canConvert s t l = .yes → ∃ d', into e p t s d l = .ok d'))
    (h' : Good e t → ∀ s d l, Has e s d → s.plain = false → canConvert s t l = .yes → ∃ d', into e p t s d l = .ok d') : Sure e p t := by
  intro hg s d l hs hl
  by_cases hp : s.plain = true
  · exact h hg s d l hs hl hp
  · have := h hg _ _ l (resolve_has hs).1 hl (resolve_has hs).2
    rw [into_resolve hs]
    refine ⟨this.1, this.2.1, fun hy => ?_⟩
    rw [← into_resolve hs]
    exact h' hg s d l hs (by simpa using hp) hy

/-- The compiler is sure of a OneOf or a constant only for its own type or a OneOf. -/
theorem sure_nonplain {s t : Ty} {l : Level} (hp : s.plain = false) (ht : ∀ us, t ≠ .oneOf us) (h : canConvert s t l = .yes) : s = t := by
  rcases canConvert_yes.mp h with h | h | h
  · exact h
  · obtain ⟨_, _, rfl, _⟩ := canTo_yes h
    cases hp
  · cases s with
    | value c =>
      cases t <;> simp only [canFrom, canItems] at h
      case value => split at h <;> simp_all
      case oneOf => exact absurd rfl (ht _)
      all_goals (try split at h) <;> simp_all
    | oneOf us =>
      cases t <;> simp only [canFrom, canItems] at h
      case oneOf => exact absurd rfl (ht _)
      all_goals (try split at h) <;> simp_all
    | _ => cases hp

/-- A type that is not a OneOf and not a constant: sources that are not OneOfs or constants are enough. -/
theorem sure_plain {e : Env} {p : Fp} {t : Ty} (ht : t.plain = true)
    (h : Good e t → ∀ s d l, Has e s d → l < .new → s.plain = true →
      into e p t s d l ≠ .junk ∧ (∀ d', into e p t s d l = .ok d' → Has e t d') ∧ (canConvert s t l = .yes → ∃ d', into e p t s d l = .ok d')) :
    Sure e p t := by
  refine sure_of_plain h (fun _ s d l _ hp hy => ?_)
  have := sure_nonplain hp (plain_cases ht).2 hy
  rw [this, ht] at hp
  cases hp

/-- The induction. -/
theorem sure {e : Env} (he : Laws e) (p : Fp) (t : Ty) : Sure e p t := by
  induction t using Ty.ind with
  | none =>
    refine sure_plain rfl (fun hg s d l hs hl hp => ?_)
    rw [into, own_none (by simp) (by simp), resolve_plain hp]
    simp only
    split
    · exact ⟨nofun, fun d' h => by cases h; exact .none, fun _ => ⟨_, rfl⟩⟩
    · rename_i hne
      refine ⟨nofun, nofun, fun h => ?_⟩
      rcases canConvert_yes.mp h with h | h | h
      · exact absurd h hne
      · obtain ⟨_, _, _, h, _⟩ := canTo_yes h
        cases h
      · rw [canFrom, if_neg hne] at h
        cases h
  | reg r =>
    refine sure_plain rfl (fun hg s d l hs hl hp => ?_)
    rw [into, resolve_plain hp]
    cases ho : own e p s d (.reg r) l with
    | some o =>
      have := own_sound he hs ho
      refine ⟨this.1, this.2, fun h => ?_⟩
      have hcase : ∃ r', s = .reg r' ∧ isValidConversion r' r l = true ∧ (r'.isFloat && !r.isFloat && r ≠ .bool) = false := by
        rcases canConvert_yes.mp h with h | h | h
        · exact ⟨r, h, isValid_self r l, by cases r <;> rfl⟩
        · obtain ⟨r', r'', rfl, h, h1, h2⟩ := canTo_yes h
          cases h
          exact ⟨r', rfl, h1, h2⟩
        · rw [canFrom] at h
          cases h
      obtain ⟨r', rfl, h1, h2⟩ := hcase
      cases hs with
      | @reg _ n hn =>
        simp only [own] at ho
        rw [if_pos h1] at ho
        cases ho
        change ∃ d', numTo e p r' n r = .ok d'
        rw [numTo.eq_def]
        split
        · exact ⟨_, rfl⟩
        · split
          · exact ⟨_, rfl⟩
          · rename_i hb
            rw [if_neg]
            · exact ⟨_, rfl⟩
            · simpa [hb] using h2
    | none =>
      simp only
      split
      · rename_i h
        subst h
        exact ⟨nofun, fun d' h => by cases h; exact hs, fun _ => ⟨_, rfl⟩⟩
      · rename_i hne
        refine ⟨nofun, nofun, fun h => ?_⟩
        rcases canConvert_yes.mp h with h | h | h
        · exact absurd h hne
        · obtain ⟨r', r'', rfl, h, h1, h2⟩ := canTo_yes h
          cases h
          cases hs with
          | reg hn =>
            simp only [own] at ho
            rw [if_pos h1] at ho
            cases ho
        · rw [canFrom] at h
          cases h
  | str =>
    refine sure_plain rfl (fun hg s d l hs hl hp => ?_)
    rw [into, resolve_plain hp]
    cases ho : own e p s d .str l with
    | some o =>
      have := own_sound he hs ho
      refine ⟨this.1, this.2, fun h => ?_⟩
      rcases canConvert_yes.mp h with h | h | h
      · subst h
        cases hs
        simp only [own] at ho
        cases ho
        exact ⟨_, rfl⟩
      · obtain ⟨_, _, _, h, _⟩ := canTo_yes h
        cases h
      · rw [canFrom] at h
        cases h
    | none =>
      have hne : s ≠ .str := by
        rintro rfl
        cases hs
        simp [own] at ho
      simp only
      rw [if_neg hne]
      refine ⟨nofun, nofun, fun h => ?_⟩
      rcases canConvert_yes.mp h with h | h | h
      · exact absurd h hne
      · obtain ⟨_, _, _, h, _⟩ := canTo_yes h
        cases h
      · rw [canFrom] at h
        cases h
  | bytes =>
    refine sure_plain rfl (fun hg s d l hs hl hp => ?_)
    rw [into, own_none (by simp) (by simp), resolve_plain hp]
    simp only
    split
    · rename_i h
      subst h
      exact ⟨nofun, fun d' h => by cases h; exact hs, fun _ => ⟨_, rfl⟩⟩
    · rename_i hne
      refine ⟨nofun, nofun, fun h => ?_⟩
      rcases canConvert_yes.mp h with h | h | h
      · exact absurd h hne
      · obtain ⟨_, _, _, h, _⟩ := canTo_yes h
        cases h
      · rw [canFrom] at h
        cases h
  | value c =>
    refine sure_of_plain (fun hg s d l hs hl hp => ?_) (fun hg s d l hs hp hy => ?_)
    · rw [into, own_none (by simp) (by simp), resolve_plain hp]
      simp only
      cases hg with
      | value hg =>
      split
      · exact ⟨nofun, fun d' h => by cases h; exact .value hg, fun _ => ⟨_, rfl⟩⟩
      · refine ⟨nofun, nofun, fun h => ?_⟩
        rcases canConvert_yes.mp h with h | h | h
        · exact absurd h ((plain_cases hp).1 c)
        · obtain ⟨_, _, _, h, _⟩ := canTo_yes h
          cases h
        · rw [canFrom, if_neg ((plain_cases hp).1 c)] at h
          cases h
    · have := sure_nonplain hp (by simp) hy
      subst this
      cases hg with
      | value hg =>
      rw [into, own_none (by simp) (by simp), resolve_value]
      simp only
      rw [if_pos (isConst_self hg)]
      exact ⟨_, rfl⟩
  | tupleOf u ih =>
    refine sure_plain rfl (fun hg s d l hs hl hp => ?_)
    cases hg with
    | tupleOf hu =>
    rw [into, own_none (by simp) (by simp), resolve_plain hp]
    simp only
    have hcan : canFrom (.tupleOf u) s l = .no ∨ canFrom (.tupleOf u) s l = canItems s fun v => canConvert v u l := by
      rw [canFrom]
      split
      · exact .inl rfl
      · exact .inr rfl
    have := seq_sure ih hu hl (t := .tupleOf u) (fun ds h => .tupleOf h) hs hp hcan
    refine ⟨this.1, this.2.1, fun h => this.2.2 ?_⟩
    rcases canConvert_yes.mp h with h | h | h
    · subst h
      rw [canFrom]
      split
      · exact .inl ⟨rfl, rfl⟩
      · right
        simp only [canItems]
        rw [if_pos]
        exact canConvert_self u l
    · obtain ⟨_, _, _, h, _⟩ := canTo_yes h
      cases h
    · exact .inr h
  | listOf u ih =>
    refine sure_plain rfl (fun hg s d l hs hl hp => ?_)
    cases hg with
    | listOf hu =>
    rw [into, own_none (by simp) (by simp), resolve_plain hp]
    simp only
    have hcan : canFrom (.listOf u) s l = .no ∨ canFrom (.listOf u) s l = canItems s fun v => canConvert v u l := by
      rw [canFrom]
      split
      · exact .inl rfl
      · exact .inr rfl
    have := seq_sure ih hu hl (t := .listOf u) (fun ds h => .listOf h) hs hp hcan
    refine ⟨this.1, this.2.1, fun h => this.2.2 ?_⟩
    rcases canConvert_yes.mp h with h | h | h
    · subst h
      rw [canFrom]
      split
      · exact .inl ⟨rfl, rfl⟩
      · right
        simp only [canItems]
        rw [if_pos]
        exact canConvert_self u l
    · obtain ⟨_, _, _, h, _⟩ := canTo_yes h
      cases h
    · exact .inr h
  | tuple ts ih =>
    refine sure_plain rfl (fun hg s d l hs hl hp => ?_)
    cases hg with
    | tuple hg =>
    rw [into, own_none (by simp) (by simp), resolve_plain hp]
    have hc : canConvert s (.tuple ts) l = .yes → s = .tuple ts ∨ canFrom (.tuple ts) s l = .yes := by
      intro h
      rcases canConvert_yes.mp h with h | h | h
      · exact .inl h
      · obtain ⟨_, _, _, h, _⟩ := canTo_yes h
        cases h
      · exact .inr h
    have hself : ∀ q ∈ ts.zip ts, canConvert q.2 q.1 l = .yes := by
      intro q hq
      obtain ⟨i, hi, rfl⟩ := List.mem_iff_getElem.mp hq
      rw [List.getElem_zip]
      exact canConvert_self _ _
    cases hs with
    | @tuple ss ds hlen hd =>
      simp only
      split
      · rename_i hne
        refine ⟨nofun, nofun, fun h => ?_⟩
        rcases hc h with h | h
        · cases h
          exact absurd rfl hne
        · rw [canFrom] at h
          simp only [if_pos hne] at h
          split at h <;> cases h
      · rename_i hne
        have hv : canFrom (.tuple ts) (.tuple ss) l = .yes → ∀ q ∈ ts.zip ss, canConvert q.2 q.1 l = .yes := by
          intro h
          rw [canFrom] at h
          simp only [if_neg hne] at h
          split at h
          · cases h
          · exact canZip_yes h
        have := zip_sure ih hg hl (not_not.mp hne) hlen hd hv
        refine ⟨this.1, fun d' h => ?_, fun h => this.2.2 ?_⟩
        · obtain ⟨ds', rfl, h1, h2⟩ := this.2.1 d' h
          exact .tuple h1 h2
        · rcases hc h with h | h
          · cases h
            exact hself
          · exact hv h
    | @named ns' ss ds hlen hd =>
      simp only
      split
      · rename_i hne
        refine ⟨nofun, nofun, fun h => ?_⟩
        rcases hc h with h | h
        · cases h
        · rw [canFrom] at h
          simp only [if_pos hne] at h
          split at h <;> cases h
      · rename_i hne
        have hv : canFrom (.tuple ts) (.named ns' ss) l = .yes → ∀ q ∈ ts.zip ss, canConvert q.2 q.1 l = .yes := by
          intro h
          rw [canFrom] at h
          simp only [if_neg hne] at h
          split at h
          · cases h
          · exact canZip_yes h
        have := zip_sure ih hg hl (not_not.mp hne) hlen hd hv
        refine ⟨this.1, fun d' h => ?_, fun h => this.2.2 ?_⟩
        · obtain ⟨ds', rfl, h1, h2⟩ := this.2.1 d' h
          exact .tuple h1 h2
        · rcases hc h with h | h
          · cases h
          · exact hv h
    | _ =>
      refine ⟨nofun, nofun, fun h => ?_⟩
      rcases hc h with h | h
      · cases h
      · simp [canFrom] at h
  | named ns ts ih =>
    refine sure_plain rfl (fun hg s d l hs hl hp => ?_)
    cases hg with
    | named hnd hnl hg =>
    rw [into, own_none (by simp) (by simp), resolve_plain hp]
    have hc : canConvert s (.named ns ts) l = .yes → s = .named ns ts ∨ canFrom (.named ns ts) s l = .yes := by
      intro h
      rcases canConvert_yes.mp h with h | h | h
      · exact .inl h
      · obtain ⟨_, _, _, h, _⟩ := canTo_yes h
        cases h
      · exact .inr h
    cases hs with
    | @tuple ss ds hlen hd =>
      simp only
      split
      · rename_i hne
        refine ⟨nofun, nofun, fun h => ?_⟩
        rcases hc h with h | h
        · cases h
        · rw [canFrom] at h
          simp only [if_pos hne] at h
          split at h <;> cases h
      · rename_i hne
        have hv : canFrom (.named ns ts) (.tuple ss) l = .yes → ∀ q ∈ ts.zip ss, canConvert q.2 q.1 l = .yes := by
          intro h
          rw [canFrom] at h
          simp only [if_neg hne] at h
          split at h
          · cases h
          · exact canZip_yes h
        have := zip_sure ih hg hl (not_not.mp hne) hlen hd hv
        refine ⟨this.1, fun d' h => ?_, fun h => this.2.2 ?_⟩
        · obtain ⟨ds', rfl, h1, h2⟩ := this.2.1 d' h
          exact .named h1 h2
        · rcases hc h with h | h
          · cases h
          · exact hv h
    | @named ns' ss ds hlen hd =>
      simp only
      split
      · rename_i hall
        have hv : canFrom (.named ns ts) (.named ns' ss) l = .yes → ∀ (i : Nat) (t : Ty), ts[i]? = some t →
            match fieldNamed ns' ss ds (ns[i]?.getD "") with
            | some s => canConvert s.1 t l = .yes
            | none => (dflt t).isSome = true := by
          intro h i t hi
          rw [canFrom] at h
          simp only [if_pos hall] at h
          split at h
          · cases h
          · have := canFields_yes h i t hi
            rw [typeOf_fieldNamed hlen] at this
            cases hf : fieldNamed ns' ss ds (ns[i]?.getD "") with
            | none => rw [hf] at this; exact this
            | some x => rw [hf] at this; exact this
        have := slots_sure he ih hg hl hd hv
        refine ⟨this.1, fun d' h => ?_, fun h => this.2.2 ?_⟩
        · obtain ⟨ds', rfl, h1, h2⟩ := this.2.1 d' h
          exact .named h1 h2
        · rcases hc h with h | h
          · cases h
            intro i t hi
            have hit : i < ts.length := (List.getElem?_eq_some_iff.mp hi).1
            have hin : i < ns.length := by omega
            have hid : i < ds.length := by omega
            have hf := fieldNamed_self hnd (ts := ts) (ds := ds) (List.getElem?_eq_getElem hin) hi (List.getElem?_eq_getElem hid)
            rw [List.getElem?_eq_getElem hin, Option.getD_some, hf]
            exact canConvert_self _ _
          · exact hv h
      · rename_i hall
        refine ⟨nofun, nofun, fun h => ?_⟩
        rcases hc h with h | h
        · cases h
          exact absurd (by simp) hall
        · rw [canFrom] at h
          simp only [if_neg hall] at h
          split at h <;> cases h
    | _ =>
      refine ⟨nofun, nofun, fun h => ?_⟩
      rcases hc h with h | h
      · cases h
      · simp [canFrom] at h
  | oneOf ts ih => exact oneOf_sure ih

end Verif.CConv
