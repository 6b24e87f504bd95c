import Verif.Conv.Props
import Verif.Conv.Spec
/-
Which alternative of a `OneOf` a value becomes.
-/
namespace Verif.Conv

/-! ### What a conversion accepts, `pyValCouldBeOfType` does not rule out -/

theorem copyOr_other {t : Ty} {v : Py} {rest : Option Data} (h : ∀ d, v ≠ .inst t d) : copyOr t v rest = rest := by
  cases v with
  | inst t' d' =>
    simp only [copyOr]
    rw [if_neg]
    rintro rfl
    exact h d' rfl
  | _ => rfl

theorem seqChild_couldBe {v : Py} {l s : Level} (h : seqChild false v l = some s) :
    (if l = .signature then false else if l = .upcast then false else if .implicitContainers ≤ l then true else isSequence v) = true := by
  revert h
  cases l <;> cases hv : isSequence v <;> simp [seqChild, hv, Level.le_iff, Level.lt_iff, Level.toInt]

theorem seqChild_list {v : Py} {l s : Level} (h : seqChild true v l = some s) : Level.implicitContainers ≤ l := by
  revert h
  cases l <;> simp [seqChild, Level.le_iff, Level.lt_iff, Level.toInt]

theorem couldBe_of_conv {e : Env} {t : Ty} {v : Py} {l : Level} {d : Data} (hl : l < .new) (h : conv e t v l = some d) :
    couldBe e t v l = true := by
  have hnew : ¬ Level.new ≤ l := Nat.not_le.mpr hl
  by_cases hi : ∃ d', v = .inst t d'
  · obtain ⟨d', rfl⟩ := hi
    simp [couldBe]
  · have hi' : ∀ d', v ≠ .inst t d' := fun d' hd => hi ⟨d', hd⟩
    rw [conv, copyOr_other hi'] at h
    have hm : couldBe e t v l = couldBeTo e t v l := by
      cases v with
      | inst t' d' =>
        simp only [couldBe]
        rw [if_neg]
        rintro rfl
        exact hi' d' rfl
      | _ => rfl
    rw [hm]
    cases t with
    | none => cases v <;> simp_all [convTo, couldBeTo]
    | reg r =>
      rw [convTo] at h
      have key : ∀ src (x : Data) (y : Option Data), (if isValidConversion src r l = true then some x else (if Level.new ≤ l then y else none)) = some d →
          isValidConversion src r l = true := by
        intro src x y hh
        rw [if_neg hnew] at hh
        split at hh
        · assumption
        · cases hh
      cases v with
      | bool b => exact key _ _ _ h
      | int n => exact key _ _ _ h
      | float x => exact key _ _ _ h
      | inst t' d' =>
        cases t' with
        | reg src =>
          cases d' with
          | num n => exact key _ _ _ h
          | _ => simp [convReg, hnew] at h
        | _ => simp [convReg, hnew] at h
      | _ => simp [convReg, hnew] at h
    | str => cases v <;> simp_all [convTo, convStr, couldBeTo]
    | bytes => cases v <;> simp_all [convTo, convBytes, couldBeTo]
    | value c =>
      rw [convTo] at h
      split at h
      · assumption
      · cases h
    | tupleOf t =>
      rw [convTo] at h
      cases hs : seqChild false v l with
      | none => rw [hs] at h; cases h
      | some s => exact seqChild_couldBe hs
    | listOf t =>
      rw [convTo] at h
      cases hs : seqChild true v l with
      | none => rw [hs] at h; cases h
      | some s => exact decide_eq_true (seqChild_list hs)
    | tuple ts => rfl
    | named ns ts => rfl
    | oneOf ts => rfl

/-! ### The choice -/

/-- One pass over the alternatives takes the first that accepts. -/
theorem convAny_eq {e : Env} {v : Py} {s : Level} (hs : s < .new) {x : Data} : ∀ {ts : List Ty} {k : Nat},
    convAny e ts v s k = some x ↔ ∃ j t d, x = .tag (k + j) d ∧ ts[j]? = some t ∧ conv e t v s = some d ∧
      ∀ i, i < j → ∀ u, ts[i]? = some u → conv e u v s = none
  | [], k => by
    rw [convAny]
    simp
  | t :: ts, k => by
    have step : convAny e (t :: ts) v s k = match conv e t v s with
        | some d => some (.tag k d)
        | none => convAny e ts v s (k + 1) := by
      rw [convAny]
      change (if couldBe e t v s = true then (match conv e t v s with
        | some d => some (.tag k d)
        | none => convAny e ts v s (k + 1)) else convAny e ts v s (k + 1)) = _
      cases hc : conv e t v s with
      | some d => rw [if_pos (couldBe_of_conv hs hc)]
      | none => simp
    rw [step]
    cases hc : conv e t v s with
    | some d =>
      simp only [Option.some.injEq]
      constructor
      · rintro rfl
        exact ⟨0, t, d, rfl, rfl, hc, by simp⟩
      · rintro ⟨j, t', d', rfl, hj, hd, hmin⟩
        cases j with
        | zero =>
          simp only [List.getElem?_cons_zero, Option.some.injEq] at hj
          subst hj
          rw [hc] at hd
          cases hd
          rfl
        | succ j =>
          have := hmin 0 (by omega) t rfl
          rw [hc] at this
          cases this
    | none =>
      simp only
      rw [convAny_eq hs]
      constructor
      · rintro ⟨j, t', d', rfl, hj, hd, hmin⟩
        refine ⟨j + 1, t', d', by rw [Nat.add_right_comm, Nat.add_assoc], by simpa using hj, hd, ?_⟩
        intro i hi u hu
        cases i with
        | zero =>
          simp only [List.getElem?_cons_zero, Option.some.injEq] at hu
          rw [← hu]
          exact hc
        | succ i => exact hmin i (by omega) u (by simpa using hu)
      · rintro ⟨j, t', d', rfl, hj, hd, hmin⟩
        cases j with
        | zero =>
          simp only [List.getElem?_cons_zero, Option.some.injEq] at hj
          rw [← hj, hc] at hd
          cases hd
        | succ j =>
          refine ⟨j, t', d', by rw [Nat.add_right_comm, Nat.add_assoc], by simpa using hj, hd, ?_⟩
          intro i hi u hu
          exact hmin (i + 1) (by omega) u (by simpa using hu)

theorem convAny_none {e : Env} {v : Py} {s : Level} (hs : s < .new) {ts : List Ty} {k : Nat} :
    convAny e ts v s k = none ↔ ∀ t ∈ ts, conv e t v s = none := by
  induction ts generalizing k with
  | nil => rw [convAny]; simp
  | cons t ts ih =>
    rw [convAny]
    change (if couldBe e t v s = true then (match conv e t v s with
      | some d => some (.tag k d)
      | none => convAny e ts v s (k + 1)) else convAny e ts v s (k + 1)) = none ↔ _
    cases hc : conv e t v s with
    | some d =>
      rw [if_pos (couldBe_of_conv hs hc)]
      simp [hc]
    | none => simp [hc, ih]

/-- A list of levels in order: the first that gives a result. -/
theorem findSome_levels {f : Level → Option Data} {l : Level} {x : Data} :
    (oneOfLevels.filter (· ≤ l)).findSome? f = some x ↔
      ∃ s, s ≤ l ∧ s < .new ∧ f s = some x ∧ ∀ s', s' < s → f s' = none := by
  have all : ∀ P : Level → Prop, (∃ s, P s) ↔ P .signature ∨ P .upcast ∨ P .upcastContainers ∨ P .implicit ∨ P .implicitContainers ∨ P .new := by
    intro P
    constructor
    · rintro ⟨s, h⟩
      cases s <;> simp [h]
    · rintro (h | h | h | h | h | h) <;> exact ⟨_, h⟩
  have all' : ∀ P : Level → Prop, (∀ s, P s) ↔ P .signature ∧ P .upcast ∧ P .upcastContainers ∧ P .implicit ∧ P .implicitContainers ∧ P .new := by
    intro P
    constructor
    · intro h
      exact ⟨h _, h _, h _, h _, h _, h _⟩
    · rintro ⟨a, b, c, d, f, g⟩ s
      cases s <;> assumption
  rw [all]
  simp only [all']
  cases l <;> simp only [oneOfLevels, List.filter, Level.le_iff, Level.lt_iff, Level.toInt] <;>
    simp [List.findSome?] <;>
    (cases f .signature <;> cases f .upcast <;> cases f .upcastContainers <;> cases f .implicit <;> cases f .implicitContainers <;> simp)

/-- A `OneOf` takes the least level at which an alternative accepts the value, and at that level the first alternative that does; the
data is what that alternative makes of the value. -/
theorem oneOf_takes_first_at_least_level {e : Env} {ts : List Ty} {v : Py} {l : Level} {x : Data} (hv : v.proper = true) :
    conv e (.oneOf ts) v l = some x ↔
      ∃ s k t d, s ≤ l ∧ s < .new ∧ x = .tag k d ∧ ts[k]? = some t ∧ conv e t v s = some d ∧
        (∀ s', s' < s → ∀ u ∈ ts, conv e u v s' = none) ∧ (∀ j, j < k → ∀ u, ts[j]? = some u → conv e u v s = none) := by
  have hother : ∀ d, v ≠ .inst (.oneOf ts) d := by
    rintro d rfl
    cases hv
  rw [conv, copyOr_other hother, convTo, findSome_levels]
  constructor
  · rintro ⟨s, h1, h2, h3, h4⟩
    obtain ⟨k, t, d, rfl, h5, h6, h7⟩ := (convAny_eq h2).mp h3
    refine ⟨s, k, t, d, h1, h2, by rw [Nat.zero_add], h5, h6, ?_, h7⟩
    intro s' hs' u hu
    exact (convAny_none (Nat.lt_trans hs' h2)).mp (h4 s' hs') u hu
  · rintro ⟨s, k, t, d, h1, h2, rfl, h5, h6, h4, h7⟩
    refine ⟨s, h1, h2, (convAny_eq h2).mpr ⟨k, t, d, by rw [Nat.zero_add], h5, h6, h7⟩, ?_⟩
    intro s' hs'
    exact (convAny_none (Nat.lt_trans hs' h2)).mpr (h4 s' hs')

/-- The highest level a `OneOf` tries. -/
def oneOfLevel (l : Level) : Level := if l = .new then .implicitContainers else l

theorem oneOfLevel_lt (l : Level) : oneOfLevel l < .new := by cases l <;> decide
theorem oneOfLevel_le (l : Level) : oneOfLevel l ≤ l := by cases l <;> decide
theorem le_oneOfLevel {s l : Level} (h : s ≤ l) (h' : s < .new) : s ≤ oneOfLevel l := by
  revert h h'
  cases s <;> cases l <;> decide

theorem Level.exists_least {P : Level → Prop} {s : Level} (h : P s) : ∃ m, m ≤ s ∧ P m ∧ ∀ m', m' < m → ¬ P m' := by
  classical
  have : ∀ n (s : Level), s.toInt = n → P s → ∃ m, m ≤ s ∧ P m ∧ ∀ m', m' < m → ¬ P m' := by
    intro n
    induction n using Nat.strongRecOn with
    | _ n ih =>
      intro s hs hp
      by_cases hex : ∃ m', m' < s ∧ P m'
      · obtain ⟨m', h1, h2⟩ := hex
        obtain ⟨m, h3, h4, h5⟩ := ih m'.toInt (hs ▸ h1) m' rfl h2
        exact ⟨m, Nat.le_of_lt (Nat.lt_of_le_of_lt h3 h1), h4, h5⟩
      · exact ⟨s, Level.le_refl s, hp, fun m' hm' hp' => hex ⟨m', hm', hp'⟩⟩
  exact this _ s rfl h

/-- A `OneOf` accepts exactly the values that one of its alternatives accepts, an explicit conversion trying no more than the
implicit ones of containers. -/
theorem oneOf_accepts {e : Env} {ts : List Ty} {v : Py} {l : Level} (hv : v.proper = true) :
    (∃ x, conv e (.oneOf ts) v l = some x) ↔ ∃ t ∈ ts, ∃ d, conv e t v (oneOfLevel l) = some d := by
  constructor
  · rintro ⟨x, hx⟩
    obtain ⟨s, k, t, d, h1, h2, rfl, h5, h6, -, -⟩ := (oneOf_takes_first_at_least_level hv).mp hx
    exact ⟨t, List.mem_of_getElem? h5, d, conversion_monotone h6 (le_oneOfLevel h1 h2)⟩
  · rintro ⟨t, ht, d, hd⟩
    obtain ⟨s, hs, ⟨u, hu, d', hd'⟩, hleast⟩ :=
      Level.exists_least (P := fun s => ∃ u ∈ ts, ∃ d', conv e u v s = some d') (s := oneOfLevel l) ⟨t, ht, d, hd⟩
    have hnew : s < .new := Nat.lt_of_le_of_lt hs (oneOfLevel_lt l)
    cases hc : convAny e ts v s 0 with
    | none =>
      have := (convAny_none hnew).mp hc u hu
      rw [hd'] at this
      cases this
    | some x =>
      obtain ⟨k, t', d'', rfl, h5, h6, h7⟩ := (convAny_eq hnew).mp hc
      refine ⟨.tag k d'', (oneOf_takes_first_at_least_level hv).mpr
        ⟨s, k, t', d'', Level.le_trans hs (oneOfLevel_le l), hnew, rfl, h5, h6, ?_, h7⟩⟩
      intro s' hs' u' hu'
      cases hcu : conv e u' v s' with
      | none => rfl
      | some d3 => exact absurd ⟨u', hu', d3, hcu⟩ (hleast s' hs')

/-- Whether a `OneOf` accepts a value does not depend on the order of its alternatives. -/
theorem oneOf_accepts_in_any_order {e : Env} {ts us : List Ty} {v : Py} {l : Level} (hv : v.proper = true)
    (h : ∀ t, t ∈ ts ↔ t ∈ us) : (conv e (.oneOf ts) v l).isSome = (conv e (.oneOf us) v l).isSome := by
  have key : ∀ x : Option Data, x.isSome = true ↔ ∃ d, x = some d := fun x => Option.isSome_iff_exists
  rw [Bool.eq_iff_iff, key, key, oneOf_accepts hv, oneOf_accepts hv]
  simp only [h]

/-! ### Values that already have a type -/

/-- Without any conversion, a type that is neither a choice nor a constant accepts exactly the values of that type. -/
theorem signature_is_type {e : Env} {t : Ty} {v : Py} (ht : t.plain = true) :
    (∃ d, conv e t v .signature = some d) ↔ pyType v = some t := by
  by_cases hi : ∃ d', v = .inst t d'
  · obtain ⟨d', rfl⟩ := hi
    simp [conv, copyOr, pyType]
  · have hi' : ∀ d', v ≠ .inst t d' := fun d' hd => hi ⟨d', hd⟩
    rw [conv, copyOr_other hi']
    have hno : ∀ {t' d'}, v = .inst t' d' → pyType v ≠ some t := by
      rintro t' d' rfl hp
      cases hp
      exact hi' d' rfl
    cases t with
    | value c => cases ht
    | oneOf ts => cases ht
    | none => cases v <;> simp_all [convTo, pyType]
    | reg r =>
      rw [convTo]
      have h0 : ¬ Level.new ≤ Level.signature := by decide
      have hvalid : ∀ src, isValidConversion src r .signature = true ↔ src = r := by
        intro src
        simp [isValidConversion, Level.le_iff, Level.toInt]
      have key : ∀ src (x : Data) (y : Option Data), (∃ d, (if isValidConversion src r .signature = true then some x else
          (if Level.new ≤ Level.signature then y else none)) = some d) ↔ src = r := by
        intro src x y
        rw [if_neg h0, ← hvalid]
        split
        · rename_i h
          simp [h]
        · rename_i h
          simp [h]
      cases v with
      | bool b => exact (key _ _ _).trans (by simp [pyType])
      | int n => exact (key _ _ _).trans (by simp [pyType])
      | float x => exact (key _ _ _).trans (by simp [pyType])
      | inst t' d' =>
        refine Iff.trans ?_ (iff_of_false (by simp : ¬ False) (hno rfl))
        cases t' with
        | reg src =>
          cases d' with
          | num n =>
            refine (key _ _ _).trans ⟨?_, False.elim⟩
            rintro rfl
            exact hi' _ rfl
          | _ => simp [convReg, h0]
        | _ => simp [convReg, h0]
      | _ => simp [convReg, h0, pyType]
    | str =>
      cases v <;> simp_all [convTo, convStr, pyType, Level.le_iff, Level.toInt]
    | bytes =>
      cases v <;> simp_all [convTo, convBytes, pyType, Level.le_iff, Level.toInt]
    | tupleOf t =>
      have : seqChild false v .signature = none := by simp [seqChild, Level.lt_iff, Level.toInt]
      rw [convTo, this]
      cases v <;> simp_all [pyType]
    | listOf t =>
      have : seqChild true v .signature = none := by simp [seqChild, Level.lt_iff, Level.toInt]
      rw [convTo, this]
      cases v <;> simp_all [pyType]
    | tuple ts =>
      have : compChild v .signature = none := by simp [compChild, Level.lt_iff, Level.toInt]
      rw [convTo, this]
      cases v <;> simp_all [pyType]
    | named ns ts =>
      have : compChild v .signature = none := by simp [compChild, Level.lt_iff, Level.toInt]
      have hc : convTo e (.named ns ts) v .signature = none := by
        cases v with
        | dict ks vs =>
          rw [convTo]
          rw [if_neg (by decide)]
        | inst t' d' =>
          cases t' with
          | named ns' ts' =>
            cases d' with
            | seq ds => rw [convTo, this]
            | _ => simp only [convTo]; rw [this]
          | _ => simp only [convTo]; rw [this]
        | _ => simp only [convTo]; rw [this]
      rw [hc]
      cases v <;> simp_all [pyType]

/-- A value whose type is one of the alternatives, none of which is a constant, is stored as that alternative, whatever the order of
the alternatives and the level. -/
theorem oneOf_keeps_type {e : Env} {ts : List Ty} {v : Py} {t : Ty} {k : Nat} {l : Level} (hts : ∀ u ∈ ts, u.plain = true)
    (hv : pyType v = some t) (hk : ts[k]? = some t) (hfirst : ∀ j, j < k → ts[j]? ≠ some t) :
    ∃ d, conv e (.oneOf ts) v l = some (.tag k d) ∧ conv e t v .signature = some d := by
  have hplain := hts t (List.mem_of_getElem? hk)
  obtain ⟨d, hd⟩ := (signature_is_type (e := e) hplain).mpr hv
  refine ⟨d, (oneOf_takes_first_at_least_level ?_).mpr
    ⟨.signature, k, t, d, Nat.zero_le _, by decide, rfl, hk, hd, ?_, ?_⟩, hd⟩
  · cases v with
    | inst t' d' =>
      simp only [pyType, Option.some.injEq] at hv
      subst hv
      cases t' <;> simp_all [Ty.plain, Py.proper]
    | _ => rfl
  · intro s' hs'
    exact absurd hs' (Nat.not_lt_zero _)
  · intro j hj u hu
    cases hc : conv e u v .signature with
    | none => rfl
    | some d' =>
      have := (signature_is_type (e := e) (hts u (List.mem_of_getElem? hu))).mp ⟨d', hc⟩
      rw [hv] at this
      cases this
      exact absurd hu (hfirst j hj)

/-! ### Making a `OneOf` -/

mutual
/-- OneOfType.cpp:166-171. -/
def visitOne : List Ty → Ty → List Ty
  | acc, .oneOf ts => visit acc ts
  | acc, t => if t ∈ acc then acc else acc ++ [t]
/-- OneOfType.cpp:164-173. -/
def visit : List Ty → List Ty → List Ty
  | acc, [] => acc
  | acc, t :: ts => visit (visitOne acc t) ts
end

/-- OneOfType.cpp:159-189 `OneOfType::Make`: the alternatives of the type made of `ts`.  Types are compared by address in the code
and by equality here. -/
def makeOneOf (ts : List Ty) : List Ty := visit [] ts

theorem visit_append (ts us acc : List Ty) : visit acc (ts ++ us) = visit (visit acc ts) us := by
  induction ts generalizing acc with
  | nil => rw [List.nil_append]; simp [visit]
  | cons t ts ih =>
    rw [List.cons_append, visit, visit]
    exact ih _

/-- What visiting a type adds. -/
def VisitOk (t : Ty) : Prop := ∀ acc : List Ty, acc.Nodup → (visitOne acc t).Nodup ∧ ∀ u, u ∈ visitOne acc t ↔ u ∈ acc ∨ Inside u t

theorem visit_ok {ts : List Ty} (h : ∀ t ∈ ts, VisitOk t) (acc : List Ty) (hacc : acc.Nodup) :
    (visit acc ts).Nodup ∧ ∀ u, u ∈ visit acc ts ↔ u ∈ acc ∨ ∃ t ∈ ts, Inside u t := by
  induction ts generalizing acc with
  | nil => simp [visit, hacc]
  | cons t ts ih =>
    rw [visit]
    obtain ⟨h1, h2⟩ := h t (by simp) acc hacc
    obtain ⟨h3, h4⟩ := ih (fun u hu => h u (by simp [hu])) _ h1
    refine ⟨h3, fun u => ?_⟩
    rw [h4, h2]
    simp only [List.mem_cons, exists_eq_or_imp]
    tauto

theorem visitOk_of_plain {t : Ty} (ht : ∀ ts, t ≠ .oneOf ts) (hv : ∀ acc, visitOne acc t = if t ∈ acc then acc else acc ++ [t]) :
    VisitOk t := by
  intro acc hacc
  have hin : ∀ u, Inside u t ↔ u = t := by
    intro u
    constructor
    · rintro (h | ⟨_, _⟩)
      · rfl
      · exact absurd rfl (ht _)
    · rintro rfl
      exact .here ht
  rw [hv]
  split
  · rename_i hm
    refine ⟨hacc, fun u => ?_⟩
    rw [hin]
    constructor
    · exact Or.inl
    · rintro (h | rfl)
      · exact h
      · exact hm
  · rename_i hm
    refine ⟨?_, fun u => by rw [hin]; simp⟩
    rw [List.nodup_append]
    refine ⟨hacc, by simp, ?_⟩
    intro a ha b hb
    simp only [List.mem_singleton] at hb
    rintro rfl
    exact hm (hb ▸ ha)

theorem visitOk (t : Ty) : VisitOk t := by
  refine Ty.ind (P := VisitOk) ?_ ?_ ?_ ?_ ?_ ?_ ?_ ?_ ?_ ?_ t
  case refine_10 =>
    intro ts ih acc hacc
    rw [visitOne]
    obtain ⟨h1, h2⟩ := visit_ok ih acc hacc
    refine ⟨h1, fun u => ?_⟩
    rw [h2]
    constructor
    · rintro (h | ⟨t, ht, h⟩)
      · exact .inl h
      · exact .inr (.there ht h)
    · rintro (h | h)
      · exact .inl h
      · cases h with
        | here hne => exact absurd rfl (hne ts)
        | there ht h => exact .inr ⟨_, ht, h⟩
  all_goals
    intros
    exact visitOk_of_plain nofun fun acc => by simp only [visitOne]

/-- The alternatives of a `OneOf` are those it is given, with those of the `OneOf`s among them in their place, each once. -/
theorem oneOf_flat (ts : List Ty) :
    (makeOneOf ts).Nodup ∧ ∀ u, u ∈ makeOneOf ts ↔ ∃ t ∈ ts, Inside u t := by
  have := visit_ok (fun t _ => visitOk t) (ts := ts) [] List.nodup_nil
  refine ⟨this.1, fun u => ?_⟩
  rw [makeOneOf, this.2]
  simp

theorem Inside.not_oneOf {u t : Ty} (h : Inside u t) : ∀ ts, u ≠ .oneOf ts := by
  induction h with
  | here h => exact h
  | there _ _ ih => exact ih

/-- No alternative is itself a `OneOf`. -/
theorem oneOf_has_no_oneOf {ts us : List Ty} : .oneOf us ∉ makeOneOf ts := by
  intro h
  obtain ⟨t, _, ht⟩ := ((oneOf_flat ts).2 _).mp h
  exact ht.not_oneOf us rfl

/-- Nesting makes no difference. -/
theorem oneOf_nesting (ts us vs : List Ty) : makeOneOf (ts ++ .oneOf us :: vs) = makeOneOf (ts ++ us ++ vs) := by
  rw [makeOneOf, makeOneOf, visit_append, visit_append, visit_append, visit, visitOne]

theorem visit_flat {us : List Ty} : ∀ (acc : List Ty), (∀ t ∈ us, ∀ ts, t ≠ .oneOf ts) → (acc ++ us).Nodup → visit acc us = acc ++ us := by
  induction us with
  | nil => intro acc _ _; simp [visit]
  | cons t us ih =>
    intro acc h hn
    have ht : t ∉ acc := by
      rw [List.nodup_append] at hn
      intro hm
      exact hn.2.2 t hm t (by simp) rfl
    have hv : visitOne acc t = acc ++ [t] := by
      have h1 := h t (by simp)
      cases t with
      | oneOf ts => exact absurd rfl (h1 ts)
      | _ => simp only [visitOne]; rw [if_neg ht]
    rw [visit, hv, ih _ (fun u hu => h u (by simp [hu])) (by simpa using hn)]
    simp

/-- Making a `OneOf` of the alternatives of one changes nothing. -/
theorem oneOf_made_once (ts : List Ty) : makeOneOf (makeOneOf ts) = makeOneOf ts := by
  have h := visit_flat (us := makeOneOf ts) [] (by
    rintro t ht us rfl
    exact oneOf_has_no_oneOf ht) (by simpa using (oneOf_flat ts).1)
  rw [makeOneOf, h, List.nil_append]

/-- What is inside a type is accepted by it. -/
theorem accepts_of_inside {e : Env} {u t : Ty} {v : Py} {l : Level} (hv : v.proper = true) (h : Inside u t) :
    (∃ d, conv e u v (oneOfLevel l) = some d) → ∃ d, conv e t v (oneOfLevel l) = some d := by
  induction h with
  | here _ => exact id
  | there hm _ ih =>
    intro hd
    refine (oneOf_accepts hv).mpr ⟨_, hm, ?_⟩
    have : oneOfLevel (oneOfLevel l) = oneOfLevel l := by cases l <;> rfl
    rw [this]
    exact ih hd

theorem inside_of_accepts {e : Env} {v : Py} {l : Level} (hv : v.proper = true) (t : Ty) :
    (∃ d, conv e t v (oneOfLevel l) = some d) → ∃ u, Inside u t ∧ ∃ d, conv e u v (oneOfLevel l) = some d := by
  have idem : oneOfLevel (oneOfLevel l) = oneOfLevel l := by cases l <;> rfl
  refine Ty.ind (P := fun t => (∃ d, conv e t v (oneOfLevel l) = some d) → ∃ u, Inside u t ∧ ∃ d, conv e u v (oneOfLevel l) = some d)
    ?_ ?_ ?_ ?_ ?_ ?_ ?_ ?_ ?_ ?_ t
  case refine_10 =>
    intro ts ih h
    obtain ⟨t, ht, h'⟩ := (oneOf_accepts hv).mp h
    rw [idem] at h'
    obtain ⟨u, hu, hd⟩ := ih t ht h'
    exact ⟨u, .there ht hu, hd⟩
  all_goals
    intros
    exact ⟨_, .here nofun, by assumption⟩

/-- A `OneOf` made of types, `OneOf`s among them or not, accepts exactly what one of the types accepts. -/
theorem made_oneOf_accepts {e : Env} {ts : List Ty} {v : Py} {l : Level} (hv : v.proper = true) :
    (∃ x, conv e (.oneOf (makeOneOf ts)) v l = some x) ↔ ∃ t ∈ ts, ∃ d, conv e t v (oneOfLevel l) = some d := by
  rw [oneOf_accepts hv]
  constructor
  · rintro ⟨u, hu, hd⟩
    obtain ⟨t, ht, hin⟩ := ((oneOf_flat ts).2 u).mp hu
    exact ⟨t, ht, accepts_of_inside hv hin hd⟩
  · rintro ⟨t, ht, hd⟩
    obtain ⟨u, hin, hd'⟩ := inside_of_accepts hv t hd
    exact ⟨u, ((oneOf_flat ts).2 u).mpr ⟨t, ht, hin⟩, hd'⟩

end Verif.Conv
