import Verif.TypeFn.Spec
import Mathlib.Data.List.Perm.Basic
import Mathlib.Order.Defs.LinearOrder
import Mathlib.Data.String.Basic
/-
Keys: sorting keyword arguments makes their order irrelevant, and a key made into a key again is the same key.
-/
namespace Verif.TypeFn

theorem insertPair_perm (a : String × α) : ∀ l : List (String × α), (insertPair a l).Perm (a :: l)
  | [] => .refl _
  | b :: l => by
    simp only [insertPair]
    split
    · exact .refl _
    · exact ((insertPair_perm a l).cons b).trans (.swap a b l)

theorem sortPairs_perm : ∀ l : List (String × α), (sortPairs l).Perm l
  | [] => .refl _
  | a :: l => (insertPair_perm a _).trans ((sortPairs_perm l).cons a)

theorem insertPair_comm {a b : String × α} (h : a.1 ≠ b.1) : ∀ l : List (String × α), insertPair a (insertPair b l) = insertPair b (insertPair a l)
  | [] => by
    simp only [insertPair]
    rcases lt_or_gt_of_ne h with h1 | h1
    · simp [h1, not_lt_of_gt h1]
    · simp [h1, not_lt_of_gt h1]
  | c :: l => by
    have ih := insertPair_comm h l
    simp only [insertPair]
    by_cases hb : b.1 < c.1 <;> by_cases ha : a.1 < c.1 <;> simp only [hb, ha, if_true, if_false, insertPair]
    · rcases lt_or_gt_of_ne h with h1 | h1
      · simp [h1, not_lt_of_gt h1, hb]
      · simp [h1, not_lt_of_gt h1, ha]
    · have : ¬ a.1 < b.1 := fun h' => ha (lt_trans h' hb)
      simp [this]
    · have : ¬ b.1 < a.1 := fun h' => hb (lt_trans h' ha)
      simp [this]
    · rw [ih]

theorem sortPairs_of_perm {l l' : List (String × α)} (h : l.Perm l') : (l.map (·.1)).Nodup → sortPairs l = sortPairs l' := by
  induction h with
  | nil => intro _; rfl
  | cons a _ ih =>
    intro hn
    simp only [List.map_cons, List.nodup_cons] at hn
    simp only [sortPairs, ih hn.2]
  | swap a b l =>
    intro hn
    simp only [List.map_cons, List.nodup_cons, List.mem_cons, not_or] at hn
    simp only [sortPairs]
    exact insertPair_comm hn.1.1 _
  | trans h1 _ ih1 ih2 =>
    intro hn
    rw [ih1 hn, ih2 ((h1.map _).nodup_iff.mp hn)]

theorem sortPairs_sorted {l : List (String × α)} (h : (l.map (·.1)).Nodup) : sortPairs (sortPairs l) = sortPairs l :=
  sortPairs_of_perm (sortPairs_perm l) ((((sortPairs_perm l).map _).nodup_iff).mpr h)

/-! ### Mapping -/

theorem mapItems_keys : ∀ {l r : List (String × Arg)}, mapItems l = some r → r.map (·.1) = l.map (·.1)
  | [], r, h => by simp only [mapItems, Option.some.injEq] at h; subst h; rfl
  | (k, a) :: l, r, h => by
    simp only [mapItems] at h
    cases h1 : mapArg a with
    | none => simp [h1] at h
    | some v =>
      cases h2 : mapItems l with
      | none => simp [h1, h2] at h
      | some vs =>
        simp [h1, h2] at h
        subst h
        simp [mapItems_keys h2]

theorem mapItems_perm {l l' : List (String × Arg)} (h : l.Perm l') :
    (mapItems l = none ∧ mapItems l' = none) ∨ ∃ r r', mapItems l = some r ∧ mapItems l' = some r' ∧ r.Perm r' := by
  induction h with
  | nil => exact Or.inr ⟨[], [], rfl, rfl, .refl _⟩
  | cons a _ ih =>
    obtain ⟨k, a⟩ := a
    simp only [mapItems]
    cases mapArg a with
    | none => simp
    | some v =>
      rcases ih with ⟨h1, h2⟩ | ⟨r, r', h1, h2, h3⟩
      · simp [h1, h2]
      · exact Or.inr ⟨(k, v) :: r, (k, v) :: r', by simp [h1], by simp [h2], h3.cons _⟩
  | swap a b l =>
    obtain ⟨k, a⟩ := a
    obtain ⟨k', b⟩ := b
    simp only [mapItems]
    cases mapArg a with
    | none => cases mapArg b <;> simp
    | some v =>
      cases mapArg b with
      | none => simp
      | some v' =>
        cases mapItems l with
        | none => simp
        | some r => exact Or.inr ⟨(k', v') :: (k, v) :: r, (k, v) :: (k', v') :: r, by simp, by simp, .swap _ _ _⟩
  | trans _ _ ih1 ih2 =>
    rcases ih1 with ⟨h1, h2⟩ | ⟨r, r', h1, h2, h3⟩
    · rcases ih2 with ⟨h4, h5⟩ | ⟨r, r', h4, h5, h6⟩
      · exact Or.inl ⟨h1, h5⟩
      · rw [h2] at h4; simp at h4
    · rcases ih2 with ⟨h4, h5⟩ | ⟨q, q', h4, h5, h6⟩
      · rw [h2] at h4; simp at h4
      · rw [h2] at h4
        simp only [Option.some.injEq] at h4
        subst h4
        exact Or.inr ⟨r, q', h1, h5, h3.trans h6⟩

/-- An argument whose mapping has been done: only `none`, types, numbers, text, bytes, functions and tuples of these. -/
def Mapped (a : Arg) : Prop := mapArg a = some a

theorem mapItems_mapped : ∀ {l : List (String × Arg)}, (∀ p ∈ l, Mapped p.2) → mapItems l = some l
  | [], _ => rfl
  | (k, a) :: l, h => by
    have h1 : mapArg a = some a := h (k, a) (by simp)
    simp only [mapItems, h1, mapItems_mapped (l := l) (fun p hp => h p (by simp [hp]))]
    rfl

theorem mapArgs_mapped : ∀ {l : List Arg}, (∀ a ∈ l, Mapped a) → mapArgs l = some l
  | [], _ => rfl
  | a :: l, h => by
    have h1 : mapArg a = some a := h a (by simp)
    simp only [mapArgs, h1, mapArgs_mapped (l := l) (fun p hp => h p (by simp [hp]))]
    rfl

theorem mapped_tuple {l : List Arg} (h : ∀ a ∈ l, Mapped a) : Mapped (.tuple l) := by
  simp only [Mapped, mapArg, mapArgs_mapped h, Option.map_some]

mutual
theorem mapArg_mapped : ∀ (a r : Arg), mapArg a = some r → Mapped r
  | .tuple xs, r, h => by
    simp only [mapArg, Option.map_eq_some_iff] at h
    obtain ⟨ys, h1, rfl⟩ := h
    exact mapped_tuple (mapArgs_all xs ys h1)
  | .list xs, r, h => by
    simp only [mapArg, Option.map_eq_some_iff] at h
    obtain ⟨ys, h1, rfl⟩ := h
    exact mapped_tuple (mapArgs_all xs ys h1)
  | .dict xs, r, h => by
    simp only [mapArg, Option.map_eq_some_iff] at h
    obtain ⟨ys, h1, rfl⟩ := h
    refine mapped_tuple fun a ha => ?_
    simp only [List.mem_map] at ha
    obtain ⟨⟨k, v⟩, hp, rfl⟩ := ha
    have hv := mapItems_all xs ys h1 (k, v) ((sortPairs_perm ys).mem_iff.mp hp)
    refine mapped_tuple fun a ha => ?_
    simp only [List.mem_cons, List.not_mem_nil, or_false] at ha
    rcases ha with rfl | rfl
    · rfl
    · exact hv
  | .other _, r, h => by simp [mapArg] at h
  | .none, r, h => by simp only [mapArg, Option.some.injEq] at h; subst h; rfl
  | .ty _, r, h => by simp only [mapArg, Option.some.injEq] at h; subst h; rfl
  | .int _, r, h => by simp only [mapArg, Option.some.injEq] at h; subst h; rfl
  | .bool _, r, h => by simp only [mapArg, Option.some.injEq] at h; subst h; rfl
  | .whole _, r, h => by simp only [mapArg, Option.some.injEq] at h; subst h; rfl
  | .frac _, r, h => by simp only [mapArg, Option.some.injEq] at h; subst h; rfl
  | .str _, r, h => by simp only [mapArg, Option.some.injEq] at h; subst h; rfl
  | .bytes _, r, h => by simp only [mapArg, Option.some.injEq] at h; subst h; rfl
  | .func _, r, h => by simp only [mapArg, Option.some.injEq] at h; subst h; rfl
termination_by structural a => a
theorem mapArgs_all : ∀ (as rs : List Arg), mapArgs as = some rs → ∀ r ∈ rs, Mapped r
  | [], rs, h, r, hr => by simp only [mapArgs, Option.some.injEq] at h; subst h; simp at hr
  | a :: as, rs, h, r, hr => by
    simp only [mapArgs] at h
    cases h1 : mapArg a with
    | none => simp [h1] at h
    | some v =>
      cases h2 : mapArgs as with
      | none => simp [h1, h2] at h
      | some vs =>
        simp [h1, h2] at h
        subst h
        simp only [List.mem_cons] at hr
        rcases hr with rfl | hr
        · exact mapArg_mapped a _ h1
        · exact mapArgs_all as vs h2 r hr
termination_by structural as => as
theorem mapItems_all : ∀ (as rs : List (String × Arg)), mapItems as = some rs → ∀ r ∈ rs, Mapped r.2
  | [], rs, h, r, hr => by simp only [mapItems, Option.some.injEq] at h; subst h; simp at hr
  | (k, a) :: as, rs, h, r, hr => by
    simp only [mapItems] at h
    cases h1 : mapArg a with
    | none => simp [h1] at h
    | some v =>
      cases h2 : mapItems as with
      | none => simp [h1, h2] at h
      | some vs =>
        simp [h1, h2] at h
        subst h
        simp only [List.mem_cons] at hr
        rcases hr with rfl | hr
        · exact mapArg_mapped a _ h1
        · exact mapItems_all as vs h2 r hr
termination_by structural as => as
end

theorem normal_some {c n : Call} (h : normal c = some n) : ∃ as ks, mapArgs c.args = some as ∧ mapItems c.kwargs = some ks ∧
    n = ⟨c.fn, as, sortPairs ks⟩ := by
  simp only [normal] at h
  cases h1 : mapArgs c.args with
  | none => simp [h1] at h
  | some as =>
    cases h2 : mapItems c.kwargs with
    | none => simp [h1, h2] at h
    | some ks =>
      simp [h1, h2] at h
      exact ⟨as, ks, rfl, rfl, h.symm⟩

/-- A call that has been brought into the form of a key stays as it is. -/
theorem normal_normal {c n : Call} (hc : c.Proper) (h : normal c = some n) : normal n = some n := by
  obtain ⟨as, ks, h1, h2, rfl⟩ := normal_some h
  have hk : (ks.map (·.1)).Nodup := by rw [mapItems_keys h2]; exact hc
  simp only [normal, mapArgs_mapped (mapArgs_all _ _ h1),
    mapItems_mapped (l := sortPairs ks) (fun p hp => mapItems_all _ _ h2 p ((sortPairs_perm ks).mem_iff.mp hp))]
  show some (Call.mk c.fn as (sortPairs (sortPairs ks))) = _
  rw [sortPairs_sorted hk]

/-! ### Forwards -/

theorem fwdsItems_mem : ∀ {l : List (String × Arg)} {i : Nat}, i ∈ Arg.fwdsItems l ↔ ∃ p ∈ l, i ∈ p.2.fwds
  | [], i => by simp [Arg.fwdsItems]
  | (k, a) :: l, i => by simp [Arg.fwdsItems, fwdsItems_mem (l := l)]

theorem fwdsAll_mem : ∀ {l : List Arg} {i : Nat}, i ∈ Arg.fwdsAll l ↔ ∃ p ∈ l, i ∈ p.fwds
  | [], i => by simp [Arg.fwdsAll]
  | a :: l, i => by simp [Arg.fwdsAll, fwdsAll_mem (l := l)]

mutual
theorem mapArg_fwds : ∀ (a r : Arg), mapArg a = some r → ∀ i ∈ r.fwds, i ∈ a.fwds
  | .tuple xs, r, h, i, hi => by
    simp only [mapArg, Option.map_eq_some_iff] at h
    obtain ⟨ys, h1, rfl⟩ := h
    simp only [Arg.fwds] at hi ⊢
    exact mapArgs_fwds xs ys h1 i hi
  | .list xs, r, h, i, hi => by
    simp only [mapArg, Option.map_eq_some_iff] at h
    obtain ⟨ys, h1, rfl⟩ := h
    simp only [Arg.fwds] at hi ⊢
    exact mapArgs_fwds xs ys h1 i hi
  | .dict xs, r, h, i, hi => by
    simp only [mapArg, Option.map_eq_some_iff] at h
    obtain ⟨ys, h1, rfl⟩ := h
    simp only [Arg.fwds] at hi ⊢
    rw [fwdsAll_mem] at hi
    obtain ⟨p, hp, hi⟩ := hi
    simp only [List.mem_map] at hp
    obtain ⟨⟨k, v⟩, hp, rfl⟩ := hp
    simp only [Arg.fwds, Arg.fwdsAll, List.nil_append, List.append_nil] at hi
    exact mapItems_fwds xs ys h1 i (fwdsItems_mem.mpr ⟨(k, v), (sortPairs_perm ys).mem_iff.mp hp, hi⟩)
  | .other _, r, h, _, _ => by simp [mapArg] at h
  | .none, r, h, i, hi => by simp only [mapArg, Option.some.injEq] at h; subst h; exact hi
  | .ty _, r, h, i, hi => by simp only [mapArg, Option.some.injEq] at h; subst h; exact hi
  | .int _, r, h, i, hi => by simp only [mapArg, Option.some.injEq] at h; subst h; exact hi
  | .bool _, r, h, i, hi => by simp only [mapArg, Option.some.injEq] at h; subst h; exact hi
  | .whole _, r, h, i, hi => by simp only [mapArg, Option.some.injEq] at h; subst h; exact hi
  | .frac _, r, h, i, hi => by simp only [mapArg, Option.some.injEq] at h; subst h; exact hi
  | .str _, r, h, i, hi => by simp only [mapArg, Option.some.injEq] at h; subst h; exact hi
  | .bytes _, r, h, i, hi => by simp only [mapArg, Option.some.injEq] at h; subst h; exact hi
  | .func _, r, h, i, hi => by simp only [mapArg, Option.some.injEq] at h; subst h; exact hi
termination_by structural a => a
theorem mapArgs_fwds : ∀ (as rs : List Arg), mapArgs as = some rs → ∀ i ∈ Arg.fwdsAll rs, i ∈ Arg.fwdsAll as
  | [], rs, h, i, hi => by simp only [mapArgs, Option.some.injEq] at h; subst h; exact hi
  | a :: as, rs, h, i, hi => by
    simp only [mapArgs] at h
    cases h1 : mapArg a with
    | none => simp [h1] at h
    | some v =>
      cases h2 : mapArgs as with
      | none => simp [h1, h2] at h
      | some vs =>
        simp [h1, h2] at h
        subst h
        simp only [Arg.fwdsAll, List.mem_append] at hi ⊢
        exact hi.imp (mapArg_fwds a v h1 i) (mapArgs_fwds as vs h2 i)
termination_by structural as => as
theorem mapItems_fwds : ∀ (as rs : List (String × Arg)), mapItems as = some rs → ∀ i ∈ Arg.fwdsItems rs, i ∈ Arg.fwdsItems as
  | [], rs, h, i, hi => by simp only [mapItems, Option.some.injEq] at h; subst h; exact hi
  | (k, a) :: as, rs, h, i, hi => by
    simp only [mapItems] at h
    cases h1 : mapArg a with
    | none => simp [h1] at h
    | some v =>
      cases h2 : mapItems as with
      | none => simp [h1, h2] at h
      | some vs =>
        simp [h1, h2] at h
        subst h
        simp only [Arg.fwdsItems, List.mem_append] at hi ⊢
        exact hi.imp (mapArg_fwds a v h1 i) (mapItems_fwds as vs h2 i)
termination_by structural as => as
end

theorem normal_fwds {c n : Call} (h : normal c = some n) : ∀ i ∈ n.fwds, i ∈ c.fwds := by
  obtain ⟨as, ks, h1, h2, rfl⟩ := normal_some h
  intro i hi
  simp only [Call.fwds, List.mem_append] at hi ⊢
  refine hi.imp (mapArgs_fwds _ _ h1 i) fun hi => ?_
  rw [fwdsItems_mem] at hi
  obtain ⟨p, hp, hi⟩ := hi
  exact mapItems_fwds _ _ h2 i (fwdsItems_mem.mpr ⟨p, (sortPairs_perm ks).mem_iff.mp hp, hi⟩)

end Verif.TypeFn
