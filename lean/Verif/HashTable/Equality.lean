import Verif.HashTable.Props

/-!
# Equality of dictionaries (C08)
-/

namespace Verif.HashTable
open Spec

variable {K V : Type}

/-- The loop over the items of the left dictionary, `DictType.cpp:211-224`. -/
def cmpLoop (ko : KeyOps K) (ve : V → V → Bool) (compareValues : Bool) (r : Tbl K V) :
    List (Option (K × V)) → Except Err Bool
  | [] => .ok true
  | none :: rest => cmpLoop ko ve compareValues r rest
  | some (k, v) :: rest =>
    match lookupSlot ko r k with
    | .error e => .error e
    | .ok none => if compareValues then .ok false else cmpLoop ko ve compareValues r rest
    | .ok (some s) =>
      match valueAt r s with
      | .error e => .error e
      | .ok w => if compareValues && !ve v w then .ok false else cmpLoop ko ve compareValues r rest

/-- `DictType::cmp` with `Py_EQ`, `DictType.cpp:194-228`; `Py_NE` returns the negation (`cmpResultToBoolForPyOrdering`).
`same` says whether both operands are the same object; `ve` is `==` of the value type. -/
def dictEq (ko : KeyOps K) (ve : V → V → Bool) (compareValues same : Bool) (l r : Tbl K V) : Except Err Bool :=
  if same then .ok true
  else if l.count ≠ r.count then .ok false
  else cmpLoop ko ve compareValues r l.items

/-- `d1.keys() == d2.keys()`, `PyDictInstance.cpp:243-244`. -/
def keysEq (ko : KeyOps K) (ve : V → V → Bool) (l r : Tbl K V) : Except Err Bool := dictEq ko ve false false l r

namespace Spec

/-- Two maps have the same keys, with equal values. -/
def SameMap (ko : KeyOps K) (ve : V → V → Bool) (m m' : List (K × V)) : Prop :=
  ∀ k, match lookup ko m k, lookup ko m' k with
    | none, none => True
    | some v, some w => ve v w = true
    | _, _ => False

/-- Two maps have the same keys. -/
def SameKeys (ko : KeyOps K) (m m' : List (K × V)) : Prop :=
  ∀ k, (lookup ko m k).isSome = (lookup ko m' k).isSome

end Spec

/-! ### Counting -/

/-- Pairwise different elements. -/
def Diff (eq : K → K → Bool) (l : List K) : Prop := l.Pairwise (fun a b => eq a b = false)

/-- If every element of a list without repetitions is in another such list, it is not longer; if both have the same
length, the converse inclusion holds. -/
theorem incl_length {eq : K → K → Bool} (symm : ∀ a b, eq a b = true → eq b a = true)
    (trans : ∀ a b c, eq a b = true → eq b c = true → eq a c = true) :
    ∀ (l r : List K), Diff eq l → Diff eq r → (∀ a ∈ l, ∃ b ∈ r, eq a b = true) →
      l.length ≤ r.length ∧ (l.length = r.length → ∀ b ∈ r, ∃ a ∈ l, eq b a = true)
  | [], r, _, _, _ => by
    refine ⟨Nat.zero_le _, ?_⟩
    intro h b hb
    cases r with
    | nil => cases hb
    | cons => simp at h
  | a :: l, r, dl, dr, h => by
    obtain ⟨b, hb, e⟩ := h a (by simp)
    obtain ⟨r1, r2, rfl⟩ := List.append_of_mem hb
    have dl' := List.pairwise_cons.1 dl
    have dr' : Diff eq (r1 ++ r2) := by
      unfold Diff at dr ⊢
      rw [List.pairwise_append] at dr ⊢
      refine ⟨dr.1, (List.pairwise_cons.1 dr.2.1).2, fun x hx y hy => dr.2.2 x hx y (by simp [hy])⟩
    have h' : ∀ x ∈ l, ∃ y ∈ r1 ++ r2, eq x y = true := by
      intro x hx
      obtain ⟨y, hy, q⟩ := h x (by simp [hx])
      simp only [List.mem_append, List.mem_cons] at hy
      rcases hy with hy | rfl | hy
      · exact ⟨y, by simp [hy], q⟩
      · have := dl'.1 x hx
        rw [trans _ _ _ e (symm _ _ q)] at this
        cases this
      · exact ⟨y, by simp [hy], q⟩
    obtain ⟨i1, i2⟩ := incl_length symm trans l (r1 ++ r2) dl'.2 dr' h'
    simp only [List.length_append, List.length_cons] at i1 i2 ⊢
    refine ⟨by omega, ?_⟩
    intro hlen y hy
    simp only [List.mem_append, List.mem_cons] at hy
    have rest : y ∈ r1 ++ r2 → ∃ x ∈ a :: l, eq y x = true := by
      intro m
      obtain ⟨x, hx, q⟩ := i2 (by omega) y m
      exact ⟨x, by simp [hx], q⟩
    rcases hy with hy | rfl | hy
    · exact rest (by simp [hy])
    · exact ⟨a, by simp, symm _ _ e⟩
    · exact rest (by simp [hy])

/-- The keys of a table are pairwise different. -/
theorem Inv.diff {ko : KeyOps K} {t : Tbl K V} (i : Inv ko t) : Diff ko.eq ((iterate t).map (·.1)) := by
  have d := i.dist
  unfold iterate Diff
  generalize t.items = l at d
  rw [List.pairwise_map]
  induction l with
  | nil => exact List.Pairwise.nil
  | cons a l ih =>
    have d' : ∀ (s s' : Nat) k v k' v', l[s]? = some (some (k, v)) → l[s']? = some (some (k', v')) →
        ko.eq k k' = true → s = s' := by
      intro s s' k v k' v' h h' e
      have := d (s + 1) (s' + 1) k v k' v' (by simpa using h) (by simpa using h') e
      omega
    cases a with
    | none => exact ih d'
    | some p =>
      rw [fm_some, List.pairwise_cons]
      refine ⟨?_, ih d'⟩
      intro q hq
      simp only [List.mem_filterMap, id] at hq
      obtain ⟨o, ho, rfl⟩ := hq
      obtain ⟨j, hj⟩ := List.mem_iff_getElem?.1 ho
      cases c : ko.eq p.1 q.1 with
      | false => rfl
      | true =>
        have := d 0 (j + 1) p.1 p.2 q.1 q.2 (by simp) (by simpa using hj) c
        omega

theorem lookup_isSome {ko : KeyOps K} {m : List (K × V)} {k : K} :
    (lookup ko m k).isSome = true ↔ ∃ e ∈ m, ko.eq k e.1 = true := by
  unfold Spec.lookup
  rw [Option.isSome_map, List.find?_isSome]

theorem lookup_some_mem {ko : KeyOps K} {m : List (K × V)} {k : K} {v : V} (h : lookup ko m k = some v) :
    ∃ x, (x, v) ∈ m ∧ ko.eq k x = true := by
  unfold Spec.lookup at h
  rw [Option.map_eq_some_iff] at h
  obtain ⟨⟨x, w⟩, a, b⟩ := h
  cases b
  exact ⟨x, List.mem_of_find?_eq_some a, by simpa using List.find?_some a⟩

/-- In a table an entry's value is the one found for any equal key. -/
theorem lookup_of_mem {ko : KeyOps K} (lk : LawfulKey ko) {m : List (K × V)} (d : Diff ko.eq (m.map (·.1)))
    {k x : K} {v : V} (h : (x, v) ∈ m) (e : ko.eq k x = true) : lookup ko m k = some v := by
  unfold Diff at d
  rw [List.pairwise_map] at d
  induction m with
  | nil => cases h
  | cons a m ih =>
    rw [List.pairwise_cons] at d
    simp only [List.mem_cons] at h
    rcases h with rfl | h
    · simp [Spec.lookup, e]
    · have : ko.eq k a.1 = false := by
        cases c : ko.eq k a.1 with
        | false => rfl
        | true =>
          have := d.1 _ h
          rw [lk.trans _ _ _ (lk.symm _ _ c) e] at this
          cases this
      have := ih d.2 h
      unfold Spec.lookup at this ⊢
      simp [List.find?_cons, *]

theorem lookupSlot_lookup {ko : KeyOps K} (lk : LawfulKey ko) {t : Tbl K V} (i : Inv ko t) (k : K) :
    (∃ s v, lookupSlot ko t k = .ok (some s) ∧ valueAt t s = .ok v ∧ lookup ko (iterate t) k = some v) ∨
    (lookupSlot ko t k = .ok none ∧ lookup ko (iterate t) k = none) := by
  rcases lookupSlot_ok lk i k with ⟨s, x, v, a, b, c⟩ | ⟨a, b⟩
  · exact Or.inl ⟨s, v, a, valueAt_ok b, (i.hit lk b c).lookup b⟩
  · exact Or.inr ⟨a, b.lookup⟩

theorem cmpLoop_ok {ko : KeyOps K} (lk : LawfulKey ko) (ve : V → V → Bool) {r : Tbl K V} (i : Inv ko r) :
    ∀ (l : List (Option (K × V))), ∃ b, cmpLoop ko ve true r l = .ok b ∧
      (b = true ↔ ∀ e ∈ l.filterMap id, ∃ w, lookup ko (iterate r) e.1 = some w ∧ ve e.2 w = true)
  | [] => ⟨true, rfl, by simp⟩
  | none :: l => cmpLoop_ok lk ve i l
  | some (k, v) :: l => by
    obtain ⟨b, hb, hb'⟩ := cmpLoop_ok lk ve i l
    rw [fm_some]
    rcases lookupSlot_lookup lk i k with ⟨s, w, h1, h2, h3⟩ | ⟨h1, h3⟩
    · simp only [cmpLoop, h1, h2]
      by_cases c : ve v w = true
      · refine ⟨b, by simp [c, hb], ?_⟩
        rw [hb']
        simp [h3, c]
      · refine ⟨false, by simp [c], ?_⟩
        simp [h3, c]
    · refine ⟨false, by simp [cmpLoop, h1], ?_⟩
      simp [h3]

/-- Equality of two tables. -/
theorem dictEq_ok {ko : KeyOps K} (lk : LawfulKey ko) (refl : ∀ k, ko.eq k k = true) (ve : V → V → Bool) {l r : Tbl K V}
    (il : Inv ko l) (ir : Inv ko r) :
    ∃ b, dictEq ko ve true false l r = .ok b ∧ (b = true ↔ SameMap ko ve (iterate l) (iterate r)) := by
  have cl : l.count = (iterate l).length := il.cnt
  have cr : r.count = (iterate r).length := ir.cnt
  -- all the keys of the left are found on the right with equal values
  have fwd : SameMap ko ve (iterate l) (iterate r) →
      ∀ e ∈ iterate l, ∃ w, lookup ko (iterate r) e.1 = some w ∧ ve e.2 w = true := by
    intro s e he
    have h1 : lookup ko (iterate l) e.1 = some e.2 := lookup_of_mem lk il.diff he (refl _)
    have := s e.1
    rw [h1] at this
    cases h2 : lookup ko (iterate r) e.1 with
    | none => rw [h2] at this; exact this.elim
    | some w => rw [h2] at this; exact ⟨w, rfl, this⟩
  have keys : (∀ e ∈ iterate l, ∃ w, lookup ko (iterate r) e.1 = some w ∧ ve e.2 w = true) →
      ∀ a ∈ (iterate l).map (·.1), ∃ b ∈ (iterate r).map (·.1), ko.eq a b = true := by
    intro h a ha
    obtain ⟨e, he, rfl⟩ := List.mem_map.1 ha
    obtain ⟨w, hw, _⟩ := h e he
    obtain ⟨x, hx, q⟩ := lookup_some_mem hw
    exact ⟨x, List.mem_map.2 ⟨_, hx, rfl⟩, q⟩
  unfold dictEq
  rw [if_neg (by decide)]
  by_cases hc : l.count = r.count
  · rw [if_neg (by simp [hc])]
    obtain ⟨b, hb, hb'⟩ := cmpLoop_ok lk ve ir l.items
    refine ⟨b, hb, ?_⟩
    rw [hb']
    refine ⟨?_, fwd⟩
    intro h k
    have back := (incl_length lk.symm lk.trans _ _ il.diff ir.diff (keys h)).2 (by simp; omega)
    cases h1 : lookup ko (iterate l) k with
    | some v =>
      obtain ⟨x, hx, q⟩ := lookup_some_mem h1
      obtain ⟨w, hw, hv⟩ := h _ hx
      obtain ⟨y, hy, q'⟩ := lookup_some_mem hw
      rw [lookup_of_mem lk ir.diff hy (lk.trans _ _ _ q q')]
      exact hv
    | none =>
      cases h2 : lookup ko (iterate r) k with
      | none => trivial
      | some w =>
        obtain ⟨y, hy, q'⟩ := lookup_some_mem h2
        obtain ⟨a, ha, q''⟩ := back y (List.mem_map.2 ⟨_, hy, rfl⟩)
        obtain ⟨e, he, rfl⟩ := List.mem_map.1 ha
        rw [lookup_of_mem (k := k) lk il.diff he (lk.trans _ _ _ q' q'')] at h1
        cases h1
  · rw [if_pos hc]
    refine ⟨false, rfl, by simp, ?_⟩
    intro s
    exfalso
    have f1 := (incl_length lk.symm lk.trans _ _ il.diff ir.diff (keys (fwd s))).1
    have : ∀ a ∈ (iterate r).map (·.1), ∃ b ∈ (iterate l).map (·.1), ko.eq a b = true := by
      intro a ha
      obtain ⟨e, he, rfl⟩ := List.mem_map.1 ha
      have h1 : lookup ko (iterate r) e.1 = some e.2 := lookup_of_mem lk ir.diff he (refl _)
      have := s e.1
      rw [h1] at this
      cases h2 : lookup ko (iterate l) e.1 with
      | none => rw [h2] at this; exact this.elim
      | some w =>
        obtain ⟨x, hx, q⟩ := lookup_some_mem h2
        exact ⟨x, List.mem_map.2 ⟨_, hx, rfl⟩, q⟩
    have f2 := (incl_length lk.symm lk.trans _ _ ir.diff il.diff this).1
    simp at f1 f2
    omega

/-- **C08.**  For dictionaries produced by any two histories, `d1 == d2` is true exactly when both have the same keys
with equal values (and `d1 != d2` is its negation).  The property also claims that `d1.keys() == d2.keys()` compares
the keys; that is false: `keys_view_ignores_keys`, `keys_view_partial`. -/
theorem dict_eq_extensional {ko : KeyOps K} (lk : LawfulKey ko) (refl : ∀ k, ko.eq k k = true) (ve : V → V → Bool)
    (ops ops' : List (Op K V)) (f : Fits ko (2 ^ 28) [] ops) (f' : Fits ko (2 ^ 28) [] ops')
    {t t' : Tbl K V} {rs rs' : List (Except Err (Res K V))}
    (h : run ko {} ops = .ok (t, rs)) (h' : run ko {} ops' = .ok (t', rs')) :
    ∃ b, dictEq ko ve true false t t' = .ok b ∧
      (b = true ↔ SameMap ko ve (final ko [] ops) (final ko [] ops')) := by
  obtain ⟨u, a, i, c⟩ := run_ok lk ops {} (inv_empty ko) f
  obtain ⟨u', a', i', c'⟩ := run_ok lk ops' {} (inv_empty ko) f'
  rw [h] at a; rw [h'] at a'
  injection a with a; injection a with a _; subst a
  injection a' with a'; injection a' with a' _; subst a'
  have := dictEq_ok lk refl ve i i'
  rw [c, c'] at this
  exact this

theorem cmpLoop_keys {ko : KeyOps K} (lk : LawfulKey ko) (ve : V → V → Bool) {r : Tbl K V} (i : Inv ko r) :
    ∀ (l : List (Option (K × V))), cmpLoop ko ve false r l = .ok true
  | [] => rfl
  | none :: l => cmpLoop_keys lk ve i l
  | some (k, v) :: l => by
    rcases lookupSlot_lookup lk i k with ⟨s, w, h1, h2, h3⟩ | ⟨h1, h3⟩
    · simp [cmpLoop, h1, h2, cmpLoop_keys lk ve i l]
    · simp [cmpLoop, h1, cmpLoop_keys lk ve i l]

/-- **C08, what keys views compare.**  `d1.keys() == d2.keys()` is true exactly when both have the same number of keys. -/
theorem keys_view_partial {ko : KeyOps K} (lk : LawfulKey ko) (ve : V → V → Bool)
    (ops ops' : List (Op K V)) (f : Fits ko (2 ^ 28) [] ops) (f' : Fits ko (2 ^ 28) [] ops')
    {t t' : Tbl K V} {rs rs' : List (Except Err (Res K V))}
    (h : run ko {} ops = .ok (t, rs)) (h' : run ko {} ops' = .ok (t', rs')) :
    keysEq ko ve t t' = .ok (decide ((final ko [] ops).length = (final ko [] ops').length)) := by
  obtain ⟨u, a, i, c⟩ := run_ok lk ops {} (inv_empty ko) f
  obtain ⟨u', a', i', c'⟩ := run_ok lk ops' {} (inv_empty ko) f'
  rw [h] at a; rw [h'] at a'
  injection a with a; injection a with a _; subst a
  injection a' with a'; injection a' with a' _; subst a'
  have cl : t.count = (iterate t).length := i.cnt
  have cr : t'.count = (iterate t').length := i'.cnt
  have c : iterate t = final ko [] ops := c
  have c' : iterate t' = final ko [] ops' := c'
  unfold keysEq dictEq
  rw [if_neg (by decide), cmpLoop_keys lk ve i', cl, cr, c, c']
  split <;> simp_all

/-- **C08, refuted for keys views.**  `{1: 0}` and `{2: 0}` have different keys, yet their keys views are equal. -/
theorem keys_view_ignores_keys :
    ∃ (t t' : Tbl Int Int) (rs rs' : List (Except Err (Res Int Int))),
      run badHash {} [.setitem 1 0] = .ok (t, rs) ∧ run badHash {} [.setitem 2 0] = .ok (t', rs') ∧
      keysEq badHash (fun a b => decide (a = b)) t t' = .ok true ∧
      ¬SameKeys badHash (final badHash [] [.setitem 1 0]) (final badHash [] [.setitem 2 (0 : Int)]) := by
  have f : ∀ k : Int, Fits badHash (2 ^ 28) [] [.setitem k (0 : Int)] := by
    intro k; simp [Fits, effect, assign, lookup, badHash]
  obtain ⟨t, a, _⟩ := dict_is_ordered_map badHash_lawful [.setitem 1 (0 : Int)] (f 1)
  obtain ⟨t', a', _⟩ := dict_is_ordered_map badHash_lawful [.setitem 2 (0 : Int)] (f 2)
  refine ⟨t, t', _, _, a, a', ?_, ?_⟩
  · rw [keys_view_partial badHash_lawful _ _ _ (f 1) (f 2) a a']
    rfl
  · intro h
    have := h 1
    revert this
    decide

end Verif.HashTable
