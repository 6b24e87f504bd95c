import Verif.HashTable.SetSpec
import Verif.HashTable.Equality

/-!
# Set algebra (C07)
-/

namespace Verif.HashTable
open Spec

variable {K : Type}

/-- What the code needs from an element type: an equivalence, respected by a 32-bit hash. -/
structure LawfulElt (ko : KeyOps K) : Prop extends LawfulKey ko where
  refl : ∀ k, ko.eq k k = true

/-- The elements of a table, as a predicate. -/
def Mem (ko : KeyOps K) (t : SetT K) (x : K) : Prop := ∃ y ∈ elems t, ko.eq x y = true

/-- The values of all set objects. -/
def store (ko : KeyOps K) (h : Heap K) : Store K := fun i => Mem ko (h i)

theorem Mem.congr {ko : KeyOps K} (lk : LawfulElt ko) {t : SetT K} {x y : K} (h : Mem ko t x) (e : ko.eq y x = true) :
    Mem ko t y := by
  obtain ⟨z, hz, q⟩ := h
  exact ⟨z, hz, lk.trans _ _ _ e q⟩

theorem mem_lookup {ko : KeyOps K} {t : SetT K} {x : K} : (lookup ko (iterate t) x).isSome = true ↔ Mem ko t x := by
  rw [lookup_isSome]
  constructor
  · rintro ⟨e, he, q⟩; exact ⟨e.1, List.mem_map.2 ⟨e, he, rfl⟩, q⟩
  · rintro ⟨y, hy, q⟩
    obtain ⟨e, he, rfl⟩ := List.mem_map.1 hy
    exact ⟨e, he, q⟩

theorem has_ok {ko : KeyOps K} (lk : LawfulElt ko) {t : SetT K} (i : Inv ko t) (k : K) :
    ∃ b, has ko t k = .ok b ∧ (b = true ↔ Mem ko t k) := by
  unfold has
  rcases lookupSlot_lookup lk.toLawfulKey i k with ⟨s, v, h1, _, h3⟩ | ⟨h1, h3⟩
  · exact ⟨true, by rw [h1]; rfl, by rw [← mem_lookup, h3]; simp⟩
  · exact ⟨false, by rw [h1]; rfl, by rw [← mem_lookup, h3]; simp⟩

theorem count_eq {ko : KeyOps K} {t : SetT K} (i : Inv ko t) : t.count = (elems t).length := by
  unfold elems iterate
  rw [i.cnt, List.length_map]

theorem addElt_ok {ko : KeyOps K} (lk : LawfulElt ko) {t : SetT K} (i : Inv ko t) (k : K) (hc : t.count ≤ 2 ^ 28) :
    ∃ t', addElt ko t k = .ok t' ∧ Inv ko t' ∧ t'.count ≤ t.count + 1 ∧
      ∀ x, Mem ko t' x ↔ Mem ko t x ∨ ko.eq x k = true := by
  unfold addElt has
  rcases lookupSlot_ok lk.toLawfulKey i k with ⟨s, y, v, h1, h2, h3⟩ | ⟨h1, m⟩
  · have hm : Mem ko t k := by
      rw [← mem_lookup, (i.hit lk.toLawfulKey h2 h3).lookup h2 |> (show lookup ko (iterate t) k = _ from ·)]; rfl
    refine ⟨t, by rw [h1]; rfl, i, by omega, fun x => ⟨Or.inl, ?_⟩⟩
    rintro (h | h)
    · exact h
    · exact hm.congr lk h
  · obtain ⟨t', e1, e2, e3, _⟩ := insertKey_ok lk.toLawfulKey i () m hc
    have he : elems t' = elems t ++ [k] := by unfold elems; rw [e3]; simp
    refine ⟨t', by rw [h1]; exact e1, e2, ?_, ?_⟩
    · rw [count_eq e2, count_eq i, he]; simp
    · intro x
      unfold Mem
      rw [he]
      simp only [List.mem_append, List.mem_singleton]
      constructor
      · rintro ⟨y, hy | rfl, q⟩
        · exact Or.inl ⟨y, hy, q⟩
        · exact Or.inr q
      · rintro (⟨y, hy, q⟩ | q)
        · exact ⟨y, Or.inl hy, q⟩
        · exact ⟨k, Or.inr rfl, q⟩

theorem insertIf_ok {ko : KeyOps K} (lk : LawfulElt ko) {p : K → Except Err Bool} {P : K → Prop} :
    ∀ {ks : List K} {t : SetT K}, (∀ k ∈ ks, ∃ b, p k = .ok b ∧ (b = true ↔ P k)) → Inv ko t →
      t.count + ks.length ≤ 2 ^ 28 →
      ∃ t', insertIf ko p t ks = .ok t' ∧ Inv ko t' ∧ t'.count ≤ t.count + ks.length ∧
        ∀ x, Mem ko t' x ↔ Mem ko t x ∨ ∃ k ∈ ks, P k ∧ ko.eq x k = true
  | [], t, _, i, _ => ⟨t, rfl, i, by simp, by simp⟩
  | k :: ks, t, hp, i, hc => by
    obtain ⟨b, hb, hb'⟩ := hp k (by simp)
    simp only [List.length_cons] at hc
    obtain ⟨t1, e1, i1, c1, m1⟩ : ∃ t1, (if b then addElt ko t k else .ok t) = .ok t1 ∧ Inv ko t1 ∧
        t1.count ≤ t.count + 1 ∧ ∀ x, Mem ko t1 x ↔ Mem ko t x ∨ (P k ∧ ko.eq x k = true) := by
      cases b with
      | true =>
        obtain ⟨t1, a, a2, a3, a4⟩ := addElt_ok lk i k (by omega)
        refine ⟨t1, a, a2, a3, fun x => ?_⟩
        rw [a4]; simp [hb'.1 rfl]
      | false =>
        refine ⟨t, rfl, i, by omega, fun x => ?_⟩
        have : ¬P k := fun h => by have := hb'.2 h; cases this
        simp [this]
    obtain ⟨t2, e2, i2, c2, m2⟩ := insertIf_ok lk (ks := ks) (t := t1) (fun k hk => hp k (by simp [hk])) i1 (by omega)
    refine ⟨t2, ?_, i2, by simp; omega, ?_⟩
    · simp only [insertIf, hb, Except.bind, e1, e2]
    · intro x
      rw [m2, m1]
      simp [or_assoc]

theorem mem_of_elem {ko : KeyOps K} (lk : LawfulElt ko) {t : SetT K} {k : K} (h : k ∈ elems t) : Mem ko t k :=
  ⟨k, h, lk.refl k⟩

theorem not_mem_empty {ko : KeyOps K} (x : K) : ¬Mem ko ({} : SetT K) x := by
  rintro ⟨y, hy, _⟩; cases hy

theorem copy_ok {ko : KeyOps K} (lk : LawfulElt ko) {t : SetT K} {ks : List K} (i : Inv ko t)
    (hc : t.count + ks.length ≤ 2 ^ 28) :
    ∃ t', copyElements ko t ks = .ok t' ∧ Inv ko t' ∧ t'.count ≤ t.count + ks.length ∧
      ∀ x, Mem ko t' x ↔ Mem ko t x ∨ ∃ k ∈ ks, ko.eq x k = true := by
  obtain ⟨t', a, b, c, d⟩ := insertIf_ok lk (p := fun _ => .ok true) (P := fun _ => True) (ks := ks)
    (fun k _ => ⟨true, rfl, by simp⟩) i hc
  exact ⟨t', a, b, c, fun x => by rw [d]; simp⟩

theorem hasNot_ok {ko : KeyOps K} (lk : LawfulElt ko) {t : SetT K} (i : Inv ko t) (k : K) :
    ∃ b, hasNot ko t k = .ok b ∧ (b = true ↔ ¬Mem ko t k) := by
  obtain ⟨b, h, h'⟩ := has_ok lk i k
  refine ⟨!b, by unfold hasNot; rw [h]; rfl, ?_⟩
  rw [← h']; cases b <;> simp

theorem discard_ok {ko : KeyOps K} (lk : LawfulElt ko) {t : SetT K} (i : Inv ko t) (k : K) (hc : t.count ≤ 2 ^ 28) :
    ∃ t' b, discard ko t k = .ok (t', b) ∧ Inv ko t' ∧ t'.count ≤ t.count ∧ (b = true ↔ Mem ko t k) ∧
      elems t' = (elems t).filter (fun y => !ko.eq k y) ∧
      ∀ x, Mem ko t' x ↔ Mem ko t x ∧ ¬ko.eq x k = true := by
  obtain ⟨t', b, e1, e2, e3, e4, _⟩ := deleteKey_ok lk.toLawfulKey i k hc
  have he : elems t' = (elems t).filter (fun y => !ko.eq k y) := by
    unfold elems; rw [e3]; unfold Spec.erase
    rw [List.filter_map]; rfl
  refine ⟨t', b, e1, e2, ?_, by rw [e4]; exact mem_lookup, he, ?_⟩
  · rw [count_eq e2, count_eq i, he]; exact List.length_filter_le _ _
  · intro x
    unfold Mem
    rw [he]
    simp only [List.mem_filter]
    constructor
    · rintro ⟨y, ⟨hy, q⟩, r⟩
      refine ⟨⟨y, hy, r⟩, fun h => ?_⟩
      rw [lk.trans _ _ _ (lk.symm _ _ h) r] at q; cases q
    · rintro ⟨⟨y, hy, r⟩, q⟩
      refine ⟨y, ⟨hy, ?_⟩, r⟩
      cases c : ko.eq k y with
      | false => rfl
      | true => exact absurd (lk.trans _ _ _ r (lk.symm _ _ c)) q

theorem discardAll_ok {ko : KeyOps K} (lk : LawfulElt ko) : ∀ {ks : List K} {t : SetT K}, Inv ko t →
    t.count ≤ 2 ^ 28 →
    ∃ t', discardAll ko t ks = .ok t' ∧ Inv ko t' ∧ t'.count ≤ t.count ∧
      ∀ x, Mem ko t' x ↔ Mem ko t x ∧ ¬∃ k ∈ ks, ko.eq x k = true
  | [], t, i, _ => ⟨t, rfl, i, Nat.le_refl _, by simp⟩
  | k :: ks, t, i, hc => by
    obtain ⟨t1, b, e1, i1, c1, _, _, m1⟩ := discard_ok lk i k hc
    obtain ⟨t2, e2, i2, c2, m2⟩ := discardAll_ok lk (ks := ks) i1 (by omega)
    refine ⟨t2, by simp only [discardAll, e1, Except.bind, e2], i2, by omega, ?_⟩
    intro x
    rw [m2, m1]
    simp [and_assoc]

theorem inter_ok {ko : KeyOps K} (lk : LawfulElt ko) {t : SetT K} (i : Inv ko t) {ks : List K} (hc : ks.length ≤ 2 ^ 28) :
    ∃ t', intersection ko t ks = .ok t' ∧ Inv ko t' ∧ t'.count ≤ ks.length ∧
      ∀ x, Mem ko t' x ↔ Mem ko t x ∧ ∃ k ∈ ks, ko.eq x k = true := by
  obtain ⟨t', a, b, c, d⟩ := insertIf_ok lk (p := has ko t) (P := Mem ko t) (ks := ks) (t := {})
    (fun k _ => has_ok lk i k) (inv_empty ko) (by simpa using hc)
  refine ⟨t', a, b, by simpa using c, ?_⟩
  intro x
  rw [d]
  constructor
  · rintro (h | ⟨k, hk, h, q⟩)
    · exact absurd h (not_mem_empty x)
    · exact ⟨h.congr lk q, k, hk, q⟩
  · rintro ⟨h, k, hk, q⟩
    exact Or.inr ⟨k, hk, h.congr lk (lk.symm _ _ q), q⟩

theorem diffSet_ok {ko : KeyOps K} (lk : LawfulElt ko) {t : SetT K} {o : SetT K} (io : Inv ko o) {ks : List K}
    (i : Inv ko t) (hc : t.count + ks.length ≤ 2 ^ 28) :
    ∃ t', insertIf ko (hasNot ko o) t ks = .ok t' ∧ Inv ko t' ∧ t'.count ≤ t.count + ks.length ∧
      ∀ x, Mem ko t' x ↔ Mem ko t x ∨ ((∃ k ∈ ks, ko.eq x k = true) ∧ ¬Mem ko o x) := by
  obtain ⟨t', a, b, c, d⟩ := insertIf_ok lk (p := hasNot ko o) (P := fun k => ¬Mem ko o k) (ks := ks) (t := t)
    (fun k _ => hasNot_ok lk io k) i hc
  refine ⟨t', a, b, c, ?_⟩
  intro x
  rw [d]
  constructor
  · rintro (h | ⟨k, hk, h, q⟩)
    · exact Or.inl h
    · exact Or.inr ⟨⟨k, hk, q⟩, fun m => h (m.congr lk (lk.symm _ _ q))⟩
  · rintro (h | ⟨⟨k, hk, q⟩, h⟩)
    · exact Or.inl h
    · exact Or.inr ⟨k, hk, fun m => h (m.congr lk q), q⟩

theorem symDiffUpdate_ok {ko : KeyOps K} (lk : LawfulElt ko) {t : SetT K} (i : Inv ko t) {ks : List K}
    (hc : t.count + ks.length ≤ 2 ^ 28) :
    ∃ t', symDiffUpdate ko t ks = .ok t' ∧ Inv ko t' ∧
      ∀ x, Mem ko t' x ↔ (Mem ko t x ∧ ¬∃ k ∈ ks, ko.eq x k = true) ∨ (¬Mem ko t x ∧ ∃ k ∈ ks, ko.eq x k = true) := by
  obtain ⟨r, r1, r2, r3, r4⟩ := inter_ok lk i (ks := ks) (by omega)
  obtain ⟨a, a1, a2, a3, a4⟩ := diffSet_ok lk i (t := {}) (ks := ks) (inv_empty ko)
    (by show 0 + _ ≤ _; omega)
  have a3 : a.count ≤ ks.length := by have : ({} : SetT K).count = 0 := rfl; omega
  obtain ⟨t1, e1, i1, c1, m1⟩ := discardAll_ok lk (ks := elems r) i (by omega)
  obtain ⟨t2, e2, i2, c2, m2⟩ := copy_ok lk (ks := elems a) i1 (by have := count_eq a2; omega)
  refine ⟨t2, ?_, i2, ?_⟩
  · have r1' : insertIf ko (has ko t) {} ks = .ok r := r1
    simp only [symDiffUpdate, r1', a1, Except.bind, e1, e2]
  · intro x
    rw [m2, m1]
    show (_ ∧ ¬Mem ko r x) ∨ Mem ko a x ↔ _
    rw [r4, a4]
    have := not_mem_empty (ko := ko) x
    by_cases h1 : Mem ko t x <;> by_cases h2 : ∃ k ∈ ks, ko.eq x k = true <;> simp [h1, h2, this]

theorem superset_ok {ko : KeyOps K} (lk : LawfulElt ko) {t : SetT K} (i : Inv ko t) : ∀ (ks : List K),
    ∃ b, isSuperset ko t ks = .ok b ∧ (b = true ↔ ∀ x, (∃ k ∈ ks, ko.eq x k = true) → Mem ko t x)
  | [] => ⟨true, rfl, by simp⟩
  | k :: ks => by
    obtain ⟨b, hb, hb'⟩ := has_ok lk i k
    cases b with
    | false =>
      refine ⟨false, by simp [isSuperset, hb, Except.bind], by simp, ?_⟩
      intro h
      exact hb'.2 (h k ⟨k, by simp, lk.refl k⟩)
    | true =>
      obtain ⟨c, hc, hc'⟩ := superset_ok lk i ks
      refine ⟨c, by simp [isSuperset, hb, Except.bind, hc], ?_⟩
      rw [hc']
      constructor
      · rintro h x ⟨y, hy, q⟩
        rcases List.mem_cons.1 hy with rfl | hy
        · exact (hb'.1 rfl).congr lk q
        · exact h x ⟨y, hy, q⟩
      · rintro h x ⟨y, hy, q⟩
        exact h x ⟨y, by simp [hy], q⟩

theorem disjoint_ok {ko : KeyOps K} (lk : LawfulElt ko) {t : SetT K} (i : Inv ko t) : ∀ (ks : List K),
    ∃ b, isDisjoint ko t ks = .ok b ∧ (b = true ↔ ∀ x, ¬(Mem ko t x ∧ ∃ k ∈ ks, ko.eq x k = true))
  | [] => ⟨true, rfl, by simp⟩
  | k :: ks => by
    obtain ⟨b, hb, hb'⟩ := has_ok lk i k
    cases b with
    | true =>
      refine ⟨false, by simp [isDisjoint, hb, Except.bind], by simp, ?_⟩
      intro h
      exact absurd ⟨hb'.1 rfl, k, by simp, lk.refl k⟩ (h k)
    | false =>
      obtain ⟨c, hc, hc'⟩ := disjoint_ok lk i ks
      refine ⟨c, by simp [isDisjoint, hb, Except.bind, hc], ?_⟩
      rw [hc']
      constructor
      · rintro h x ⟨m, y, hy, q⟩
        rcases List.mem_cons.1 hy with rfl | hy
        · exact absurd (hb'.2 (m.congr lk (lk.symm _ _ q))) (by decide)
        · exact h x ⟨m, y, hy, q⟩
      · rintro h x ⟨m, y, hy, q⟩
        exact h x ⟨m, y, by simp [hy], q⟩

theorem diff_elems {ko : KeyOps K} {t : SetT K} (i : Inv ko t) : Diff ko.eq (elems t) := i.diff

/-- A subset is not larger, and a subset of the same size is everything. -/
theorem count_le {ko : KeyOps K} (lk : LawfulElt ko) {t u : SetT K} (i : Inv ko t) (j : Inv ko u)
    (h : ∀ x, Mem ko t x → Mem ko u x) : t.count ≤ u.count ∧ (t.count = u.count → ∀ x, Mem ko u x → Mem ko t x) := by
  obtain ⟨a, b⟩ := incl_length lk.symm lk.trans _ _ (diff_elems i) (diff_elems j)
    (fun a ha => h a (mem_of_elem lk ha))
  rw [← count_eq i, ← count_eq j] at a b
  refine ⟨a, fun e x hx => ?_⟩
  obtain ⟨y, hy, q⟩ := hx
  exact Mem.congr lk (b e y hy) q

theorem subsetLoop_ok {ko : KeyOps K} (lk : LawfulElt ko) {t : SetT K} (i : Inv ko t) (hc : t.count ≤ 2 ^ 28) :
    ∀ (ks : List K) (s : SetT K), Inv ko s → (∀ x, Mem ko s x → Mem ko t x) → s.count ≠ t.count →
      ∃ b, subsetLoop ko t s ks = .ok b ∧
        (b = true ↔ ∀ x, Mem ko t x → Mem ko s x ∨ ∃ k ∈ ks, ko.eq x k = true)
  | [], s, j, sub, ne => by
    refine ⟨false, rfl, by simp, ?_⟩
    intro h
    have a := (count_le lk j i sub).1
    have b := (count_le lk i j (fun x hx => by have := h x hx; simpa using this)).1
    omega
  | k :: ks, s, j, sub, ne => by
    obtain ⟨b, hb, hb'⟩ := has_ok lk i k
    cases b with
    | false =>
      obtain ⟨c, hc1, hc2⟩ := subsetLoop_ok lk i hc ks s j sub ne
      refine ⟨c, by simp [subsetLoop, hb, Except.bind, hc1], ?_⟩
      rw [hc2]
      constructor
      · intro h x hx
        rcases h x hx with h | ⟨y, hy, q⟩
        · exact Or.inl h
        · exact Or.inr ⟨y, by simp [hy], q⟩
      · intro h x hx
        rcases h x hx with h | ⟨y, hy, q⟩
        · exact Or.inl h
        · rcases List.mem_cons.1 hy with rfl | hy
          · exact absurd (hb'.2 (hx.congr lk (lk.symm _ _ q))) (by decide)
          · exact Or.inr ⟨y, hy, q⟩
    | true =>
      have sc := (count_le lk j i sub).1
      obtain ⟨s', e1, j', _, m⟩ := addElt_ok lk j k (by omega)
      have sub' : ∀ x, Mem ko s' x → Mem ko t x := by
        intro x hx
        rcases (m x).1 hx with h | q
        · exact sub x h
        · exact (hb'.1 rfl).congr lk q
      by_cases c : s'.count = t.count
      · refine ⟨true, by simp [subsetLoop, hb, Except.bind, e1, c], fun _ => ?_, fun _ => rfl⟩
        intro x hx
        rcases (m x).1 ((count_le lk j' i sub').2 c x hx) with h | q
        · exact Or.inl h
        · exact Or.inr ⟨k, by simp, q⟩
      · obtain ⟨b, hb1, hb2⟩ := subsetLoop_ok lk i hc ks s' j' sub' c
        refine ⟨b, by simp [subsetLoop, hb, Except.bind, e1, c, hb1], ?_⟩
        rw [hb2]
        simp [m, or_assoc]

theorem subset_ok {ko : KeyOps K} (lk : LawfulElt ko) {t : SetT K} (i : Inv ko t) (hc : t.count ≤ 2 ^ 28) (ks : List K) :
    ∃ b, isSubset ko t ks = .ok b ∧ (b = true ↔ ∀ x, Mem ko t x → ∃ k ∈ ks, ko.eq x k = true) := by
  unfold isSubset
  by_cases c : t.count = 0
  · rw [if_pos c]
    refine ⟨true, rfl, fun _ => ?_, fun _ => rfl⟩
    rintro x ⟨y, hy, _⟩
    have := count_eq i
    rw [c] at this
    rw [List.length_eq_zero_iff.1 this.symm] at hy
    cases hy
  · rw [if_neg c]
    obtain ⟨b, h1, h2⟩ := subsetLoop_ok lk i hc ks {} (inv_empty ko) (fun x h => absurd h (not_mem_empty x))
      (by show 0 ≠ _; omega)
    refine ⟨b, h1, ?_⟩
    rw [h2]
    have := not_mem_empty (ko := ko)
    simp [this]

theorem subsetTest_ok {ko : KeyOps K} (lk : LawfulElt ko) {l r : SetT K} (j : Inv ko r) :
    ∃ b, subsetTest ko l r = .ok b ∧ (b = true ↔ ∀ x, Mem ko l x → Mem ko r x) := superset_ok lk j _

theorem cmpSets_ok {ko : KeyOps K} (lk : LawfulElt ko) {l r : SetT K} (i : Inv ko l) (j : Inv ko r) (same : Bool)
    (hs : same = true → l = r) (c : Rel) :
    ∃ b, cmpSets ko same c l r = .ok b ∧ (b = true ↔ rel (Mem ko l) (Mem ko r) c) := by
  cases same with
  | true =>
    cases hs rfl
    cases c <;> exact ⟨_, rfl, by simp [rel]⟩
  | false =>
    obtain ⟨b1, s1, q1⟩ := subsetTest_ok lk (l := l) j
    obtain ⟨b2, s2, q2⟩ := subsetTest_ok lk (l := r) i
    have w1 : (∀ x, Mem ko l x → Mem ko r x) → l.count ≤ r.count ∧ _ := count_le lk i j
    have w2 : (∀ x, Mem ko r x → Mem ko l x) → r.count ≤ l.count ∧ _ := count_le lk j i
    have both : (∀ x, Mem ko l x ↔ Mem ko r x) ↔ (∀ x, Mem ko l x → Mem ko r x) ∧ (∀ x, Mem ko r x → Mem ko l x) :=
      ⟨fun h => ⟨fun x => (h x).1, fun x => (h x).2⟩, fun h x => ⟨h.1 x, h.2 x⟩⟩
    generalize hp : (∀ x, Mem ko l x → Mem ko r x) = P at *
    generalize hq : (∀ x, Mem ko r x → Mem ko l x) = Q at *
    have eqv : l.count = r.count → (P ↔ Q) := fun e => ⟨fun p => (w1 p).2 e, fun q => (w2 q).2 e.symm⟩
    have r1 : P → l.count ≤ r.count := fun p => (w1 p).1
    have r2 : Q → r.count ≤ l.count := fun p => (w2 p).1
    have f1 : P → r.count ≤ l.count → Q := fun p h => (w1 p).2 (Nat.le_antisymm (r1 p) h)
    have f2 : Q → l.count ≤ r.count → P := fun q h => (w2 q).2 (Nat.le_antisymm (r2 q) h)
    have done : ∀ (d : Prop) [Decidable d] (o : Bool) (b : Bool) (R : Prop),
        (d → (o = true ↔ R)) → (¬d → (b = true ↔ R)) →
        ∃ z, (if d then (.ok o : Except Err Bool) else .ok b) = .ok z ∧ (z = true ↔ R) := by
      intro d _ o b R h1 h2
      by_cases hd : d
      · exact ⟨o, if_pos hd, h1 hd⟩
      · exact ⟨b, if_neg hd, h2 hd⟩
    unfold cmpSets rel
    rw [if_neg (by decide)]
    cases c with
    | eq =>
      simp only [s1, both]
      exact done _ _ _ _ (fun h => ⟨by simp, fun ⟨p, q⟩ => absurd (Nat.le_antisymm (r1 p) (r2 q)) h⟩)
        (fun h => by rw [q1]; exact ⟨fun p => ⟨p, (eqv (by omega)).1 p⟩, fun p => p.1⟩)
    | ne =>
      simp only [s1, both]
      exact done _ true (!b1) _ (fun h => ⟨fun _ ⟨p, q⟩ => h (Nat.le_antisymm (r1 p) (r2 q)), fun _ => rfl⟩)
        (fun h => by
          have : (!b1) = true ↔ ¬b1 = true := by cases b1 <;> simp
          rw [this, q1]
          exact ⟨fun p z => p z.1, fun p z => p ⟨z, (eqv (by omega)).1 z⟩⟩)
    | le =>
      simp only [s1, hp]
      exact done _ _ _ _ (fun h => ⟨by simp, fun p => absurd (r1 p) (by omega)⟩) (fun _ => q1)
    | lt =>
      simp only [s1, hp, hq]
      exact done _ _ _ _ (fun h => ⟨by simp, fun p => absurd (f1 p.1 h) p.2⟩)
        (fun h => by rw [q1]; exact ⟨fun p => ⟨p, fun q => h (r2 q)⟩, fun p => p.1⟩)
    | ge =>
      simp only [s2, hq]
      exact done _ _ _ _ (fun h => ⟨by simp, fun p => absurd (r2 p) (by omega)⟩) (fun _ => q2)
    | gt =>
      simp only [s2, hp, hq]
      exact done _ _ _ _ (fun h => ⟨by simp, fun p => absurd (f2 p.1 h) p.2⟩)
        (fun h => by rw [q2]; exact ⟨fun p => ⟨p, fun q => h (r1 q)⟩, fun p => p.1⟩)

/-! ### Programs -/

/-- How many elements a call handles. -/
def cost (h : Heap K) : SOp K → Nat
  | .make _ l => l.length
  | .union _ i args | .update i args | .inter _ i args | .interUpdate i args | .diff _ i args | .diffUpdate i args =>
    (elems (h i)).length + (args.map fun a => (a.items h).length).sum
  | .symDiff _ i a | .symDiffUpdate i a | .issubset i a | .issuperset i a | .isdisjoint i a =>
    (elems (h i)).length + (a.items h).length
  | .add i _ | .discard i _ | .remove i _ | .pop i | .clear i | .contains i _ | .len i | .items i | .copy _ i
  | .cmp _ i _ => (elems (h i)).length

/-- The calls whose claim is false of the code are left out: `intersection_update` with another `Set(T)`
(`intersection_update_wrong`), and `s.isdisjoint(s)` with `s` empty (`isdisjoint_wrong`). -/
def Sound (h : Heap K) : SOp K → Bool
  | .interUpdate i args => args.all fun a => match a with | .set j => decide (j = i) | .iter _ => true
  | .isdisjoint i (.set j) => decide (j = i → (elems (h i)) ≠ [])
  | _ => true

/-- All calls of a program are of those kinds and handle at most 2^28 elements. -/
def Fine (ko : KeyOps K) (h : Heap K) : List (SOp K) → Bool
  | [] => true
  | op :: ops => Sound h op && decide (cost h op ≤ 2 ^ 28) &&
    match stepS ko h op with
    | .ok (h', _) => Fine ko h' ops
    | .error _ => true

theorem inArg_items {ko : KeyOps K} {h : Heap K} {x : K} {a : Arg K} :
    inArg ko (store ko h) x a ↔ ∃ k ∈ a.items h, ko.eq x k = true := by
  cases a <;> rfl

theorem becomes_put {ko : KeyOps K} {h : Heap K} {d : Nat} {t : SetT K} {P : K → Prop} (e : ∀ x, Mem ko t x ↔ P x) :
    Becomes (store ko h) (store ko fun j => if j = d then t else h j) d P := by
  intro j x
  unfold store
  by_cases c : j = d
  · simp only [if_pos c]; exact e x
  · simp only [if_neg c]

/-- A call that stores a set. -/
theorem put_ok {ko : KeyOps K} {h : Heap K} (hi : ∀ i, Inv ko (h i)) {d : Nat} {r : Except Err (SetT K)} {P : K → Prop}
    (e : ∃ t, r = .ok t ∧ Inv ko t ∧ ∀ x, Mem ko t x ↔ P x) :
    ∃ h', put h d r = .ok (h', .ok .unit) ∧ (∀ i, Inv ko (h' i)) ∧ Becomes (store ko h) (store ko h') d P := by
  obtain ⟨t, rfl, i, m⟩ := e
  refine ⟨_, rfl, ?_, becomes_put m⟩
  intro j
  show Inv ko (if j = d then t else h j)
  split
  · exact i
  · exact hi j

theorem ans_ok {ko : KeyOps K} {h : Heap K} {r : Except Err Bool} {P : Prop}
    (e : ∃ b, r = .ok b ∧ (b = true ↔ P)) :
    ∃ r', ans h r = .ok (h, r') ∧ Says (store ko h) (store ko h) r' P := by
  obtain ⟨b, rfl, q⟩ := e
  exact ⟨.ok (.bool b), rfl, fun _ _ => Iff.rfl, b, rfl, q⟩

theorem unionAll_ok {ko : KeyOps K} (lk : LawfulElt ko) (h : Heap K) : ∀ (args : List (Arg K)) (t : SetT K), Inv ko t →
    t.count + (args.map fun a => (a.items h).length).sum ≤ 2 ^ 28 →
    ∃ t', unionAll ko h t args = .ok t' ∧ Inv ko t' ∧
      ∀ x, Mem ko t' x ↔ Mem ko t x ∨ ∃ a ∈ args, inArg ko (store ko h) x a
  | [], t, i, _ => ⟨t, rfl, i, by simp⟩
  | a :: as, t, i, hc => by
    simp only [List.map_cons, List.sum_cons] at hc
    obtain ⟨t1, e1, i1, c1, m1⟩ := copy_ok lk (ks := a.items h) i (by omega)
    obtain ⟨t2, e2, i2, m2⟩ := unionAll_ok lk h as t1 i1 (by omega)
    refine ⟨t2, by simp only [unionAll, e1, Except.bind, e2], i2, ?_⟩
    intro x
    rw [m2, m1, ← inArg_items]
    simp [or_assoc]

theorem interAll_ok {ko : KeyOps K} (lk : LawfulElt ko) (h : Heap K) : ∀ (args : List (Arg K)) (t : SetT K), Inv ko t →
    (args.map fun a => (a.items h).length).sum ≤ 2 ^ 28 →
    ∃ t', interAll ko h t args = .ok t' ∧ Inv ko t' ∧
      ∀ x, Mem ko t' x ↔ Mem ko t x ∧ ∀ a ∈ args, inArg ko (store ko h) x a
  | [], t, i, _ => ⟨t, rfl, i, by simp⟩
  | a :: as, t, i, hc => by
    simp only [List.map_cons, List.sum_cons] at hc
    obtain ⟨t1, e1, i1, c1, m1⟩ := inter_ok lk (ks := a.items h) i (by omega)
    obtain ⟨t2, e2, i2, m2⟩ := interAll_ok lk h as t1 i1 (by omega)
    refine ⟨t2, by simp only [interAll, e1, Except.bind, e2], i2, ?_⟩
    intro x
    rw [m2, m1, ← inArg_items]
    simp [and_assoc]

theorem diffAll_ok {ko : KeyOps K} (lk : LawfulElt ko) (h : Heap K) : ∀ (args : List (Arg K)) (t : SetT K), Inv ko t →
    t.count ≤ 2 ^ 28 →
    ∃ t', diffAll ko h t args = .ok t' ∧ Inv ko t' ∧
      ∀ x, Mem ko t' x ↔ Mem ko t x ∧ ∀ a ∈ args, ¬inArg ko (store ko h) x a
  | [], t, i, _ => ⟨t, rfl, i, by simp⟩
  | a :: as, t, i, hc => by
    obtain ⟨t1, e1, i1, c1, m1⟩ := discardAll_ok lk (ks := a.items h) i hc
    obtain ⟨t2, e2, i2, m2⟩ := diffAll_ok lk h as t1 i1 (by omega)
    refine ⟨t2, by simp only [diffAll, e1, Except.bind, e2], i2, ?_⟩
    intro x
    rw [m2, m1, ← inArg_items]
    simp [and_assoc]

theorem not_mem_clear {ko : KeyOps K} {t : SetT K} (i : Inv ko t) (x : K) : ¬Mem ko (clear t) x := by
  rintro ⟨y, hy, _⟩
  unfold elems at hy
  rw [(clear_ok i).2] at hy
  cases hy

theorem count_clear {ko : KeyOps K} {t : SetT K} (i : Inv ko t) : (clear t).count = 0 := by
  rw [count_eq (clear_ok i).1]; unfold elems; rw [(clear_ok i).2]; rfl

theorem diffUpdateAll_ok {ko : KeyOps K} (lk : LawfulElt ko) (h : Heap K) (d : Nat) :
    ∀ (args : List (Arg K)) (t : SetT K), Inv ko t → t.count ≤ 2 ^ 28 → (∀ x, Mem ko t x → Mem ko (h d) x) →
    ∃ t', diffUpdateAll ko h d t args = .ok t' ∧ Inv ko t' ∧
      ∀ x, Mem ko t' x ↔ Mem ko t x ∧ ∀ a ∈ args, ¬inArg ko (store ko h) x a
  | [], t, i, _, _ => ⟨t, rfl, i, by simp⟩
  | a :: as, t, i, hc, sub => by
    obtain ⟨t1, e1, i1, c1, m1⟩ : ∃ t1, (match a with
          | .set j => if j = d then (.ok (clear t) : Except Err (SetT K)) else discardAll ko t (elems (h j))
          | .iter l => discardAll ko t l) = .ok t1 ∧ Inv ko t1 ∧ t1.count ≤ t.count ∧
          ∀ x, Mem ko t1 x ↔ Mem ko t x ∧ ¬inArg ko (store ko h) x a := by
      cases a with
      | iter l => exact discardAll_ok lk (ks := l) i hc
      | set j =>
        by_cases c : j = d
        · subst c
          refine ⟨clear t, by simp, (clear_ok i).1, by rw [count_clear i]; omega, ?_⟩
          intro x
          have := not_mem_clear i x
          simp only [this, false_iff]
          rintro ⟨m, n⟩
          exact n (sub x m)
        · simp only [if_neg c]
          exact discardAll_ok lk (ks := elems (h j)) i hc
    obtain ⟨t2, e2, i2, m2⟩ := diffUpdateAll_ok lk h d as t1 i1 (by omega) (fun x m => sub x ((m1 x).1 m).1)
    refine ⟨t2, ?_, i2, ?_⟩
    · cases a <;> simp only [diffUpdateAll] <;> simp only [] at e1 <;> rw [e1] <;> exact e2
    · intro x
      rw [m2, m1]
      simp [and_assoc]

theorem interSlow_ok {ko : KeyOps K} (lk : LawfulElt ko) {t : SetT K} (i : Inv ko t) {ks : List K}
    (hc : t.count ≤ 2 ^ 28) (hk : ks.length ≤ 2 ^ 28) :
    ∃ t', intersectionUpdateSlow ko t ks = .ok t' ∧ Inv ko t' ∧ t'.count ≤ ks.length ∧
      ∀ x, Mem ko t' x ↔ Mem ko t x ∧ ∃ k ∈ ks, ko.eq x k = true := by
  obtain ⟨c, e1, i1, _, m1⟩ := copy_ok lk (t := {}) (ks := elems t) (inv_empty ko)
    (by rw [← count_eq i]; show 0 + _ ≤ _; omega)
  have m1' : ∀ x, Mem ko c x ↔ Mem ko t x := by
    intro x
    rw [m1]
    have := not_mem_empty (ko := ko) x
    simp only [this, false_or]
    rfl
  obtain ⟨t', e2, i2, c2, m2⟩ := insertIf_ok lk (p := has ko c) (P := Mem ko c) (ks := ks) (t := clear t)
    (fun k _ => has_ok lk i1 k) (clear_ok i).1 (by rw [count_clear i]; omega)
  refine ⟨t', by simp only [intersectionUpdateSlow, e1, Except.bind, e2], i2, by rw [count_clear i] at c2; omega, ?_⟩
  intro x
  rw [m2]
  constructor
  · rintro (m | ⟨k, hk, m, q⟩)
    · exact absurd m (not_mem_clear i x)
    · exact ⟨Mem.congr lk ((m1' k).1 m) q, k, hk, q⟩
  · rintro ⟨m, k, hk, q⟩
    exact Or.inr ⟨k, hk, (m1' k).2 (m.congr lk (lk.symm _ _ q)), q⟩

theorem interUpdateAll_ok {ko : KeyOps K} (lk : LawfulElt ko) (h : Heap K) (d : Nat) :
    ∀ (args : List (Arg K)) (t : SetT K), Inv ko t → t.count ≤ 2 ^ 28 →
    (args.all fun a => match a with | .set j => decide (j = d) | .iter _ => true) = true →
    (args.map fun a => (a.items h).length).sum ≤ 2 ^ 28 → (∀ x, Mem ko t x → Mem ko (h d) x) →
    ∃ t', interUpdateAll ko h d t args = .ok t' ∧ Inv ko t' ∧
      ∀ x, Mem ko t' x ↔ Mem ko t x ∧ ∀ a ∈ args, inArg ko (store ko h) x a
  | [], t, i, _, _, _, _ => ⟨t, rfl, i, by simp⟩
  | .set j :: as, t, i, hc, g, hk, sub => by
    simp only [List.all_cons, Bool.and_eq_true, decide_eq_true_eq, List.map_cons, List.sum_cons] at g hk
    obtain ⟨t2, e2, i2, m2⟩ := interUpdateAll_ok lk h d as t i hc g.2 (by omega) sub
    refine ⟨t2, by simp only [interUpdateAll, g.1, Except.bind, if_true, e2], i2, ?_⟩
    intro x
    rw [m2]
    constructor
    · rintro ⟨m, q⟩
      refine ⟨m, ?_⟩
      intro a ha
      rcases List.mem_cons.1 ha with rfl | ha
      · show Mem ko (h j) x
        rw [g.1]; exact sub x m
      · exact q a ha
    · rintro ⟨m, q⟩
      exact ⟨m, fun a ha => q a (by simp [ha])⟩
  | .iter l :: as, t, i, hc, g, hk, sub => by
    simp only [List.all_cons, Bool.and_eq_true, List.map_cons, List.sum_cons] at g hk
    have hl : ((Arg.iter l).items h).length = l.length := rfl
    rw [hl] at hk
    obtain ⟨t1, e1, i1, c1, m1⟩ := interSlow_ok lk i (ks := l) hc (by omega)
    obtain ⟨t2, e2, i2, m2⟩ := interUpdateAll_ok lk h d as t1 i1 (by omega) g.2 (by omega)
      (fun x m => sub x ((m1 x).1 m).1)
    refine ⟨t2, by simp only [interUpdateAll, e1, Except.bind, e2], i2, ?_⟩
    intro x
    rw [m2, m1]
    simp only [List.mem_cons, forall_eq_or_imp, and_assoc]
    rfl

theorem stepS_ok {ko : KeyOps K} (lk : LawfulElt ko) {h : Heap K} (hi : ∀ i, Inv ko (h i)) (op : SOp K)
    (hs : Sound h op = true) (hc : cost h op ≤ 2 ^ 28) :
    ∃ h' r, stepS ko h op = .ok (h', r) ∧ (∀ i, Inv ko (h' i)) ∧ post ko (store ko h) op r (store ko h') := by
  have fresh_copy : ∀ i, (h i).count ≤ 2 ^ 28 → ∃ t, copyElements ko {} (elems (h i)) = .ok t ∧ Inv ko t ∧
      t.count ≤ (h i).count ∧ ∀ x, Mem ko t x ↔ Mem ko (h i) x := by
    intro i hh
    obtain ⟨c, e1, i1, c1, m1⟩ := copy_ok lk (t := {}) (ks := elems (h i)) (inv_empty ko)
      (by rw [← count_eq (hi i)]; show 0 + _ ≤ _; omega)
    rw [← count_eq (hi i)] at c1
    refine ⟨c, e1, i1, by have : ({} : SetT K).count = 0 := rfl; omega, fun x => ?_⟩
    rw [m1]
    have := not_mem_empty (ko := ko) x
    simp only [this, false_or]
    rfl
  have put' : ∀ {d : Nat} {r : Except Err (SetT K)} {P : K → Prop}, (∃ t, r = .ok t ∧ Inv ko t ∧ ∀ x, Mem ko t x ↔ P x) →
      ∃ h' r', put h d r = .ok (h', r') ∧ (∀ i, Inv ko (h' i)) ∧
        (r' = .ok .unit ∧ Becomes (store ko h) (store ko h') d P) := by
    intro d r P e
    obtain ⟨h', a, b, c⟩ := put_ok hi (d := d) e
    exact ⟨h', _, a, b, rfl, c⟩
  have ans' : ∀ {r : Except Err Bool} {P : Prop}, (∃ b, r = .ok b ∧ (b = true ↔ P)) →
      ∃ h' r', ans h r = .ok (h', r') ∧ (∀ i, Inv ko (h' i)) ∧ Says (store ko h) (store ko h') r' P := by
    intro r P e
    obtain ⟨r', a, b⟩ := ans_ok (h := h) (ko := ko) e
    exact ⟨h, r', a, hi, b⟩
  cases op with
  | add i k =>
    simp only [cost, ← count_eq (hi i)] at hc
    obtain ⟨t, a, b, _, c⟩ := addElt_ok lk (hi i) k hc
    exact put' ⟨t, a, b, c⟩
  | discard i k =>
    simp only [cost, ← count_eq (hi i)] at hc
    obtain ⟨t, f, a, b, _, _, _, c⟩ := discard_ok lk (hi i) k hc
    exact put' ⟨t, by rw [a]; rfl, b, c⟩
  | remove i k =>
    simp only [cost, ← count_eq (hi i)] at hc
    obtain ⟨t, f, a, b, _, q, e, c⟩ := discard_ok lk (hi i) k hc
    refine ⟨_, _, by simp only [stepS, a]; rfl, ?_, ?_⟩
    · intro j
      show Inv ko (if j = i then t else h j)
      split
      · exact b
      · exact hi j
    · cases f with
      | true => exact Or.inl ⟨q.1 rfl, rfl, becomes_put c⟩
      | false =>
        have nm : ¬Mem ko (h i) k := fun m => by have := q.2 m; cases this
        refine Or.inr ⟨nm, rfl, ?_⟩
        intro j x
        show Mem ko (if j = i then t else h j) x ↔ _
        by_cases cj : j = i
        · rw [if_pos cj, c, cj]
          exact ⟨fun m => m.1, fun m => ⟨m, fun e => nm (m.congr lk (lk.symm _ _ e))⟩⟩
        · rw [if_neg cj]; exact Iff.rfl
  | pop i =>
    simp only [cost, ← count_eq (hi i)] at hc
    cases he : elems (h i) with
    | nil =>
      refine ⟨_, _, by simp only [stepS, pop, he]; rfl, ?_, Or.inr ⟨?_, rfl, ?_⟩⟩
      · intro j
        show Inv ko (if j = i then h i else h j)
        split
        · exact hi i
        · exact hi j
      · rintro x ⟨y, hy, _⟩
        rw [he] at hy; cases hy
      · intro j x
        show Mem ko (if j = i then h i else h j) x ↔ _
        by_cases cj : j = i
        · rw [if_pos cj, cj]; exact Iff.rfl
        · rw [if_neg cj]; exact Iff.rfl
    | cons k ks =>
      obtain ⟨t, f, a, b, _, q, e, c⟩ := discard_ok lk (hi i) k hc
      have mk : Mem ko (h i) k := mem_of_elem lk (by rw [he]; simp)
      have ft : f = true := q.2 mk
      subst ft
      refine ⟨_, _, by simp only [stepS, pop, he, a, Except.bind, if_true]; rfl, ?_, Or.inl ⟨k, mk, rfl, becomes_put c⟩⟩
      intro j
      show Inv ko (if j = i then t else h j)
      split
      · exact b
      · exact hi j
  | clear i =>
    exact put' ⟨_, rfl, (clear_ok (hi i)).1, fun x => iff_of_false (not_mem_clear (hi i) x) id⟩
  | contains i k => exact ans' (has_ok lk (hi i) k)
  | len i =>
    exact ⟨h, _, rfl, hi, fun _ _ => Iff.rfl, elems (h i), ⟨diff_elems (hi i), fun _ => Iff.rfl⟩, by rw [count_eq (hi i)]⟩
  | items i => exact ⟨h, _, rfl, hi, fun _ _ => Iff.rfl, elems (h i), ⟨diff_elems (hi i), fun _ => Iff.rfl⟩, rfl⟩
  | copy d i =>
    simp only [cost, ← count_eq (hi i)] at hc
    obtain ⟨t, a, b, _, c⟩ := fresh_copy i hc
    exact put' ⟨t, a, b, c⟩
  | make d l =>
    simp only [cost] at hc
    obtain ⟨t, a, b, _, c⟩ := copy_ok lk (t := {}) (ks := l) (inv_empty ko) (by show 0 + _ ≤ _; omega)
    have := not_mem_empty (ko := ko)
    exact put' ⟨t, a, b, fun x => by rw [c]; simp [this]⟩
  | union d i args =>
    simp only [cost, ← count_eq (hi i)] at hc
    obtain ⟨t, a, b, b', c⟩ := fresh_copy i (by omega)
    obtain ⟨t', a', b'', c'⟩ := unionAll_ok lk h args t b (by omega)
    exact put' ⟨t', by rw [a]; exact a', b'', fun x => by rw [c', c]; rfl⟩
  | update i args =>
    simp only [cost, ← count_eq (hi i)] at hc
    exact put' (unionAll_ok lk h args (h i) (hi i) hc)
  | inter d i args =>
    simp only [cost, ← count_eq (hi i)] at hc
    simp only [stepS]
    by_cases ca : args = []
    · rw [if_pos ca]
      obtain ⟨t, a, b, b', c⟩ := fresh_copy i (by omega)
      exact put' ⟨t, a, b, fun x => by rw [c]; subst ca; simp [store]⟩
    · rw [if_neg ca]
      exact put' (interAll_ok lk h args (h i) (hi i) (by omega))
  | interUpdate i args =>
    simp only [cost, ← count_eq (hi i)] at hc
    exact put' (interUpdateAll_ok lk h i args (h i) (hi i) (by omega) hs (by omega) (fun _ m => m))
  | diff d i args =>
    simp only [cost, ← count_eq (hi i)] at hc
    cases args with
    | nil =>
      obtain ⟨t, a, b, b', c⟩ := fresh_copy i (by omega)
      exact put' ⟨t, a, b, fun x => by rw [c]; simp [store]⟩
    | cons a as =>
      obtain ⟨t, e1, i1, c1, m1⟩ : ∃ t, difference ko h (h i) a = .ok t ∧ Inv ko t ∧ t.count ≤ 2 ^ 28 ∧
          ∀ x, Mem ko t x ↔ Mem ko (h i) x ∧ ¬inArg ko (store ko h) x a := by
        cases a with
        | set j =>
          obtain ⟨t, a1, a2, a3, a4⟩ := diffSet_ok lk (hi j) (t := {}) (ks := elems (h i)) (inv_empty ko)
            (by rw [← count_eq (hi i)]; show 0 + _ ≤ _; omega)
          rw [← count_eq (hi i)] at a3
          have := not_mem_empty (ko := ko)
          refine ⟨t, a1, a2, by have : ({} : SetT K).count = 0 := rfl; omega, fun x => ?_⟩
          rw [a4]
          simp only [this, false_or]
          rfl
        | iter l =>
          obtain ⟨t, a, b, b', c⟩ := fresh_copy i (by omega)
          obtain ⟨t', a', b'', b3, c'⟩ := discardAll_ok lk (ks := l) b (by omega)
          exact ⟨t', by simp only [difference, differenceIter, a, Except.bind, a'], b'', by omega,
            fun x => by rw [c', c]; rfl⟩
      obtain ⟨t', e2, i2, m2⟩ := diffAll_ok lk h as t i1 c1
      refine put' ⟨t', by rw [e1]; exact e2, i2, fun x => ?_⟩
      rw [m2, m1]
      simp [and_assoc, store]
  | diffUpdate i args =>
    simp only [cost, ← count_eq (hi i)] at hc
    exact put' (diffUpdateAll_ok lk h i args (h i) (hi i) (by omega) (fun _ m => m))
  | symDiff d i a =>
    simp only [cost, ← count_eq (hi i)] at hc
    cases a with
    | set j =>
      simp only [Arg.items] at hc
      obtain ⟨t, a1, a2, a3, a4⟩ := diffSet_ok lk (hi j) (t := {}) (ks := elems (h i)) (inv_empty ko)
        (by rw [← count_eq (hi i)]; show 0 + _ ≤ _; omega)
      rw [← count_eq (hi i)] at a3
      have z : ({} : SetT K).count = 0 := rfl
      obtain ⟨t', b1, b2, b3, b4⟩ := diffSet_ok lk (hi i) (t := t) (ks := elems (h j)) a2 (by omega)
      have := not_mem_empty (ko := ko)
      refine put' ⟨t', by simp only [symDiffSet, a1, Except.bind, b1], b2, fun x => ?_⟩
      rw [b4, a4]
      simp only [this, false_or]
      show (Mem ko (h i) x ∧ _) ∨ (Mem ko (h j) x ∧ _) ↔ (Mem ko (h i) x ∧ ¬Mem ko (h j) x) ∨ _ ∧ Mem ko (h j) x
      rw [and_comm (a := Mem ko (h j) x)]
      rfl
    | iter l =>
      simp only [Arg.items] at hc
      obtain ⟨t, a, b, b', c⟩ := fresh_copy i (by omega)
      obtain ⟨t', a', b'', c'⟩ := symDiffUpdate_ok lk b (ks := l) (by omega)
      exact put' ⟨t', by simp only [symDiffIter, a, Except.bind, a'], b'', fun x => by rw [c', c]; rfl⟩
  | symDiffUpdate i a =>
    simp only [cost, ← count_eq (hi i)] at hc
    simp only [stepS]
    by_cases ca : a.is i = true
    · rw [if_pos ca]
      refine put' ⟨_, rfl, (clear_ok (hi i)).1, fun x => iff_of_false (not_mem_clear (hi i) x) ?_⟩
      cases a with
      | iter l => cases ca
      | set j =>
        have : j = i := by simpa [Arg.is] using ca
        subst this
        show ¬((Mem ko (h j) x ∧ ¬Mem ko (h j) x) ∨ _ ∧ Mem ko (h j) x)
        rintro (q | q)
        · exact q.2 q.1
        · exact q.1 q.2
    · rw [if_neg ca]
      obtain ⟨t', a', b'', c'⟩ := symDiffUpdate_ok lk (hi i) (ks := a.items h) (by omega)
      exact put' ⟨t', a', b'', fun x => by rw [c', ← inArg_items]; rfl⟩
  | issubset i a =>
    simp only [cost, ← count_eq (hi i)] at hc
    simp only [stepS]
    by_cases ca : a.is i = true
    · rw [if_pos ca]
      refine ans' ⟨true, rfl, fun _ => ?_, fun _ => rfl⟩
      cases a with
      | iter l => cases ca
      | set j =>
        have : j = i := by simpa [Arg.is] using ca
        subst this
        exact fun x m => m
    · rw [if_neg ca]
      obtain ⟨b, e1, e2⟩ := subset_ok lk (hi i) (by omega) (a.items h)
      exact ans' ⟨b, e1, by rw [e2]; simp only [inArg_items]; rfl⟩
  | issuperset i a =>
    simp only [stepS]
    by_cases ca : a.is i = true
    · rw [if_pos ca]
      refine ans' ⟨true, rfl, fun _ => ?_, fun _ => rfl⟩
      cases a with
      | iter l => cases ca
      | set j =>
        have : j = i := by simpa [Arg.is] using ca
        subst this
        exact fun x m => m
    · rw [if_neg ca]
      obtain ⟨b, e1, e2⟩ := superset_ok lk (hi i) (a.items h)
      exact ans' ⟨b, e1, by rw [e2]; simp only [inArg_items]; rfl⟩
  | isdisjoint i a =>
    simp only [stepS]
    by_cases ca : a.is i = true
    · rw [if_pos ca]
      refine ans' ⟨false, rfl, by simp, ?_⟩
      cases a with
      | iter l => cases ca
      | set j =>
        have : j = i := by simpa [Arg.is] using ca
        subst this
        intro q
        exfalso
        have ne : elems (h j) ≠ [] := by simpa [Sound] using hs
        cases he : elems (h j) with
        | nil => exact ne he
        | cons k ks =>
          have mk : Mem ko (h j) k := mem_of_elem lk (by rw [he]; simp)
          exact q k ⟨mk, mk⟩
    · rw [if_neg ca]
      obtain ⟨b, e1, e2⟩ := disjoint_ok lk (hi i) (a.items h)
      exact ans' ⟨b, e1, by rw [e2]; simp only [inArg_items]; rfl⟩
  | cmp c i j =>
    exact ans' (cmpSets_ok lk (hi i) (hi j) _ (by intro e; rw [of_decide_eq_true e]) c)

/-- **C07.**  Every program over any number of set objects gets the answers of mathematical set algebra: membership,
`add`, `discard`, `remove` (with `KeyError` and no change if missing), `pop`, sizes, iteration, copies, unions,
intersections, differences, symmetric differences (functional and in place, with any number of arguments, with sets or
other iterables, also with the set itself as argument), subset, superset and disjointness tests and the six
comparisons.  Missing: the two kinds of calls excluded by `Sound`, for which the claim is false of the code. -/
theorem set_algebra_partial {ko : KeyOps K} (lk : LawfulElt ko) (ops : List (SOp K))
    (g : Fine ko (fun _ => ({} : SetT K)) ops = true) :
    ∃ h rs, runS ko (fun _ => {}) ops = .ok (h, rs) ∧ Prog ko (fun _ _ => False) ops rs := by
  have go : ∀ (ops : List (SOp K)) (h : Heap K), (∀ i, Inv ko (h i)) → Fine ko h ops = true →
      ∃ h' rs, runS ko h ops = .ok (h', rs) ∧ Prog ko (store ko h) ops rs := by
    intro ops
    induction ops with
    | nil => intro h _ _; exact ⟨h, [], rfl, Prog.nil _⟩
    | cons op ops ih =>
      intro h hi g
      simp only [Fine, Bool.and_eq_true, decide_eq_true_eq] at g
      obtain ⟨h1, r, e, hi1, p⟩ := stepS_ok lk hi op g.1.1 g.1.2
      have g2 := g.2
      rw [e] at g2
      obtain ⟨h2, rs, e2, p2⟩ := ih h1 hi1 g2
      exact ⟨h2, r :: rs, by simp only [runS, e, Except.bind, e2]; rfl, Prog.cons _ _ _ _ _ _ p p2⟩
  obtain ⟨h, rs, a, b⟩ := go ops (fun _ => {}) (fun _ => inv_empty ko) g
  refine ⟨h, rs, a, ?_⟩
  have : store ko (fun _ => ({} : SetT K)) = fun _ _ => False := by
    funext i x
    exact propext (iff_of_false (not_mem_empty x) id)
  rw [this] at b
  exact b

end Verif.HashTable
