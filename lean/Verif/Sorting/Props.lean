import Verif.Sorting.Lemmas
/-
C39, C40: `sort` and `searchSorted`.
-/
namespace Verif.Sorting.Props
open Spec
variable {α : Type}

/-- **C39 (any comparison at all)**: `sort` terminates, never indexes out of range and leaves a permutation of its
input, even when `<` is not an order (NaN), for interpreted and for wrapped seeds. -/
theorem sort_permutes (wrap : Int → Int) (eqv lt : α → α → Bool) (vs : List α) (f : Nat) (hf : vs.length < f) :
    ∃ r, sort wrap eqv lt f vs = .ok r ∧ r.Perm vs := by
  unfold sort sortWith
  by_cases h : vs.length ≤ 1
  · exact ⟨vs, by rw [if_pos h], List.Perm.refl _⟩
  · rw [if_neg h]
    obtain ⟨S, h1, h2, _⟩ := quicksort_spec wrap eqv lt f [] vs [] 0 ((vs.length : Int) - 1) 1 hf rfl (by omega)
    exact ⟨S, by simpa using h1, h2⟩

theorem sortWith_sorts (wrap : Int → Int) (eqv less : α → α → Bool) (hw : StrictWeak less)
    (he : EqRespects eqv less) (vs : List α) (f : Nat) (hf : vs.length < f) :
    ∃ r, sortWith wrap eqv less f vs = .ok r ∧ r.Perm vs ∧ Sorted less r := by
  unfold sortWith
  by_cases h : vs.length ≤ 1
  · refine ⟨vs, by rw [if_pos h], List.Perm.refl _, ?_⟩
    match vs, h with
    | [], _ => exact List.Pairwise.nil
    | [x], _ => exact List.pairwise_singleton _ _
  · rw [if_neg h]
    obtain ⟨S, h1, h2, h3⟩ := quicksort_spec wrap eqv less f [] vs [] 0 ((vs.length : Int) - 1) 1 hf rfl (by omega)
    exact ⟨S, by simpa using h1, h2, h3 hw he⟩

/-- **C39**: for every strict weak `<` that `==` respects, `sort` leaves a nondecreasing permutation. -/
theorem sort_sorts (wrap : Int → Int) (eqv lt : α → α → Bool) (hw : StrictWeak lt) (he : EqRespects eqv lt)
    (vs : List α) (f : Nat) (hf : vs.length < f) :
    ∃ r, sort wrap eqv lt f vs = .ok r ∧ r.Perm vs ∧ Sorted lt r := sortWith_sorts wrap eqv lt hw he vs f hf

/-- **C39, with a key (partial)**: the result is ordered by key *provided equal values have equivalent keys*; the code
compares neighbouring values (not keys) with `==` to skip runs of equal elements. -/
theorem sort_key_partial {κ : Type} (wrap : Int → Int) (eqv : α → α → Bool) (lt : κ → κ → Bool) (key : α → κ)
    (hw : StrictWeak lt) (he : ∀ x y, eqv x y = true → lt (key x) (key y) = false ∧ lt (key y) (key x) = false)
    (vs : List α) (f : Nat) (hf : vs.length < f) :
    ∃ r, sortKey wrap eqv lt key f vs = .ok r ∧ r.Perm vs ∧ Sorted lt (r.map key) := by
  obtain ⟨r, h1, h2, h3⟩ := sortWith_sorts wrap eqv (fun x y => lt (key x) (key y))
    ⟨fun a b => hw.asymm _ _, fun a b c => hw.ntrans _ _ _⟩ he vs f hf
  exact ⟨r, h1, h2, List.pairwise_map.2 h3⟩

def ltI (a b : Int) : Bool := decide (a < b)
def eqI (a b : Int) : Bool := decide (a = b)

theorem ltI_strictWeak : StrictWeak ltI := by
  constructor <;> intros <;> simp_all [ltI] <;> omega

theorem eqI_respects : EqRespects eqI ltI := by
  intro a b h; simp_all [eqI, ltI]

theorem eqI_total : Total eqI ltI := by
  intro a b; simp [eqI, ltI]; omega

/-- **C39 refuted for keys that separate equal values**: the values are `==` (first component), the key is the
second component; the result is not ordered by key. -/
theorem sort_key_refuted :
    ∃ (vs r : List (Int × Int)), sortKey id (fun x y => eqI x.1 y.1) ltI (·.2) 10 vs = .ok r ∧
      ¬ Sorted ltI (r.map (·.2)) := by
  refine ⟨[(0, 2), (0, 0), (1, 1)], [(1, 1), (0, 0), (0, 2)], by decide +kernel, ?_⟩
  simp [Sorted, ltI]

example : sort id eqI ltI 20 [5, 3, 9, 3, -1, 7, 3] = .ok [-1, 3, 3, 3, 5, 7, 9] := by decide +kernel
example : ∃ r, sort id eqI ltI 20 [5, 3, 9, 3, -1, 7, 3] = .ok r ∧ r.Perm [5, 3, 9, 3, -1, 7, 3] ∧ Sorted ltI r :=
  sort_sorts id eqI ltI ltI_strictWeak eqI_respects _ _ (by decide)
-- a comparison that is no order (everything is smaller than everything) still permutes
example : ∃ r, sort id eqI (fun _ _ => true) 9 [4, 1, 3] = .ok r ∧ r.Perm [4, 1, 3] := sort_permutes _ _ _ _ _ (by decide)
-- ordering by the key -x, which equal values share
example : sortKey id eqI ltI (fun x => -x) 20 [5, 3, 9] = .ok [9, 5, 3] := by decide +kernel
example : ∃ r, sortKey id eqI ltI (fun x => -x) 20 [5, 3, 9] = .ok r ∧ r.Perm [5, 3, 9] ∧ Sorted ltI (r.map fun x => -x) :=
  sort_key_partial id eqI ltI (fun x => -x) ltI_strictWeak (by intro x y h; simp_all [eqI, ltI]) _ _ (by decide)

/-- **C40**: on a sorted list with a total order, `searchSorted(x, l)` returns a position `0 ≤ i ≤ len(l)` such that
inserting `x` there keeps the list sorted; if some element equals `x`, then `l[i] == x`. -/
theorem searchSorted_spec (lt eqv : α → α → Bool) (hw : StrictWeak lt) (he : EqRespects eqv lt) (ht : Total eqv lt)
    (item : α) (vs : List α) (hs : Sorted lt vs) (f : Nat) (hf : vs.length < f) :
    ∃ i : Nat, searchSorted lt eqv f item vs = .ok (i : Int) ∧ i ≤ vs.length ∧ Sorted lt (insertAt vs i item) ∧
      ((∃ x ∈ vs, eqv x item = true) → ∃ x, vs[i]? = some x ∧ eqv x item = true) := by
  unfold searchSorted
  rcases searchLoop_spec (eqv := eqv) hw item vs hs f 0 vs.length (by omega) (by omega) (by omega)
    (by intros; omega) (by
      intro j x hj hjl
      rw [List.getElem?_eq_none hjl] at hj; simp at hj) with ⟨i, h1, h2, h3⟩ | ⟨_, x, hx, a, b, c⟩
  · refine ⟨i, h1, h2, ?_, ?_⟩
    · have hsplit : vs.take i ++ vs.drop i = vs := List.take_append_drop i vs
      have hs' := hs
      unfold Sorted at hs'
      rw [← hsplit, List.pairwise_append] at hs'
      have key : (∀ x ∈ vs.take i, lt item x = false) ∧ (∀ x ∈ vs.drop i, lt x item = false) := by
        rcases h3 with ⟨x, hx, _, k1, k2⟩ | ⟨k1, k2⟩
        · have hil : i < vs.length := (List.getElem?_eq_some_iff.1 hx).1
          have hd : vs.drop i = x :: vs.drop (i + 1) := by
            rw [← List.getElem_cons_drop hil, (List.getElem?_eq_some_iff.1 hx).2]
          constructor
          · intro y hy
            have := hs'.2.2 y hy x (by rw [hd]; simp)
            exact hw.ntrans _ _ _ k2 this
          · intro y hy
            rw [hd] at hy
            rcases List.mem_cons.1 hy with rfl | hy
            · exact k1
            · have h4 := hs'.2.1
              rw [hd, List.pairwise_cons] at h4
              exact hw.ntrans _ _ _ (h4.1 y hy) k1
        · constructor
          · intro y hy
            obtain ⟨j, hj, rfl⟩ := List.getElem_of_mem hy
            have hj' : j < i ∧ j < vs.length := by simp at hj; omega
            exact hw.asymm _ _ (k1 j _ (by rw [List.getElem_take]; exact List.getElem?_eq_getElem hj'.2) hj'.1)
          · intro y hy
            obtain ⟨j, hj, rfl⟩ := List.getElem_of_mem hy
            have hj' : i + j < vs.length := by simp at hj; omega
            exact hw.asymm _ _ (k2 (i + j) _ (by rw [List.getElem_drop]; exact List.getElem?_eq_getElem hj')
              (by omega))
      unfold Sorted insertAt
      rw [List.pairwise_append, List.pairwise_cons]
      refine ⟨hs'.1, ⟨key.2, hs'.2.1⟩, ?_⟩
      intro a ha b hb
      rcases List.mem_cons.1 hb with rfl | hb
      · exact key.1 a ha
      · exact hs'.2.2 a ha b hb
    · rintro ⟨x, hx, hxe⟩
      rcases h3 with ⟨y, hy, k, _, _⟩ | ⟨k1, k2⟩
      · exact ⟨y, hy, k⟩
      · obtain ⟨j, hj, rfl⟩ := List.getElem_of_mem hx
        have hj' := List.getElem?_eq_getElem hj
        have := he _ _ hxe
        rcases Nat.lt_or_ge j i with h | h
        · have := k1 j _ hj' h; simp_all
        · have := k2 j _ hj' h; simp_all
  · have := ht _ _ a b; simp_all

/-- **C40, strictness**: when nothing equals `x` the answer is the boundary: everything before is smaller, everything
from there on is larger. The documentation ("Returns -1 if we can't find it") is therefore wrong. -/
theorem searchSorted_absent (lt eqv : α → α → Bool) (hw : StrictWeak lt) (ht : Total eqv lt)
    (item : α) (vs : List α) (hs : Sorted lt vs) (f : Nat) (hf : vs.length < f)
    (hno : ∀ x ∈ vs, eqv x item = false) :
    ∃ i : Nat, searchSorted lt eqv f item vs = .ok (i : Int) ∧ (∀ x ∈ vs.take i, lt x item = true) ∧
      (∀ x ∈ vs.drop i, lt item x = true) := by
  unfold searchSorted
  rcases searchLoop_spec (eqv := eqv) hw item vs hs f 0 vs.length (by omega) (by omega) (by omega)
    (by intros; omega) (by
      intro j x hj hjl
      rw [List.getElem?_eq_none hjl] at hj; simp at hj) with ⟨i, h1, h2, h3⟩ | ⟨_, x, hx, a, b, c⟩
  · rcases h3 with ⟨y, hy, k, _, _⟩ | ⟨k1, k2⟩
    · have := hno y (List.mem_of_getElem? hy); simp_all
    · refine ⟨i, h1, ?_, ?_⟩
      · intro y hy
        obtain ⟨j, hj, rfl⟩ := List.getElem_of_mem hy
        have hj' : j < i ∧ j < vs.length := by simp at hj; omega
        exact k1 j _ (by rw [List.getElem_take]; exact List.getElem?_eq_getElem hj'.2) hj'.1
      · intro y hy
        obtain ⟨j, hj, rfl⟩ := List.getElem_of_mem hy
        have hj' : i + j < vs.length := by simp at hj; omega
        exact k2 (i + j) _ (by rw [List.getElem_drop]; exact List.getElem?_eq_getElem hj') (by omega)
  · have := ht _ _ a b; simp_all

/-- **C40, other orders**: with a merely weak order the only failure is the documented exception, and it is raised
only because some element is neither smaller, larger nor equal. -/
theorem searchSorted_fails_only_if_not_total (lt eqv : α → α → Bool) (hw : StrictWeak lt)
    (item : α) (vs : List α) (hs : Sorted lt vs) (f : Nat) (hf : vs.length < f) :
    (∃ i : Nat, searchSorted lt eqv f item vs = .ok (i : Int)) ∨
    (searchSorted lt eqv f item vs = .error .nonTotal ∧
      ∃ x ∈ vs, lt x item = false ∧ lt item x = false ∧ eqv x item = false) := by
  unfold searchSorted
  rcases searchLoop_spec (eqv := eqv) hw item vs hs f 0 vs.length (by omega) (by omega) (by omega)
    (by intros; omega) (by
      intro j x hj hjl
      rw [List.getElem?_eq_none hjl] at hj; simp at hj) with ⟨i, h1, _, _⟩ | h
  · exact Or.inl ⟨i, h1⟩
  · exact Or.inr h

example : searchSorted ltI eqI 9 4 [1, 3, 3, 7] = .ok 3 := by decide +kernel
example : searchSorted ltI eqI 9 3 [1, 3, 3, 7] = .ok 2 := by decide +kernel
example : ∃ i : Nat, searchSorted ltI eqI 9 3 [1, 3, 3, 7] = .ok (i : Int) ∧ i ≤ 4 ∧
    Sorted ltI (insertAt [1, 3, 3, 7] i 3) ∧
    ((∃ x ∈ [1, 3, 3, 7], eqI x 3 = true) → ∃ x, [1, 3, 3, 7][i]? = some x ∧ eqI x 3 = true) :=
  searchSorted_spec ltI eqI ltI_strictWeak eqI_respects eqI_total 3 [1, 3, 3, 7] (by simp [Sorted, ltI]) 9 (by decide)
example : ∃ i : Nat, searchSorted ltI eqI 9 4 [1, 3, 3, 7] = .ok (i : Int) ∧
    (∀ x ∈ [1, 3, 3, 7].take i, ltI x 4 = true) ∧ (∀ x ∈ [1, 3, 3, 7].drop i, ltI 4 x = true) :=
  searchSorted_absent ltI eqI ltI_strictWeak eqI_total 4 [1, 3, 3, 7] (by simp [Sorted, ltI]) 9 (by decide) (by simp [eqI])
example : searchSorted (fun _ _ => false) eqI 9 4 [1, 3, 3, 7] = .error .nonTotal := by decide +kernel

end Verif.Sorting.Props
