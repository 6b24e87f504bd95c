import Verif.HashTable.SetCompiled
import Verif.HashTable.SetWrong

/-!
# Compiled set methods compute set algebra (C89)
-/

namespace Verif.HashTable
open Spec

variable {K : Type}

section
variable {ko : KeyOps K} (lk : LawfulElt ko)
include lk

theorem hasC_eq {t : SetT K} (i : Inv ko t) (k : K) : hasC ko (typedHash ko) t k = has ko t k := by
  unfold hasC has; rw [lookupSlotC_eq lk.toLawfulKey i]

theorem hasC_ok {t : SetT K} (i : Inv ko t) (k : K) :
    ∃ b, hasC ko (typedHash ko) t k = .ok b ∧ (b = true ↔ Mem ko t k) := by
  rw [hasC_eq lk i]; exact has_ok lk i k

theorem addC_ok {t : SetT K} (i : Inv ko t) (k : K) (hc : t.count ≤ 2 ^ 28) :
    ∃ t', addC ko (typedHash ko) t k = .ok t' ∧ Inv ko t' ∧ t'.count ≤ t.count + 1 ∧
      ∀ x, Mem ko t' x ↔ Mem ko t x ∨ ko.eq x k = true := by
  have : addC ko (typedHash ko) t k = addElt ko t k := by
    unfold addC addElt; rw [hasC_eq lk i]; simp only [insertKeyC_eq]
  rw [this]; exact addElt_ok lk i k hc

theorem discardC_ok {t : SetT K} (i : Inv ko t) (k : K) (hc : t.count ≤ 2 ^ 28) :
    ∃ t', discardC ko (typedHash ko) t k = .ok t' ∧ Inv ko t' ∧ t'.count ≤ t.count ∧
      elems t' = (elems t).filter (fun y => !ko.eq k y) ∧ ∀ x, Mem ko t' x ↔ Mem ko t x ∧ ¬ko.eq x k = true := by
  obtain ⟨t', b, e, i', c, _, f, m⟩ := discard_ok lk i k hc
  refine ⟨t', ?_, i', c, f, m⟩
  unfold discardC
  rw [deleteKeyC_eq lk.toLawfulKey i k hc]
  have e' : deleteKey ko t k = .ok (t', b) := e
  rw [e']; rfl

theorem toggleC_ok {t : SetT K} (i : Inv ko t) (k : K) (hc : t.count ≤ 2 ^ 28) :
    ∃ t', toggleC ko (typedHash ko) t k = .ok t' ∧ Inv ko t' ∧ t'.count ≤ t.count + 1 ∧
      ∀ x, Mem ko t' x ↔ (Mem ko t x ∧ ¬ko.eq x k = true) ∨ (¬Mem ko t x ∧ ko.eq x k = true) := by
  obtain ⟨b, e, m⟩ := hasC_ok lk i k
  obtain ⟨t1, e1, i1, c1, m1⟩ := addC_ok lk i k hc
  obtain ⟨t2, e2, i2, c2, _, m2⟩ := discardC_ok lk i k hc
  unfold toggleC
  unfold addC at e1
  rw [e] at e1 ⊢
  simp only [Except.bind] at e1 ⊢
  cases b with
  | true =>
    refine ⟨t2, e2, i2, by omega, fun x => ?_⟩
    rw [m2]
    have mk := m.1 rfl
    exact ⟨Or.inl, fun h => h.elim id fun h => absurd (mk.congr lk h.2) h.1⟩
  | false =>
    refine ⟨t1, e1, i1, c1, fun x => ?_⟩
    rw [m1]
    have nk : ¬Mem ko t k := fun h => by have := m.2 h; cases this
    constructor
    · rintro (h | h)
      · exact Or.inl ⟨h, fun q => nk (h.congr lk (lk.symm _ _ q))⟩
      · exact Or.inr ⟨fun q => nk (q.congr lk (lk.symm _ _ h)), h⟩
    · rintro (h | h)
      · exact Or.inl h.1
      · exact Or.inr h.2

omit lk in
theorem copyT_ok {t : SetT K} (i : Inv ko t) :
    Inv ko (copyT t) ∧ elems (copyT t) = elems t ∧ (copyT t).count = t.count := by
  unfold copyT
  split
  · next h =>
    have : t.items = [] := List.length_eq_zero_iff.1 h
    have e : elems t = [] := by unfold elems iterate; rw [this]; rfl
    exact ⟨inv_empty ko, by rw [e]; rfl, by rw [count_eq i, e]; rfl⟩
  · exact ⟨i, rfl, rfl⟩

omit lk in
theorem mem_copyT {t : SetT K} (i : Inv ko t) (x : K) : Mem ko (copyT t) x ↔ Mem ko t x := by
  unfold Mem; rw [(copyT_ok i).2.1]

/-- A loop whose body changes membership of `x` by `G k x`. -/
theorem eachK_ok {f : SetT K → K → Except Err (SetT K)} {G : K → K → Prop → Prop}
    (step : ∀ (t : SetT K) (k : K), Inv ko t → t.count ≤ 2 ^ 28 →
      ∃ t', f t k = .ok t' ∧ Inv ko t' ∧ t'.count ≤ t.count + 1 ∧ ∀ x, Mem ko t' x ↔ G k x (Mem ko t x)) :
    ∀ (ks : List K) (t : SetT K), Inv ko t → t.count + ks.length ≤ 2 ^ 28 →
      ∃ t', eachK f t ks = .ok t' ∧ Inv ko t' ∧ t'.count ≤ t.count + ks.length ∧
        ∀ x, Mem ko t' x ↔ ks.foldl (fun P k => G k x P) (Mem ko t x)
  | [], t, i, _ => ⟨t, rfl, i, Nat.le_refl _, fun _ => Iff.rfl⟩
  | k :: ks, t, i, hc => by
    rw [List.length_cons] at hc
    obtain ⟨t1, e1, i1, c1, m1⟩ := step t k i (by omega)
    obtain ⟨t2, e2, i2, c2, m2⟩ := eachK_ok step ks t1 i1 (by omega)
    refine ⟨t2, by simp only [eachK, e1, Except.bind, e2], i2, by rw [List.length_cons]; omega, fun x => ?_⟩
    rw [m2]
    have : Mem ko t1 x = G k x (Mem ko t x) := propext (m1 x)
    rw [this]; rfl

omit lk in
theorem fold_or (G : K → Prop) : ∀ (ks : List K) (P : Prop),
    ks.foldl (fun P k => P ∨ G k) P ↔ P ∨ ∃ k ∈ ks, G k
  | [], P => by simp
  | k :: ks, P => by
    show ks.foldl _ (P ∨ G k) ↔ _
    rw [fold_or G ks]; simp [or_assoc]

omit lk in
theorem fold_and (G : K → Prop) : ∀ (ks : List K) (P : Prop),
    ks.foldl (fun P k => P ∧ G k) P ↔ P ∧ ∀ k ∈ ks, G k
  | [], P => by simp
  | k :: ks, P => by
    show ks.foldl _ (P ∧ G k) ↔ _
    rw [fold_and G ks]; simp [and_assoc]

theorem eachAdd_ok (ks : List K) {t : SetT K} (i : Inv ko t) (hc : t.count + ks.length ≤ 2 ^ 28) :
    ∃ t', eachK (addC ko (typedHash ko)) t ks = .ok t' ∧ Inv ko t' ∧ t'.count ≤ t.count + ks.length ∧
      ∀ x, Mem ko t' x ↔ Mem ko t x ∨ ∃ k ∈ ks, ko.eq x k = true := by
  obtain ⟨t', a, b, c, d⟩ := eachK_ok lk (G := fun k x P => P ∨ ko.eq x k = true)
    (fun t k i hc => addC_ok lk i k hc) ks t i hc
  exact ⟨t', a, b, c, fun x => by rw [d]; exact fold_or (fun k => ko.eq x k = true) ks _⟩

theorem eachDiscard_ok : ∀ (ks : List K) {t : SetT K}, Inv ko t → t.count ≤ 2 ^ 28 →
    ∃ t', eachK (discardC ko (typedHash ko)) t ks = .ok t' ∧ Inv ko t' ∧ t'.count ≤ t.count ∧
      ∀ x, Mem ko t' x ↔ Mem ko t x ∧ ¬∃ k ∈ ks, ko.eq x k = true
  | [], t, i, _ => ⟨t, rfl, i, Nat.le_refl _, by simp⟩
  | k :: ks, t, i, hc => by
    obtain ⟨t1, e1, i1, c1, _, m1⟩ := discardC_ok lk i k hc
    obtain ⟨t2, e2, i2, c2, m2⟩ := eachDiscard_ok ks i1 (by omega)
    refine ⟨t2, by simp only [eachK, e1, Except.bind, e2], i2, by omega, fun x => ?_⟩
    rw [m2, m1]; simp [and_assoc]

theorem eachKeep_ok {s : SetT K} (is : Inv ko s) : ∀ (ks : List K) {t : SetT K}, Inv ko t → t.count ≤ 2 ^ 28 →
    ∃ t', eachK (keepIf ko (typedHash ko) s) t ks = .ok t' ∧ Inv ko t' ∧ t'.count ≤ t.count ∧
      ∀ x, Mem ko t' x ↔ Mem ko t x ∧ ∀ k ∈ ks, ko.eq x k = true → Mem ko s x
  | [], t, i, _ => ⟨t, rfl, i, Nat.le_refl _, by simp⟩
  | k :: ks, t, i, hc => by
    obtain ⟨b, eb, mb⟩ := hasC_ok lk is k
    obtain ⟨t1, e1, i1, c1, m1⟩ : ∃ t1, keepIf ko (typedHash ko) s t k = .ok t1 ∧ Inv ko t1 ∧ t1.count ≤ t.count ∧
        ∀ x, Mem ko t1 x ↔ Mem ko t x ∧ (ko.eq x k = true → Mem ko s x) := by
      unfold keepIf
      rw [eb]
      cases b with
      | true =>
        exact ⟨t, rfl, i, Nat.le_refl _, fun x => ⟨fun h => ⟨h, fun q => (mb.1 rfl).congr lk q⟩, fun h => h.1⟩⟩
      | false =>
        obtain ⟨t1, e1, i1, c1, _, m1⟩ := discardC_ok lk i k hc
        have nk : ¬Mem ko s k := fun h => by have := mb.2 h; cases this
        refine ⟨t1, e1, i1, c1, fun x => ?_⟩
        rw [m1]
        exact ⟨fun h => ⟨h.1, fun q => absurd q h.2⟩, fun h => ⟨h.1, fun q => nk ((h.2 q).congr lk (lk.symm _ _ q))⟩⟩
    obtain ⟨t2, e2, i2, c2, m2⟩ := eachKeep_ok is ks i1 (by omega)
    refine ⟨t2, by simp only [eachK, e1, Except.bind, e2], i2, by omega, fun x => ?_⟩
    rw [m2, m1]; simp [and_assoc]

/-- `inR` answers membership in `R`, which respects equality. -/
theorem eachAddUnless_ok {inR : K → Except Err Bool} {R : K → Prop} (hR : ∀ k, ∃ b, inR k = .ok b ∧ (b = true ↔ R k))
    (cR : ∀ x y, R x → ko.eq y x = true → R y) (ks : List K) {t : SetT K} (i : Inv ko t)
    (hc : t.count + ks.length ≤ 2 ^ 28) :
    ∃ t', eachK (addUnless ko (typedHash ko) inR) t ks = .ok t' ∧ Inv ko t' ∧ t'.count ≤ t.count + ks.length ∧
      ∀ x, Mem ko t' x ↔ Mem ko t x ∨ ((∃ k ∈ ks, ko.eq x k = true) ∧ ¬R x) := by
  obtain ⟨t', a, b, c, d⟩ := eachK_ok lk (f := addUnless ko (typedHash ko) inR)
    (G := fun k x P => P ∨ (ko.eq x k = true ∧ ¬R x)) (by
      intro t k i hc
      obtain ⟨b, eb, mb⟩ := hR k
      unfold addUnless
      rw [eb]
      cases b with
      | true =>
        refine ⟨t, rfl, i, by omega, fun x => ⟨Or.inl, fun h => h.elim id fun h => ?_⟩⟩
        exact absurd (cR _ _ (mb.1 rfl) h.1) h.2
      | false =>
        obtain ⟨t1, e1, i1, c1, m1⟩ := addC_ok lk i k hc
        have nk : ¬R k := fun h => by have := mb.2 h; cases this
        refine ⟨t1, e1, i1, c1, fun x => ?_⟩
        rw [m1]
        exact ⟨fun h => h.elim Or.inl fun q => Or.inr ⟨q, fun r => nk (cR _ _ r (lk.symm _ _ q))⟩,
          fun h => h.elim Or.inl fun q => Or.inr q.1⟩) ks t i hc
  refine ⟨t', a, b, c, fun x => ?_⟩
  rw [d, fold_or (fun k => ko.eq x k = true ∧ ¬R x)]
  constructor
  · rintro (h | ⟨k, hk, q, r⟩)
    · exact Or.inl h
    · exact Or.inr ⟨⟨k, hk, q⟩, r⟩
  · rintro (h | ⟨⟨k, hk, q⟩, r⟩)
    · exact Or.inl h
    · exact Or.inr ⟨k, hk, q, r⟩

/-- Toggling distinct elements. -/
theorem eachToggle_ok : ∀ (ks : List K) {t : SetT K}, Diff ko.eq ks → Inv ko t → t.count + ks.length ≤ 2 ^ 28 →
    ∃ t', eachK (toggleC ko (typedHash ko)) t ks = .ok t' ∧ Inv ko t' ∧
      ∀ x, Mem ko t' x ↔ (Mem ko t x ∧ ¬∃ k ∈ ks, ko.eq x k = true) ∨ (¬Mem ko t x ∧ ∃ k ∈ ks, ko.eq x k = true)
  | [], t, _, i, _ => ⟨t, rfl, i, by simp⟩
  | k :: ks, t, dk, i, hc => by
    rw [List.length_cons] at hc
    obtain ⟨t1, e1, i1, c1, m1⟩ := toggleC_ok lk i k (by omega)
    obtain ⟨d1, d2⟩ := List.pairwise_cons.1 dk
    obtain ⟨t2, e2, i2, m2⟩ := eachToggle_ok ks d2 i1 (by omega)
    refine ⟨t2, by simp only [eachK, e1, Except.bind, e2], i2, fun x => ?_⟩
    rw [m2, m1]
    have ex : (∃ y ∈ k :: ks, ko.eq x y = true) ↔ ko.eq x k = true ∨ ∃ y ∈ ks, ko.eq x y = true := by simp
    rw [ex]
    have no : ko.eq x k = true → ¬∃ y ∈ ks, ko.eq x y = true := by
      rintro h ⟨y, hy, q⟩
      have := d1 y hy
      rw [lk.trans _ _ _ (lk.symm _ _ h) q] at this
      cases this
    generalize (∃ y ∈ ks, ko.eq x y = true) = B at *
    generalize (ko.eq x k = true) = A at *
    by_cases hA : A <;> by_cases hB : B <;> by_cases hM : Mem ko t x <;> simp_all

/-! ### Operators -/

theorem unionC_ok {l r : SetT K} (il : Inv ko l) (ir : Inv ko r) (hc : l.count + r.count ≤ 2 ^ 28) :
    ∃ t, unionC ko (typedHash ko) l r = .ok t ∧ Inv ko t ∧ t.count ≤ l.count + r.count ∧
      ∀ x, Mem ko t x ↔ Mem ko l x ∨ Mem ko r x := by
  unfold unionC
  have one : ∀ {l r : SetT K}, Inv ko l → Inv ko r → l.count + r.count ≤ 2 ^ 28 →
      ∃ t, eachK (addC ko (typedHash ko)) (copyT l) (elems r) = .ok t ∧ Inv ko t ∧ t.count ≤ l.count + r.count ∧
        ∀ x, Mem ko t x ↔ Mem ko l x ∨ Mem ko r x := by
    intro l r il ir hc
    obtain ⟨a1, a2, a3⟩ := copyT_ok il
    obtain ⟨t, b1, b2, b3, b4⟩ := eachAdd_ok lk (elems r) a1 (by rw [a3, ← count_eq ir]; exact hc)
    rw [a3, ← count_eq ir] at b3
    exact ⟨t, b1, b2, b3, fun x => by rw [b4, mem_copyT il]; rfl⟩
  split
  · exact one il ir hc
  · obtain ⟨t, a, b, c, d⟩ := one ir il (by omega)
    exact ⟨t, a, b, by omega, fun x => by rw [d, or_comm]⟩

theorem interC_ok {l r : SetT K} (il : Inv ko l) (ir : Inv ko r) (h1 : l.count ≤ 2 ^ 28) (h2 : r.count ≤ 2 ^ 28) :
    ∃ t, interC ko (typedHash ko) l r = .ok t ∧ Inv ko t ∧ t.count ≤ l.count ∧
      ∀ x, Mem ko t x ↔ Mem ko l x ∧ Mem ko r x := by
  have one : ∀ {l r : SetT K}, Inv ko l → Inv ko r → l.count ≤ 2 ^ 28 →
      ∃ t, eachK (keepIf ko (typedHash ko) r) (copyT l) (elems l) = .ok t ∧ Inv ko t ∧ t.count ≤ l.count ∧
        ∀ x, Mem ko t x ↔ Mem ko l x ∧ Mem ko r x := by
    intro l r il ir hc
    obtain ⟨a1, a2, a3⟩ := copyT_ok il
    obtain ⟨t, b1, b2, b3, b4⟩ := eachKeep_ok lk ir (elems l) a1 (by rw [a3]; exact hc)
    refine ⟨t, b1, b2, by omega, fun x => ?_⟩
    rw [b4, mem_copyT il]
    exact ⟨fun h => ⟨h.1, by obtain ⟨y, hy, q⟩ := h.1; exact h.2 y hy q⟩, fun h => ⟨h.1, fun _ _ _ => h.2⟩⟩
  unfold interC
  split
  · obtain ⟨t, a, b, c, d⟩ := one ir il h2
    exact ⟨t, a, b, by omega, fun x => by rw [d, and_comm]⟩
  · exact one il ir h1

theorem diffC_ok {l r : SetT K} (il : Inv ko l) (ir : Inv ko r) (h1 : l.count ≤ 2 ^ 28) :
    ∃ t, diffC ko (typedHash ko) l r = .ok t ∧ Inv ko t ∧ t.count ≤ l.count ∧
      ∀ x, Mem ko t x ↔ Mem ko l x ∧ ¬Mem ko r x := by
  unfold diffC
  obtain ⟨a1, a2, a3⟩ := copyT_ok il
  split
  · obtain ⟨t, b1, b2, b3, b4⟩ := eachDiscard_ok lk (elems r) a1 (by omega)
    exact ⟨t, b1, b2, by omega, fun x => by rw [b4, mem_copyT il]; rfl⟩
  · have z : ({} : SetT K).count = 0 := rfl
    obtain ⟨t, b1, b2, b3, b4⟩ := eachAddUnless_ok lk (R := Mem ko r) (hasC_ok lk ir) (fun x y h q => h.congr lk q)
      (elems l) (inv_empty ko) (by rw [← count_eq il, z]; omega)
    rw [← count_eq il, z] at b3
    refine ⟨t, b1, b2, by omega, fun x => ?_⟩
    rw [b4]
    simp only [not_mem_empty, false_or]
    rfl

theorem symDiffLast_ok {l : SetT K} (il : Inv ko l) {inR : K → Except Err Bool} (ks : List K)
    (hR : ∀ k, ∃ b, inR k = .ok b ∧ (b = true ↔ ∃ y ∈ ks, ko.eq k y = true))
    (hc : l.count + ks.length ≤ 2 ^ 28) :
    ∃ t, symDiffLast ko (typedHash ko) l ks inR = .ok t ∧ Inv ko t ∧
      ∀ x, Mem ko t x ↔ (Mem ko l x ∧ ¬∃ y ∈ ks, ko.eq x y = true) ∨ (¬Mem ko l x ∧ ∃ y ∈ ks, ko.eq x y = true) := by
  have z : ({} : SetT K).count = 0 := rfl
  obtain ⟨t, b1, b2, b3, b4⟩ := eachAddUnless_ok lk hR
    (fun x y ⟨w, hw, q⟩ q' => ⟨w, hw, lk.trans _ _ _ q' q⟩)
    (elems l) (inv_empty ko) (by rw [← count_eq il, z]; omega)
  rw [← count_eq il, z] at b3
  obtain ⟨t', d1, d2, d3, d4⟩ := eachAddUnless_ok lk (R := Mem ko l) (hasC_ok lk il) (fun x y h q => h.congr lk q)
    ks b2 (by omega)
  refine ⟨t', by simp only [symDiffLast, b1, Except.bind, d1], d2, fun x => ?_⟩
  rw [d4, b4]
  simp only [not_mem_empty, false_or]
  show (Mem ko l x ∧ _) ∨ _ ↔ _
  rw [and_comm (a := ∃ y ∈ ks, ko.eq x y = true)]

theorem symDiffC_ok {l r : SetT K} (il : Inv ko l) (ir : Inv ko r) (hc : l.count + r.count ≤ 2 ^ 28) :
    ∃ t, symDiffC ko (typedHash ko) l r = .ok t ∧ Inv ko t ∧
      ∀ x, Mem ko t x ↔ (Mem ko l x ∧ ¬Mem ko r x) ∨ (¬Mem ko l x ∧ Mem ko r x) := by
  have one : ∀ {l r : SetT K}, Inv ko l → Inv ko r → l.count + r.count ≤ 2 ^ 28 →
      ∃ t, eachK (toggleC ko (typedHash ko)) (copyT l) (elems r) = .ok t ∧ Inv ko t ∧
        ∀ x, Mem ko t x ↔ (Mem ko l x ∧ ¬Mem ko r x) ∨ (¬Mem ko l x ∧ Mem ko r x) := by
    intro l r il ir hc
    obtain ⟨a1, a2, a3⟩ := copyT_ok il
    obtain ⟨t, b1, b2, b3⟩ := eachToggle_ok lk (elems r) (diff_elems ir) a1 (by rw [a3, ← count_eq ir]; exact hc)
    exact ⟨t, b1, b2, fun x => by rw [b3, mem_copyT il]; rfl⟩
  unfold symDiffC
  split
  · exact one il ir hc
  · split
    · obtain ⟨t, a, b, c⟩ := one ir il (by omega)
      refine ⟨t, a, b, fun x => ?_⟩
      rw [c, or_comm, and_comm (a := ¬Mem ko r x), and_comm (a := Mem ko r x)]
    · exact symDiffLast_ok lk il (elems r) (hasC_ok lk ir) (by rw [← count_eq ir]; exact hc)

/-! ### Loops over set objects -/

omit lk in
theorem scan_spec : ∀ (l : List (Option (K × Unit))) (s : Nat),
    (scan l s = none ∧ l.filterMap id = []) ∨
    ∃ n x, scan l s = some (s + n, x) ∧ n < l.length ∧ l.filterMap id = (x, ()) :: (l.drop (n + 1)).filterMap id
  | [], s => Or.inl ⟨rfl, rfl⟩
  | some e :: l, s => Or.inr ⟨0, e.1, rfl, by simp, rfl⟩
  | none :: l, s => by
    rcases scan_spec l (s + 1) with ⟨a, b⟩ | ⟨n, x, a, b, c⟩
    · exact Or.inl ⟨a, b⟩
    · refine Or.inr ⟨n + 1, x, ?_, by simp; omega, ?_⟩
      · show scan l (s + 1) = _
        rw [a, Nat.add_assoc, Nat.add_comm 1 n]
      · show l.filterMap id = _
        rw [c]; rfl

omit lk in
/-- A loop whose body leaves the set that is visited as it is visits its elements in order. -/
theorem forSet_eq {σ : Type} {cur : σ → SetT K} {body : σ → K → Except Err σ} {c : SetT K}
    (keep : ∀ st x st', cur st = c → x ∈ elems c → body st x = .ok st' → cur st' = c) :
    ∀ (f s : Nat) (st : σ), cur st = c → s ≤ c.items.length → c.items.length < f + s →
      forSet cur c.count body f s st =
        (eachK body st (((c.items.drop s).filterMap id).map (·.1))).map fun st => (st, true)
  | 0, s, st, h, hs, hf => by omega
  | f + 1, s, st, h, hs, hf => by
    rw [forSet, h, if_neg (by simp)]
    rcases scan_spec (c.items.drop s) s with ⟨a, b⟩ | ⟨n, x, a, b, e⟩
    · rw [a, b]; rfl
    · rw [a, e]
      simp only [List.map_cons, eachK]
      have mx : x ∈ elems c := by
        unfold elems iterate
        refine List.mem_map.2 ⟨(x, ()), ?_, rfl⟩
        have : (x, ()) ∈ (c.items.drop s).filterMap id := by rw [e]; simp
        obtain ⟨o, ho, hq⟩ := List.mem_filterMap.1 this
        exact List.mem_filterMap.2 ⟨o, List.mem_of_mem_drop ho, hq⟩
      cases hb : body st x with
      | error e' => rfl
      | ok st' =>
        simp only [Except.bind]
        rw [forSet_eq keep f (s + n + 1) st' (keep st x st' h mx hb)
          (by rw [List.length_drop] at b; omega) (by omega)]
        rw [List.drop_drop]
        rfl

omit lk in
theorem overSet_eq {σ : Type} {cur : σ → SetT K} {body : σ → K → Except Err σ} {st : σ}
    (keep : ∀ s x s', cur s = cur st → x ∈ elems (cur st) → body s x = .ok s' → cur s' = cur st) :
    overSet cur body st = (eachK body st (elems (cur st))).map fun st => (st, true) := by
  unfold overSet
  rw [forSet_eq keep _ 0 st rfl (Nat.zero_le _) (by omega)]
  rfl

omit lk in
/-- A loop over an argument that is another object, or not changed by the body. -/
theorem forArg_eq {σ : Type} {h : Heap K} {i : Nat} {left : σ → SetT K} {body : σ → K → Except Err σ} {st : σ} {a : Arg K}
    (hl : left st = h i)
    (keep : a.is i = true → ∀ s x s', left s = h i → x ∈ elems (h i) → body s x = .ok s' → left s' = h i) :
    forArg h i left body st a = (eachK body st (a.items h)).map fun st => (st, true) := by
  cases a with
  | iter l => rfl
  | set j =>
    unfold forArg
    by_cases c : j = i
    · subst c
      simp only [if_true]
      have k := keep (by simp [Arg.is])
      rw [overSet_eq (by rw [hl]; exact k), hl]
      rfl
    · simp only [if_neg c]
      rw [overSet_eq (fun _ _ _ _ _ _ => rfl)]
      rfl

omit lk in
/-- The same for a state that may differ from the heap, if the argument is another object. -/
theorem forArg_other {σ : Type} {h : Heap K} {i : Nat} {left : σ → SetT K} {body : σ → K → Except Err σ} {st : σ}
    {a : Arg K} (ne : a.is i = false) :
    forArg h i left body st a = (eachK body st (a.items h)).map fun st => (st, true) := by
  cases a with
  | iter l => rfl
  | set j =>
    have c : j ≠ i := by simpa [Arg.is] using ne
    unfold forArg
    simp only [if_neg c]
    rw [overSet_eq (fun _ _ _ _ _ _ => rfl)]
    rfl

/-- Adding what is there changes nothing. -/
theorem addC_mem {t : SetT K} (i : Inv ko t) {k : K} (h : Mem ko t k) : addC ko (typedHash ko) t k = .ok t := by
  obtain ⟨b, e, m⟩ := hasC_ok lk i k
  unfold addC
  rw [e, m.2 h]; rfl

theorem each_self_add {t : SetT K} (i : Inv ko t) : ∀ (ks : List K), (∀ k ∈ ks, Mem ko t k) →
    eachK (addC ko (typedHash ko)) t ks = .ok t
  | [], _ => rfl
  | k :: ks, h => by
    simp only [eachK, addC_mem lk i (h k (by simp)), Except.bind]
    exact each_self_add i ks (fun k hk => h k (by simp [hk]))

omit lk in
/-- What membership in an argument means while object `i` is `t` and the others are as in the heap. -/
def inNow (ko : KeyOps K) (h : Heap K) (i : Nat) (t : SetT K) (x : K) (a : Arg K) : Prop :=
  ∃ k ∈ a.items (fun j => if j = i then t else h j), ko.eq x k = true

omit lk in
theorem items_other {h : Heap K} {i : Nat} {t : SetT K} {a : Arg K} (ne : a.is i = false) :
    a.items (fun j => if j = i then t else h j) = a.items h := by
  cases a with
  | iter l => rfl
  | set j =>
    have c : j ≠ i := by simpa [Arg.is] using ne
    simp only [Arg.items, if_neg c]

/-- `update` with one argument, where the set has already been changed from `h i` to `t`. -/
theorem updateC_ok {h : Heap K} (hi : ∀ j, Inv ko (h j)) {i : Nat} {t : SetT K} (it : Inv ko t) (a : Arg K)
    (hc : t.count + (a.items h).length ≤ 2 ^ 28) (sub : ∀ x, Mem ko (h i) x → Mem ko t x) :
    ∃ t', updateC ko (typedHash ko) h i t a = .ok (t', true) ∧ Inv ko t' ∧ t'.count ≤ t.count + (a.items h).length ∧
      ∀ x, Mem ko t' x ↔ Mem ko t x ∨ ∃ k ∈ a.items h, ko.eq x k = true := by
  unfold updateC
  by_cases c : a.is i = true
  · cases a with
    | iter l => cases c
    | set j =>
      have : j = i := by simpa [Arg.is] using c
      subst this
      refine ⟨t, ?_, it, by omega, fun x => ⟨Or.inl, fun h' => h'.elim id fun ⟨k, hk, q⟩ => ?_⟩⟩
      · unfold forArg
        simp only [if_true]
        rw [overSet_eq]
        · show (eachK _ t (elems t)).map _ = _
          rw [each_self_add lk it _ (fun k hk => mem_of_elem lk hk)]; rfl
        · intro s x s' hs hx hb
          have hs : s = t := hs
          subst hs
          rw [addC_mem lk it (mem_of_elem lk hx)] at hb
          injection hb with hb
          exact hb.symm
      · exact sub x ⟨k, hk, q⟩
  · have c : a.is i = false := by simpa using c
    rw [forArg_other c]
    obtain ⟨t', e, i', c', m⟩ := eachAdd_ok lk (a.items h) it hc
    exact ⟨t', by rw [e]; rfl, i', c', m⟩

theorem updateAll_ok {h : Heap K} (hi : ∀ j, Inv ko (h j)) (i : Nat) : ∀ (args : List (Arg K)) (t : SetT K), Inv ko t →
    t.count + (args.map fun a => (a.items h).length).sum ≤ 2 ^ 28 → (∀ x, Mem ko (h i) x → Mem ko t x) →
    ∃ t', forArgs (updateC ko (typedHash ko) h i) t args = .ok (t', true) ∧ Inv ko t' ∧
      ∀ x, Mem ko t' x ↔ Mem ko t x ∨ ∃ a ∈ args, inArg ko (store ko h) x a
  | [], t, it, _, _ => ⟨t, rfl, it, by simp⟩
  | a :: as, t, it, hc, sub => by
    simp only [List.map_cons, List.sum_cons] at hc
    obtain ⟨t1, e1, i1, c1, m1⟩ := updateC_ok lk hi it a (by omega) sub
    obtain ⟨t2, e2, i2, m2⟩ := updateAll_ok hi i as t1 i1 (by omega) (fun x m => (m1 x).2 (Or.inl (sub x m)))
    refine ⟨t2, by simp only [forArgs, e1, Except.bind, if_true, e2], i2, fun x => ?_⟩
    rw [m2, m1, ← inArg_items]
    simp [or_assoc]

theorem diffUpdateAll_okC {h : Heap K} (i : Nat) : ∀ (args : List (Arg K)) (t : SetT K), Inv ko t → t.count ≤ 2 ^ 28 →
    (∀ a ∈ args, a.is i = false) →
    ∃ t', forArgs (diffUpdateC ko (typedHash ko) h i) t args = .ok (t', true) ∧ Inv ko t' ∧
      ∀ x, Mem ko t' x ↔ Mem ko t x ∧ ∀ a ∈ args, ¬inArg ko (store ko h) x a
  | [], t, it, _, _ => ⟨t, rfl, it, by simp⟩
  | a :: as, t, it, hc, ne => by
    obtain ⟨t1, e1, i1, c1, m1⟩ := eachDiscard_ok lk (a.items h) it hc
    obtain ⟨t2, e2, i2, m2⟩ := diffUpdateAll_okC (h := h) i as t1 i1 (by omega) (fun b hb => ne b (by simp [hb]))
    have : diffUpdateC ko (typedHash ko) h i t a = .ok (t1, true) := by
      unfold diffUpdateC
      rw [forArg_other (ne a (by simp)), e1]; rfl
    refine ⟨t2, by simp only [forArgs, this, Except.bind, if_true, e2], i2, fun x => ?_⟩
    rw [m2, m1, ← inArg_items]
    simp [and_assoc]

theorem eachRetain_ok {s : SetT K} (is : Inv ko s) (ks : List K) {t : SetT K} (i : Inv ko t)
    (hc : t.count + ks.length ≤ 2 ^ 28) :
    ∃ t', eachK (fun left k => (hasC ko (typedHash ko) s k).bind fun b =>
        if b then addC ko (typedHash ko) left k else .ok left) t ks = .ok t' ∧ Inv ko t' ∧
      t'.count ≤ t.count + ks.length ∧
      ∀ x, Mem ko t' x ↔ Mem ko t x ∨ (Mem ko s x ∧ ∃ k ∈ ks, ko.eq x k = true) := by
  obtain ⟨t', a, b, c, d⟩ := eachK_ok lk (f := fun left k => (hasC ko (typedHash ko) s k).bind fun b =>
        if b then addC ko (typedHash ko) left k else .ok left)
    (G := fun k x P => P ∨ (Mem ko s x ∧ ko.eq x k = true)) (by
      intro t k i hc
      obtain ⟨b, eb, mb⟩ := hasC_ok lk is k
      rw [eb]
      cases b with
      | false =>
        have nk : ¬Mem ko s k := fun h => by have := mb.2 h; cases this
        exact ⟨t, rfl, i, by omega, fun x => ⟨Or.inl, fun h => h.elim id fun h =>
          absurd (h.1.congr lk (lk.symm _ _ h.2)) nk⟩⟩
      | true =>
        obtain ⟨t1, e1, i1, c1, m1⟩ := addC_ok lk i k hc
        refine ⟨t1, e1, i1, c1, fun x => ?_⟩
        rw [m1]
        exact ⟨fun h => h.elim Or.inl fun q => Or.inr ⟨(mb.1 rfl).congr lk q, q⟩,
          fun h => h.elim Or.inl fun q => Or.inr q.2⟩) ks t i hc
  refine ⟨t', a, b, c, fun x => ?_⟩
  rw [d, fold_or (fun k => Mem ko s x ∧ ko.eq x k = true)]
  constructor
  · rintro (h | ⟨k, hk, q, r⟩)
    · exact Or.inl h
    · exact Or.inr ⟨q, k, hk, r⟩
  · rintro (h | ⟨q, k, hk, r⟩)
    · exact Or.inl h
    · exact Or.inr ⟨k, hk, q, r⟩

theorem interUpdateAll_okC {h : Heap K} (i : Nat) : ∀ (args : List (Arg K)) (t : SetT K), Inv ko t →
    (∀ a ∈ args, (a.items h).length ≤ 2 ^ 28) → (∀ a ∈ args, a.is i = false) →
    ∃ t', forArgs (interUpdateC ko (typedHash ko) h i) t args = .ok (t', true) ∧ Inv ko t' ∧
      ∀ x, Mem ko t' x ↔ Mem ko t x ∧ ∀ a ∈ args, inArg ko (store ko h) x a
  | [], t, it, _, _ => ⟨t, rfl, it, by simp⟩
  | a :: as, t, it, hc, ne => by
    obtain ⟨ci, ce⟩ := clearC_ok it
    have cc : (clearC t).count = 0 := rfl
    have cm : ∀ x, ¬Mem ko (clearC t) x := by
      rintro x ⟨y, hy, _⟩
      unfold elems at hy
      rw [ce] at hy; cases hy
    obtain ⟨t1, e1, i1, c1, m1⟩ := eachRetain_ok lk (copyT_ok it).1 (a.items h) ci (by
      rw [cc]; have := hc a (by simp); omega)
    obtain ⟨t2, e2, i2, m2⟩ := interUpdateAll_okC i as t1 i1 (fun b hb => hc b (by simp [hb]))
      (fun b hb => ne b (by simp [hb]))
    have : interUpdateC ko (typedHash ko) h i t a = .ok (t1, true) := by
      unfold interUpdateC
      rw [forArg_other (ne a (by simp)), e1]; rfl
    refine ⟨t2, by simp only [forArgs, this, Except.bind, if_true, e2], i2, fun x => ?_⟩
    rw [m2, m1, ← inArg_items, mem_copyT it]
    simp [cm, and_assoc]

/-- The loop of `symmetric_difference_update`. -/
theorem symDiffLoop_ok {t : SetT K} : ∀ (ks : List K) (done : List K) (st : SetT K × SetT K × SetT K),
    Inv ko st.1 → Inv ko st.2.1 → Inv ko st.2.2 →
    st.1.count + ks.length ≤ 2 ^ 28 → st.2.1.count + ks.length ≤ 2 ^ 28 → st.2.2.count + ks.length ≤ 2 ^ 28 →
    (∀ x, Mem ko st.1 x ↔ Mem ko t x ∨ ∃ k ∈ done, ko.eq x k = true) →
    (∀ x, Mem ko st.2.2 x ↔ ¬Mem ko t x ∧ ∃ k ∈ done, ko.eq x k = true) →
    (∀ x, (Mem ko t x ∧ ∃ k ∈ done, ko.eq x k = true) → Mem ko st.2.1 x) →
    (∀ x, Mem ko st.2.1 x → ∃ k ∈ done, ko.eq x k = true) →
    ∃ st', eachK (symDiffBody ko (typedHash ko)) st ks = .ok st' ∧ Inv ko st'.1 ∧ Inv ko st'.2.1 ∧ Inv ko st'.2.2 ∧
      st'.1.count ≤ st.1.count + ks.length ∧ st'.2.2.count ≤ st.2.2.count + ks.length ∧
      (∀ x, Mem ko st'.1 x ↔ Mem ko t x ∨ ∃ k ∈ done ++ ks, ko.eq x k = true) ∧
      (∀ x, Mem ko st'.2.2 x ↔ ¬Mem ko t x ∧ ∃ k ∈ done ++ ks, ko.eq x k = true) ∧
      (∀ x, (Mem ko t x ∧ ∃ k ∈ done ++ ks, ko.eq x k = true) → Mem ko st'.2.1 x) ∧
      (∀ x, Mem ko st'.2.1 x → ∃ k ∈ done ++ ks, ko.eq x k = true)
  | [], done, st, i1, i2, i3, _, _, _, m1, m2, m3, m4 => by
    simp only [List.append_nil]
    exact ⟨st, rfl, i1, i2, i3, by simp, by simp, m1, m2, m3, m4⟩
  | k :: ks, done, (L, rm, ad), i1, i2, i3, c1, c2, c3, m1, m2, m3, m4 => by
    simp only [List.length_cons] at c1 c2 c3
    simp only at i1 i2 i3 m1 m2 m3 m4
    have ex : ∀ x, (∃ y ∈ done ++ [k], ko.eq x y = true) ↔ (∃ y ∈ done, ko.eq x y = true) ∨ ko.eq x k = true := by
      intro x
      constructor
      · rintro ⟨y, hy, q⟩
        rcases List.mem_append.1 hy with hy | hy
        · exact Or.inl ⟨y, hy, q⟩
        · rw [List.mem_singleton.1 hy] at q; exact Or.inr q
      · rintro (⟨y, hy, q⟩ | q)
        · exact ⟨y, by simp [hy], q⟩
        · exact ⟨k, by simp, q⟩
    obtain ⟨b, eb, mb⟩ := hasC_ok lk i1 k
    have dc : ∀ x, ko.eq x k = true → (∃ y ∈ done, ko.eq k y = true) → ∃ y ∈ done, ko.eq x y = true :=
      fun x q ⟨y, hy, q'⟩ => ⟨y, hy, lk.trans _ _ _ q q'⟩
    obtain ⟨st1, e1, j1, j2, j3, d1, d2, d3, n1, n2, n3, n4⟩ : ∃ st1, symDiffBody ko (typedHash ko) (L, rm, ad) k = .ok st1 ∧
        Inv ko st1.1 ∧ Inv ko st1.2.1 ∧ Inv ko st1.2.2 ∧ st1.1.count ≤ L.count + 1 ∧ st1.2.1.count ≤ rm.count + 1 ∧
        st1.2.2.count ≤ ad.count + 1 ∧
        (∀ x, Mem ko st1.1 x ↔ Mem ko t x ∨ ∃ y ∈ done ++ [k], ko.eq x y = true) ∧
        (∀ x, Mem ko st1.2.2 x ↔ ¬Mem ko t x ∧ ∃ y ∈ done ++ [k], ko.eq x y = true) ∧
        (∀ x, (Mem ko t x ∧ ∃ y ∈ done ++ [k], ko.eq x y = true) → Mem ko st1.2.1 x) ∧
        (∀ x, Mem ko st1.2.1 x → ∃ y ∈ done ++ [k], ko.eq x y = true) := by
      unfold symDiffBody
      simp only [eb, Except.bind]
      cases b with
      | true =>
        obtain ⟨rm', f1, f2, f3, f4⟩ := addC_ok lk i2 k (by omega)
        have mk := (m1 k).1 (mb.1 rfl)
        refine ⟨(L, rm', ad), by simp only [if_true, f1]; rfl, i1, f2, i3, Nat.le_succ _, f3, Nat.le_succ _, ?_, ?_, ?_, ?_⟩
        · intro x
          rw [ex, m1]
          constructor
          · rintro (h | h)
            · exact Or.inl h
            · exact Or.inr (Or.inl h)
          · rintro (h | h | h)
            · exact Or.inl h
            · exact Or.inr h
            · rcases mk with q | q
              · exact Or.inl (q.congr lk h)
              · exact Or.inr (dc x h q)
        · intro x
          rw [ex, m2]
          constructor
          · rintro ⟨h, q⟩; exact ⟨h, Or.inl q⟩
          · rintro ⟨h, q | q⟩
            · exact ⟨h, q⟩
            · rcases mk with r | r
              · exact absurd (r.congr lk q) h
              · exact ⟨h, dc x q r⟩
        · rintro x ⟨h, q⟩
          rw [f4]
          rcases (ex x).1 q with q | q
          · exact Or.inl (m3 x ⟨h, q⟩)
          · exact Or.inr q
        · intro x h
          rw [ex]
          rcases (f4 x).1 h with h | h
          · exact Or.inl (m4 x h)
          · exact Or.inr h
      | false =>
        obtain ⟨ad', f1, f2, f3, f4⟩ := addC_ok lk i3 k (by omega)
        obtain ⟨L', g1, g2, g3, g4⟩ := addC_ok lk i1 k (by omega)
        have nk : ¬Mem ko L k := fun h => by have := mb.2 h; cases this
        have nt : ∀ x, ko.eq x k = true → ¬Mem ko t x := fun x q h =>
          nk ((m1 k).2 (Or.inl (h.congr lk (lk.symm _ _ q))))
        refine ⟨(L', rm, ad'), by simp [f1, g1, Except.map], g2, i2, f2, g3, Nat.le_succ _, f3, ?_, ?_, ?_, ?_⟩
        · intro x
          show Mem ko L' x ↔ _
          rw [g4, m1, ex, or_assoc]
        · intro x
          show Mem ko ad' x ↔ _
          rw [f4, m2, ex]
          constructor
          · rintro (⟨h, q⟩ | q)
            · exact ⟨h, Or.inl q⟩
            · exact ⟨nt x q, Or.inr q⟩
          · rintro ⟨h, q | q⟩
            · exact Or.inl ⟨h, q⟩
            · exact Or.inr q
        · rintro x ⟨h, q⟩
          rcases (ex x).1 q with q | q
          · exact m3 x ⟨h, q⟩
          · exact absurd h (nt x q)
        · intro x h
          rw [ex]
          exact Or.inl (m4 x h)
    obtain ⟨st2, e2, z1, z2, z3, z4, z5, z6, z7, z8, z9⟩ := symDiffLoop_ok ks (done ++ [k]) st1 j1 j2 j3
      (by omega) (by omega) (by omega) n1 n2 n3 n4
    have ap : done ++ [k] ++ ks = done ++ k :: ks := by simp
    rw [ap] at z6 z7 z8 z9
    exact ⟨st2, by simp only [eachK, e1, Except.bind, e2], z1, z2, z3, by simp only [List.length_cons]; omega,
      by simp only [List.length_cons]; omega, z6, z7, z8, z9⟩

theorem symDiffUpdateC_ok {h : Heap K} (hi : ∀ j, Inv ko (h j)) (i : Nat) (a : Arg K)
    (hc : (h i).count + (a.items h).length ≤ 2 ^ 27) :
    ∃ t', symDiffUpdateC ko (typedHash ko) h i (h i) a = .ok (t', true) ∧ Inv ko t' ∧
      ∀ x, Mem ko t' x ↔ (Mem ko (h i) x ∧ ¬inArg ko (store ko h) x a) ∨ (¬Mem ko (h i) x ∧ inArg ko (store ko h) x a) := by
  have z : ({} : SetT K).count = 0 := rfl
  obtain ⟨st, e, i1, i2, i3, c1, c2, m1, m2, m3, m4⟩ := symDiffLoop_ok lk (t := h i) (a.items h) [] (h i, {}, {}) (hi i)
    (inv_empty ko) (inv_empty ko) (by show (h i).count + _ ≤ _; omega) (by show 0 + _ ≤ _; omega)
    (by show 0 + _ ≤ _; omega) (by simp) (by simp [not_mem_empty]) (by simp) (by
      intro x hx; exact absurd hx (not_mem_empty x))
  simp only [List.nil_append] at m1 m2 m3 m4
  simp only [z] at c1 c2
  obtain ⟨t1, e1, j1, d1, n1⟩ := eachDiscard_ok lk (elems st.2.1) i1 (by omega)
  obtain ⟨t2, e2, j2, d2, n2⟩ := eachAdd_ok lk (elems st.2.2) j1 (by rw [← count_eq i3]; omega)
  have lp : forArg h i (·.1) (symDiffBody ko (typedHash ko)) (h i, {}, {}) a = .ok (st, true) := by
    rw [forArg_eq (left := fun st : SetT K × SetT K × SetT K => st.1) rfl ?_, e]
    · rfl
    · intro _ s x s' hs hx hb
      unfold symDiffBody at hb
      have mx : Mem ko s.1 x := by rw [hs]; exact mem_of_elem lk hx
      obtain ⟨b, eb, mb⟩ := hasC_ok lk (show Inv ko s.1 by rw [hs]; exact hi i) x
      rw [eb, mb.2 mx] at hb
      simp only [Except.bind, if_true] at hb
      cases hA : addC ko (typedHash ko) s.2.1 x with
      | error e => rw [hA] at hb; cases hb
      | ok rm =>
        rw [hA] at hb
        injection hb with hb
        rw [← hb]; exact hs
  refine ⟨t2, ?_, j2, fun x => ?_⟩
  · unfold symDiffUpdateC
    rw [lp]
    simp only [Except.bind, if_true, e1, e2]
    rfl
  · rw [n2, n1, inArg_items]
    show (_ ∧ ¬Mem ko st.2.1 x) ∨ Mem ko st.2.2 x ↔ _
    rw [m1, m2]
    have a3 := m3 x
    have a4 := m4 x
    revert a3 a4
    generalize (∃ k ∈ a.items h, ko.eq x k = true) = B
    generalize Mem ko (h i) x = A
    generalize Mem ko st.2.1 x = C
    intro a3 a4
    by_cases h1 : A <;> by_cases h2 : B <;> by_cases h3 : C <;> simp_all

/-! ### Tests -/

theorem allIn_ok {t : SetT K} (i : Inv ko t) (ks : List K) :
    ∃ b, allIn ko (typedHash ko) t ks = .ok b ∧ (b = true ↔ ∀ x, (∃ k ∈ ks, ko.eq x k = true) → Mem ko t x) := by
  have : ∀ ks, allIn ko (typedHash ko) t ks = isSuperset ko t ks := by
    intro ks
    induction ks with
    | nil => rfl
    | cons k ks ih => simp only [allIn, isSuperset, hasC_eq lk i, ih]
  rw [this]; exact superset_ok lk i ks

theorem disjointC_ok {t : SetT K} (i : Inv ko t) (ks : List K) :
    ∃ b, disjointC ko (typedHash ko) t ks = .ok b ∧ (b = true ↔ ∀ x, ¬(Mem ko t x ∧ ∃ k ∈ ks, ko.eq x k = true)) := by
  have : ∀ ks, disjointC ko (typedHash ko) t ks = isDisjoint ko t ks := by
    intro ks
    induction ks with
    | nil => rfl
    | cons k ks ih => simp only [disjointC, isDisjoint, hasC_eq lk i, ih]
  rw [this]; exact disjoint_ok lk i ks

theorem shadowLoop_eq {t : SetT K} (i : Inv ko t) : ∀ (ks : List K) (s : SetT K), Inv ko s → s.count + ks.length ≤ 2 ^ 28 →
    shadowLoop ko (typedHash ko) t s ks = subsetLoop ko t s ks
  | [], _, _, _ => rfl
  | k :: ks, s, is, hc => by
    rw [List.length_cons] at hc
    obtain ⟨b, eb, _⟩ := has_ok lk i k
    have ae : addC ko (typedHash ko) s k = addElt ko s k := by
      unfold addC addElt; rw [hasC_eq lk is]; simp only [insertKeyC_eq]
    obtain ⟨s', e1, i1, c1, _⟩ := addElt_ok lk is k (by omega)
    simp only [shadowLoop, subsetLoop, hasC_eq lk i, eb, Except.bind, ae, e1]
    rw [shadowLoop_eq i ks s is (by omega), shadowLoop_eq i ks s' i1 (by omega)]

theorem subsetC_ok {h : Heap K} (hi : ∀ j, Inv ko (h j)) {l : SetT K} (il : Inv ko l) (a : Arg K)
    (hc : l.count + (a.items h).length ≤ 2 ^ 28) :
    ∃ b, subsetC ko (typedHash ko) h l a = .ok b ∧ (b = true ↔ ∀ x, Mem ko l x → inArg ko (store ko h) x a) := by
  cases a with
  | set j => exact allIn_ok lk (hi j) (elems l)
  | iter ks =>
    have : subsetC ko (typedHash ko) h l (.iter ks) = isSubset ko l ks := by
      show (if l.count = 0 then .ok true else shadowLoop ko (typedHash ko) l {} ks) = _
      unfold isSubset
      rw [shadowLoop_eq lk il ks {} (inv_empty ko) (by
        have : (Arg.items h (.iter ks)).length = ks.length := rfl
        show 0 + _ ≤ _; omega)]
    rw [this]
    obtain ⟨b, e1, e2⟩ := subset_ok lk il (by omega) ks
    exact ⟨b, e1, e2⟩

theorem cmpC_ok {l r : SetT K} (il : Inv ko l) (ir : Inv ko r) (c : Rel) :
    ∃ b, cmpC ko (typedHash ko) l r c = .ok b ∧ (b = true ↔ rel (Mem ko l) (Mem ko r) c) := by
  obtain ⟨b1, s1, q1⟩ := allIn_ok lk ir (elems l)
  obtain ⟨b2, s2, q2⟩ := allIn_ok lk il (elems r)
  have q1 : b1 = true ↔ ∀ x, Mem ko l x → Mem ko r x := q1
  have q2 : b2 = true ↔ ∀ x, Mem ko r x → Mem ko l x := q2
  have w1 := count_le lk il ir
  have w2 := count_le lk ir il
  have both : (∀ x, Mem ko l x ↔ Mem ko r x) ↔ b1 = true ∧ b2 = true := by
    rw [q1, q2]
    exact ⟨fun h => ⟨fun x => (h x).1, fun x => (h x).2⟩, fun h x => ⟨h.1 x, h.2 x⟩⟩
  rw [← q1] at w1
  rw [← q2] at w2
  have u1 : b1 = true → l.count ≤ r.count := fun h => (w1 h).1
  have u2 : b2 = true → r.count ≤ l.count := fun h => (w2 h).1
  have v1 : b1 = true → l.count = r.count → b2 = true := fun h e => q2.2 ((w1 h).2 e)
  have v2 : b2 = true → r.count = l.count → b1 = true := fun h e => q1.2 ((w2 h).2 e)
  unfold rel cmpC
  cases c with
  | eq =>
    simp only [s1, both]
    split
    · next h => exact ⟨b1, rfl, fun e => ⟨e, v1 e h⟩, fun e => e.1⟩
    · next h => exact ⟨false, rfl, by simp, fun ⟨e, f⟩ => absurd (Nat.le_antisymm (u1 e) (u2 f)) h⟩
  | ne =>
    simp only [s2, both]
    split
    · next h => exact ⟨true, rfl, fun _ ⟨e, f⟩ => h (Nat.le_antisymm (u1 e) (u2 f)), fun _ => rfl⟩
    · next h =>
      have h : l.count = r.count := Classical.not_not.1 h
      refine ⟨!b2, rfl, ?_⟩
      cases b2 with
      | false => simp
      | true => simp [v2 rfl h.symm]
  | lt =>
    simp only [s1]
    refine ⟨b1 && decide (l.count < r.count), rfl, ?_⟩
    rw [Bool.and_eq_true, decide_eq_true_eq, ← q1, ← q2]
    constructor
    · rintro ⟨e, f⟩; exact ⟨e, fun g => by have := u2 g; omega⟩
    · rintro ⟨e, f⟩
      refine ⟨e, ?_⟩
      have := u1 e
      rcases Nat.lt_or_ge l.count r.count with g | g
      · exact g
      · exact absurd (v1 e (by omega)) f
  | le => exact ⟨b1, s1, q1⟩
  | gt =>
    simp only [s2]
    refine ⟨b2 && decide (r.count < l.count), rfl, ?_⟩
    rw [Bool.and_eq_true, decide_eq_true_eq, ← q1, ← q2]
    constructor
    · rintro ⟨e, f⟩; exact ⟨e, fun g => by have := u1 g; omega⟩
    · rintro ⟨e, f⟩
      refine ⟨e, ?_⟩
      have := u2 e
      rcases Nat.lt_or_ge r.count l.count with g | g
      · exact g
      · exact absurd (v2 e (by omega)) f
  | ge => exact ⟨b2, s2, q2⟩

theorem multipleC_ok {h : Heap K} {op : SetT K → SetT K → Except Err (SetT K)} {f : Prop → Prop → Prop}
    (step : ∀ (l r : SetT K), Inv ko l → Inv ko r → l.count + r.count ≤ 2 ^ 28 →
      ∃ t, op l r = .ok t ∧ Inv ko t ∧ t.count ≤ l.count + r.count ∧ ∀ x, Mem ko t x ↔ f (Mem ko l x) (Mem ko r x))
    (hi : ∀ j, Inv ko (h j)) : ∀ (js : List Nat) (r : Sum Nat (SetT K)), Inv ko (r.elim h id) →
      (r.elim h id).count + (js.map fun j => (elems (h j)).length).sum ≤ 2 ^ 28 →
      ∃ t, multipleC op h r (js.map Arg.set) = .ok (.ok t) ∧ Inv ko (t.elim h id) ∧
        ∀ x, Mem ko (t.elim h id) x ↔ js.foldl (fun Q j => f Q (Mem ko (h j) x)) (Mem ko (r.elim h id) x)
  | [], r, ir, _ => ⟨r, rfl, ir, fun _ => Iff.rfl⟩
  | j :: js, r, ir, hc => by
    simp only [List.map_cons, List.sum_cons] at hc
    rw [← count_eq (hi j)] at hc
    obtain ⟨t1, e1, i1, c1, m1⟩ := step _ _ ir (hi j) (by omega)
    obtain ⟨t2, e2, i2, m2⟩ := multipleC_ok step hi js (.inr t1) i1 (by show t1.count + _ ≤ _; omega)
    refine ⟨t2, by simp only [List.map_cons, multipleC, e1, Except.bind, e2], i2, fun x => ?_⟩
    rw [m2]
    have : Mem ko t1 x = f (Mem ko (r.elim h id) x) (Mem ko (h j) x) := propext (m1 x)
    show js.foldl _ (Mem ko t1 x) ↔ _
    rw [this]; rfl

/-! ### Programs -/

end

/-- The calls by compiled code whose claim is true of the code.  `union`, `intersection` and `difference` need at least
one argument (`union_of_nothing_is_the_set_itself`) and only sets (`union_with_a_list_raises`);
`intersection_update` and `difference_update` must not be given the set itself (`intersection_update_with_itself`,
`difference_update_with_itself`); and `symmetric_difference` with a list needs a list that is not much longer than the
set, and if it is much shorter, one without repetitions (`symmetric_difference_with_a_list`). -/
def SoundC (ko : KeyOps K) (h : Heap K) : SOp K → Prop
  | .union _ _ args | .inter _ _ args | .diff _ _ args => args ≠ [] ∧ ∀ a ∈ args, ∃ j, a = .set j
  | .interUpdate i args | .diffUpdate i args => ∀ a ∈ args, a.is i = false
  | .symDiff _ i (.iter l) => l.length ≤ 2 * (elems (h i)).length ∧
      ((elems (h i)).length > 2 * l.length → l.Pairwise fun a b => ko.eq a b = false)
  | _ => True

theorem le_sum {n : Nat} : ∀ {l : List Nat}, n ∈ l → n ≤ l.sum
  | m :: l, h => by
    rw [List.sum_cons]
    rcases List.mem_cons.1 h with rfl | h
    · omega
    · have := le_sum h; omega

theorem sets_of {args : List (Arg K)} (h : ∀ a ∈ args, ∃ j, a = .set j) : ∃ js : List Nat, args = js.map Arg.set := by
  induction args with
  | nil => exact ⟨[], rfl⟩
  | cons a as ih =>
    obtain ⟨j, rfl⟩ := h a (by simp)
    obtain ⟨js, rfl⟩ := ih (fun b hb => h b (by simp [hb]))
    exact ⟨j :: js, rfl⟩

theorem putNew_ok {ko : KeyOps K} {h : Heap K} (hi : ∀ i, Inv ko (h i)) {d : Nat}
    {r : Except Err (Except Err (Sum Nat (SetT K)))} {P : K → Prop}
    (e : ∃ t, r = .ok (.ok t) ∧ Inv ko (t.elim h id) ∧ ∀ x, Mem ko (t.elim h id) x ↔ P x) :
    ∃ h' r', putNew h d r = .ok (h', r') ∧ (∀ i, Inv ko (h' i)) ∧
      (r' = .ok .unit ∧ Becomes (store ko h) (store ko h') d P) := by
  obtain ⟨t, rfl, it, m⟩ := e
  refine ⟨_, _, rfl, ?_, rfl, becomes_put m⟩
  intro j
  show Inv ko (if j = d then t.elim h id else h j)
  split
  · exact it
  · exact hi j

theorem putC_ok {ko : KeyOps K} {h : Heap K} (hi : ∀ i, Inv ko (h i)) {d : Nat} {r : Except Err (SetT K × Bool)}
    {P : K → Prop} (e : ∃ t, r = .ok (t, true) ∧ Inv ko t ∧ ∀ x, Mem ko t x ↔ P x) :
    ∃ h' r', putC h d r = .ok (h', r') ∧ (∀ i, Inv ko (h' i)) ∧
      (r' = .ok .unit ∧ Becomes (store ko h) (store ko h') d P) := by
  obtain ⟨t, rfl, it, m⟩ := e
  refine ⟨_, _, rfl, ?_, rfl, becomes_put m⟩
  intro j
  show Inv ko (if j = d then t else h j)
  split
  · exact it
  · exact hi j

theorem sum_sets (h : Heap K) (js : List Nat) :
    ((js.map Arg.set).map fun a => (Arg.items h a).length).sum = (js.map fun j => (elems (h j)).length).sum := by
  rw [List.map_map]; rfl

/-- One call made by compiled code. -/
theorem stepSC_ok {ko : KeyOps K} (lk : LawfulElt ko) {h : Heap K} (hi : ∀ i, Inv ko (h i)) (op : SOp K)
    (hs : SoundC ko h op) (hc : cost h op ≤ 2 ^ 27) :
    ∃ h' r, stepSC ko (typedHash ko) h op = .ok (h', r) ∧ (∀ i, Inv ko (h' i)) ∧
      post ko (store ko h) op r (store ko h') := by
  have put' : ∀ {d : Nat} {r : Except Err (SetT K)} {P : K → Prop}, (∃ t, r = .ok t ∧ Inv ko t ∧ ∀ x, Mem ko t x ↔ P x) →
      ∃ h' r', put h d r = .ok (h', r') ∧ (∀ i, Inv ko (h' i)) ∧
        (r' = .ok .unit ∧ Becomes (store ko h) (store ko h') d P) := by
    intro d r P e
    obtain ⟨h', a, b, c⟩ := put_ok hi (d := d) e
    exact ⟨h', _, a, b, rfl, c⟩
  have ans' : ∀ {r : Except Err Bool} {P : Prop}, (∃ b, r = .ok b ∧ (b = true ↔ P)) →
      ∃ h' r', ans h r = .ok (h', r') ∧ (∀ i, Inv ko (h' i)) ∧ Says (store ko h) (store ko h') r' P := by
    intro r P e
    obtain ⟨r', a, b⟩ := ans_ok (h := h) (ko := ko) e
    exact ⟨h, r', a, hi, b⟩
  cases op with
  | add i k =>
    simp only [cost, ← count_eq (hi i)] at hc
    obtain ⟨t, a, b, _, c⟩ := addC_ok lk (hi i) k (by omega)
    exact put' ⟨t, a, b, c⟩
  | discard i k =>
    simp only [cost, ← count_eq (hi i)] at hc
    obtain ⟨t, a, b, _, _, c⟩ := discardC_ok lk (hi i) k (by omega)
    exact put' ⟨t, a, b, c⟩
  | remove i k =>
    simp only [cost, ← count_eq (hi i)] at hc
    have e : stepSC ko (typedHash ko) h (.remove i k) = stepS ko h (.remove i k) := by
      simp only [stepSC, stepS, deleteKeyC_eq lk.toLawfulKey (hi i) k (show (h i).count ≤ 2 ^ 28 by omega)]
      rfl
    rw [e]
    exact stepS_ok lk hi (.remove i k) rfl (by simp only [cost, ← count_eq (hi i)]; omega)
  | pop i =>
    simp only [cost, ← count_eq (hi i)] at hc
    have e : stepSC ko (typedHash ko) h (.pop i) = stepS ko h (.pop i) := by
      simp only [stepSC, stepS, popC, pop]
      cases he : elems (h i) with
      | nil => rfl
      | cons k ks =>
        obtain ⟨t, f, a, b, _, q, e, c⟩ := discard_ok lk (hi i) k (by omega)
        have mk : Mem ko (h i) k := mem_of_elem lk (by rw [he]; simp)
        have ft : f = true := q.2 mk
        subst ft
        have a' : deleteKey ko (h i) k = .ok (t, true) := a
        simp only [discardC, deleteKeyC_eq lk.toLawfulKey (hi i) k (show (h i).count ≤ 2 ^ 28 by omega), a, a', Except.bind, if_true]
        rfl
    rw [e]
    exact stepS_ok lk hi (.pop i) rfl (by simp only [cost, ← count_eq (hi i)]; omega)
  | clear i =>
    refine put' ⟨_, rfl, (clearC_ok (hi i)).1, fun x => iff_of_false ?_ id⟩
    rintro ⟨y, hy, _⟩
    unfold elems at hy
    rw [(clearC_ok (hi i)).2] at hy; cases hy
  | contains i k => exact ans' (hasC_ok lk (hi i) k)
  | len i => exact stepS_ok lk hi (.len i) rfl (by omega)
  | items i => exact stepS_ok lk hi (.items i) rfl (by omega)
  | copy d i => exact put' ⟨_, rfl, (copyT_ok (hi i)).1, fun x => mem_copyT (hi i) x⟩
  | make d l =>
    simp only [cost] at hc
    obtain ⟨t, a, b, _, c⟩ := eachAdd_ok lk l (inv_empty ko) (by show 0 + _ ≤ _; omega)
    exact put' ⟨t, a, b, fun x => by rw [c]; simp [not_mem_empty]⟩
  | union d i args =>
    obtain ⟨js, rfl⟩ := sets_of hs.2
    simp only [cost, ← count_eq (hi i), sum_sets] at hc
    obtain ⟨t, a, b, c⟩ := multipleC_ok lk (op := unionC ko (typedHash ko)) (f := Or)
      (fun l r il ir hc => unionC_ok lk il ir hc) hi js (.inl i) (hi i) (by show (h i).count + _ ≤ _; omega)
    refine putNew_ok hi ⟨t, a, b, fun x => ?_⟩
    rw [c]
    show js.foldl (fun Q j => Q ∨ Mem ko (h j) x) (Mem ko (h i) x) ↔ _
    rw [fold_or (fun j => Mem ko (h j) x) js]
    simp only [List.mem_map, exists_exists_and_eq_and]
    rfl
  | update i args =>
    simp only [cost, ← count_eq (hi i)] at hc
    exact putC_ok hi (updateAll_ok lk hi i args (h i) (hi i) (by omega) (fun _ m => m))
  | inter d i args =>
    obtain ⟨js, rfl⟩ := sets_of hs.2
    simp only [cost, ← count_eq (hi i), sum_sets] at hc
    obtain ⟨t, a, b, c⟩ := multipleC_ok lk (op := interC ko (typedHash ko)) (f := And)
      (fun l r il ir hc => by
        obtain ⟨t, a, b, c, d⟩ := interC_ok lk il ir (by omega) (by omega)
        exact ⟨t, a, b, by omega, d⟩) hi js (.inl i) (hi i) (by show (h i).count + _ ≤ _; omega)
    refine putNew_ok hi ⟨t, a, b, fun x => ?_⟩
    rw [c]
    show js.foldl (fun Q j => Q ∧ Mem ko (h j) x) (Mem ko (h i) x) ↔ _
    rw [fold_and (fun j => Mem ko (h j) x) js]
    simp only [List.mem_map, forall_exists_index, and_imp, forall_apply_eq_imp_iff₂]
    rfl
  | interUpdate i args =>
    simp only [cost, ← count_eq (hi i)] at hc
    refine putC_ok hi (interUpdateAll_okC lk i args (h i) (hi i) (fun a ha => ?_) hs)
    have : (a.items h).length ≤ (args.map fun a => (a.items h).length).sum :=
      le_sum (List.mem_map.2 ⟨a, ha, rfl⟩)
    omega
  | diff d i args =>
    obtain ⟨js, rfl⟩ := sets_of hs.2
    simp only [cost, ← count_eq (hi i), sum_sets] at hc
    obtain ⟨t, a, b, c⟩ := multipleC_ok lk (op := diffC ko (typedHash ko)) (f := fun a b => a ∧ ¬b)
      (fun l r il ir hc => by
        obtain ⟨t, a, b, c, d⟩ := diffC_ok lk il ir (by omega)
        exact ⟨t, a, b, by omega, d⟩) hi js (.inl i) (hi i) (by show (h i).count + _ ≤ _; omega)
    refine putNew_ok hi ⟨t, a, b, fun x => ?_⟩
    rw [c]
    show js.foldl (fun Q j => Q ∧ ¬Mem ko (h j) x) (Mem ko (h i) x) ↔ _
    rw [fold_and (fun j => ¬Mem ko (h j) x) js]
    simp only [List.mem_map, forall_exists_index, and_imp, forall_apply_eq_imp_iff₂]
    rfl
  | diffUpdate i args =>
    simp only [cost, ← count_eq (hi i)] at hc
    exact putC_ok hi (diffUpdateAll_okC lk i args (h i) (hi i) (by omega) hs)
  | symDiff d i a =>
    simp only [cost, ← count_eq (hi i)] at hc
    cases a with
    | set j =>
      simp only [Arg.items, ← count_eq (hi j)] at hc
      exact put' (symDiffC_ok lk (hi i) (hi j) (by omega))
    | iter l =>
      simp only [Arg.items] at hc
      simp only [SoundC, ← count_eq (hi i)] at hs
      obtain ⟨t, e, it, m⟩ : ∃ t, symDiffIterC ko (typedHash ko) (h i) l = .ok (.ok t) ∧ Inv ko t ∧
          ∀ x, Mem ko t x ↔ (Mem ko (h i) x ∧ ¬∃ y ∈ l, ko.eq x y = true) ∨ (¬Mem ko (h i) x ∧ ∃ y ∈ l, ko.eq x y = true) := by
        unfold symDiffIterC
        split
        · next c =>
          obtain ⟨a1, a2, a3⟩ := copyT_ok (hi i)
          obtain ⟨t, b1, b2, b3⟩ := eachToggle_ok lk l (hs.2 c) a1 (by rw [a3]; omega)
          exact ⟨t, by rw [b1]; rfl, b2, fun x => by rw [b3, mem_copyT (hi i)]⟩
        · split
          · next c => have := hs.1; omega
          · obtain ⟨t, b1, b2, b3⟩ := symDiffLast_ok lk (hi i) (inR := fun k => .ok (l.any fun y => ko.eq y k)) l
              (fun k => ⟨_, rfl, by
                rw [List.any_eq_true]
                exact ⟨fun ⟨y, hy, q⟩ => ⟨y, hy, lk.symm _ _ q⟩, fun ⟨y, hy, q⟩ => ⟨y, hy, lk.symm _ _ q⟩⟩⟩) (by omega)
            exact ⟨t, by rw [b1]; rfl, b2, b3⟩
      exact putNew_ok hi ⟨.inr t, by rw [e]; rfl, it, m⟩
  | symDiffUpdate i a =>
    simp only [cost, ← count_eq (hi i)] at hc
    exact putC_ok hi (symDiffUpdateC_ok lk hi i a hc)
  | issubset i a =>
    simp only [cost, ← count_eq (hi i)] at hc
    exact ans' (subsetC_ok lk hi (hi i) a (by omega))
  | issuperset i a =>
    obtain ⟨b, e1, e2⟩ := allIn_ok lk (hi i) (a.items h)
    exact ans' ⟨b, e1, by rw [e2]; simp only [inArg_items]; rfl⟩
  | isdisjoint i a =>
    obtain ⟨b, e1, e2⟩ := disjointC_ok lk (hi i) (a.items h)
    exact ans' ⟨b, e1, by rw [e2]; simp only [inArg_items]; rfl⟩
  | cmp c i j => exact ans' (cmpC_ok lk (hi i) (hi j) c)

/-- All calls of a program are of the kinds for which the claim is true and handle at most 2^27 elements. -/
def FineM (ko : KeyOps K) (h : Heap K) : List (Bool × SOp K) → Prop
  | [] => True
  | (c, op) :: ops => (if c then SoundC ko h op else Sound h op = true) ∧ cost h op ≤ 2 ^ 27 ∧
    match (if c then stepSC ko (typedHash ko) h op else stepS ko h op) with
    | .ok (h', _) => FineM ko h' ops
    | .error _ => True

/-- **C89.**  Every program over any number of set objects, in which compiled and interpreted calls are mixed at will,
gets the answers of mathematical set algebra.  Missing: the kinds of calls excluded by `SoundC` and `Sound`, for which
the claim is false of the code. -/
theorem compiled_set_algebra_partial {ko : KeyOps K} (lk : LawfulElt ko) (ops : List (Bool × SOp K))
    (g : FineM ko (fun _ => ({} : SetT K)) ops) :
    ∃ h rs, runSM ko (typedHash ko) (fun _ => {}) ops = .ok (h, rs) ∧
      Prog ko (fun _ _ => False) (ops.map (·.2)) rs := by
  have go : ∀ (ops : List (Bool × SOp K)) (h : Heap K), (∀ i, Inv ko (h i)) → FineM ko h ops →
      ∃ h' rs, runSM ko (typedHash ko) h ops = .ok (h', rs) ∧ Prog ko (store ko h) (ops.map (·.2)) rs := by
    intro ops
    induction ops with
    | nil => intro h _ _; exact ⟨h, [], rfl, Prog.nil _⟩
    | cons o ops ih =>
      obtain ⟨c, op⟩ := o
      intro h hi g
      obtain ⟨g1, g2, g3⟩ := g
      obtain ⟨h1, r, e, hi1, p⟩ : ∃ h1 r, (if c then stepSC ko (typedHash ko) h op else stepS ko h op) = .ok (h1, r) ∧
          (∀ i, Inv ko (h1 i)) ∧ post ko (store ko h) op r (store ko h1) := by
        cases c with
        | true => exact stepSC_ok lk hi op g1 g2
        | false => exact stepS_ok lk hi op g1 (by omega)
      rw [e] at g3
      obtain ⟨h2, rs, e2, p2⟩ := ih h1 hi1 g3
      exact ⟨h2, r :: rs, by simp only [runSM, e, Except.bind, e2]; rfl, Prog.cons _ _ _ _ _ _ p p2⟩
  obtain ⟨h, rs, a, b⟩ := go ops (fun _ => {}) (fun _ => inv_empty ko) g
  refine ⟨h, rs, a, ?_⟩
  have : store ko (fun _ => ({} : SetT K)) = fun _ _ => False := by
    funext i x
    exact propext (iff_of_false (not_mem_empty x) id)
  rw [this] at b
  exact b

end Verif.HashTable
