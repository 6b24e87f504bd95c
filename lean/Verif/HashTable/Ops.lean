import Verif.HashTable.Table

/-!
# Correctness of the index operations

`add`, `resizeTable`, `pickHashTableSize`.
-/

namespace Verif.HashTable

variable {K V : Type}

/-- Values of `int32_t`. -/
def I32 (x : Int) : Prop := -2 ^ 31 ≤ x ∧ x < 2 ^ 31

theorem w32_id {x : Int} (h : I32 x) : w32 x = x := by
  unfold I32 at h; unfold w32; rw [Int.bmod_def]; omega

theorem norm_norm {h : Int} (hh : I32 h) : norm (norm h) = norm h := by
  unfold I32 at hh
  have : norm h = -2 ^ 31 ∨ 0 ≤ norm h := by
    unfold norm w32
    split
    · rw [Int.bmod_def]; omega
    · omega
  rcases this with e | e
  · rw [e]; decide
  · unfold norm at e ⊢; omega

/-- The index is consistent with `E`. -/
structure Core (t : Tbl K V) (E : Nat → Int → Prop) : Prop where
  tab : TabOk t.size t.slots t.hashes E
  cnt : t.count = filled t.slots t.size
  emp : t.empty = empties t.slots t.size

theorem Core.congr {t : Tbl K V} {E E' : Nat → Int → Prop} (c : Core t E) (h : ∀ s x, E s x ↔ E' s x) :
    Core t E' := ⟨c.tab.congr h, c.cnt, c.emp⟩

theorem place_ok {t : Tbl K V} {E : Nat → Int → Prop} (c : Core t E) (he : 0 < t.empty) {h : Int} (hh : I32 h)
    {s : Nat} (new : ∀ h', ¬E s h') :
    ∃ t', place t h s = .ok t' ∧ t'.items = t.items ∧ t'.top = t.top ∧ t'.size = t.size ∧
      t'.count = t.count + 1 ∧ t.empty ≤ t'.empty + 1 ∧
      Core t' (fun s' h' => E s' h' ∨ (s' = s ∧ h' = norm h)) := by
  have hn := norm_norm hh
  obtain ⟨n, hn1, hn2⟩ := c.tab.meets_empty (by rw [← c.emp]; exact he) (norm h)
  obtain ⟨n', _, _, e, free, w⟩ :=
    addLoop_spec t (u64 (norm h)) (t.size + 14) 0 ⟨n, by omega, by omega, hn2⟩
  have lt := c.tab.idx_lt (u64 (norm h)) n'
  have e' : addLoop t (t.size + 14) (u64 (norm h)) (u64 (norm h)) = .ok (idx t.size (u64 (norm h)) n') := e
  generalize hi : idx t.size (u64 (norm h)) n' = i at *
  have r : Reach t.size t.slots (norm h) i := ⟨n', hi, fun m hm => w m (by omega) hm⟩
  refine ⟨{ t with slots := upd t.slots i s, hashes := upd t.hashes i (norm h), count := t.count + 1,
                   empty := if t.slots i = -1 then t.empty - 1 else t.empty }, ?_, rfl, rfl, rfl, rfl, ?_, ?_⟩
  · simp only [place, e']; rfl
  · dsimp only; split <;> omega
  · refine ⟨c.tab.store lt free new hn r, ?_, ?_⟩
    · dsimp only; rw [filled_store lt (by omega), c.cnt]
    · dsimp only; rw [empties_store lt, c.emp]

theorem w32_pow {j : Nat} (h : j ≤ 30) : w32 (2 ^ j) = 2 ^ j := by
  apply w32_id
  have : (2 : Int) ^ j ≤ 2 ^ 30 := by exact_mod_cast Nat.pow_le_pow_right (by decide) h
  have : (0 : Int) < 2 ^ j := by exact_mod_cast Nat.two_pow_pos j
  unfold I32; omega

theorem pickLoop_ok (m : Int) (hm : m ≤ 2 ^ 30) : ∀ (f j : Nat), j ≤ 30 → 30 - j < f →
    ∃ p, j ≤ p ∧ p ≤ 30 ∧ pickLoop m f (2 ^ j) = .ok (2 ^ p) ∧ m ≤ 2 ^ p ∧ (p = j ∨ 2 ^ p < 2 * m) := by
  intro f
  induction f with
  | zero => intro j _ h; omega
  | succ f ih =>
    intro j hj hf
    rw [pickLoop]
    by_cases c : (2 : Int) ^ j < m
    · rw [if_pos c]
      have hj' : j < 30 := by
        rcases Nat.lt_or_ge j 30 with h | h
        · exact h
        · have : j = 30 := by omega
          subst this; omega
      have e : (2 : Int) ^ j * 2 = 2 ^ (j + 1) := by rw [Int.pow_succ]
      rw [e, w32_pow (by omega)]
      obtain ⟨p, a1, a2, a3, a4, a5⟩ := ih (j + 1) (by omega) (by omega)
      refine ⟨p, by omega, a2, a3, a4, Or.inr ?_⟩
      rcases a5 with rfl | a5
      · rw [← e]; omega
      · exact a5
    · rw [if_neg c]
      exact ⟨j, Nat.le_refl _, hj, rfl, by omega, Or.inl rfl⟩

theorem pick_ok {m : Nat} (hm : m ≤ 2 ^ 30) :
    ∃ p, 3 ≤ p ∧ p ≤ 30 ∧ pick m = .ok (2 ^ p) ∧ m ≤ 2 ^ p ∧ (p = 3 ∨ 2 ^ p < 2 * m) := by
  have e : w32 (m : Int) = m := w32_id (by unfold I32; omega)
  obtain ⟨p, a1, a2, a3, a4, a5⟩ := pickLoop_ok m (by omega) 40 3 (by omega) (by omega)
  refine ⟨p, a1, a2, ?_, ?_, ?_⟩
  · have : pickLoop (m : Int) 40 8 = .ok (2 ^ p) := a3
    simp only [pick, e, this]
    show Except.ok (((2 : Int) ^ p).toNat) = _
    congr 1
  · exact_mod_cast a4
  · rcases a5 with a5 | a5
    · exact Or.inl a5
    · exact Or.inr (by exact_mod_cast a5)

theorem fresh_core (t : Tbl K V) {p : Nat} (h1 : 3 ≤ p) (h2 : p ≤ 30) :
    Core (fresh t (2 ^ p)) (fun _ _ => False) := by
  refine ⟨⟨⟨p, h1, h2, rfl⟩, ?_, ?_, ?_, ?_, ?_⟩, ?_, ?_⟩
  · intro i _; exact Or.inl rfl
  · intro _ _ h; exact h.elim
  · intro i j _ _ h; simp [fresh, EMPTY] at h
  · intro _ _ _ h; exact h.elim
  · intro _ _ h; exact h.elim
  · have : ∀ n, filled (fun _ => EMPTY) n = 0 := by
      intro n; induction n with
      | zero => rfl
      | succ n ih => simp only [filled, cntB] at ih ⊢; rw [ih]; rfl
    exact (this _).symm
  · have : ∀ n, empties (fun _ => EMPTY) n = n := by
      intro n; induction n with
      | zero => rfl
      | succ n ih => simp only [empties, cntB] at ih ⊢; rw [ih]; rfl
    exact (this _).symm

/-- With room, `add` does not resize. -/
theorem addF_roomy (d : Nat) (t : Tbl K V) (h s : Int) (c1 : t.count * 2 + 1 ≤ t.size)
    (c2 : t.size / 4 + 1 ≤ t.empty) : addF (d + 1) t h s = place t h s := by
  rw [addF, if_neg (by omega)]; rfl

/-- `resizeTable` on an allocated table. -/
theorem resize_ok (d : Nat) {t : Tbl K V} {E : Nat → Int → Prop} (c : Core t E) (hc : t.count ≤ 2 ^ 28)
    (hI : ∀ s h, E s h → I32 h) :
    ∃ t', resizeWith (addF (d + 1)) t = .ok t' ∧ t'.items = t.items ∧ t'.top = t.top ∧ Core t' E ∧
      t'.count = t.count ∧ 4 * t.count ≤ t'.size ∧ t'.size ≤ t'.empty + t'.count ∧
      (t'.size = 8 ∨ t'.size < 8 * t.count) := by
  obtain ⟨p, p1, p2, p3, p4, p5⟩ := pick_ok (m := t.count * 4) (by omega)
  have hsz := c.tab.size_ge
  simp only [resizeWith, p3]
  show ∃ t', (if t.size = 0 then .ok (fresh t (2 ^ p))
      else (List.range t.size).foldlM (readd (addF (d + 1)) t) (fresh t (2 ^ p))) = .ok t' ∧ _
  rw [if_neg (by omega)]
  have main : ∀ k, k ≤ t.size → ∃ t', (List.range k).foldlM (readd (addF (d + 1)) t) (fresh t (2 ^ p)) = .ok t' ∧
      t'.items = t.items ∧ t'.top = t.top ∧ t'.size = 2 ^ p ∧ t'.count = filled t.slots k ∧
      t'.size ≤ t'.empty + t'.count ∧
      Core t' (fun s h => ∃ i, i < k ∧ t.slots i = (s : Int) ∧ t.hashes i = h) := by
    intro k
    induction k with
    | zero =>
      intro _
      refine ⟨_, rfl, rfl, rfl, rfl, rfl, Nat.le_refl _, (fresh_core t p1 p2).congr ?_⟩
      intro s x; simp
    | succ k ih =>
      intro hk
      obtain ⟨t', e1, e2, e3, e4, e5, e6, e7⟩ := ih (by omega)
      rw [List.range_succ, List.foldlM_append, e1]
      show ∃ t'', (readd (addF (d + 1)) t t' k >>= fun s => pure s) = .ok t'' ∧ _
      by_cases c1 : t.slots k ≠ EMPTY ∧ t.slots k ≠ DELETED
      · simp only [readd, if_pos c1]
        rcases c.tab.ent k (by omega) with a | a | ⟨s, a1, a2, a3⟩
        · exact absurd a c1.1
        · exact absurd a c1.2
        · have hlt : filled t.slots k < t.count := by
            rw [c.cnt]; exact cntB_lt (by omega) (by simp [a1])
          rw [addF_roomy d t' _ _ (by omega) (by omega), a1]
          obtain ⟨t'', f1, f2, f3, f4, f5, f6, f7⟩ := place_ok e7 (by omega) (hI _ _ a2) (s := s) (by
            rintro h' ⟨i, i1, i2, i3⟩
            have := c.tab.inj i k (by omega) (by omega) (by omega) (by omega)
            omega)
          refine ⟨t'', by rw [f1]; rfl, f2.trans e2, f3.trans e3, f4.trans e4, ?_, by omega, f7.congr ?_⟩
          · rw [f5, e5]; simp [filled, cntB, a1]
          · intro s' h'
            rw [c.tab.nrm _ _ a2]
            constructor
            · rintro (⟨i, i1, i2, i3⟩ | ⟨rfl, rfl⟩)
              · exact ⟨i, by omega, i2, i3⟩
              · exact ⟨k, by omega, a1, rfl⟩
            · rintro ⟨i, i1, i2, i3⟩
              by_cases ik : i = k
              · subst ik; exact Or.inr ⟨by omega, i3.symm⟩
              · exact Or.inl ⟨i, by omega, i2, i3⟩
      · simp only [readd, if_neg c1]
        have neg : t.slots k = -1 ∨ t.slots k = -2 := by
          unfold EMPTY DELETED at c1; omega
        refine ⟨t', rfl, e2, e3, e4, ?_, e6, e7.congr ?_⟩
        · rw [e5]; simp only [filled, cntB]; rw [if_neg (by simp; omega)]; rfl
        · intro s' h'
          constructor
          · rintro ⟨i, i1, i2, i3⟩; exact ⟨i, by omega, i2, i3⟩
          · rintro ⟨i, i1, i2, i3⟩
            refine ⟨i, ?_, i2, i3⟩
            have : i ≠ k := by rintro rfl; omega
            omega
  obtain ⟨t', e1, e2, e3, e4, e5, e6, e7⟩ := main t.size (Nat.le_refl _)
  refine ⟨t', e1, e2, e3, e7.congr ?_, by rw [e5, c.cnt], by omega, e6, ?_⟩
  · intro s h
    constructor
    · rintro ⟨i, i1, i2, rfl⟩
      rcases c.tab.ent i i1 with a | a | ⟨s', a1, a2, _⟩
      · omega
      · omega
      · have : s' = s := by omega
        subst this; exact a2
    · intro he
      obtain ⟨i, i1, i2⟩ := c.tab.cov s h he
      refine ⟨i, i1, i2, ?_⟩
      rcases c.tab.ent i i1 with a | a | ⟨s', a1, a2, _⟩
      · omega
      · omega
      · have : s' = s := by omega
        subst this; exact c.tab.fn _ _ _ a2 he
  · rcases p5 with p5 | p5
    · left; rw [e4, p5]; rfl
    · right; omega

/-- The index is either not yet allocated or consistent and with an empty entry left. -/
def Idx (t : Tbl K V) (E : Nat → Int → Prop) : Prop :=
  (t.size = 0 ∧ t.count = 0 ∧ ∀ s h, ¬E s h) ∨ (Core t E ∧ 0 < t.empty)

theorem Idx.congr {t : Tbl K V} {E E' : Nat → Int → Prop} (c : Idx t E) (h : ∀ s x, E s x ↔ E' s x) :
    Idx t E' := by
  rcases c with ⟨a, b, c⟩ | ⟨a, b⟩
  · exact Or.inl ⟨a, b, fun s x e => c s x ((h s x).2 e)⟩
  · exact Or.inr ⟨a.congr h, b⟩

/-- `add` always finds a place, and adds the entry and nothing else. -/
theorem add_ok {t : Tbl K V} {E : Nat → Int → Prop} (c : Idx t E) (hc : t.count ≤ 2 ^ 28)
    (hI : ∀ s h, E s h → I32 h) {h : Int} (hh : I32 h) {s : Nat} (new : ∀ h', ¬E s h') :
    ∃ t', add t h s = .ok t' ∧ t'.items = t.items ∧ t'.top = t.top ∧ t'.count = t.count + 1 ∧ 0 < t'.empty ∧
      (t'.size ≤ max t.size (8 * t.count + 8)) ∧
      Core t' (fun s' h' => E s' h' ∨ (s' = s ∧ h' = norm h)) := by
  rcases c with ⟨c1, c2, c3⟩ | ⟨c1, c2⟩
  · have f := fresh_core t (p := 3) (by decide) (by decide)
    obtain ⟨t', e1, e2, e3, e4, e5, e6, e7⟩ := place_ok f (by simp [fresh]) hh (s := s) (fun _ h => h)
    refine ⟨t', ?_, e2, e3, ?_, ?_, ?_, e7.congr ?_⟩
    · rw [add, addF, if_pos (by omega)]
      have : resizeWith (addF 1) t = .ok (fresh t (2 ^ 3)) := by
        have pk : pick 0 = .ok (2 ^ 3) := by decide
        simp only [resizeWith, c2, Nat.zero_mul, pk]
        show (if t.size = 0 then Except.ok (fresh t (2 ^ 3)) else _) = _
        rw [if_pos c1]
      rw [this]; exact e1
    · rw [e5, c2]; rfl
    · simp only [fresh] at e6; omega
    · rw [e4]; simp only [fresh]; omega
    · intro s' h'; simp [c3]
  · have hsz := c1.tab.size_ge
    by_cases cc : t.count * 2 + 1 > t.size ∨ t.empty < t.size / 4 + 1
    · obtain ⟨t1, e1, e2, e3, e4, e5, e6, e7, e8⟩ := resize_ok 0 c1 hc hI
      have hsz1 := e4.tab.size_ge
      obtain ⟨t', g1, g2, g3, g4, g5, g6, g7⟩ := place_ok e4 (by omega) hh (s := s) new
      refine ⟨t', ?_, g2.trans e2, g3.trans e3, by omega, by omega, by omega, g7⟩
      rw [add, addF, if_pos cc, e1]; exact g1
    · obtain ⟨t', g1, g2, g3, g4, g5, g6, g7⟩ := place_ok c1 (by omega) hh (s := s) new
      refine ⟨t', ?_, g2, g3, g5, by omega, by omega, g7⟩
      rw [add, addF, if_neg cc]; exact g1

end Verif.HashTable
