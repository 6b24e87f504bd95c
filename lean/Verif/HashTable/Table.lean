import Verif.HashTable.Probe

/-!
# The open-addressing index

Invariants of the arrays `slots` and `hashes`, relative to a relation `E s h`: "item slot `s` is in use and its
normalised hash is `h`".
-/

namespace Verif.HashTable

/-- Number of `i < n` with `P i`. -/
def cntB (P : Nat → Bool) : Nat → Nat
  | 0 => 0
  | n + 1 => cntB P n + (if P n then 1 else 0)

theorem cntB_congr {P Q : Nat → Bool} : ∀ {n : Nat}, (∀ i, i < n → P i = Q i) → cntB P n = cntB Q n
  | 0, _ => rfl
  | n + 1, h => by
    simp only [cntB]
    rw [cntB_congr (fun i hi => h i (by omega)), h n (by omega)]

theorem cntB_le (P : Nat → Bool) : ∀ n, cntB P n ≤ n
  | 0 => Nat.le_refl _
  | n + 1 => by simp only [cntB]; have := cntB_le P n; split <;> omega

theorem cntB_mono (P : Nat → Bool) {m n : Nat} (h : m ≤ n) : cntB P m ≤ cntB P n := by
  induction n with
  | zero => obtain rfl : m = 0 := by omega
            exact Nat.le_refl _
  | succ n ih =>
    by_cases e : m = n + 1
    · rw [e]
    · have := ih (by omega); simp only [cntB]; omega

theorem cntB_add {P Q : Nat → Bool} {i : Nat} (hp : P i = false) (hq : Q i = true)
    (h : ∀ j, j ≠ i → P j = Q j) : ∀ {n : Nat}, i < n → cntB Q n = cntB P n + 1
  | n + 1, hn => by
    simp only [cntB]
    by_cases e : i = n
    · subst e
      rw [cntB_congr (P := P) (Q := Q) (fun j hj => h j (by omega)), hp, hq]; simp
    · rw [cntB_add hp hq h (by omega : i < n), h n (by omega)]; omega

theorem cntB_pos {P : Nat → Bool} : ∀ {n : Nat}, 0 < cntB P n → ∃ i, i < n ∧ P i = true
  | n + 1, h => by
    simp only [cntB] at h
    by_cases e : P n = true
    · exact ⟨n, by omega, e⟩
    · simp [e] at h
      obtain ⟨i, hi, h'⟩ := cntB_pos h
      exact ⟨i, by omega, h'⟩

theorem cntB_lt {P : Nat → Bool} {i n : Nat} (hi : i < n) (h : P i = true) : cntB P i < cntB P n := by
  have a := cntB_mono P (show i + 1 ≤ n by omega)
  simp only [cntB, h] at a
  simp at a; omega

theorem cntB_disjoint {P Q : Nat → Bool} (h : ∀ i, P i = true → Q i = false) :
    ∀ n, cntB P n + cntB Q n ≤ n
  | 0 => Nat.le_refl _
  | n + 1 => by
    simp only [cntB]
    have := cntB_disjoint h n
    have a := h n
    cases hp : P n <;> cases hq : Q n <;> simp_all <;> omega

/-- Entries in use. -/
def filled (slots : Nat → Int) : Nat → Nat := cntB (fun i => decide (0 ≤ slots i))
/-- Entries never used since the last rebuild. -/
def empties (slots : Nat → Int) : Nat → Nat := cntB (fun i => decide (slots i = -1))

/-- The index is reached by the probe sequence of `h` before any empty entry. -/
def Reach (size : Nat) (slots : Nat → Int) (h : Int) (i : Nat) : Prop :=
  ∃ n, idx size (u64 h) n = i ∧ ∀ m, m < n → slots (idx size (u64 h) m) ≠ -1

structure TabOk (size : Nat) (slots hashes : Nat → Int) (E : Nat → Int → Prop) : Prop where
  pow : ∃ p, 3 ≤ p ∧ p ≤ 30 ∧ size = 2 ^ p
  ent : ∀ i, i < size → slots i = -1 ∨ slots i = -2 ∨
    ∃ s : Nat, slots i = s ∧ E s (hashes i) ∧ Reach size slots (hashes i) i
  cov : ∀ s h, E s h → ∃ i, i < size ∧ slots i = (s : Int)
  inj : ∀ i j, i < size → j < size → 0 ≤ slots i → slots i = slots j → i = j
  fn : ∀ s h h', E s h → E s h' → h = h'
  nrm : ∀ s h, E s h → norm h = h

theorem TabOk.congr {size : Nat} {slots hashes : Nat → Int} {E E' : Nat → Int → Prop}
    (t : TabOk size slots hashes E) (h : ∀ s x, E s x ↔ E' s x) : TabOk size slots hashes E' := by
  have : E = E' := funext fun s => funext fun x => propext (h s x)
  rwa [← this]

theorem TabOk.idx_lt {size : Nat} {slots hashes : Nat → Int} {E : Nat → Int → Prop}
    (t : TabOk size slots hashes E) (h n : Nat) : idx size h n < size := by
  obtain ⟨p, _, _, rfl⟩ := t.pow
  exact HashTable.idx_lt p h n

theorem TabOk.size_ge {size : Nat} {slots hashes : Nat → Int} {E : Nat → Int → Prop}
    (t : TabOk size slots hashes E) : 8 ≤ size := by
  obtain ⟨p, hp, _, rfl⟩ := t.pow
  have := Nat.pow_le_pow_right (show 0 < 2 by decide) hp
  omega

/-- If there is an empty entry the probe sequence meets one in time. -/
theorem TabOk.meets_empty {size : Nat} {slots hashes : Nat → Int} {E : Nat → Int → Prop}
    (t : TabOk size slots hashes E) (he : 0 < empties slots size) (h : Int) :
    ∃ n, n < size + 14 ∧ slots (idx size (u64 h) n) = -1 := by
  obtain ⟨i, hi, e⟩ := cntB_pos he
  obtain ⟨p, _, hp, rfl⟩ := t.pow
  obtain ⟨n, hn, e'⟩ := idx_cover p (u64 h) i (by omega) (u64_lt h) hi
  exact ⟨n, by omega, by rw [e']; simpa using e⟩

variable {K V : Type}

theorem ix_off (t : Tbl K V) (h n : Nat) : t.ix (off h n).1 = idx t.size h n := rfl

theorem addLoop_succ (t : Tbl K V) (f h k : Nat) : addLoop t (f + 1) (off h k).1 (off h k).2 =
    if t.slots (idx t.size h k) = -1 ∨ t.slots (idx t.size h k) = -2 then .ok (idx t.size h k)
    else addLoop t f (off h (k + 1)).1 (off h (k + 1)).2 := rfl

theorem findLoop_succ (t : Tbl K V) (hash : Int) (c : K → Bool) (f h k : Nat) :
    findLoop t hash c (f + 1) (off h k).1 (off h k).2 =
    if t.slots (idx t.size h k) = -1 then .ok (-1)
    else if t.slots (idx t.size h k) ≠ -2 ∧ t.hashes (idx t.size h k) = hash then
      (t.compareAt (t.slots (idx t.size h k)) c).bind fun b =>
        if b = true then .ok (t.slots (idx t.size h k))
        else findLoop t hash c f (off h (k + 1)).1 (off h (k + 1)).2
    else findLoop t hash c f (off h (k + 1)).1 (off h (k + 1)).2 := rfl

theorem removeLoop_succ (t : Tbl K V) (c : K → Bool) (f h k : Nat) :
    removeLoop t c (f + 1) (off h k).1 (off h k).2 =
    if t.slots (idx t.size h k) = -1 then .ok none
    else if t.slots (idx t.size h k) ≠ -2 then
      (t.compareAt (t.slots (idx t.size h k)) c).bind fun b =>
        if b = true then .ok (some (idx t.size h k, t.slots (idx t.size h k)))
        else removeLoop t c f (off h (k + 1)).1 (off h (k + 1)).2
    else removeLoop t c f (off h (k + 1)).1 (off h (k + 1)).2 := rfl

/-- What the loop of `add` returns. -/
theorem addLoop_spec (t : Tbl K V) (h : Nat) : ∀ (f k : Nat),
    (∃ n, k ≤ n ∧ n < k + f ∧ t.slots (idx t.size h n) = -1) →
    ∃ n, k ≤ n ∧ n < k + f ∧ addLoop t f (off h k).1 (off h k).2 = .ok (idx t.size h n) ∧
      (t.slots (idx t.size h n) = -1 ∨ t.slots (idx t.size h n) = -2) ∧
      ∀ m, k ≤ m → m < n → t.slots (idx t.size h m) ≠ -1 := by
  intro f
  induction f with
  | zero => rintro k ⟨n, h1, h2, _⟩; omega
  | succ f ih =>
    rintro k ⟨n, h1, h2, h3⟩
    rw [addLoop_succ]
    by_cases c : t.slots (idx t.size h k) = -1 ∨ t.slots (idx t.size h k) = -2
    · exact ⟨k, Nat.le_refl _, by omega, by rw [if_pos c], c, fun m a b => by omega⟩
    · rw [if_neg c]
      have hk : k ≠ n := by rintro rfl; exact c (Or.inl h3)
      obtain ⟨n', a1, a2, a3, a4, a5⟩ := ih (k + 1) ⟨n, by omega, by omega, h3⟩
      refine ⟨n', by omega, by omega, a3, a4, fun m b1 b2 => ?_⟩
      by_cases e : m = k
      · subst e; exact fun x => c (Or.inl x)
      · exact a5 m (by omega) b2

theorem upd_same (g : Nat → Int) (i : Nat) (x : Int) : upd g i x i = x := by simp [upd]
theorem upd_other (g : Nat → Int) {i j : Nat} (x : Int) (h : j ≠ i) : upd g i x j = g j := by simp [upd, h]

/-- Storing a new entry at a free index reached by its own probe sequence. -/
theorem TabOk.store {size : Nat} {slots hashes : Nat → Int} {E : Nat → Int → Prop}
    (t : TabOk size slots hashes E) {i s : Nat} {h : Int} (hi : i < size)
    (free : slots i = -1 ∨ slots i = -2) (new : ∀ h', ¬E s h') (hn : norm h = h)
    (r : Reach size slots h i) :
    TabOk size (upd slots i s) (upd hashes i h) (fun s' h' => E s' h' ∨ (s' = s ∧ h' = h)) := by
  have keep : ∀ j, slots j ≠ -1 → upd slots i s j ≠ -1 := by
    intro j hj
    by_cases e : j = i
    · subst e; rw [upd_same]; omega
    · rwa [upd_other _ _ e]
  have reach : ∀ h j, Reach size slots h j → Reach size (upd slots i s) h j := by
    rintro h j ⟨n, e, w⟩
    exact ⟨n, e, fun m hm => keep _ (w m hm)⟩
  refine ⟨t.pow, ?_, ?_, ?_, ?_, ?_⟩
  · intro j hj
    by_cases e : j = i
    · subst e
      refine Or.inr (Or.inr ⟨s, upd_same .., ?_, ?_⟩)
      · rw [upd_same]; exact Or.inr ⟨rfl, rfl⟩
      · rw [upd_same]; exact reach _ _ r
    · rw [upd_other _ _ e, upd_other _ _ e]
      rcases t.ent j hj with a | a | ⟨s', a, b, c⟩
      · exact Or.inl a
      · exact Or.inr (Or.inl a)
      · exact Or.inr (Or.inr ⟨s', a, Or.inl b, reach _ _ c⟩)
  · rintro s' h' (a | ⟨rfl, rfl⟩)
    · obtain ⟨j, hj, e⟩ := t.cov s' h' a
      refine ⟨j, hj, ?_⟩
      rw [upd_other _ _ (by rintro rfl; omega), e]
    · exact ⟨i, hi, upd_same ..⟩
  · have no : ∀ j, j < size → slots j ≠ (s : Int) := by
      intro j hj e
      rcases t.ent j hj with a | a | ⟨s', a, b, _⟩
      · omega
      · omega
      · have : s' = s := by omega
        subst this
        exact new _ b
    intro a b ha hb h0 e
    by_cases ea : a = i
    · by_cases eb : b = i
      · rw [ea, eb]
      · subst ea
        rw [upd_same, upd_other _ _ eb] at e
        exact absurd e.symm (no b hb)
    · by_cases eb : b = i
      · subst eb
        rw [upd_same, upd_other _ _ ea] at e
        exact absurd e (no a ha)
      · rw [upd_other _ _ ea] at h0
        rw [upd_other _ _ ea, upd_other _ _ eb] at e
        exact t.inj a b ha hb h0 e
  · rintro s' h1 h2 (a | ⟨rfl, rfl⟩) (b | ⟨_, rfl⟩)
    · exact t.fn _ _ _ a b
    · subst_vars; exact absurd a (new _)
    · exact absurd b (new _)
    · rfl
  · rintro s' h' (a | ⟨_, rfl⟩)
    · exact t.nrm _ _ a
    · exact hn

/-- Deleting an entry. -/
theorem TabOk.drop {size : Nat} {slots hashes : Nat → Int} {E : Nat → Int → Prop}
    (t : TabOk size slots hashes E) {i s : Nat} (hi : i < size) (hs : slots i = s) :
    TabOk size (upd slots i (-2)) (upd hashes i (-1)) (fun s' h' => E s' h' ∧ s' ≠ s) := by
  have keep : ∀ j, slots j ≠ -1 → upd slots i (-2) j ≠ -1 := by
    intro j hj
    by_cases e : j = i
    · subst e; rw [upd_same]; omega
    · rwa [upd_other _ _ e]
  refine ⟨t.pow, ?_, ?_, ?_, ?_, ?_⟩
  · intro j hj
    by_cases e : j = i
    · subst e; exact Or.inr (Or.inl (upd_same ..))
    · rw [upd_other _ _ e, upd_other _ _ e]
      rcases t.ent j hj with a | a | ⟨s', a, b, n, e1, w⟩
      · exact Or.inl a
      · exact Or.inr (Or.inl a)
      · refine Or.inr (Or.inr ⟨s', a, ⟨b, ?_⟩, n, e1, fun m hm => keep _ (w m hm)⟩)
        rintro rfl
        exact e (t.inj j i hj hi (by omega) (by omega))
  · rintro s' h' ⟨a, ne⟩
    obtain ⟨j, hj, e⟩ := t.cov s' h' a
    refine ⟨j, hj, ?_⟩
    rw [upd_other _ _ (by rintro rfl; omega), e]
  · intro a b ha hb h0 e
    by_cases ea : a = i
    · subst ea; rw [upd_same] at h0; omega
    · rw [upd_other _ _ ea] at h0 e
      by_cases eb : b = i
      · subst eb; rw [upd_same] at e; omega
      · rw [upd_other _ _ eb] at e
        exact t.inj a b ha hb h0 e
  · rintro s' h1 h2 ⟨a, _⟩ ⟨b, _⟩; exact t.fn _ _ _ a b
  · rintro s' h' ⟨a, _⟩; exact t.nrm _ _ a

/-- Renaming the item slots. -/
theorem TabOk.rename {size : Nat} {slots hashes : Nat → Int} {E : Nat → Int → Prop}
    (t : TabOk size slots hashes E) (ρ : Nat → Nat)
    (inj : ∀ s s' h h', E s h → E s' h' → ρ s = ρ s' → s = s')
    (slots' : Nat → Int) (neg : ∀ i, i < size → slots i < 0 → slots' i = slots i)
    (pos : ∀ i (s : Nat), i < size → slots i = s → slots' i = ρ s) :
    TabOk size slots' hashes (fun s' h => ∃ s, E s h ∧ s' = ρ s) := by
  have keep : ∀ j, j < size → slots j ≠ -1 → slots' j ≠ -1 := by
    intro j hj h
    by_cases c : slots j < 0
    · rwa [neg j hj c]
    · rw [pos j (slots j).toNat hj (by omega)]; omega
  have nn : ∀ j, j < size → 0 ≤ slots' j → ∃ s : Nat, slots j = s ∧ slots' j = ρ s ∧ ∃ h, E s h := by
    intro j hj h
    rcases t.ent j hj with a | a | ⟨s, a, b, _⟩
    · have := neg j hj (by omega); omega
    · have := neg j hj (by omega); omega
    · exact ⟨s, a, pos j s hj a, _, b⟩
  refine ⟨t.pow, ?_, ?_, ?_, ?_, ?_⟩
  · intro j hj
    rcases t.ent j hj with a | a | ⟨s', a, b, n, e1, w⟩
    · exact Or.inl (by rw [neg j hj (by omega), a])
    · exact Or.inr (Or.inl (by rw [neg j hj (by omega), a]))
    · exact Or.inr (Or.inr ⟨ρ s', pos j s' hj a, ⟨s', b, rfl⟩, n, e1, fun m hm => keep _ (t.idx_lt _ _) (w m hm)⟩)
  · rintro _ h' ⟨s, a, rfl⟩
    obtain ⟨j, hj, e⟩ := t.cov s h' a
    exact ⟨j, hj, pos j s hj e⟩
  · intro a b ha hb h0 e
    obtain ⟨s, e1, e2, h, e3⟩ := nn a ha h0
    obtain ⟨s', f1, f2, h', f3⟩ := nn b hb (by omega)
    have : s = s' := inj s s' h h' e3 f3 (by omega)
    subst this
    exact t.inj a b ha hb (by omega) (by omega)
  · rintro _ h1 h2 ⟨s, a, rfl⟩ ⟨s', b, e⟩
    obtain rfl := inj s s' h1 h2 a b e
    exact t.fn _ _ _ a b
  · rintro _ h ⟨s, a, rfl⟩; exact t.nrm _ _ a

theorem filled_store {slots : Nat → Int} {i size : Nat} (hi : i < size) (free : slots i < 0) (s : Nat) :
    filled (upd slots i s) size = filled slots size + 1 := by
  apply cntB_add (i := i) (by simp [free]) (by simp [upd_same]) _ hi
  intro j hj; simp [upd_other _ _ hj]

theorem filled_drop {slots : Nat → Int} {i size : Nat} (hi : i < size) (h : 0 ≤ slots i) :
    filled slots size = filled (upd slots i (-2)) size + 1 := by
  apply cntB_add (i := i) (by simp [upd_same]) (by simp [h]) _ hi
  intro j hj; simp [upd_other _ _ hj]

theorem empties_store {slots : Nat → Int} {i size : Nat} (hi : i < size) (s : Nat) :
    empties (upd slots i s) size = if slots i = -1 then empties slots size - 1 else empties slots size := by
  by_cases c : slots i = -1
  · rw [if_pos c]
    have : empties slots size = empties (upd slots i s) size + 1 := by
      apply cntB_add (i := i) (by simp [upd_same]) (by simp [c]) _ hi
      intro j hj; simp [upd_other _ _ hj]
    omega
  · rw [if_neg c]
    apply cntB_congr
    intro j _
    by_cases e : j = i
    · subst e; simp [upd_same, c]
    · rw [upd_other _ _ e]

theorem empties_drop {slots : Nat → Int} {i size : Nat} (h : slots i ≠ -1) :
    empties (upd slots i (-2)) size = empties slots size := by
  apply cntB_congr
  intro j _
  by_cases e : j = i
  · subst e; simp [upd_same, h]
  · rw [upd_other _ _ e]

theorem filled_empties (slots : Nat → Int) (n : Nat) : filled slots n + empties slots n ≤ n := by
  apply cntB_disjoint
  intro i h
  simp at h ⊢; omega

/-! ### `find` and `remove` -/

/-- Comparison never touches a bad item. -/
def Readable (t : Tbl K V) : Prop :=
  ∀ i, i < t.size → t.slots i = -1 ∨ t.slots i = -2 ∨
    ∃ s : Nat, t.slots i = s ∧ ∃ k v, t.items[s]? = some (some (k, v))

theorem compareAt_ok {t : Tbl K V} {s : Nat} {k : K} {v : V} (h : t.items[s]? = some (some (k, v)))
    (c : K → Bool) : t.compareAt (s : Int) c = .ok (c k) := by
  simp [Tbl.compareAt, h]

/-- What the loop of `find` returns. -/
theorem findLoop_spec (t : Tbl K V) (rd : Readable t) (hash : Int) (c : K → Bool) (h : Nat)
    (lt : ∀ n, idx t.size h n < t.size) : ∀ (f k : Nat),
    (∃ n, k ≤ n ∧ n < k + f ∧ t.slots (idx t.size h n) = -1) →
    (∃ n, k ≤ n ∧ findLoop t hash c f (off h k).1 (off h k).2 = .ok (-1) ∧ t.slots (idx t.size h n) = -1 ∧
      ∀ m, k ≤ m → m < n → ∀ s : Nat, t.slots (idx t.size h m) = s → t.hashes (idx t.size h m) = hash →
        ∀ x v, t.items[s]? = some (some (x, v)) → c x = false) ∨
    (∃ (n s : Nat) (x : K) (v : V), k ≤ n ∧ findLoop t hash c f (off h k).1 (off h k).2 = .ok s ∧
      t.slots (idx t.size h n) = s ∧ t.items[s]? = some (some (x, v)) ∧ c x = true) := by
  intro f
  induction f with
  | zero => rintro k ⟨n, h1, h2, _⟩; omega
  | succ f ih =>
    rintro k ⟨n, h1, h2, h3⟩
    rw [findLoop_succ]
    by_cases c1 : t.slots (idx t.size h k) = -1
    · exact Or.inl ⟨k, Nat.le_refl _, by rw [if_pos c1], c1, fun m a b => by omega⟩
    · rw [if_neg c1]
      have hk : k ≠ n := by rintro rfl; exact c1 h3
      have hrec := ih (k + 1) ⟨n, by omega, by omega, h3⟩
      -- continuing the search
      have cont : ∀ res, res = findLoop t hash c f (off h (k + 1)).1 (off h (k + 1)).2 →
          (∀ s : Nat, t.slots (idx t.size h k) = s → t.hashes (idx t.size h k) = hash →
            ∀ x v, t.items[s]? = some (some (x, v)) → c x = false) →
          (∃ n, k ≤ n ∧ res = .ok (-1) ∧ t.slots (idx t.size h n) = -1 ∧
            ∀ m, k ≤ m → m < n → ∀ s : Nat, t.slots (idx t.size h m) = s → t.hashes (idx t.size h m) = hash →
              ∀ x v, t.items[s]? = some (some (x, v)) → c x = false) ∨
          (∃ (n s : Nat) (x : K) (v : V), k ≤ n ∧ res = .ok s ∧
            t.slots (idx t.size h n) = s ∧ t.items[s]? = some (some (x, v)) ∧ c x = true) := by
        rintro _ rfl nomatch_
        rcases hrec with ⟨n', a1, a2, a3, a4⟩ | ⟨n', s, x, v, a1, a2⟩
        · refine Or.inl ⟨n', by omega, a2, a3, fun m b1 b2 => ?_⟩
          by_cases e : m = k
          · subst e; exact nomatch_
          · exact a4 m (by omega) b2
        · exact Or.inr ⟨n', s, x, v, by omega, a2⟩
      by_cases c2 : t.slots (idx t.size h k) ≠ -2 ∧ t.hashes (idx t.size h k) = hash
      · rw [if_pos c2]
        rcases rd _ (lt k) with a | a | ⟨s, a, x, v, a'⟩
        · exact absurd a c1
        · exact absurd a c2.1
        · rw [a, compareAt_ok a']
          cases cx : c x with
          | true => exact Or.inr ⟨k, s, x, v, Nat.le_refl _, rfl, a, a', cx⟩
          | false =>
            apply cont _ rfl
            intro s' e _ y w e'
            have : s' = s := by omega
            subst this
            rw [a'] at e'; injection e' with e'; injection e' with e'; injection e' with e1 e2
            rw [← e1]; exact cx
      · rw [if_neg c2]
        apply cont _ rfl
        intro s' e hh
        exact absurd ⟨by omega, hh⟩ c2

/-- What the loop of `remove` returns. -/
theorem removeLoop_spec (t : Tbl K V) (rd : Readable t) (c : K → Bool) (h : Nat)
    (lt : ∀ n, idx t.size h n < t.size) : ∀ (f k : Nat),
    (∃ n, k ≤ n ∧ n < k + f ∧ t.slots (idx t.size h n) = -1) →
    (∃ n, k ≤ n ∧ removeLoop t c f (off h k).1 (off h k).2 = .ok none ∧ t.slots (idx t.size h n) = -1 ∧
      ∀ m, k ≤ m → m < n → ∀ s : Nat, t.slots (idx t.size h m) = s →
        ∀ x v, t.items[s]? = some (some (x, v)) → c x = false) ∨
    (∃ (n s : Nat) (x : K) (v : V), k ≤ n ∧
      removeLoop t c f (off h k).1 (off h k).2 = .ok (some (idx t.size h n, (s : Int))) ∧
      t.slots (idx t.size h n) = s ∧ t.items[s]? = some (some (x, v)) ∧ c x = true) := by
  intro f
  induction f with
  | zero => rintro k ⟨n, h1, h2, _⟩; omega
  | succ f ih =>
    rintro k ⟨n, h1, h2, h3⟩
    rw [removeLoop_succ]
    by_cases c1 : t.slots (idx t.size h k) = -1
    · exact Or.inl ⟨k, Nat.le_refl _, by rw [if_pos c1], c1, fun m a b => by omega⟩
    · rw [if_neg c1]
      have hk : k ≠ n := by rintro rfl; exact c1 h3
      have hrec := ih (k + 1) ⟨n, by omega, by omega, h3⟩
      have cont : ∀ res, res = removeLoop t c f (off h (k + 1)).1 (off h (k + 1)).2 →
          (∀ s : Nat, t.slots (idx t.size h k) = s →
            ∀ x v, t.items[s]? = some (some (x, v)) → c x = false) →
          (∃ n, k ≤ n ∧ res = .ok none ∧ t.slots (idx t.size h n) = -1 ∧
            ∀ m, k ≤ m → m < n → ∀ s : Nat, t.slots (idx t.size h m) = s →
              ∀ x v, t.items[s]? = some (some (x, v)) → c x = false) ∨
          (∃ (n s : Nat) (x : K) (v : V), k ≤ n ∧ res = .ok (some (idx t.size h n, (s : Int))) ∧
            t.slots (idx t.size h n) = s ∧ t.items[s]? = some (some (x, v)) ∧ c x = true) := by
        rintro _ rfl nomatch_
        rcases hrec with ⟨n', a1, a2, a3, a4⟩ | ⟨n', s, x, v, a1, a2⟩
        · refine Or.inl ⟨n', by omega, a2, a3, fun m b1 b2 => ?_⟩
          by_cases e : m = k
          · subst e; exact nomatch_
          · exact a4 m (by omega) b2
        · exact Or.inr ⟨n', s, x, v, by omega, a2⟩
      by_cases c2 : t.slots (idx t.size h k) ≠ -2
      · rw [if_pos c2]
        rcases rd _ (lt k) with a | a | ⟨s, a, x, v, a'⟩
        · exact absurd a c1
        · exact absurd a c2
        · rw [a, compareAt_ok a']
          cases cx : c x with
          | true => exact Or.inr ⟨k, s, x, v, Nat.le_refl _, rfl, a, a', cx⟩
          | false =>
            apply cont _ rfl
            intro s' e y w e'
            have : s' = s := by omega
            subst this
            rw [a'] at e'; injection e' with e'; injection e' with e'; injection e' with e1 e2
            rw [← e1]; exact cx
      · rw [if_neg c2]
        apply cont _ rfl
        intro s' e
        exact absurd (by omega) c2

end Verif.HashTable
