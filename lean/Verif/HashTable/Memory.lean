import Verif.HashTable.Props

/-!
# Memory stays proportional to the number of live entries (C52)
-/

namespace Verif.HashTable
open Spec

variable {K V : Type}

/-- What a call can do to the table. -/
theorem step_cases (ko : KeyOps K) {t t' : Tbl K V} {op : Op K V} {r : Except Err (Res K V)}
    (h : step ko t op = .ok (t', r)) :
    t' = t ∨ (∃ s x, t' = { t with items := t.items.set s x }) ∨
    (∃ k v, lookupSlot ko t k = .ok none ∧ insertKey ko t k v = .ok t') ∨
    (∃ k b, deleteKey ko t k = .ok (t', b)) ∨ t' = clear t := by
  cases op with
  | getitem k =>
    simp only [step, bind, Except.bind] at h
    split at h
    · cases h
    · split at h
      · split at h
        · cases h
        · injection h with h; injection h with h; exact Or.inl h.symm
      · injection h with h; injection h with h; exact Or.inl h.symm
  | contains k =>
    simp only [step, bind, Except.bind] at h
    split at h
    · cases h
    · injection h with h; injection h with h; exact Or.inl h.symm
  | setitem k v =>
    simp only [step, setitem, bind, Except.bind] at h
    split at h
    · cases h
    · next t1 q =>
      injection h with h; injection h with h; subst h
      split at q
      · cases q
      · next o e =>
        split at q
        · split at q
          · injection q with q; exact Or.inr (Or.inl ⟨_, _, q.symm⟩)
          · cases q
        · exact Or.inr (Or.inr (Or.inl ⟨k, v, e, q⟩))
  | delitem k =>
    simp only [step, bind, Except.bind] at h
    split at h
    · cases h
    · next p q =>
      injection h with h; injection h with h; subst h
      exact Or.inr (Or.inr (Or.inr (Or.inl ⟨k, p.2, q⟩)))
  | pop k =>
    simp only [step, bind, Except.bind] at h
    split at h
    · cases h
    · split at h
      · split at h
        · cases h
        · split at h
          · cases h
          · next p q =>
            injection h with h; injection h with h; subst h
            exact Or.inr (Or.inr (Or.inr (Or.inl ⟨k, p.2, q⟩)))
      · injection h with h; injection h with h; exact Or.inl h.symm
  | popD k d =>
    simp only [step, bind, Except.bind] at h
    split at h
    · cases h
    · split at h
      · split at h
        · cases h
        · split at h
          · cases h
          · next p q =>
            injection h with h; injection h with h; subst h
            exact Or.inr (Or.inr (Or.inr (Or.inl ⟨k, p.2, q⟩)))
      · injection h with h; injection h with h; exact Or.inl h.symm
  | get k d =>
    simp only [step, bind, Except.bind] at h
    split at h
    · cases h
    · split at h
      · split at h
        · cases h
        · injection h with h; injection h with h; exact Or.inl h.symm
      · injection h with h; injection h with h; exact Or.inl h.symm
  | setdefault k d =>
    simp only [step, bind, Except.bind] at h
    split at h
    · cases h
    · next o e =>
      split at h
      · split at h
        · cases h
        · injection h with h; injection h with h; exact Or.inl h.symm
      · split at h
        · cases h
        · next t1 q =>
          injection h with h; injection h with h; subst h
          exact Or.inr (Or.inr (Or.inl ⟨k, d, e, q⟩))
  | clear => injection h with h; injection h with h; exact Or.inr (Or.inr (Or.inr (Or.inr h.symm)))
  | len => injection h with h; injection h with h; exact Or.inl h.symm
  | items => injection h with h; injection h with h; exact Or.inl h.symm

/-- The arrays are bounded by a multiple of `M`. -/
structure MemBound (M : Nat) (t : Tbl K V) : Prop where
  top : t.top ≤ t.count + 3 * M + 12
  items : t.items.length ≤ 5 * M + 20
  size : t.size ≤ 8 * M + 8

theorem allocate_shape (t : Tbl K V) (h : t.top ≤ t.items.length) :
    (t.items = [] ∧ (allocateNewSlot t).1.items.length = 4 ∧ (allocateNewSlot t).1.top = 1) ∨
    ((allocateNewSlot t).1.top = t.top + 1 ∧
      ((allocateNewSlot t).1.items.length = t.items.length ∨
        (t.top = t.items.length ∧ (allocateNewSlot t).1.items.length = t.items.length + t.items.length / 4 + 1))) := by
  unfold allocateNewSlot
  by_cases c : t.items = []
  · left; simp only [if_pos c]; exact ⟨c, by simp [growItems], by simp⟩
  · right
    simp only [if_neg c]
    refine ⟨trivial, ?_⟩
    by_cases d : t.top ≥ t.items.length
    · right
      refine ⟨by omega, ?_⟩
      rw [growItems, if_pos d]
      cases ht : t.top with
      | zero => simp only [growItems, List.length_append, List.length_replicate]; omega
      | succ n =>
        rw [growItems, if_neg (by simp only [List.length_append, List.length_replicate]; omega)]
        simp only [List.length_append, List.length_replicate]; omega
    · left
      rw [growItems, if_neg d]

theorem step_mem {ko : KeyOps K} (lk : LawfulKey ko) {M : Nat} {t t' : Tbl K V} (i : Inv ko t) (m : MemBound M t)
    {op : Op K V} {r : Except Err (Res K V)} (h : step ko t op = .ok (t', r)) (hM : t.count ≤ M) (hM' : M ≤ 2 ^ 28) :
    MemBound M t' := by
  rcases step_cases ko h with rfl | ⟨s, x, rfl⟩ | ⟨k, v, e, q⟩ | ⟨k, b, q⟩ | rfl
  · exact m
  · exact ⟨m.top, by show (t.items.set s x).length ≤ _; rw [List.length_set]; exact m.items, m.size⟩
  · rcases lookupSlot_ok lk i k with ⟨_, _, _, a, _⟩ | ⟨_, mi⟩
    · rw [e] at a; cases a
    · obtain ⟨t1, a1, a2, a3, a4, a5, a6⟩ := insertKey_ok lk i v mi (by omega)
      rw [q] at a1; injection a1 with a1; subst a1
      have cn : t'.count = t.count + 1 := by
        have h1 := a2.cnt
        have h2 : (t'.items.filterMap id) = t.items.filterMap id ++ [(k, v)] := a3
        rw [h1, h2, List.length_append, i.cnt]; rfl
      have := m.top
      have := m.items
      have := m.size
      have := i.len
      rcases allocate_shape t i.len with ⟨z, b1, b2⟩ | ⟨b1, b2⟩
      · exact ⟨by omega, by omega, by omega⟩
      · exact ⟨by omega, by omega, by omega⟩
  · obtain ⟨t1, b1, a1, a2, a3, a4, a5, a6⟩ := deleteKey_ok lk i k (by omega)
    rw [q] at a1; injection a1 with a1; injection a1 with a1 _; subst a1
    have := a2.len
    have h1 : t'.count = (erase ko (iterate t) k).length := by rw [a2.cnt]; exact congrArg List.length a3
    have h2 : t.count = (iterate t).length := i.cnt
    -- at most one entry goes
    have h3 : t.count ≤ t'.count + 1 := by
      rcases lookupSlot_ok lk i k with ⟨s, x, v, _, p1, p2⟩ | ⟨_, mi⟩
      · have hit := i.hit lk p1 p2
        have e := hit.erase p1
        have : ∀ (l : List (Option (K × V))) (s : Nat),
            (l.filterMap id).length ≤ ((l.set s none).filterMap id).length + 1 := by
          intro l
          induction l with
          | nil => intro s; simp
          | cons a l ih =>
            intro s
            cases s with
            | zero => cases a <;> simp [fm_none, fm_some]
            | succ s =>
              have := ih s
              cases a <;> simpa [fm_none, fm_some] using this
        have := this t.items s
        rw [e] at this
        rw [h1, h2]; exact this
      · have e : erase ko (iterate t) k = iterate t := mi.erase
        rw [e] at h1; omega
    have := m.size
    exact ⟨by omega, by omega, by omega⟩
  · unfold clear
    have := m.top
    have := m.items
    have := m.size
    split
    · exact ⟨m.top, by simpa using m.items, m.size⟩
    · exact ⟨by simp, by simpa using m.items, m.size⟩

/-- **C52.** If a dictionary never holds more than `M` entries before a call, then whatever was inserted, overwritten
and deleted along the way, the item array never has more than `5M + 20` places and the index never more than `8M + 8`.
In particular all 32-bit size fields of the table stay in range. -/
theorem memory_bounded {ko : KeyOps K} (lk : LawfulKey ko) {M : Nat} (hM : M ≤ 2 ^ 28) (ops : List (Op K V))
    (f : Fits ko M [] ops) {t : Tbl K V} {rs : List (Except Err (Res K V))} (h : run ko {} ops = .ok (t, rs)) :
    t.items.length ≤ 5 * M + 20 ∧ t.size ≤ 8 * M + 8 ∧ t.top ≤ t.items.length ∧ t.count ≤ t.top := by
  have go : ∀ (ops : List (Op K V)) (t0 t : Tbl K V) (rs : List (Except Err (Res K V))), Inv ko t0 → MemBound M t0 →
      Fits ko M (iterate t0) ops → run ko t0 ops = .ok (t, rs) → Inv ko t ∧ MemBound M t := by
    intro ops
    induction ops with
    | nil =>
      intro t0 t rs i m _ h
      injection h with h; injection h with h; subst h
      exact ⟨i, m⟩
    | cons op ops ih =>
      intro t0 t rs i m f h
      have hl : (iterate t0).length ≤ M := f.1
      obtain ⟨t1, a, b, c⟩ := step_ok lk i op (by omega)
      simp only [run, a, bind, Except.bind] at h
      split at h
      · cases h
      · next p q =>
        injection h with h; injection h with h; subst h
        exact ih t1 p.1 p.2 b (step_mem lk i m a (by rw [i.cnt]; exact hl) hM) (by rw [c]; exact f.2) q
  obtain ⟨i, m⟩ := go ops {} t rs (inv_empty ko)
    ⟨Nat.zero_le _, Nat.zero_le _, Nat.zero_le _⟩ f h
  refine ⟨m.items, m.size, i.len, ?_⟩
  rw [i.cnt]
  have : ∀ (n : Nat) (l : List (Option (K × V))), (∀ (s : Nat) e, l[s]? = some (some e) → s < n) →
      (l.filterMap id).length ≤ n := by
    intro n
    induction n with
    | zero =>
      intro l hl
      have : l.filterMap id = [] := by
        rw [List.filterMap_eq_nil_iff]
        intro x hx
        obtain ⟨j, hj⟩ := List.getElem?_of_mem hx
        cases x with
        | none => rfl
        | some y => exact absurd (hl j y hj) (by omega)
      rw [this]; exact Nat.zero_le _
    | succ n ih =>
      intro l hl
      cases l with
      | nil => exact Nat.zero_le _
      | cons a l =>
        have := ih l (fun s e hs => by have := hl (s + 1) e (by simpa using hs); omega)
        cases a with
        | none => rw [fm_none]; omega
        | some p => rw [fm_some, List.length_cons]; omega
  exact this t.top t.items i.top

example : Fits badHash 3 [] sample := by simp [Fits, sample, effect, assign, lookup, erase, badHash]

end Verif.HashTable
