import Verif.Arr.Model
/-!
# A loop that assigns to distinct cells

Every loop of the package writes one cell per iteration, and no two iterations write the same one.
If what an iteration writes does not depend on the cells the others write, all of them are written
with the values computed from the heap the loop started with.
-/
namespace Verif.Arr

variable {T ι : Type}

/-- The heaps agree outside `S`, and have the same lists with the same lengths. -/
def Agree (S : Nat → Nat → Prop) (h h' : Heap T) : Prop :=
  h'.next = h.next ∧ (∀ q, (h'.buf q).length = (h.buf q).length) ∧
    ∀ q k, ¬ S q k → (h'.buf q)[k]? = (h.buf q)[k]?

theorem Agree.refl (S : Nat → Nat → Prop) (h : Heap T) : Agree S h h :=
  ⟨rfl, fun _ => rfl, fun _ _ _ => rfl⟩

theorem Agree.trans {S S' S'' : Nat → Nat → Prop} {h h' h'' : Heap T}
    (a : Agree S h h') (b : Agree S' h' h'') (hs : ∀ q k, S q k → S'' q k)
    (hs' : ∀ q k, S' q k → S'' q k) : Agree S'' h h'' := by
  refine ⟨b.1.trans a.1, fun q => (b.2.1 q).trans (a.2.1 q), fun q k hn => ?_⟩
  rw [b.2.2 q k (fun x => hn (hs' q k x)), a.2.2 q k (fun x => hn (hs q k x))]

theorem Agree.mono {S S' : Nat → Nat → Prop} {h h' : Heap T} (a : Agree S h h')
    (hs : ∀ q k, S q k → S' q k) : Agree S' h h' :=
  ⟨a.1, a.2.1, fun q k hn => a.2.2 q k (fun x => hn (hs q k x))⟩

theorem put_agree (h : Heap T) (r k : Nat) (v : T) :
    Agree (fun q j => q = r ∧ j = k) h (h.put r k v) := by
  refine ⟨rfl, fun q => ?_, fun q j hn => ?_⟩
  · simp only [Heap.put]
    split
    · rename_i hq; subst hq; simp
    · rfl
  · simp only [Heap.put]
    split
    · rename_i hq
      subst hq
      rw [List.getElem?_set_ne]
      intro hk
      exact hn ⟨rfl, hk.symm⟩
    · rfl

theorem put_same (h : Heap T) (r k : Nat) (v : T) (hk : k < (h.buf r).length) :
    ((h.put r k v).buf r)[k]? = some v := by
  simp [Heap.put, hk]

/-- The cells an iteration writes. -/
def Cells (r : Nat) (ad : ι → Nat) (l : List ι) (q k : Nat) : Prop := q = r ∧ ∃ i ∈ l, k = ad i

theorem forEach_assign (r : Nat) (ad : ι → Nat) (val : ι → Heap T → Except Err T) (v : ι → T) :
    ∀ (l : List ι) (h : Heap T),
      (∀ i ∈ l, ad i < (h.buf r).length) →
      l.Pairwise (fun i j => ad i ≠ ad j) →
      (∀ i ∈ l, ∀ h', Agree (fun q k => q = r ∧ ∃ j ∈ l, ad j ≠ ad i ∧ k = ad j) h h' →
        val i h' = .ok (v i)) →
      ∃ h', forEach (assign r ad val) l h = (.ok (), h') ∧
        (∀ i ∈ l, (h'.buf r)[ad i]? = some (v i)) ∧ Agree (Cells r ad l) h h' := by
  intro l
  induction l with
  | nil =>
    intro h _ _ _
    exact ⟨h, rfl, fun i hi => (List.not_mem_nil hi).elim, Agree.refl _ _⟩
  | cons x xs ih =>
    intro h hb hd hv
    have hx := hb x List.mem_cons_self
    have hvx : val x h = .ok (v x) := hv x List.mem_cons_self h (Agree.refl _ _)
    have hd' := List.pairwise_cons.mp hd
    have ha := put_agree h r (ad x) (v x)
    obtain ⟨h', e, hit, ag⟩ := ih (h.put r (ad x) (v x))
      (fun i hi => by rw [ha.2.1]; exact hb i (List.mem_cons_of_mem _ hi)) hd'.2
      (fun i hi h'' ag' => hv i (List.mem_cons_of_mem _ hi) h''
        (ha.trans ag'
          (fun q k hk => ⟨hk.1, x, List.mem_cons_self, hd'.1 i hi, hk.2⟩)
          (fun q k hk => by
            obtain ⟨hq, j, hj, hne, hk⟩ := hk
            exact ⟨hq, j, List.mem_cons_of_mem _ hj, hne, hk⟩)))
    refine ⟨h', ?_, ?_, ?_⟩
    · simp only [forEach, assign, hvx, Heap.write, hx, if_true]
      exact e
    · intro i hi
      rcases List.mem_cons.mp hi with rfl | hi
      · rw [ag.2.2 r (ad i) (by
          rintro ⟨_, j, hj, hk⟩
          exact hd'.1 j hj hk)]
        exact put_same h r (ad i) (v i) hx
      · exact hit i hi
    · refine ha.trans ag ?_ ?_
      · rintro q k ⟨hq, hk⟩
        exact ⟨hq, x, List.mem_cons_self, hk⟩
      · rintro q k ⟨hq, j, hj, hk⟩
        exact ⟨hq, j, List.mem_cons_of_mem _ hj, hk⟩

/-- Two loops one after the other. -/
theorem forEach_append (body : ι → Heap T → Res T Unit) (l l' : List ι) (h h' : Heap T)
    (e : forEach body l h = (.ok (), h')) :
    forEach body (l ++ l') h = forEach body l' h' := by
  induction l generalizing h with
  | nil => simp only [forEach, Prod.mk.injEq, true_and] at e; subst e; rfl
  | cons x xs ih =>
    simp only [List.cons_append, forEach] at e ⊢
    cases hb : body x h with
    | mk r h1 =>
      cases r with
      | ok u => simp only [hb] at e ⊢; exact ih h1 e
      | error er => simp [hb] at e

/-- Two nested loops are one loop over the pairs. -/
theorem forEach_nested (body : Nat × Nat → Heap T → Res T Unit) (rows cols : Nat) (h : Heap T) :
    forEach body (pairs rows cols) h =
      forEach (fun i => forEach (fun j => body (i, j)) (List.range cols)) (List.range rows) h := by
  unfold pairs
  generalize List.range rows = rs
  induction rs generalizing h with
  | nil => rfl
  | cons i is ih =>
    simp only [List.flatMap_cons, forEach]
    have hm : ∀ (l : List Nat) (h : Heap T),
        forEach body (l.map fun j => (i, j)) h = forEach (fun j => body (i, j)) l h := by
      intro l
      induction l with
      | nil => intro h; rfl
      | cons j js ihj =>
        intro h
        simp only [List.map_cons, forEach]
        cases hb : body (i, j) h with
        | mk r h1 => cases r <;> simp [ihj]
    cases hb : forEach (fun j => body (i, j)) (List.range cols) h with
    | mk r h1 =>
      cases r with
      | ok u =>
        rw [forEach_append _ _ _ h h1 (by rw [hm]; exact hb)]
        exact ih h1
      | error e =>
        have : ∀ (l l' : List (Nat × Nat)) (h : Heap T), forEach body l h = (.error e, h1) →
            forEach body (l ++ l') h = (.error e, h1) := by
          intro l l'
          induction l with
          | nil => intro h hh; simp [forEach] at hh
          | cons x xs ihx =>
            intro h hh
            simp only [List.cons_append, forEach] at hh ⊢
            cases hb : body x h with
            | mk r h2 =>
              cases r with
              | ok u => simp only [hb] at hh ⊢; exact ihx h2 hh
              | error e' => simp only [hb] at hh ⊢; exact hh
        exact this _ _ h (by rw [hm]; exact hb)

/-- Whatever a loop does, lists keep their lengths and no list appears. -/
theorem forEach_lengths (r : Nat) (ad : ι → Nat) (val : ι → Heap T → Except Err T) (l : List ι)
    (h : Heap T) :
    Agree (fun q _ => q = r) h (forEach (assign r ad val) l h).2 := by
  induction l generalizing h with
  | nil => exact Agree.refl _ _
  | cons x xs ih =>
    simp only [forEach, assign]
    cases hv : val x h with
    | error e => exact Agree.refl _ _
    | ok v =>
      simp only [Heap.write]
      split
      · rename_i heq
        split at heq
        · cases heq
          exact ((put_agree h r (ad x) v).mono (fun q k hk => hk.1)).trans (ih _)
            (fun _ _ hk => hk) (fun _ _ hk => hk)
        · cases heq
      · rename_i heq
        split at heq
        · cases heq
        · cases heq; exact Agree.refl _ _

theorem readAll_ok (h : Heap T) (r : Nat) (l : List Nat) (v : Nat → T)
    (hv : ∀ k ∈ l, (h.buf r)[k]? = some (v k)) : readAll h r l = .ok (l.map v) := by
  induction l with
  | nil => rfl
  | cons k ks ih =>
    simp only [readAll, Heap.read, hv k List.mem_cons_self, List.map_cons]
    rw [ih (fun j hj => hv j (List.mem_cons_of_mem _ hj))]

theorem mem_pairs (rows cols : Nat) (p : Nat × Nat) :
    p ∈ pairs rows cols ↔ p.1 < rows ∧ p.2 < cols := by
  obtain ⟨i, j⟩ := p
  simp only [pairs, List.mem_flatMap, List.mem_range, List.mem_map, Prod.mk.injEq]
  constructor
  · rintro ⟨a, ha, b, hb, rfl, rfl⟩; exact ⟨ha, hb⟩
  · rintro ⟨ha, hb⟩; exact ⟨i, ha, j, hb, rfl, rfl⟩

end Verif.Arr
