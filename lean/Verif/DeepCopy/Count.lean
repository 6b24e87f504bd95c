import Verif.DeepCopy.Lemmas
/-
The counting pass adds up the sizes of exactly the objects the reference traversal starts.
-/
namespace Verif.DeepCopy
open Spec Verif.Slab

/-- `alreadyVisited` holds the started objects that the counter remembers. -/
def VisOK (h : Heap) (S vis : List Nat) : Prop := ∀ x, x ∈ vis ↔ x ∈ S ∧ ∃ o, h x = some o ∧ marked o = true

theorem countSlot_ref (z ord h f vis a) : countSlot z ord h (f + 1) vis (.ref a) =
    (match h a with
    | none => .error .wild
    | some o =>
      if memoised o && vis.contains a then .ok (0, vis)
      else
        match countList (countSlot z ord h f) (if marked o then a :: vis else vis) (ord o) with
        | .error e => .error e
        | .ok (n, vis1) => .ok (counted z o.kind n, vis1)) := rfl

theorem countSlot_pod (z ord h f vis b) : countSlot z ord h f vis (.pod b) = .ok (0, vis) := by cases f <;> rfl
theorem countSlot_null (z ord h f vis) : countSlot z ord h f vis .null = .ok (0, vis) := by cases f <;> rfl

/-- One slot of the counting pass. -/
def CountSlotOK (z : Sizes) (ord : Obj → List Slot) (h : Heap) (R : Nat → Prop) (height : Nat → Nat) (f : Nat) : Prop :=
  ∀ s S vis rest, Heads R height f [s] → Single h R S (s :: rest) → VisOK h S vis →
    ∃ new vis', dfs ord h f S s = new ++ S ∧ countSlot z ord h f vis s = .ok (tot z h new, vis') ∧ VisOK h (new ++ S) vis'

/-- A list of slots of the counting pass. -/
def CountListOK (z : Sizes) (ord : Obj → List Slot) (h : Heap) (R : Nat → Prop) (height : Nat → Nat) (f : Nat) : Prop :=
  ∀ ss S vis rest, Heads R height f ss → Single h R S (ss ++ rest) → VisOK h S vis →
    ∃ new vis', dfsL ord h f S ss = new ++ S ∧ countList (countSlot z ord h f) vis ss = .ok (tot z h new, vis') ∧
      VisOK h (new ++ S) vis'

theorem heads_one {R height f s ss} (hh : Heads R height f (s :: ss)) : Heads R height f [s] :=
  ⟨fun a ha => hh.reach a (by simp at ha; simp [ha]), fun a ha => hh.low a (by simp at ha; simp [ha]),
   fun w hw => hh.init w (by simp at hw; simp [hw])⟩

theorem countList_of_slot {z ord h R height f} (w : World h R height) (hord : ∀ o, (ord o).Perm o.slots)
    (hs : CountSlotOK z ord h R height f) : CountListOK z ord h R height f := by
  intro ss
  induction ss with
  | nil => intro S vis rest _ _ hv; exact ⟨[], vis, rfl, rfl, hv⟩
  | cons s ss ih =>
    intro S vis rest hh hsg hv
    obtain ⟨n1, v1, e1, c1, k1⟩ := hs s S vis (ss ++ rest) (heads_one hh) hsg hv
    have hsg2 : Single h R (dfsL ord h f S [s]) (ss ++ rest) :=
      Single.dfs w ord hord f [s] S (ss ++ rest) (heads_one hh) hsg
    have e1' : dfsL ord h f S [s] = n1 ++ S := e1
    rw [e1'] at hsg2
    obtain ⟨n2, v2, e2, c2, k2⟩ := ih (n1 ++ S) v1 rest hh.tail hsg2 k1
    refine ⟨n2 ++ n1, v2, ?_, ?_, ?_⟩
    · rw [dfsL_cons, e1, e2]; simp
    · simp only [countList, c1, c2, tot_append]
      rw [Nat.add_comm]
    · rw [List.append_assoc]; exact k2

theorem countSlot_zero {z ord h R height} : CountSlotOK z ord h R height 0 := by
  intro s S vis rest hh _ hv
  cases s with
  | pod b => exact ⟨[], vis, rfl, rfl, hv⟩
  | null => exact ⟨[], vis, rfl, rfl, hv⟩
  | uninit u => exact absurd (by simp) (hh.init u)
  | ref a => exact absurd (hh.low a (by simp)) (by omega)

theorem countSlot_succ {z ord h R height f} (w : World h R height) (hord : ∀ o, (ord o).Perm o.slots)
    (hl : CountListOK z ord h R height f) : CountSlotOK z ord h R height (f + 1) := by
  intro s S vis rest hh hsg hv
  cases s with
  | pod b => exact ⟨[], vis, rfl, rfl, hv⟩
  | null => exact ⟨[], vis, rfl, rfl, hv⟩
  | uninit u => exact absurd (by simp) (hh.init u)
  | ref a =>
    have hR := hh.reach a (by simp)
    obtain ⟨o, ho⟩ := w.res a hR
    by_cases haS : a ∈ S
    · have hm : memoised o = true := by
        cases hmm : memoised o with
        | true => rfl
        | false => exact absurd (by simp) ((hsg a o hR ho hmm).1 haS)
      have hav : a ∈ vis := (hv a).2 ⟨haS, o, ho, memoised_marked o hm⟩
      refine ⟨[], vis, by rw [dfs_ref, if_pos haS]; rfl, ?_, hv⟩
      rw [countSlot_ref]
      simp only [ho, hm, Bool.true_and]
      rw [if_pos (by simpa using hav)]
      rfl
    · have hav : a ∉ vis := fun hx => haS ((hv a).1 hx).1
      have hk := Heads.kids w ord hord hR ho (hh.low a (by simp))
      have hv2 : VisOK h (a :: S) (if marked o then a :: vis else vis) := by
        intro x
        cases hmk : marked o with
        | true =>
          simp only [if_true, List.mem_cons]
          constructor
          · rintro (rfl | hx)
            · exact ⟨Or.inl rfl, o, ho, hmk⟩
            · exact ⟨Or.inr ((hv x).1 hx).1, ((hv x).1 hx).2⟩
          · rintro ⟨rfl | hx, h2⟩
            · exact Or.inl rfl
            · exact Or.inr ((hv x).2 ⟨hx, h2⟩)
        | false =>
          simp only [Bool.false_eq_true, if_false, List.mem_cons]
          constructor
          · intro hx; exact ⟨Or.inr ((hv x).1 hx).1, ((hv x).1 hx).2⟩
          · rintro ⟨rfl | hx, o', ho', hm'⟩
            · rw [ho] at ho'; cases ho'; rw [hmk] at hm'; cases hm'
            · exact (hv x).2 ⟨hx, o', ho', hm'⟩
      obtain ⟨n, v', e, c, k⟩ := hl (ord o) (a :: S) _ rest hk (Single.start ord hord hsg hR ho haS) hv2
      refine ⟨n ++ [a], v', ?_, ?_, ?_⟩
      · rw [dfs_ref, if_neg haS]; simp only [ho]; rw [e]; simp
      · rw [countSlot_ref]
        have : vis.contains a = false := by simpa using hav
        simp only [ho, this, Bool.and_false, Bool.false_eq_true, if_false, c]
        rw [counted_eq z o.kind _ (w.cell a o hR ho), tot_append, tot_single z h a o ho]
        intro hleaf
        have hnil := w.leaf a o hR ho hleaf
        have : ord o = [] := (hnil ▸ hord o).eq_nil
        rw [this, dfsL_nil] at e
        have hn : n = [] := by
          have := congrArg List.length e
          rw [List.length_append] at this
          exact List.length_eq_zero_iff.1 (by omega)
        rw [hn]; rfl
      · simpa using k

theorem count_ok {z ord h R height} (w : World h R height) (hord : ∀ o, (ord o).Perm o.slots) :
    ∀ f, CountListOK z ord h R height f := by
  intro f
  induction f with
  | zero => exact countList_of_slot w hord countSlot_zero
  | succ f ih => exact countList_of_slot w hord (countSlot_succ w hord ih)

end Verif.DeepCopy
