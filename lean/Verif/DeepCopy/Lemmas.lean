import Verif.DeepCopy.Model
import Verif.DeepCopy.Spec
import Verif.Slab.Props
import Mathlib.Data.List.Nodup
import Mathlib.Data.List.Forall2
import Mathlib.Tactic.Linarith
/-
Both passes of `deepcopyContiguous` are compared with one reference traversal, `dfs`, that remembers everything.
-/
namespace Verif.DeepCopy
open Spec Verif.Slab

/-- The reference traversal: the set of objects started so far. -/
def dfs (ord : Obj → List Slot) (h : Heap) : Nat → List Nat → Slot → List Nat
  | _, S, .pod _ => S
  | _, S, .null => S
  | _, S, .uninit _ => S
  | 0, S, .ref _ => S
  | f + 1, S, .ref a =>
    if a ∈ S then S
    else match h a with
      | none => S
      | some o => (ord o).foldl (dfs ord h f) (a :: S)

/-- The reference traversal of a list of slots. -/
def dfsL (ord : Obj → List Slot) (h : Heap) (f : Nat) (S : List Nat) (ss : List Slot) : List Nat :=
  ss.foldl (dfs ord h f) S

theorem dfsL_nil (ord h f S) : dfsL ord h f S [] = S := rfl
theorem dfsL_cons (ord h f S s ss) : dfsL ord h f S (s :: ss) = dfsL ord h f (dfs ord h f S s) ss := rfl
theorem dfs_ref (ord h f S a) : dfs ord h (f + 1) S (.ref a) =
    if a ∈ S then S else match h a with
      | none => S
      | some o => dfsL ord h f (a :: S) (ord o) := rfl

/-- What both passes assume about the objects they meet (`R`: reachable). -/
structure World (h : Heap) (R : Nat → Prop) (height : Nat → Nat) : Prop where
  res : ∀ a, R a → ∃ o, h a = some o
  step : ∀ a o b, R a → h a = some o → Slot.ref b ∈ o.slots → R b ∧ height b < height a
  cell : ∀ a o, R a → h a = some o → ∀ b, o.kind ≠ .cell b
  init : ∀ a o, R a → h a = some o → ∀ w, Slot.uninit w ∉ o.slots
  leaf : ∀ a o, R a → h a = some o → ((∃ n w, o.kind = .str n w) ∨ (∃ n, o.kind = .bytes n)) → o.slots = []

/-- The slots still to be processed are fine. -/
structure Heads (R : Nat → Prop) (height : Nat → Nat) (f : Nat) (ss : List Slot) : Prop where
  reach : ∀ a, Slot.ref a ∈ ss → R a
  low : ∀ a, Slot.ref a ∈ ss → height a < f
  init : ∀ w, Slot.uninit w ∉ ss

theorem Heads.tail {R height f s ss} (hh : Heads R height f (s :: ss)) : Heads R height f ss :=
  ⟨fun a ha => hh.reach a (List.mem_cons_of_mem _ ha), fun a ha => hh.low a (List.mem_cons_of_mem _ ha),
   fun w hw => hh.init w (List.mem_cons_of_mem _ hw)⟩

theorem Heads.kids {h R height f} (w : World h R height) {a o} (ord : Obj → List Slot) (hord : ∀ o, (ord o).Perm o.slots)
    (ha : R a) (ho : h a = some o) (hl : height a < f + 1) : Heads R height f (ord o) := by
  refine ⟨?_, ?_, ?_⟩
  · intro b hb; exact (w.step a o b ha ho ((hord o).subset hb)).1
  · intro b hb
    have := (w.step a o b ha ho ((hord o).subset hb)).2
    omega
  · intro x hx; exact w.init a o ha ho x ((hord o).subset hx)

/-- The facts about one run of the reference traversal. -/
structure DfsFacts (h : Heap) (R : Nat → Prop) (S : List Nat) (ss : List Slot) (new : List Nat) : Prop where
  nodup : new.Nodup
  disj : ∀ x ∈ new, x ∉ S
  heads : ∀ a, Slot.ref a ∈ ss → a ∈ new ++ S
  reach : ∀ x ∈ new, Reach h ss x ∧ R x
  closed : ∀ x ∈ new, ∀ o, h x = some o → ∀ y, Slot.ref y ∈ o.slots → y ∈ new ++ S

theorem reach_mono {h ss ss' x} (hs : ∀ a, Slot.ref a ∈ ss → Slot.ref a ∈ ss') (hr : Reach h ss x) : Reach h ss' x := by
  induction hr with
  | root ha => exact .root (hs _ ha)
  | step _ ho hb ih => exact .step ih ho hb

theorem reach_kids {h a o x} (ss : List Slot) (ho : h a = some o) (hs : Slot.ref a ∈ ss) (hr : Reach h o.slots x) :
    Reach h ss x := by
  induction hr with
  | root ha => exact .step (.root hs) ho ha
  | step _ ho hb ih => exact .step ih ho hb

theorem dfs_facts {h R height} (w : World h R height) (ord : Obj → List Slot) (hord : ∀ o, (ord o).Perm o.slots) :
    ∀ f, ∀ ss S, Heads R height f ss → ∃ new, dfsL ord h f S ss = new ++ S ∧ DfsFacts h R S ss new := by
  intro f
  induction f with
  | zero =>
    intro ss
    induction ss with
    | nil =>
      intro S _
      exact ⟨[], rfl, ⟨List.nodup_nil, by simp, by simp, by simp, by simp⟩⟩
    | cons s ss ih =>
      intro S hh
      obtain ⟨new, h1, h2⟩ := ih S hh.tail
      have hs : dfs ord h 0 S s = S := by cases s <;> rfl
      refine ⟨new, by rw [dfsL_cons, hs, h1], ⟨h2.nodup, h2.disj, ?_, ?_, h2.closed⟩⟩
      · intro a ha
        rcases List.mem_cons.1 ha with he | ha
        · exact absurd (hh.low a (by rw [he]; simp)) (by omega)
        · exact h2.heads a ha
      · intro x hx
        exact ⟨reach_mono (fun a ha => List.mem_cons_of_mem _ ha) (h2.reach x hx).1, (h2.reach x hx).2⟩
  | succ f ihf =>
    intro ss
    induction ss with
    | nil =>
      intro S _
      exact ⟨[], rfl, ⟨List.nodup_nil, by simp, by simp, by simp, by simp⟩⟩
    | cons s ss ih =>
      intro S hh
      -- the first slot
      have hone : ∃ new, dfs ord h (f + 1) S s = new ++ S ∧ DfsFacts h R S [s] new := by
        cases s with
        | pod b => exact ⟨[], rfl, ⟨List.nodup_nil, by simp, by simp, by simp, by simp⟩⟩
        | null => exact ⟨[], rfl, ⟨List.nodup_nil, by simp, by simp, by simp, by simp⟩⟩
        | uninit u => exact ⟨[], rfl, ⟨List.nodup_nil, by simp, by simp, by simp, by simp⟩⟩
        | ref a =>
          by_cases ha : a ∈ S
          · refine ⟨[], by rw [dfs_ref, if_pos ha]; rfl, ⟨List.nodup_nil, by simp, ?_, by simp, by simp⟩⟩
            intro b hb
            have : b = a := by simpa using hb
            simpa [this] using ha
          · have hR := hh.reach a (by simp)
            obtain ⟨o, ho⟩ := w.res a hR
            have hk := Heads.kids w ord hord hR ho (hh.low a (by simp))
            obtain ⟨new, h1, h2⟩ := ihf (ord o) (a :: S) hk
            refine ⟨new ++ [a], ?_, ?_, ?_, ?_, ?_, ?_⟩
            · rw [dfs_ref, if_neg ha]; simp only [ho]; rw [h1]; simp
            · rw [List.nodup_append]
              refine ⟨h2.nodup, by simp, ?_⟩
              intro x hx y hy
              have : y = a := by simpa using hy
              intro e
              exact h2.disj x hx (by rw [e, this]; simp)
            · intro x hx
              rcases List.mem_append.1 hx with hx | hx
              · exact fun hs => h2.disj x hx (List.mem_cons_of_mem _ hs)
              · have : x = a := by simpa using hx
                rw [this]; exact ha
            · intro b hb
              have : b = a := by simpa using hb
              simp [this]
            · intro x hx
              rcases List.mem_append.1 hx with hx | hx
              · refine ⟨reach_kids _ ho (by simp) ?_, (h2.reach x hx).2⟩
                exact reach_mono (fun b hb => (hord o).subset hb) (h2.reach x hx).1
              · have : x = a := by simpa using hx
                rw [this]; exact ⟨.root (by simp), hR⟩
            · intro x hx o' ho' y hy
              rcases List.mem_append.1 hx with hx | hx
              · have := h2.closed x hx o' ho' y hy
                simpa using this
              · have hxa : x = a := by simpa using hx
                subst hxa
                rw [ho] at ho'
                cases ho'
                have := h2.heads y ((hord o).symm.subset hy)
                simpa using this
      obtain ⟨n1, e1, f1⟩ := hone
      obtain ⟨n2, e2, f2⟩ := ih (n1 ++ S) hh.tail
      refine ⟨n2 ++ n1, ?_, ?_, ?_, ?_, ?_, ?_⟩
      · rw [dfsL_cons, e1, e2]; simp
      · rw [List.nodup_append]
        refine ⟨f2.nodup, f1.nodup, ?_⟩
        intro x hx y hy e
        exact f2.disj x hx (by rw [e]; exact List.mem_append_left _ hy)
      · intro x hx
        rcases List.mem_append.1 hx with hx | hx
        · exact fun hs => f2.disj x hx (List.mem_append_right _ hs)
        · exact f1.disj x hx
      · intro a ha
        rcases List.mem_cons.1 ha with he | ha
        · have := f1.heads a (by rw [he]; simp)
          rw [List.append_assoc]; exact List.mem_append_right _ this
        · have := f2.heads a ha
          rwa [List.append_assoc]
      · intro x hx
        rcases List.mem_append.1 hx with hx | hx
        · exact ⟨reach_mono (fun a ha => List.mem_cons_of_mem _ ha) (f2.reach x hx).1, (f2.reach x hx).2⟩
        · refine ⟨reach_mono (fun a ha => ?_) (f1.reach x hx).1, (f1.reach x hx).2⟩
          have : Slot.ref a = s := by simpa using ha
          rw [this]; simp
      · intro x hx o ho y hy
        rw [List.append_assoc]
        rcases List.mem_append.1 hx with hx | hx
        · exact f2.closed x hx o ho y hy
        · exact List.mem_append_right _ (f1.closed x hx o ho y hy)

/-! ### Single-holder objects are met once -/

/-- Objects the copier does not remember have at most one outstanding reference: in what is pending or in an object not
yet started. -/
def Single (h : Heap) (R : Nat → Prop) (S : List Nat) (pend : List Slot) : Prop :=
  ∀ x o, R x → h x = some o → memoised o = false →
    (x ∈ S → Slot.ref x ∉ pend) ∧ pend.count (Slot.ref x) ≤ 1 ∧
    ∀ p q, R p → h p = some q → p ∉ S →
      q.slots.count (Slot.ref x) ≤ 1 ∧
      (Slot.ref x ∈ q.slots → x ∉ S ∧ Slot.ref x ∉ pend ∧
        ∀ p' q', R p' → h p' = some q' → p' ∉ S → Slot.ref x ∈ q'.slots → p' = p)

theorem Single.tail {h R S s pend} (hs : Single h R S (s :: pend)) : Single h R S pend := by
  intro x o hR hx hm
  obtain ⟨h1, h2, h3⟩ := hs x o hR hx hm
  refine ⟨fun hS hp => h1 hS (List.mem_cons_of_mem _ hp), ?_, ?_⟩
  · have := (List.sublist_cons_self s pend).count_le (Slot.ref x); omega
  · intro p q hRp hp hpS
    refine ⟨(h3 p q hRp hp hpS).1, fun hq => ?_⟩
    obtain ⟨a1, a2, a3⟩ := (h3 p q hRp hp hpS).2 hq
    exact ⟨a1, fun hx => a2 (List.mem_cons_of_mem _ hx), a3⟩

theorem Single.start {h R S a o rest} (ord : Obj → List Slot) (hord : ∀ o, (ord o).Perm o.slots)
    (hs : Single h R S (.ref a :: rest)) (hR : R a) (ho : h a = some o) (ha : a ∉ S) :
    Single h R (a :: S) (ord o ++ rest) := by
  intro x ox hRx hx hm
  obtain ⟨h1, h2, h3⟩ := hs x ox hRx hx hm
  have hmem : Slot.ref x ∈ ord o ↔ Slot.ref x ∈ o.slots := (hord o).mem_iff
  have hcnt : (ord o).count (Slot.ref x) = o.slots.count (Slot.ref x) := (hord o).count_eq _
  have hself := h3 a o hR ho ha
  refine ⟨?_, ?_, ?_⟩
  · intro hS hp
    rcases List.mem_append.1 hp with hp | hp
    · have hk := hself.2 (hmem.1 hp)
      rcases List.mem_cons.1 hS with rfl | hS
      · exact hk.2.1 (by simp)
      · exact hk.1 hS
    · rcases List.mem_cons.1 hS with rfl | hS
      · rw [List.count_cons_self] at h2
        have := List.count_pos_iff.2 hp
        omega
      · exact h1 hS (List.mem_cons_of_mem _ hp)
  · rw [List.count_append, hcnt]
    by_cases hin : Slot.ref x ∈ o.slots
    · have hk := hself.2 hin
      have : rest.count (Slot.ref x) = 0 := List.count_eq_zero.2 (fun hr => hk.2.1 (List.mem_cons_of_mem _ hr))
      have := hself.1
      omega
    · have : o.slots.count (Slot.ref x) = 0 := List.count_eq_zero.2 hin
      have := (List.sublist_cons_self (Slot.ref a) rest).count_le (Slot.ref x)
      omega
  · intro p q hRp hp hpS
    have hpS' : p ∉ S := fun hh => hpS (List.mem_cons_of_mem _ hh)
    have hpa : p ≠ a := fun e => hpS (by rw [e]; simp)
    obtain ⟨k1, k2⟩ := h3 p q hRp hp hpS'
    refine ⟨k1, fun hq => ?_⟩
    obtain ⟨a1, a2, a3⟩ := k2 hq
    refine ⟨?_, ?_, ?_⟩
    · intro hS
      rcases List.mem_cons.1 hS with rfl | hS
      · exact a2 (by simp)
      · exact a1 hS
    · intro hpend
      rcases List.mem_append.1 hpend with hpend | hpend
      · exact hpa (a3 a o hR ho ha (hmem.1 hpend)).symm
      · exact a2 (List.mem_cons_of_mem _ hpend)
    · intro p' q' hRp' hp' hpS'' hq'
      exact a3 p' q' hRp' hp' (fun hh => hpS'' (List.mem_cons_of_mem _ hh)) hq'

theorem Single.dfs {h R height} (w : World h R height) (ord : Obj → List Slot) (hord : ∀ o, (ord o).Perm o.slots) :
    ∀ f, ∀ ss S rest, Heads R height f ss → Single h R S (ss ++ rest) → Single h R (dfsL ord h f S ss) rest := by
  intro f
  induction f with
  | zero =>
    intro ss
    induction ss with
    | nil => intro S rest _ hs; exact hs
    | cons s ss ih =>
      intro S rest hh hs
      rw [dfsL_cons]
      have : DeepCopy.dfs ord h 0 S s = S := by cases s <;> rfl
      rw [this]
      exact ih S rest hh.tail hs.tail
  | succ f ihf =>
    intro ss
    induction ss with
    | nil => intro S rest _ hs; exact hs
    | cons s ss ih =>
      intro S rest hh hs
      rw [dfsL_cons]
      refine ih _ rest hh.tail ?_
      cases s with
      | pod b => exact hs.tail
      | null => exact hs.tail
      | uninit u => exact hs.tail
      | ref a =>
        rw [dfs_ref]
        split
        · exact hs.tail
        · rename_i ha
          have hR := hh.reach a (by simp)
          obtain ⟨o, ho⟩ := w.res a hR
          simp only [ho]
          exact ihf (ord o) (a :: S) (ss ++ rest) (Heads.kids w ord hord hR ho (hh.low a (by simp)))
            (Single.start ord hord hs hR ho ha)

/-! ### Sizes -/

/-- All layout structs have a positive size. -/
structure Sizes.Pos (z : Sizes) : Prop where
  align : 0 < z.align
  str : 0 < z.str
  bytes : 0 < z.bytes
  seq : 0 < z.seq
  table : 0 < z.table
  constDict : 0 < z.constDict
  alternative : 0 < z.alternative
  cls : 0 < z.cls
  cell : 0 < z.cell

/-- The bytes one object takes in the slab. -/
def own (z : Sizes) (k : Kind) : Nat :=
  totalRequired z.align (allocsBefore z k) + totalRequired z.align (allocsAfter k)

theorem counted_eq (z : Sizes) (k : Kind) (n : Nat) (hk : ∀ b, k ≠ .cell b)
    (hl : ((∃ c w, k = .str c w) ∨ (∃ c, k = .bytes c)) → n = 0) : counted z k n = n + own z k := by
  cases k with
  | str c w =>
    have := hl (Or.inl ⟨c, w, rfl⟩)
    subst this
    simp [counted, own, allocsBefore, allocsAfter, totalRequired, Nat.add_comm]
  | bytes c =>
    have := hl (Or.inr ⟨c, rfl⟩)
    subst this
    simp [counted, own, allocsBefore, allocsAfter, totalRequired, Nat.add_comm]
  | tupleOf c e =>
    simp only [counted, own, allocsBefore, allocsAfter, totalRequired]
    split
    · simp; omega
    · simp; rw [Nat.mul_comm e]; omega
  | listOf c e =>
    simp only [counted, own, allocsBefore, allocsAfter, totalRequired]
    split
    · simp; omega
    · simp; rw [Nat.mul_comm e]; omega
  | table r b hs =>
    simp only [counted, own, allocsBefore, allocsAfter, totalRequired]
    simp; rw [Nat.mul_comm b]; omega
  | constDict c b => simp [counted, own, allocsBefore, allocsAfter, totalRequired]; omega
  | alternative b => simp [counted, own, allocsBefore, allocsAfter, totalRequired, Nat.add_comm]
  | cls b => simp [counted, own, allocsBefore, allocsAfter, totalRequired]
  | cell b => exact absurd rfl (hk b)

/-- Bytes for a set of objects. -/
def tot (z : Sizes) (h : Heap) (l : List Nat) : Nat :=
  (l.map (fun a => match h a with | some o => own z o.kind | none => 0)).sum

theorem tot_append (z h l1 l2) : tot z h (l1 ++ l2) = tot z h l1 + tot z h l2 := by simp [tot]
theorem tot_single (z : Sizes) (h : Heap) (a o) (ho : h a = some o) : tot z h [a] = own z o.kind := by simp [tot, ho]

theorem memoised_marked (o : Obj) (h : memoised o = true) : marked o = true := by
  obtain ⟨k, r, s, p⟩ := o
  cases k <;> simp_all [memoised, marked]

end Verif.DeepCopy
