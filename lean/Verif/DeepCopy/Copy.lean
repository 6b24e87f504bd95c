import Verif.DeepCopy.Count
/-
The copying pass copies exactly the objects the reference traversal starts, each once.
-/
namespace Verif.DeepCopy
open Spec Verif.Slab

/-- A slot of the copy stands for a slot of the original, by the finished copies. -/
def Rel (dest : List Entry) : Slot → Slot → Prop
  | .ref a, t => ∃ d, t = .ref d ∧ ∃ e ∈ dest, e.src = a ∧ e.dst = d
  | s, t => t = s

theorem Rel.mono {dest dest' s t} (hs : ∀ e ∈ dest, e ∈ dest') (h : Rel dest s t) : Rel dest' s t := by
  cases s with
  | ref a => obtain ⟨d, h1, e, h2, h3⟩ := h; exact ⟨d, h1, e, hs e h2, h3⟩
  | pod b => exact h
  | null => exact h
  | uninit w => exact h

/-- References to `d` held by finished copies. -/
def cnt (dest : List Entry) (d : Nat) : Nat := (dest.map (fun e => e.slots.count (Slot.ref d))).sum

theorem cnt_append (a b d) : cnt (a ++ b) d = cnt a d + cnt b d := by simp [cnt]

/-- The invariant of the copying pass: `S` started, `K` started but not finished. -/
structure CI (z : Sizes) (h : Heap) (S K : List Nat) (st : St) : Prop where
  part : ∀ x, x ∈ S ↔ x ∈ st.dest.map Entry.src ∨ x ∈ K
  disj : ∀ x ∈ K, x ∉ st.dest.map Entry.src
  srcs : (st.dest.map Entry.src).Nodup
  dsts : (st.dest.map Entry.dst).Nodup
  low : ∀ e ∈ st.dest, e.dst ≤ st.slab.point
  memo : ∀ a d, st.memo.lookup a = some d ↔ (∃ e ∈ st.dest, e.src = a ∧ e.dst = d) ∧ ∃ o, h a = some o ∧ memoised o = true
  ent : ∀ e ∈ st.dest, ∃ o, h e.src = some o ∧ e.kind = o.kind ∧ e.payload = o.payload ∧
    List.Forall₂ (Rel st.dest) o.slots e.slots
  fresh : ∀ d, st.slab.point < d → st.rc d = 0
  owned : Owned z.align st.slab

/-- What a run of the copying pass achieves. -/
structure Done (z : Sizes) (h : Heap) (S K new : List Nat) (ss ss' : List Slot) (st st' : St) : Prop where
  inv : CI z h (new ++ S) K st'
  size : st'.slab.size = st.slab.size
  point : st'.slab.point = st.slab.point + tot z h new
  rel : List.Forall₂ (Rel st'.dest) ss ss'
  ext : ∃ es, st'.dest = st.dest ++ es ∧ ∀ e ∈ es, st.slab.point < e.dst
  rc : ∀ d, st'.rc d + cnt st.dest d = st.rc d + cnt st'.dest d + ss'.count (Slot.ref d)

def CopySlotOK (z : Sizes) (h : Heap) (R : Nat → Prop) (height : Nat → Nat) (f : Nat) : Prop :=
  ∀ s S K st rest new, Heads R height f [s] → Single h R S (s :: rest) → CI z h S K st →
    (∀ a, Slot.ref a = s → ∀ k ∈ K, height a < height k) →
    dfs Obj.slots h f S s = new ++ S → st.slab.point + tot z h new ≤ st.slab.size →
    ∃ s' st', copySlot z h f st s = .ok (s', st') ∧ Done z h S K new [s] [s'] st st'

def CopyListOK (z : Sizes) (h : Heap) (R : Nat → Prop) (height : Nat → Nat) (f : Nat) : Prop :=
  ∀ ss S K st rest new, Heads R height f ss → Single h R S (ss ++ rest) → CI z h S K st →
    (∀ a, Slot.ref a ∈ ss → ∀ k ∈ K, height a < height k) →
    dfsL Obj.slots h f S ss = new ++ S → st.slab.point + tot z h new ≤ st.slab.size →
    ∃ ss' st', copyList (copySlot z h f) st ss = .ok (ss', st') ∧ Done z h S K new ss ss' st st'

theorem append_cancel {a b S : List Nat} (h : a ++ S = b ++ S) : a = b := List.append_cancel_right h

theorem copyList_of_slot {z h R height f} (w : World h R height) (hs : CopySlotOK z h R height f) :
    CopyListOK z h R height f := by
  intro ss
  induction ss with
  | nil =>
    intro S K st rest new _ _ hci _ he _
    have : new = [] := by
      rw [dfsL_nil] at he
      have := congrArg List.length he
      rw [List.length_append] at this
      exact List.length_eq_zero_iff.1 (by omega)
    subst this
    refine ⟨[], st, rfl, ⟨hci, rfl, by simp [tot], List.Forall₂.nil, ⟨[], by simp, by simp⟩, by simp⟩⟩
  | cons s ss ih =>
    intro S K st rest new hh hsg hci hK he hsz
    obtain ⟨n1, e1, f1⟩ := dfs_facts w Obj.slots (fun o => List.Perm.refl _) f [s] S (heads_one hh)
    have hsg2 : Single h R (dfsL Obj.slots h f S [s]) (ss ++ rest) :=
      Single.dfs w Obj.slots (fun o => List.Perm.refl _) f [s] S (ss ++ rest) (heads_one hh) hsg
    rw [e1] at hsg2
    obtain ⟨n2, e2, f2⟩ := dfs_facts w Obj.slots (fun o => List.Perm.refl _) f ss (n1 ++ S) hh.tail
    have hnew : new = n2 ++ n1 := by
      rw [dfsL_cons] at he
      have e1' : dfs Obj.slots h f S s = n1 ++ S := e1
      rw [e1', e2, ← List.append_assoc] at he
      exact (append_cancel he).symm
    subst hnew
    rw [tot_append] at hsz
    obtain ⟨s', st1, c1, d1⟩ := hs s S K st (ss ++ rest) n1 (heads_one hh) hsg hci
      (fun a ha => hK a (by rw [ha]; simp)) e1 (by omega)
    have hp1 := d1.point
    have hz1 := d1.size
    obtain ⟨ss', st2, c2, d2⟩ := ih (n1 ++ S) K st1 rest n2 hh.tail hsg2 d1.inv
      (fun a ha => hK a (List.mem_cons_of_mem _ ha)) e2 (by omega)
    obtain ⟨es1, x1, y1⟩ := d1.ext
    obtain ⟨es2, x2, y2⟩ := d2.ext
    refine ⟨s' :: ss', st2, by simp only [copyList, c1, c2], ?_⟩
    refine ⟨by rw [List.append_assoc]; exact d2.inv, by rw [d2.size, d1.size], by rw [d2.point, d1.point, tot_append]; omega, ?_, ?_, ?_⟩
    · refine List.Forall₂.cons ?_ d2.rel
      cases d1.rel with
      | cons hr _ => exact hr.mono (fun e he => by rw [x2]; exact List.mem_append_left _ he)
    · refine ⟨es1 ++ es2, by rw [x2, x1, List.append_assoc], ?_⟩
      intro e he
      rcases List.mem_append.1 he with he | he
      · exact y1 e he
      · have := y2 e he; omega
    · intro d
      have a1 := d1.rc d
      have a2 := d2.rc d
      rw [List.count_cons]
      have : [s'].count (Slot.ref d) = if (s' == Slot.ref d) = true then 1 else 0 := by
        rw [List.count_cons]; simp
      omega

theorem copySlot_zero {z h R height} : CopySlotOK z h R height 0 := by
  intro s S K st rest new hh _ hci _ he _
  have hnil : dfs Obj.slots h 0 S s = S := by cases s <;> rfl
  rw [hnil] at he
  have : new = [] := by
    have := congrArg List.length he
    rw [List.length_append] at this
    exact List.length_eq_zero_iff.1 (by omega)
  subst this
  cases s with
  | pod b =>
    exact ⟨_, st, rfl, ⟨hci, rfl, by simp [tot], List.Forall₂.cons rfl .nil, ⟨[], by simp, by simp⟩, by simp⟩⟩
  | null =>
    exact ⟨_, st, rfl, ⟨hci, rfl, by simp [tot], List.Forall₂.cons rfl .nil, ⟨[], by simp, by simp⟩, by simp⟩⟩
  | uninit u => exact absurd (by simp) (hh.init u)
  | ref a => exact absurd (hh.low a (by simp)) (by omega)

theorem allocs_of_allocAll (A : Nat) : ∀ (ns : List Nat) (s : Slab) r, allocAll A s ns = .ok r → allocs A s ns = .ok r := by
  intro ns
  induction ns with
  | nil => intro s r h; simpa [allocAll, allocs] using h
  | cons n ns ih =>
    intro s r h
    simp only [allocAll] at h
    simp only [allocs]
    cases ha : allocate A s n with
    | error e => rw [ha] at h; cases h
    | ok q =>
      rw [ha] at h
      simp only at h ⊢
      cases hb : allocAll A q.2 ns with
      | error e => rw [hb] at h; cases h
      | ok q2 =>
        rw [hb] at h
        rw [ih q.2 q2 hb]
        simpa using h

theorem allocs_ok (A : Nat) (hA : 0 < A) (ns : List Nat) (s : Slab) (hi : Owned A s)
    (hb : s.point + totalRequired A ns ≤ s.size) :
    ∃ ps s', allocs A s ns = .ok (ps, s') ∧ Owned A s' ∧ s'.size = s.size ∧ s'.point = s.point + totalRequired A ns := by
  obtain ⟨ps, s', h1, h2, h3, h4, _⟩ := allocAll_ok A hA ns s hi hb
  exact ⟨ps, s', allocs_of_allocAll A ns s _ h1, h2, h3, h4⟩

theorem allocs_head (A : Nat) (n : Nat) (ns : List Nat) (s : Slab) (hf : s.deleted = false) (hn : n ≠ 0) (ps s')
    (h : allocs A s (n :: ns) = .ok (ps, s')) : ∃ qs, ps = some (s.point + A) :: qs := by
  simp only [allocs] at h
  cases ha : allocate A s n with
  | error e => rw [ha] at h; cases h
  | ok q =>
    rw [ha] at h
    have hq : q.1 = some (s.point + A) := by
      simp only [allocate, hf, hn, Bool.false_eq_true, if_false] at ha
      split at ha
      · cases ha
      · cases ha; rfl
    simp only at h
    cases hb : allocs A q.2 ns with
    | error e => rw [hb] at h; cases h
    | ok q2 =>
      rw [hb] at h
      simp only [Except.ok.injEq, Prod.mk.injEq] at h
      exact ⟨q2.1, by rw [← h.1, hq]⟩

theorem allocsBefore_head (z : Sizes) (hz : z.Pos) (k : Kind) : ∃ n ns, allocsBefore z k = n :: ns ∧ n ≠ 0 := by
  obtain ⟨a1, a2, a3, a4, a5, a6, a7, a8, a9⟩ := hz
  cases k with
  | str c w => exact ⟨_, _, rfl, by omega⟩
  | bytes c => exact ⟨_, _, rfl, by omega⟩
  | tupleOf c e => simp only [allocsBefore]; split <;> exact ⟨_, _, rfl, by omega⟩
  | listOf c e => simp only [allocsBefore]; split <;> exact ⟨_, _, rfl, by omega⟩
  | table r b s => exact ⟨_, _, rfl, by omega⟩
  | constDict c b => exact ⟨_, _, rfl, by omega⟩
  | alternative b => exact ⟨_, _, rfl, by omega⟩
  | cls b => exact ⟨_, _, rfl, by omega⟩
  | cell b => exact ⟨_, _, rfl, by omega⟩

theorem total_ge_head (A n : Nat) (ns : List Nat) (hA : 0 < A) (hn : n ≠ 0) : A < totalRequired A (n :: ns) := by
  have h1 : totalRequired A (n :: ns) = bytesRequired A n + totalRequired A ns := by simp [totalRequired]
  have h2 := bytesRequired_pos A n hA hn
  have h3 := roundUp_ge A n hA
  omega

theorem part_lemma {x a : Nat} {newk S K : List Nat} {l : List Entry} {d k s p}
    (h2 : x ∈ newk ++ a :: S ↔ x ∈ l.map Entry.src ∨ x ∈ a :: K) :
    x ∈ (newk ++ [a]) ++ S ↔ x ∈ (l ++ [Entry.mk d a k s p]).map Entry.src ∨ x ∈ K := by
  simp only [List.map_append, List.map_cons, List.map_nil, List.mem_append, List.mem_cons, List.not_mem_nil, or_false] at h2 ⊢
  tauto

/-- The state after the body of `a` has been copied and (if remembered) entered in the memo, with the count of the new
object raised: everything `CopySlotOK` wants. -/
theorem finish {z : Sizes} {h : Heap} {a o S K st newk} (hz : z.Pos) (ho : h a = some o) (haS : a ∉ S)
    (hci : CI z h S K st) (d : Nat) (s1 s2 : Slab) (st2 : St) (slots2 : List Slot)
    (hd : d = st.slab.point + z.align)
    (hp1 : s1.point = st.slab.point + totalRequired z.align (allocsBefore z o.kind)) (hd1 : d ≤ s1.point)
    (hz1 : s1.size = st.slab.size)
    (hdone : Done z h (a :: S) (a :: K) newk o.slots slots2 (setRc { st with slab := s1 } d 0) st2)
    (ho2 : Owned z.align s2) (hz2 : s2.size = st2.slab.size)
    (hp2 : s2.point = st2.slab.point + totalRequired z.align (allocsAfter o.kind))
    (memo' : List (Nat × Nat))
    (hmemo : memo' = if memoised o then (a, d) :: st2.memo else st2.memo) :
    Done z h S K (newk ++ [a]) [.ref a] [.ref d] st
      (incRc { st2 with slab := s2, dest := st2.dest ++ [⟨d, a, o.kind, slots2, o.payload⟩], memo := memo' } d) := by
  obtain ⟨inv2, size2, point2, rel2, ⟨es, ext2, ext2'⟩, rc2⟩ := hdone
  have hpt1 : (setRc { st with slab := s1 } d 0).slab.point = s1.point := rfl
  have hdest1 : (setRc { st with slab := s1 } d 0).dest = st.dest := rfl
  rw [hpt1] at point2 ext2'
  rw [hdest1] at ext2
  have hpos := hz.align
  have hrc0 : st.rc d = 0 := hci.fresh d (by omega)
  -- a is not yet among the finished ones
  have ha2 : a ∉ st2.dest.map Entry.src := inv2.disj a (by simp)
  have hdd : d ∉ st2.dest.map Entry.dst := by
    intro hm
    obtain ⟨e, he, hed⟩ := List.mem_map.1 hm
    rw [ext2] at he
    rcases List.mem_append.1 he with he | he
    · have := hci.low e he; omega
    · have := ext2' e he; omega
  have hsub : ∀ e ∈ st2.dest, e ∈ st2.dest ++ [⟨d, a, o.kind, slots2, o.payload⟩] := fun e he => List.mem_append_left _ he
  refine ⟨⟨?_, ?_, ?_, ?_, ?_, ?_, ?_, ?_, ho2⟩, ?_, ?_, ?_, ?_, ?_⟩
  · -- part
    intro x
    have h2 := inv2.part x
    exact part_lemma h2
  · -- disj
    intro x hx
    have h1 := inv2.disj x (List.mem_cons_of_mem _ hx)
    have hxa : x ≠ a := by
      intro e
      exact haS ((hci.part a).2 (Or.inr (e ▸ hx)))
    intro hmem
    have hmem' : x ∈ (st2.dest ++ [Entry.mk d a o.kind slots2 o.payload]).map Entry.src := hmem
    rw [List.map_append] at hmem'
    rcases List.mem_append.1 hmem' with hm | hm
    · exact h1 hm
    · exact hxa (by simpa using hm)
  · -- srcs
    show ((st2.dest ++ [_]).map Entry.src).Nodup
    rw [List.map_append, List.nodup_append]
    refine ⟨inv2.srcs, by simp, ?_⟩
    intro x hx y hy e
    have : y = a := by simpa using hy
    exact ha2 (by rw [← this, ← e]; exact hx)
  · -- dsts
    show ((st2.dest ++ [_]).map Entry.dst).Nodup
    rw [List.map_append, List.nodup_append]
    refine ⟨inv2.dsts, by simp, ?_⟩
    intro x hx y hy e
    have : y = d := by simpa using hy
    exact hdd (by rw [← this, ← e]; exact hx)
  · -- low
    intro e he
    show e.dst ≤ s2.point
    rcases List.mem_append.1 he with he | he
    · have := inv2.low e he; omega
    · have : e.dst = d := by
        have := List.mem_singleton.1 he
        rw [this]
      omega
  · -- memo
    intro b c
    show memo'.lookup b = some c ↔ (∃ e ∈ st2.dest ++ [_], e.src = b ∧ e.dst = c) ∧ _
    have h2 := inv2.memo b c
    by_cases hba : b = a
    · subst hba
      have hnone : st2.memo.lookup b = none := by
        cases hl : st2.memo.lookup b with
        | none => rfl
        | some c' =>
          obtain ⟨⟨e, he, hes, _⟩, _⟩ := (inv2.memo b c').1 hl
          exact absurd (List.mem_map.2 ⟨e, he, hes⟩) ha2
      have hex : (∃ e ∈ st2.dest ++ [⟨d, b, o.kind, slots2, o.payload⟩], e.src = b ∧ e.dst = c) ↔ c = d := by
        constructor
        · rintro ⟨e, he, hes, hed⟩
          rcases List.mem_append.1 he with he | he
          · exact absurd (List.mem_map.2 ⟨e, he, hes⟩) ha2
          · rw [List.mem_singleton.1 he] at hed; exact hed.symm
        · rintro rfl
          exact ⟨_, List.mem_append_right _ (List.mem_singleton.2 rfl), rfl, rfl⟩
      rw [hex, hmemo]
      cases hm : memoised o with
      | true =>
        simp only [if_true, List.lookup_cons_self, Option.some.injEq]
        constructor
        · intro e; exact ⟨e.symm, o, ho, hm⟩
        · intro e; exact e.1.symm
      | false =>
        simp only [Bool.false_eq_true, if_false, hnone]
        constructor
        · intro e; cases e
        · rintro ⟨_, o', ho', hm'⟩
          rw [ho] at ho'; cases ho'; rw [hm] at hm'; cases hm'
    · have hl : memo'.lookup b = st2.memo.lookup b := by
        rw [hmemo]
        split
        · have : (b == a) = false := by simpa using hba
          simp [List.lookup, this]
        · rfl
      rw [hl, h2]
      have hex : (∃ e ∈ st2.dest ++ [⟨d, a, o.kind, slots2, o.payload⟩], e.src = b ∧ e.dst = c) ↔
          (∃ e ∈ st2.dest, e.src = b ∧ e.dst = c) := by
        constructor
        · rintro ⟨e, he, hes, hed⟩
          rcases List.mem_append.1 he with he | he
          · exact ⟨e, he, hes, hed⟩
          · rw [List.mem_singleton.1 he] at hes; exact absurd hes.symm hba
        · rintro ⟨e, he, h3⟩; exact ⟨e, hsub e he, h3⟩
      rw [hex]
  · -- ent
    intro e he
    show ∃ o, h e.src = some o ∧ e.kind = o.kind ∧ e.payload = o.payload ∧ List.Forall₂ (Rel (st2.dest ++ [_])) o.slots e.slots
    rcases List.mem_append.1 he with he | he
    · obtain ⟨o', h1, h2, h3, h4⟩ := inv2.ent e he
      exact ⟨o', h1, h2, h3, h4.imp (fun _ _ hr => hr.mono hsub)⟩
    · rw [List.mem_singleton.1 he]
      exact ⟨o, ho, rfl, rfl, rel2.imp (fun _ _ hr => hr.mono hsub)⟩
  · -- fresh
    intro x hx
    have hx' : s2.point < x := hx
    have : st2.rc x = 0 := inv2.fresh x (by omega)
    show (if x = d then _ else st2.rc x) = 0
    rw [if_neg (by omega), this]
  · show s2.size = st.slab.size
    rw [hz2, size2]; exact hz1
  · show s2.point = st.slab.point + tot z h (newk ++ [a])
    rw [tot_append, tot_single z h a o ho]
    unfold own
    omega
  · refine List.Forall₂.cons ?_ .nil
    exact ⟨d, rfl, _, List.mem_append_right _ (List.mem_singleton.2 rfl), rfl, rfl⟩
  · refine ⟨es ++ [⟨d, a, o.kind, slots2, o.payload⟩], ?_, ?_⟩
    · show st2.dest ++ [_] = _
      rw [ext2, List.append_assoc]
    · intro e he
      rcases List.mem_append.1 he with he | he
      · have := ext2' e he; omega
      · rw [List.mem_singleton.1 he]; show st.slab.point < d; omega
  · intro x
    have h2 := rc2 x
    have h3 : (setRc { st with slab := s1 } d 0).rc x = st.rc x := by
      show (if x = d then 0 else st.rc x) = st.rc x
      split
      · rename_i e; rw [e, hrc0]
      · rfl
    rw [h3, hdest1] at h2
    show (if x = d then st2.rc d + 1 else st2.rc x) + cnt st.dest x = st.rc x + cnt (st2.dest ++ [_]) x + _
    rw [cnt_append]
    have h4 : cnt [⟨d, a, o.kind, slots2, o.payload⟩] x = slots2.count (Slot.ref x) := by simp [cnt]
    rw [h4]
    by_cases hxd : x = d
    · subst hxd
      simp only [if_true, List.count_cons_self, List.count_nil]
      omega
    · rw [if_neg hxd]
      have : [Slot.ref d].count (Slot.ref x) = 0 := by
        rw [List.count_eq_zero]; simp; exact hxd
      omega

theorem copySlot_ref (z h f st a) : copySlot z h (f + 1) st (.ref a) =
    (match h a with
    | none => .error .wild
    | some o =>
      if memoised o then
        match st.memo.lookup a with
        | some d => .ok (.ref d, incRc st d)
        | none =>
          match copyBody z (copySlot z h f) st a o with
          | .error e => .error e
          | .ok (d, st1) => .ok (.ref d, incRc { st1 with memo := (a, d) :: st1.memo } d)
      else
        match copyBody z (copySlot z h f) st a o with
        | .error e => .error e
        | .ok (d, st1) => .ok (.ref d, incRc st1 d)) := rfl

theorem copySlot_succ {z h R height f} (hz : z.Pos) (w : World h R height) (hl : CopyListOK z h R height f) :
    CopySlotOK z h R height (f + 1) := by
  intro s S K st rest new hh hsg hci hK he hsz
  have nil_of : ∀ n : List Nat, S = n ++ S → n = [] := by
    intro n hn
    have := congrArg List.length hn
    rw [List.length_append] at this
    exact List.length_eq_zero_iff.1 (by omega)
  cases s with
  | pod b =>
    have hn := nil_of new he; subst hn
    exact ⟨_, st, rfl, ⟨hci, rfl, by simp [tot], List.Forall₂.cons rfl .nil, ⟨[], by simp, by simp⟩, by simp⟩⟩
  | null =>
    have hn := nil_of new he; subst hn
    exact ⟨_, st, rfl, ⟨hci, rfl, by simp [tot], List.Forall₂.cons rfl .nil, ⟨[], by simp, by simp⟩, by simp⟩⟩
  | uninit u => exact absurd (by simp) (hh.init u)
  | ref a =>
    have hR := hh.reach a (by simp)
    obtain ⟨o, ho⟩ := w.res a hR
    have haK : a ∉ K := fun hk => absurd (hK a rfl a hk) (by omega)
    rw [dfs_ref] at he
    by_cases haS : a ∈ S
    · rw [if_pos haS] at he
      have hn := nil_of new he; subst hn
      have hm : memoised o = true := by
        cases hmm : memoised o with
        | true => rfl
        | false => exact absurd (by simp) ((hsg a o hR ho hmm).1 haS)
      have hsrc : a ∈ st.dest.map Entry.src := by
        rcases (hci.part a).1 haS with h1 | h1
        · exact h1
        · exact absurd h1 haK
      obtain ⟨e, hemem, hesrc⟩ := List.mem_map.1 hsrc
      have hlook : st.memo.lookup a = some e.dst := (hci.memo a e.dst).2 ⟨⟨e, hemem, hesrc, rfl⟩, o, ho, hm⟩
      refine ⟨.ref e.dst, incRc st e.dst, ?_, ?_⟩
      · rw [copySlot_ref]; simp only [ho, hm, if_true, hlook]
      · refine ⟨⟨hci.part, hci.disj, hci.srcs, hci.dsts, hci.low, hci.memo, hci.ent, ?_, hci.owned⟩, rfl, by simp [tot, incRc, setRc], ?_, ⟨[], by simp [incRc, setRc], by simp⟩, ?_⟩
        · intro x hx
          have hx' : st.slab.point < x := hx
          have h1 := hci.low e hemem
          show (if x = e.dst then _ else st.rc x) = 0
          rw [if_neg (by omega), hci.fresh x hx']
        · exact List.Forall₂.cons ⟨e.dst, rfl, e, hemem, hesrc, rfl⟩ .nil
        · intro x
          show (if x = e.dst then st.rc e.dst + 1 else st.rc x) + cnt st.dest x = st.rc x + cnt st.dest x + _
          by_cases hx : x = e.dst
          · subst hx; simp; omega
          · rw [if_neg hx]
            have : [Slot.ref e.dst].count (Slot.ref x) = 0 := by
              rw [List.count_eq_zero]; simp; exact hx
            omega
    · rw [if_neg haS] at he
      simp only [ho] at he
      have hk := Heads.kids w Obj.slots (fun o => List.Perm.refl _) hR ho (hh.low a (by simp))
      obtain ⟨newk, ek, _⟩ := dfs_facts w Obj.slots (fun o => List.Perm.refl _) f o.slots (a :: S) hk
      have hnew : new = newk ++ [a] := by
        rw [ek] at he
        have : newk ++ a :: S = (newk ++ [a]) ++ S := by simp
        rw [this] at he
        exact (append_cancel he).symm
      subst hnew
      rw [tot_append, tot_single z h a o ho] at hsz
      unfold own at hsz
      -- allocations before
      obtain ⟨n0, ns0, hb0, hn0⟩ := allocsBefore_head z hz o.kind
      obtain ⟨ps, s1, ha1, ow1, sz1, pt1⟩ := allocs_ok z.align hz.align (allocsBefore z o.kind) st.slab hci.owned (by omega)
      obtain ⟨qs, hps⟩ := allocs_head z.align n0 ns0 st.slab hci.owned.fine hn0 ps s1 (by rw [← hb0]; exact ha1)
      have hge := total_ge_head z.align n0 ns0 hz.align hn0
      rw [← hb0] at hge
      have hApos := hz.align
      -- the contained slots
      have hnotK : a ∉ st.dest.map Entry.src := fun hx => haS ((hci.part a).2 (Or.inl hx))
      have hci1 : CI z h (a :: S) (a :: K) (setRc { st with slab := s1 } (st.slab.point + z.align) 0) := by
        refine ⟨?_, ?_, hci.srcs, hci.dsts, ?_, hci.memo, hci.ent, ?_, ow1⟩
        · intro x
          have := hci.part x
          show x ∈ a :: S ↔ x ∈ st.dest.map Entry.src ∨ x ∈ a :: K
          simp only [List.mem_cons]
          tauto
        · intro x hx
          show x ∉ st.dest.map Entry.src
          rcases List.mem_cons.1 hx with rfl | hx
          · exact hnotK
          · exact hci.disj x hx
        · intro e he
          have := hci.low e he
          show e.dst ≤ s1.point
          omega
        · intro x hx
          have hx' : s1.point < x := hx
          show (if x = _ then 0 else st.rc x) = 0
          split
          · rfl
          · exact hci.fresh x (by omega)
      have hsg1 := Single.start Obj.slots (fun o => List.Perm.refl _) hsg hR ho haS
      have hK1 : ∀ b, Slot.ref b ∈ o.slots → ∀ k ∈ a :: K, height b < height k := by
        intro b hb k hk
        have h1 := (w.step a o b hR ho hb).2
        rcases List.mem_cons.1 hk with rfl | hk
        · exact h1
        · have := hK a rfl k hk; omega
      obtain ⟨slots2, st2, c2, d2⟩ := hl o.slots (a :: S) (a :: K) _ rest newk hk hsg1 hci1 hK1 ek
        (by show s1.point + _ ≤ s1.size; omega)
      have hp2 : st2.slab.point = s1.point + tot z h newk := d2.point
      have hz2 : st2.slab.size = s1.size := d2.size
      -- allocations after
      obtain ⟨ps3, s2, ha3, ow3, sz3, pt3⟩ := allocs_ok z.align hz.align (allocsAfter o.kind) st2.slab d2.inv.owned (by omega)
      have hbody : copyBody z (copySlot z h f) st a o = .ok (st.slab.point + z.align,
          { st2 with slab := s2, dest := st2.dest ++ [⟨st.slab.point + z.align, a, o.kind, slots2, o.payload⟩] }) := by
        simp only [copyBody, ha1, hps, c2, ha3]
      cases hm : memoised o with
      | true =>
        have hnone : st.memo.lookup a = none := by
          cases hlk : st.memo.lookup a with
          | none => rfl
          | some c =>
            obtain ⟨⟨e, he, hes, _⟩, _⟩ := (hci.memo a c).1 hlk
            exact absurd (List.mem_map.2 ⟨e, he, hes⟩) hnotK
        refine ⟨.ref (st.slab.point + z.align), _, ?_,
          finish hz ho haS hci _ s1 s2 st2 slots2 rfl pt1 (by omega) sz1 d2 ow3 sz3 pt3
            ((a, st.slab.point + z.align) :: st2.memo) (by rw [hm]; rfl)⟩
        · rw [copySlot_ref]; simp only [ho, hm, if_true, hnone, hbody]
      | false =>
        refine ⟨.ref (st.slab.point + z.align), _, ?_,
          finish hz ho haS hci _ s1 s2 st2 slots2 rfl pt1 (by omega) sz1 d2 ow3 sz3 pt3
            st2.memo (by rw [hm]; rfl)⟩
        · rw [copySlot_ref]; simp only [ho, hm, Bool.false_eq_true, if_false, hbody]

theorem copy_ok {z h R height} (hz : z.Pos) (w : World h R height) : ∀ f, CopyListOK z h R height f := by
  intro f
  induction f with
  | zero => exact copyList_of_slot w copySlot_zero
  | succ f ih => exact copyList_of_slot w (copySlot_succ hz w ih)

end Verif.DeepCopy
