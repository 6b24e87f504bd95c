import Verif.DeepCopy.Copy
/-
C54: deepcopyContiguous makes an exact, sharing-preserving copy of exactly the predicted size.
-/
namespace Verif.DeepCopy
open Spec Verif.Slab

theorem count_le_one {x : Slot} : ∀ (l : List Slot), (∀ i j : Nat, l[i]? = some x → l[j]? = some x → i = j) → l.count x ≤ 1 := by
  intro l
  induction l with
  | nil => intro _; simp
  | cons s ss ih =>
    intro h
    have h' : ∀ i j : Nat, ss[i]? = some x → ss[j]? = some x → i = j := by
      intro i j hi hj
      have := h (i + 1) (j + 1) (by simpa using hi) (by simpa using hj)
      omega
    by_cases hs : s = x
    · subst hs
      rw [List.count_cons_self]
      have : s ∉ ss := by
        intro hm
        obtain ⟨j, hj⟩ := List.mem_iff_getElem?.1 hm
        have := h 0 (j + 1) (by simp) (by simpa using hj)
        omega
      rw [List.count_eq_zero.2 this]
    · rw [List.count_cons_of_ne hs]; exact ih h'

theorem memoised_false (o : Obj) (h : memoised o = false) : o.refcount = 1 := by
  obtain ⟨k, r, s, p⟩ := o
  cases k <;> simp_all [memoised]

theorem single_init {h v} (hc : HonestCounts h v) : Single h (Reach h v) [] (v ++ []) := by
  intro x o hR ho hm
  have huniq := hc x o hR ho (memoised_false o hm)
  refine ⟨by simp, ?_, ?_⟩
  · rw [List.append_nil]
    refine count_le_one v ?_
    intro i j hi hj
    have := huniq (.root i) (.root j) hi hj
    injection this
  · intro p q hRp hp _
    refine ⟨?_, ?_⟩
    · refine count_le_one q.slots ?_
      intro i j hi hj
      have := huniq (.field p i) (.field p j) ⟨q, hRp, hp, hi⟩ ⟨q, hRp, hp, hj⟩
      injection this
    · intro hx
      obtain ⟨i, hi⟩ := List.mem_iff_getElem?.1 hx
      refine ⟨by simp, ?_, ?_⟩
      · rw [List.append_nil]
        intro hm
        obtain ⟨j, hj⟩ := List.mem_iff_getElem?.1 hm
        have := huniq (.field p i) (.root j) ⟨q, hRp, hp, hi⟩ hj
        cases this
      · intro p' q' hRp' hp' _ hx'
        obtain ⟨j, hj⟩ := List.mem_iff_getElem?.1 hx'
        have := huniq (.field p' j) (.field p i) ⟨q', hRp', hp', hj⟩ ⟨q, hRp, hp, hi⟩
        injection this

theorem world_of {h v height} (hcl : Closed h v) (hac : Acyclic h v height) (hnc : NoCells h v) (hin : Initialised h v)
    (hps : PlainStrings h v) : World h (Reach h v) height :=
  ⟨hcl, fun a o b hR ho hb => ⟨.step hR ho hb, hac a o b hR ho hb⟩, hnc, hin.2, hps⟩

theorem mem_iff_reach {h R v new} (hf : DfsFacts h R [] v new) : ∀ x, x ∈ new ↔ Reach h v x := by
  intro x
  constructor
  · intro hx; exact (hf.reach x hx).1
  · intro hr
    induction hr with
    | root ha => have := hf.heads _ ha; simpa using this
    | step _ ho hb ih => have := hf.closed _ ih _ ho _ hb; simpa using this

theorem tot_perm (z h) {l1 l2 : List Nat} (hp : l1.Perm l2) : tot z h l1 = tot z h l2 := by
  unfold tot
  exact List.Perm.sum_nat (hp.map _)

theorem perm_of_iff {l1 l2 : List Nat} (h1 : l1.Nodup) (h2 : l2.Nodup) (h : ∀ x, x ∈ l1 ↔ x ∈ l2) : l1.Perm l2 :=
  (List.perm_ext_iff_of_nodup h1 h2).2 h

/-- The copy's map of addresses. -/
def dstOf (dest : List Entry) (a : Nat) : Nat :=
  match dest.find? (fun e => e.src = a) with
  | some e => e.dst
  | none => 0

theorem find_src : ∀ (dest : List Entry), (dest.map Entry.src).Nodup → ∀ e ∈ dest,
    dest.find? (fun x => x.src = e.src) = some e := by
  intro dest
  induction dest with
  | nil => intro _ e he; cases he
  | cons c cs ih =>
    intro hnd e he
    rw [List.map_cons, List.nodup_cons] at hnd
    rcases List.mem_cons.1 he with rfl | he
    · simp
    · have hne : c.src ≠ e.src := fun h => hnd.1 (h ▸ List.mem_map_of_mem he)
      rw [List.find?_cons_of_neg (by simpa using hne)]
      exact ih hnd.2 e he

theorem find_dst : ∀ (dest : List Entry), (dest.map Entry.dst).Nodup → ∀ e ∈ dest,
    dest.find? (fun x => x.dst = e.dst) = some e := by
  intro dest
  induction dest with
  | nil => intro _ e he; cases he
  | cons c cs ih =>
    intro hnd e he
    rw [List.map_cons, List.nodup_cons] at hnd
    rcases List.mem_cons.1 he with rfl | he
    · simp
    · have hne : c.dst ≠ e.dst := fun h => hnd.1 (h ▸ List.mem_map_of_mem he)
      rw [List.find?_cons_of_neg (by simpa using hne)]
      exact ih hnd.2 e he

theorem rel_map {dest : List Entry} (hnd : (dest.map Entry.src).Nodup) : ∀ (l l' : List Slot), List.Forall₂ (Rel dest) l l' →
    l' = l.map (mapSlot (dstOf dest)) := by
  intro l
  induction l with
  | nil => intro l' h; cases h; rfl
  | cons s ss ih =>
    intro l' h
    cases h with
    | cons hr ht =>
      rw [List.map_cons, ← ih _ ht]
      congr 1
      cases s with
      | ref a =>
        obtain ⟨d, h1, e, he, hs, hd⟩ := hr
        have : dstOf dest a = d := by
          unfold dstOf
          rw [← hs, find_src dest hnd e he]
          exact hd
        rw [h1]; simp [mapSlot, this]
      | pod b => exact hr
      | null => exact hr
      | uninit w => exact hr

theorem destHeap_entry (st : St) (hnd : (st.dest.map Entry.dst).Nodup) (e : Entry) (he : e ∈ st.dest) :
    destHeap st e.dst = some ⟨e.kind, st.rc e.dst, e.slots, e.payload⟩ := by
  unfold destHeap
  rw [find_dst st.dest hnd e he]

/-- **C54 (partial: no cycles, no `TypedCell`s, no uninitialised members).**  For every value whose references are
honest and lead to objects, `deepcopyContiguous` succeeds; the predicted size is the sum over the reachable objects,
each counted once, and is exactly what the copy uses; the copy is isomorphic to the original (same contents, same
sharing); and every copied object's reference count is the number of references to it inside the copy. -/
theorem deepcopyContiguous_exact_partial (z : Sizes) (hz : z.Pos) (ord : Obj → List Slot)
    (hord : ∀ o, (ord o).Perm o.slots) (pageSize : Nat) (h : Heap) (v : List Slot) (height : Nat → Nat) (fuel : Nat)
    (hcl : Closed h v) (hac : Acyclic h v height) (hhc : HonestCounts h v) (hnc : NoCells h v) (hin : Initialised h v)
    (hps : PlainStrings h v) (hfuel : ∀ a, Reach h v a → height a < fuel) :
    ∃ n v2 st, deepBytecount z ord h fuel v = .ok n ∧
      deepcopyContiguous z ord pageSize h fuel v = .ok (v2, st) ∧
      getAllocated st.slab = n ∧
      (∀ L : List Nat, L.Nodup → (∀ a, a ∈ L ↔ Reach h v a) → n = tot z h L) ∧
      IsCopy h v (destHeap st) v2 ∧
      (∀ d o2, destHeap st d = some o2 → o2.refcount = references (destHeap st) v2 (st.dest.map Entry.dst) d) := by
  have w := world_of hcl hac hnc hin hps
  have hh : Heads (Reach h v) height fuel v :=
    ⟨fun a ha => .root ha, fun a ha => hfuel a (.root ha), hin.1⟩
  have hsg := single_init hhc
  -- counting
  obtain ⟨n1, vis, e1, c1, _⟩ := count_ok (z := z) w hord fuel v [] [] [] hh hsg (by intro x; simp)
  obtain ⟨n1', e1', f1⟩ := dfs_facts w ord hord fuel v [] hh
  have hn1 : n1' = n1 := append_cancel (e1'.symm.trans e1)
  subst hn1
  -- copying
  obtain ⟨n2, e2, f2⟩ := dfs_facts w Obj.slots (fun o => List.Perm.refl _) fuel v [] hh
  have hperm : n2.Perm n1' := perm_of_iff f2.nodup f1.nodup (fun x => by rw [mem_iff_reach f2, mem_iff_reach f1])
  have htot := tot_perm z h hperm
  have hsz : tot z h n1' ≤ (Slab.new pageSize (tot z h n1')).size := by
    simp only [Slab.new, mappedSize]
    split
    · split <;> omega
    · omega
  have hci : CI z h [] [] ⟨Slab.new pageSize (tot z h n1'), [], fun _ => 0, []⟩ :=
    ⟨by simp, by simp, by simp, by simp, by simp, by simp, by simp, by simp, owned_new _ _ _⟩
  obtain ⟨v2, st, c2, d2⟩ := copy_ok hz w fuel v [] [] _ [] n2 hh hsg hci (by simp) e2
    (by rw [htot]; show 0 + _ ≤ (Slab.new pageSize (tot z h n1')).size; omega)
  have hpt : st.slab.point = tot z h n1' := by
    have h1 := d2.point
    have h2 : (Slab.new pageSize (tot z h n1')).point = 0 := rfl
    have h3 : st.slab.point = 0 + tot z h n2 := h1
    omega
  have hcount : deepBytecount z ord h fuel v = .ok (tot z h n1') := by
    simp only [deepBytecount, c1]
  have hmem : ∀ x, x ∈ st.dest.map Entry.src ↔ Reach h v x := by
    intro x
    rw [← mem_iff_reach f2]
    have := d2.inv.part x
    simp only [List.append_nil, List.not_mem_nil, or_false] at this
    exact this.symm
  have hent : ∀ a, Reach h v a → ∃ e ∈ st.dest, e.src = a := fun a ha => List.mem_map.1 ((hmem a).2 ha)
  have hdst : ∀ e ∈ st.dest, dstOf st.dest e.src = e.dst := by
    intro e he; unfold dstOf; rw [find_src st.dest d2.inv.srcs e he]
  refine ⟨tot z h n1', v2, st, hcount, ?_, hpt, ?_, ⟨dstOf st.dest, ?_, ?_, ?_, ?_⟩, ?_⟩
  · simp only [deepcopyContiguous, hcount, c2]
    rw [if_neg]
    show ¬ (tot z h n1' ≠ st.slab.point)
    omega
  · intro L hL hLm
    exact (tot_perm z h (perm_of_iff hL f1.nodup (fun x => by rw [hLm, mem_iff_reach f1]))).symm
  · intro a b ha hb hab
    obtain ⟨ea, hea, rfl⟩ := hent a ha
    obtain ⟨eb, heb, rfl⟩ := hent b hb
    rw [hdst ea hea, hdst eb heb] at hab
    have h1 := find_dst st.dest d2.inv.dsts ea hea
    have h2 := find_dst st.dest d2.inv.dsts eb heb
    rw [hab, h2] at h1
    cases h1; rfl
  · exact rel_map d2.inv.srcs v v2 d2.rel
  · intro a ha
    obtain ⟨e, he, rfl⟩ := hent a ha
    obtain ⟨o, ho, hk, hp, hs⟩ := d2.inv.ent e he
    refine ⟨o, ⟨e.kind, st.rc e.dst, e.slots, e.payload⟩, ho, ?_, hk, hp, rel_map d2.inv.srcs _ _ hs⟩
    rw [hdst e he]; exact destHeap_entry st d2.inv.dsts e he
  · intro d o2 hd
    unfold destHeap at hd
    split at hd
    · rename_i e hf
      have he := List.mem_of_find?_eq_some hf
      have hed : e.dst = d := by simpa using List.find?_some hf
      exact ⟨e.src, (hmem _).1 (List.mem_map_of_mem he), by rw [hdst e he, hed]⟩
    · cases hd
  · intro d o2 hd
    have hrc := d2.rc d
    have h0 : st.rc d = cnt st.dest d + v2.count (Slot.ref d) := by
      simp only [cnt, List.map_nil, List.sum_nil] at hrc ⊢
      omega
    have ho2 : o2.refcount = st.rc d := by
      unfold destHeap at hd
      split at hd
      · cases hd; rfl
      · cases hd
    rw [ho2, h0]
    unfold references cnt
    rw [Nat.add_comm]
    congr 1
    rw [List.map_map]
    refine congrArg List.sum (List.map_congr_left ?_)
    intro e he
    simp only [Function.comp_apply, destHeap_entry st d2.inv.dsts e he]
    rfl

/-! ### A concrete value: a list holding a shared string twice, a private string, and a dict holding the list's tuple -/

/-- A heap with sharing: 1 = ListOf(…) → 2, 2, 3, 4; 2 = a shared str; 3 = a private str; 4 = a Dict holding 2 again. -/
def exHeap : Heap
  | 1 => some ⟨.listOf 4 8, 1, [.ref 2, .ref 2, .ref 3, .ref 4, .null], []⟩
  | 2 => some ⟨.str 5 1, 3, [], [104, 101, 108, 108, 111]⟩
  | 3 => some ⟨.str 2 4, 1, [], [128512, 33]⟩
  | 4 => some ⟨.table 8 16 11, 1, [.pod 7, .ref 2], [1, 0]⟩
  | _ => none

theorem ex_reach (a : Nat) (h : Reach exHeap [.ref 1] a) : a = 1 ∨ a = 2 ∨ a = 3 ∨ a = 4 := by
  induction h with
  | root h => left; simpa using h
  | @step a b o _ ho hb ih =>
    rcases ih with rfl | rfl | rfl | rfl <;> (simp only [exHeap, Option.some.injEq] at ho; subst ho; simp at hb) <;> omega

/-- The hypotheses of the main theorem hold of the example. -/
example : Closed exHeap [.ref 1] ∧ Acyclic exHeap [.ref 1] (fun a => if a = 1 then 2 else if a = 4 then 1 else 0) ∧
    HonestCounts exHeap [.ref 1] ∧ NoCells exHeap [.ref 1] ∧ Initialised exHeap [.ref 1] ∧ PlainStrings exHeap [.ref 1] := by
  refine ⟨?_, ?_, ?_, ?_, ⟨by simp, ?_⟩, ?_⟩
  · intro a ha
    rcases ex_reach a ha with rfl | rfl | rfl | rfl <;> exact ⟨_, rfl⟩
  · intro a o b ha ho hb
    rcases ex_reach a ha with rfl | rfl | rfl | rfl <;> (simp only [exHeap, Option.some.injEq] at ho; subst ho; simp at hb)
    · rcases hb with rfl | rfl | rfl <;> decide
    · subst hb; decide
  · intro x o hx ho hr s1 s2 h1 h2
    have hsite : ∀ s, Holds exHeap [.ref 1] x s → (x = 1 ∧ s = .root 0) ∨ (x = 3 ∧ s = .field 1 2) ∨ (x = 4 ∧ s = .field 1 3) ∨ x = 2 := by
      intro s hs
      cases s with
      | root i =>
        match i, hs with
        | 0, hs => left; simp [Holds] at hs; exact ⟨hs.symm, rfl⟩
        | i + 1, hs => simp [Holds] at hs
      | field p i =>
        obtain ⟨q, hp, hq, hi⟩ := hs
        rcases ex_reach p hp with rfl | rfl | rfl | rfl <;> (simp only [exHeap, Option.some.injEq] at hq; subst hq)
        · match i, hi with
          | 0, hi => simp at hi; omega
          | 1, hi => simp at hi; omega
          | 2, hi => simp at hi; right; left; exact ⟨hi.symm, rfl⟩
          | 3, hi => simp at hi; right; right; left; exact ⟨hi.symm, rfl⟩
          | 4, hi => simp at hi
          | i + 5, hi => simp at hi
        · simp at hi
        · simp at hi
        · match i, hi with
          | 0, hi => simp at hi
          | 1, hi => simp at hi; omega
          | i + 2, hi => simp at hi
    have hx2 : x ≠ 2 := by
      rintro rfl
      simp only [exHeap, Option.some.injEq] at ho; subst ho; simp at hr
    rcases hsite s1 h1 with ⟨a1, b1⟩ | ⟨a1, b1⟩ | ⟨a1, b1⟩ | a1 <;>
      rcases hsite s2 h2 with ⟨a2, b2⟩ | ⟨a2, b2⟩ | ⟨a2, b2⟩ | a2 <;>
      first
        | omega
        | (rw [b1, b2])
  · intro a o ha ho b hb
    rcases ex_reach a ha with rfl | rfl | rfl | rfl <;> (simp only [exHeap, Option.some.injEq] at ho; subst ho; cases hb)
  · intro a o ha ho u hu
    rcases ex_reach a ha with rfl | rfl | rfl | rfl <;> (simp only [exHeap, Option.some.injEq] at ho; subst ho; simp at hu)
  · intro a o ha ho hk
    rcases ex_reach a ha with rfl | rfl | rfl | rfl <;> (simp only [exHeap, Option.some.injEq] at ho; subst ho; simp at hk ⊢)

/-- The example evaluates: the shared string is copied once (addresses 160, …), its three references are kept. -/
example : ((deepcopyContiguous gcc64 Obj.slots 4096 exHeap 3 [.ref 1]).map
    (fun r => (r.1, getAllocated r.2.slab, r.2.dest.map (fun e => (e.dst, e.src, r.2.rc e.dst))))) =
    .ok ([.ref 32], 800, [(160, 2, 3), (224, 3, 1), (288, 4, 1), (32, 1, 1)]) := by decide +kernel

/-! ### Where the code falls short -/

/-- **C54 refuted for cyclic values.**  If an endless path of references starts at the value (a list that contains
itself, an object that points to its owner), no amount of memory or stack lets the copier finish: it enters an object
in its memo only after copying everything below it. -/
theorem deepcopy_of_cycle_never_finishes (z : Sizes) (h : Heap) (p : Nat → Nat)
    (hp : ∀ i, ∃ o, h (p i) = some o ∧ Slot.ref (p (i + 1)) ∈ o.slots) :
    ∀ fuel st s s' st', (∀ a d, (a, d) ∈ st.memo → ∀ i, a ≠ p i) → copySlot z h fuel st s = .ok (s', st') →
      (∀ i, s ≠ .ref (p i)) ∧ (∀ a d, (a, d) ∈ st'.memo → ∀ i, a ≠ p i) := by
  intro fuel
  induction fuel with
  | zero =>
    intro st s s' st' hm hc
    cases s with
    | pod b => simp only [copySlot, Except.ok.injEq, Prod.mk.injEq] at hc; rw [← hc.2]; exact ⟨by simp, hm⟩
    | null => simp only [copySlot, Except.ok.injEq, Prod.mk.injEq] at hc; rw [← hc.2]; exact ⟨by simp, hm⟩
    | uninit u => simp only [copySlot, Except.ok.injEq, Prod.mk.injEq] at hc; rw [← hc.2]; exact ⟨by simp, hm⟩
    | ref a => simp only [copySlot] at hc; cases hc
  | succ f ih =>
    -- lists
    have hlist : ∀ ss st ss' st', (∀ a d, (a, d) ∈ st.memo → ∀ i, a ≠ p i) →
        copyList (copySlot z h f) st ss = .ok (ss', st') →
        (∀ i, Slot.ref (p i) ∉ ss) ∧ (∀ a d, (a, d) ∈ st'.memo → ∀ i, a ≠ p i) := by
      intro ss
      induction ss with
      | nil => intro st ss' st' hm hc; simp only [copyList, Except.ok.injEq, Prod.mk.injEq] at hc; rw [← hc.2]; exact ⟨by simp, hm⟩
      | cons s ss ihs =>
        intro st ss' st' hm hc
        simp only [copyList] at hc
        cases h1 : copySlot z h f st s with
        | error e => rw [h1] at hc; cases hc
        | ok r1 =>
          rw [h1] at hc
          simp only at hc
          obtain ⟨k1, k2⟩ := ih st s r1.1 r1.2 hm h1
          cases h2 : copyList (copySlot z h f) r1.2 ss with
          | error e => rw [h2] at hc; cases hc
          | ok r2 =>
            rw [h2] at hc
            simp only [Except.ok.injEq, Prod.mk.injEq] at hc
            obtain ⟨k3, k4⟩ := ihs r1.2 r2.1 r2.2 k2 h2
            refine ⟨?_, by rw [← hc.2]; exact k4⟩
            intro i hi
            rcases List.mem_cons.1 hi with hi | hi
            · exact k1 i hi.symm
            · exact k3 i hi
    have hbody : ∀ st a o d st', (∀ a d, (a, d) ∈ st.memo → ∀ i, a ≠ p i) → h a = some o →
        copyBody z (copySlot z h f) st a o = .ok (d, st') →
        (∀ i, a ≠ p i) ∧ (∀ a d, (a, d) ∈ st'.memo → ∀ i, a ≠ p i) := by
      intro st a o d st' hm ho hc
      simp only [copyBody] at hc
      cases h1 : allocs z.align st.slab (allocsBefore z o.kind) with
      | error e => rw [h1] at hc; cases hc
      | ok r1 =>
        rw [h1] at hc
        simp only at hc
        split at hc
        · rename_i d0 qs hps
          cases h2 : copyList (copySlot z h f) (setRc { st with slab := r1.2 } d0 0) o.slots with
          | error e => rw [h2] at hc; cases hc
          | ok r2 =>
            rw [h2] at hc
            simp only at hc
            obtain ⟨k1, k2⟩ := hlist o.slots (setRc { st with slab := r1.2 } d0 0) r2.1 r2.2 hm h2
            refine ⟨?_, ?_⟩
            · rintro i rfl
              obtain ⟨o', ho', hmem⟩ := hp i
              rw [ho] at ho'; cases ho'
              exact k1 (i + 1) hmem
            · cases h3 : allocs z.align r2.2.slab (allocsAfter o.kind) with
              | error e => rw [h3] at hc; cases hc
              | ok r3 =>
                rw [h3] at hc
                simp only [Except.ok.injEq, Prod.mk.injEq] at hc
                rw [← hc.2]; exact k2
        · cases hc
    intro st s s' st' hm hc
    cases s with
    | pod b => simp only [copySlot, Except.ok.injEq, Prod.mk.injEq] at hc; rw [← hc.2]; exact ⟨by simp, hm⟩
    | null => simp only [copySlot, Except.ok.injEq, Prod.mk.injEq] at hc; rw [← hc.2]; exact ⟨by simp, hm⟩
    | uninit u => simp only [copySlot, Except.ok.injEq, Prod.mk.injEq] at hc; rw [← hc.2]; exact ⟨by simp, hm⟩
    | ref a =>
      rw [copySlot_ref] at hc
      cases ho : h a with
      | none => rw [ho] at hc; cases hc
      | some o =>
        rw [ho] at hc
        simp only at hc
        split at hc
        · cases hl : st.memo.lookup a with
          | some d =>
            rw [hl] at hc
            simp only [Except.ok.injEq, Prod.mk.injEq] at hc
            have hin : (a, d) ∈ st.memo := by
              obtain ⟨k, _, hk⟩ := List.lookup_eq_some_iff.1 hl
              rw [hk.1]; simp
            refine ⟨?_, by rw [← hc.2]; exact hm⟩
            intro i hi
            injection hi with hi
            exact hm a d hin i hi
          | none =>
            rw [hl] at hc
            simp only at hc
            cases h1 : copyBody z (copySlot z h f) st a o with
            | error e => rw [h1] at hc; cases hc
            | ok r =>
              rw [h1] at hc
              simp only [Except.ok.injEq, Prod.mk.injEq] at hc
              obtain ⟨k1, k2⟩ := hbody st a o r.1 r.2 hm ho h1
              refine ⟨fun i hi => k1 i (by injection hi), ?_⟩
              rw [← hc.2]
              intro b d hb
              rcases List.mem_cons.1 hb with hb | hb
              · injection hb with hb1 _; rw [hb1]; exact k1
              · exact k2 b d hb
        · cases h1 : copyBody z (copySlot z h f) st a o with
          | error e => rw [h1] at hc; cases hc
          | ok r =>
            rw [h1] at hc
            simp only [Except.ok.injEq, Prod.mk.injEq] at hc
            obtain ⟨k1, k2⟩ := hbody st a o r.1 r.2 hm ho h1
            exact ⟨fun i hi => k1 i (by injection hi), by rw [← hc.2]; exact k2⟩

/-- A list that contains itself. -/
def selfList : Heap
  | 1 => some ⟨.listOf 1 8, 2, [.ref 1], []⟩
  | _ => none

/-- Its size is predicted (128 bytes), but copying it never succeeds. -/
theorem self_containing_list_cannot_be_copied :
    deepBytecount gcc64 Obj.slots selfList 2 [.ref 1] = .ok 128 ∧
    ∀ fuel slab r, copySlot gcc64 selfList fuel ⟨slab, [], fun _ => 0, []⟩ (.ref 1) ≠ .ok r := by
  refine ⟨by decide +kernel, ?_⟩
  intro fuel slab r hr
  exact (deepcopy_of_cycle_never_finishes gcc64 selfList (fun _ => 1) (fun _ => ⟨_, rfl, by simp⟩) fuel _ _ _ _
    (by simp) hr).1 0 rfl

/-- A `TypedCell` holding a 40-byte tuple of numbers. -/
def cellHeap : Heap
  | 1 => some ⟨.cell 40, 1, [.pod 1, .pod 2, .pod 3, .pod 4, .pod 5], []⟩
  | _ => none

/-- **C54 refuted for `TypedCell`**: the prediction leaves the held value out, so the copy overruns the slab (96 bytes
used in a slab of 64) and is then rejected. -/
theorem cell_prediction_wrong :
    deepBytecount gcc64 Obj.slots cellHeap 2 [.ref 1] = .ok 64 ∧
    deepcopyContiguous gcc64 Obj.slots 4096 cellHeap 2 [.ref 1] = .error .bytesWrong := by
  constructor
  · decide +kernel
  · have : (deepcopyContiguous gcc64 Obj.slots 4096 cellHeap 2 [.ref 1]).map (fun _ => ()) = .error .bytesWrong := by
      decide +kernel
    cases hh : deepcopyContiguous gcc64 Obj.slots 4096 cellHeap 2 [.ref 1] with
    | ok r => rw [hh] at this; cases this
    | error e => rw [hh] at this; simpa [Except.map] using this

/-- An instance of a class with a member that was never assigned, over memory that held 12345. -/
def uninitHeap : Heap
  | 1 => some ⟨.cls 16, 1, [.uninit 12345], []⟩
  | _ => none

/-- **C54 refuted for uninitialised members**: the counting pass follows the stale word, which the copying pass would
have skipped. -/
theorem count_reads_uninitialised_member :
    deepBytecount gcc64 Obj.slots uninitHeap 3 [.ref 1] = .error .wild ∧
    ((copySlot gcc64 uninitHeap 3 ⟨Slab.new 4096 64, [], fun _ => 0, []⟩ (.ref 1)).map (fun r => r.1)) = .ok (.ref 32) := by
  constructor <;> decide +kernel

end Verif.DeepCopy
