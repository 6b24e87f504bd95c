import Verif.DependencyGraph.Model
/-
C45: the worklist of dirty functions.
-/
namespace Verif.DependencyGraph
open Spec DirectedGraph

variable {N : Type} [DecidableEq N] (ord : List N → List N) (hord : ∀ l, (ord l).Perm l)

theorem calls_known (h : History N) (x y : N) (hc : Calls h x y) : Known h x ∧ Known h y := by
  induction h with
  | nil => exact hc.elim
  | cons e t ih =>
    obtain ⟨op, r⟩ := e
    cases op with
    | addEdge a b =>
      rcases hc with ⟨rfl, rfl, hk⟩ | hc
      · exact ⟨.inr hk, .inl ⟨rfl, hk⟩⟩
      · exact ⟨.inr (ih hc).1, .inr (ih hc).2⟩
    | dropNode z => exact ⟨⟨hc.1, (ih hc.2.2).1⟩, ⟨hc.2.1, (ih hc.2.2).2⟩⟩
    | addRoot z => exact ⟨.inr (ih hc).1, .inr (ih hc).2⟩
    | getNext => exact ih hc
    | markDirty z n => exact ih hc
    | markLow z => exact ih hc
    | changed z => exact ih hc

/-- The state after a history. -/
structure Inv (s : State N) (h : History N) : Prop where
  wf : Wf s.deps
  known : ∀ x, (s.levels x).isSome ↔ Known h x
  calls : ∀ x y, Edge s.deps x y ↔ Calls h x y
  owed : ∀ x, Pending h x → x ∈ s.dirty ∧ ∃ p, (p, x) ∈ s.order
  asked : ∀ x ∈ s.dirty, MaybePending h x
  sorted : s.order.Pairwise (fun a b => a.1 ≤ b.1)

theorem inv_init : Inv (init : State N) [] := by
  refine ⟨empty_wf, ?_, ?_, ?_, ?_, ?_⟩
  · intro x
    simp [init, Known]
  · intro x y
    rw [edge_iff]
    simp [init, DirectedGraph.empty, outgoing, Dict.get, Calls]
  · intro x h
    exact h.elim
  · intro x h
    simp [init] at h
  · exact List.Pairwise.nil

theorem mem_setAdd (l : List N) (x y : N) : y ∈ setAdd l x ↔ y ∈ l ∨ y = x := by
  unfold setAdd
  split
  · rename_i h
    constructor
    · exact .inl
    · rintro (h1 | rfl)
      · exact h1
      · exact h
  · simp

theorem mem_orderAdd (l : List (Int × N)) (p q : Int × N) : q ∈ orderAdd l p ↔ q ∈ l ∨ q = p := by
  unfold orderAdd
  split
  · rename_i h
    constructor
    · exact .inl
    · rintro (h1 | rfl)
      · exact h1
      · exact h
  · have := List.takeWhile_append_dropWhile (p := fun q : Int × N => decide (q.1 ≤ p.1)) (l := l)
    constructor
    · intro h
      simp only [List.mem_append, List.mem_cons] at h
      rcases h with h | h | h
      · exact .inl (this ▸ List.mem_append_left _ h)
      · exact .inr h
      · exact .inl (this ▸ List.mem_append_right _ h)
    · rintro (h | rfl)
      · rw [← this, List.mem_append] at h
        simp only [List.mem_append, List.mem_cons]
        rcases h with h | h
        · exact .inl h
        · exact .inr (.inr h)
      · simp

theorem mem_takeWhile_le (l : List (Int × N)) (k : Int) : ∀ q ∈ l.takeWhile (fun q => decide (q.1 ≤ k)), q.1 ≤ k := by
  induction l with
  | nil => simp
  | cons a l ih =>
    intro q hq
    rw [List.takeWhile_cons] at hq
    split at hq
    · rename_i h
      rcases List.mem_cons.mp hq with rfl | hq
      · simpa using h
      · exact ih q hq
    · cases hq

theorem mem_dropWhile_gt (l : List (Int × N)) (k : Int) (hl : l.Pairwise (fun a b => a.1 ≤ b.1)) :
    ∀ q ∈ l.dropWhile (fun q => decide (q.1 ≤ k)), k < q.1 := by
  induction l with
  | nil => simp
  | cons a l ih =>
    intro q hq
    rw [List.dropWhile_cons] at hq
    split at hq
    · exact ih (List.pairwise_cons.mp hl).2 q hq
    · rename_i h
      have hk : k < a.1 := by simpa using h
      rcases List.mem_cons.mp hq with rfl | hq
      · exact hk
      · have := (List.pairwise_cons.mp hl).1 q hq
        omega

theorem orderAdd_sorted (l : List (Int × N)) (p : Int × N) (hl : l.Pairwise (fun a b => a.1 ≤ b.1)) :
    (orderAdd l p).Pairwise (fun a b => a.1 ≤ b.1) := by
  unfold orderAdd
  split
  · exact hl
  · have h1 := mem_takeWhile_le l p.1
    have h2 := mem_dropWhile_gt l p.1 hl
    rw [List.pairwise_append]
    refine ⟨hl.sublist (List.takeWhile_sublist _), ?_, ?_⟩
    · rw [List.pairwise_cons]
      exact ⟨fun q hq => by have := h2 q hq; omega, hl.sublist (List.dropWhile_sublist _)⟩
    · intro a ha b hb
      have := h1 a ha
      rcases List.mem_cons.mp hb with rfl | hb
      · exact this
      · have := h2 b hb
        omega

/-! ### what marking does -/

theorem mark_some (s : State N) (c : N) (pr : Int → Int) (h : (s.levels c).isSome) :
    ∃ p, mark s c pr = ({ s with dirty := setAdd s.dirty c, order := orderAdd s.order (p, c) }, none) := by
  obtain ⟨l, hl⟩ := Option.isSome_iff_exists.mp h
  exact ⟨pr l, by simp [mark, hl]⟩

theorem markDirty_some (s : State N) (c : N) (n : Bool) (h : (s.levels c).isSome) :
    ∃ p, markDirty s c n = ({ s with dirty := setAdd s.dirty c, order := orderAdd s.order (p, c) }, none) := mark_some s c _ h

theorem mark_none (s : State N) (c : N) (pr : Int → Int) (h : ¬ (s.levels c).isSome) :
    mark s c pr = ({ s with dirty := setAdd s.dirty c }, some .keyError) := by
  have hl : s.levels c = none := by simpa using h
  simp [mark, hl]

/-- Marking several known nodes. -/
theorem markAll_ok (s : State N) (cs : List N) (hk : ∀ c ∈ cs, (s.levels c).isSome) (hs : s.order.Pairwise (fun a b => a.1 ≤ b.1)) :
    ∃ s', markAll s cs = (s', none) ∧ s'.deps = s.deps ∧ s'.levels = s.levels ∧ (∀ x, x ∈ s'.dirty ↔ x ∈ s.dirty ∨ x ∈ cs) ∧
      (∀ q ∈ s.order, q ∈ s'.order) ∧ (∀ c ∈ cs, ∃ p, (p, c) ∈ s'.order) ∧ s'.order.Pairwise (fun a b => a.1 ≤ b.1) := by
  induction cs generalizing s with
  | nil => exact ⟨s, rfl, rfl, rfl, by simp, fun q h => h, by simp, hs⟩
  | cons c cs ih =>
    obtain ⟨p, hp⟩ := mark_some s c (fun level => if false then 1000000 - level else level) (hk c (by simp))
    have hm : markDirty s c false = ({ s with dirty := setAdd s.dirty c, order := orderAdd s.order (p, c) }, none) := hp
    obtain ⟨s', h1, h2, h3, h4, h5, h6, h7⟩ := ih { s with dirty := setAdd s.dirty c, order := orderAdd s.order (p, c) }
      (fun c' hc' => hk c' (by simp [hc'])) (orderAdd_sorted _ _ hs)
    refine ⟨s', by simp only [markAll, hm]; exact h1, h2, h3, ?_, ?_, ?_, h7⟩
    · intro x
      rw [h4]
      show x ∈ setAdd s.dirty c ∨ x ∈ cs ↔ _
      rw [mem_setAdd, List.mem_cons, or_assoc]
    · intro q hq
      exact h5 q ((mem_orderAdd _ _ _).mpr (.inl hq))
    · intro c' hc'
      rcases List.mem_cons.mp hc' with rfl | hc'
      · exact ⟨p, h5 _ ((mem_orderAdd _ _ _).mpr (.inr rfl))⟩
      · exact h6 c' hc'

/-! ### each call keeps the invariant -/

theorem inv_mark {s : State N} {h : History N} (hi : Inv s h) (c : N) (pr : Int → Int) (op : Op N) (r : Option N)
    (hop : op = .markLow c ∨ ∃ n, op = .markDirty c n) : Inv (mark s c pr).1 ((op, r) :: h) := by
  have hK : ∀ x, Known ((op, r) :: h) x ↔ Known h x := by rcases hop with rfl | ⟨n, rfl⟩ <;> exact fun x => Iff.rfl
  have hC : ∀ x y, Calls ((op, r) :: h) x y ↔ Calls h x y := by rcases hop with rfl | ⟨n, rfl⟩ <;> exact fun x y => Iff.rfl
  have hP : ∀ x, Pending ((op, r) :: h) x ↔ (x = c ∧ Known h c) ∨ Pending h x := by
    rcases hop with rfl | ⟨n, rfl⟩ <;> exact fun x => Iff.rfl
  have hM : ∀ x, MaybePending ((op, r) :: h) x ↔ x = c ∨ MaybePending h x := by
    rcases hop with rfl | ⟨n, rfl⟩ <;> exact fun x => Iff.rfl
  have hd : ∀ x, x ∈ setAdd s.dirty c → MaybePending ((op, r) :: h) x := by
    intro x hx
    rw [hM]
    rcases (mem_setAdd _ _ _).mp hx with h1 | h1
    · exact .inr (hi.asked x h1)
    · exact .inl h1
  by_cases hk : (s.levels c).isSome
  · obtain ⟨p, hp⟩ := mark_some s c pr hk
    rw [hp]
    refine ⟨hi.wf, fun x => (hi.known x).trans (hK x).symm, fun x y => (hi.calls x y).trans (hC x y).symm, ?_, hd,
      orderAdd_sorted _ _ hi.sorted⟩
    intro x hx
    rcases (hP x).mp hx with ⟨rfl, _⟩ | hx
    · exact ⟨(mem_setAdd _ _ _).mpr (.inr rfl), p, (mem_orderAdd _ _ _).mpr (.inr rfl)⟩
    · obtain ⟨h1, q, h2⟩ := hi.owed x hx
      exact ⟨(mem_setAdd _ _ _).mpr (.inl h1), q, (mem_orderAdd _ _ _).mpr (.inl h2)⟩
  · rw [mark_none s c pr hk]
    refine ⟨hi.wf, fun x => (hi.known x).trans (hK x).symm, fun x y => (hi.calls x y).trans (hC x y).symm, ?_, hd, hi.sorted⟩
    intro x hx
    rcases (hP x).mp hx with ⟨rfl, h1⟩ | hx
    · exact absurd ((hi.known _).mpr h1) hk
    · obtain ⟨h1, h2⟩ := hi.owed x hx
      exact ⟨(mem_setAdd _ _ _).mpr (.inl h1), h2⟩

theorem inv_addRoot {s : State N} {h : History N} (hi : Inv s h) (x : N) (r : Option N) : Inv (addRoot s x).1 ((.addRoot x, r) :: h) := by
  unfold addRoot
  cases hl : s.levels x with
  | some l =>
    have hx : Known h x := (hi.known x).mp (by rw [hl]; rfl)
    refine ⟨hi.wf, ?_, hi.calls, ?_, fun y hy => .inr (hi.asked y hy), hi.sorted⟩
    · intro y
      rw [hi.known y]
      constructor
      · exact .inr
      · rintro (rfl | h1)
        · exact hx
        · exact h1
    · rintro y (⟨rfl, h1⟩ | h1)
      · exact absurd hx h1
      · exact hi.owed y h1
  | none =>
    have hx : ¬ Known h x := fun hk => by
      have := (hi.known x).mpr hk
      rw [hl] at this
      cases this
    obtain ⟨p, hp⟩ := markDirty_some { s with levels := fun y => if y = x then some 0 else s.levels y } x false (by simp)
    simp only [hp]
    refine ⟨hi.wf, ?_, hi.calls, ?_, ?_, orderAdd_sorted _ _ hi.sorted⟩
    · intro y
      show ((if y = x then some 0 else s.levels y) : Option Int).isSome ↔ (y = x ∨ Known h y)
      by_cases hy : y = x
      · simp [hy]
      · simp [hy, hi.known y]
    · rintro y (⟨rfl, h1⟩ | h1)
      · exact ⟨(mem_setAdd _ _ _).mpr (.inr rfl), p, (mem_orderAdd _ _ _).mpr (.inr rfl)⟩
      · obtain ⟨h2, q, h3⟩ := hi.owed y h1
        exact ⟨(mem_setAdd _ _ _).mpr (.inl h2), q, (mem_orderAdd _ _ _).mpr (.inl h3)⟩
    · intro y hy
      rcases (mem_setAdd _ _ _).mp hy with h1 | rfl
      · exact .inr (hi.asked y h1)
      · exact .inl ⟨rfl, hx⟩

theorem inv_addEdge {s : State N} {h : History N} (hi : Inv s h) (a b : N) (r : Option N) :
    Inv (addEdge s a b).1 ((.addEdge a b, r) :: h) := by
  unfold addEdge
  cases ha : s.levels a with
  | none =>
    have hx : ¬ Known h a := fun hk => by
      have := (hi.known a).mpr hk
      rw [ha] at this
      cases this
    refine ⟨hi.wf, ?_, ?_, ?_, fun y hy => .inr (hi.asked y hy), hi.sorted⟩
    · intro y
      rw [hi.known y]
      exact ⟨.inr, fun h1 => h1.elim (fun h2 => absurd h2.2 hx) id⟩
    · intro y z
      rw [hi.calls y z]
      exact ⟨.inr, fun h1 => h1.elim (fun h2 => absurd h2.2.2 hx) id⟩
    · rintro y (⟨_, h1, _⟩ | h1)
      · exact absurd h1 hx
      · exact hi.owed y h1
  | some l =>
    have hx : Known h a := (hi.known a).mp (by rw [ha]; rfl)
    have hcalls : ∀ g : Graph N, g = s.deps → ∀ y z, Edge (DirectedGraph.addEdge g a b) y z ↔ Calls ((.addEdge a b, r) :: h) y z := by
      rintro _ rfl y z
      rw [addEdge_edge]
      show (Edge s.deps y z ∨ (y = a ∧ z = b)) ↔ ((y = a ∧ z = b ∧ Known h a) ∨ Calls h y z)
      rw [hi.calls y z]
      constructor
      · rintro (h1 | ⟨h1, h2⟩)
        · exact .inr h1
        · exact .inl ⟨h1, h2, hx⟩
      · rintro (⟨h1, h2, _⟩ | h1)
        · exact .inr ⟨h1, h2⟩
        · exact .inl h1
    cases hb : s.levels b with
    | some l' =>
      have hy : Known h b := (hi.known b).mp (by rw [hb]; rfl)
      refine ⟨addEdge_wf _ hi.wf a b, ?_, hcalls _ rfl, ?_, fun y hy => .inr (hi.asked y hy), hi.sorted⟩
      · intro y
        rw [hi.known y]
        constructor
        · exact .inr
        · rintro (⟨rfl, _⟩ | h1)
          · exact hy
          · exact h1
      · rintro y (⟨_, _, h1⟩ | h1)
        · exact absurd hy h1
        · exact hi.owed y h1
    | none =>
      have hy : ¬ Known h b := fun hk => by
        have := (hi.known b).mpr hk
        rw [hb] at this
        cases this
      obtain ⟨p, hp⟩ := markDirty_some { s with levels := fun y => if y = b then some (l + 1) else s.levels y } b true (by simp)
      simp only [hp]
      refine ⟨addEdge_wf _ hi.wf a b, ?_, hcalls _ rfl, ?_, ?_, orderAdd_sorted _ _ hi.sorted⟩
      · intro y
        show ((if y = b then some (l + 1) else s.levels y) : Option Int).isSome ↔ ((y = b ∧ Known h a) ∨ Known h y)
        by_cases hyb : y = b
        · simp [hyb, hx]
        · simp [hyb, hi.known y]
      · rintro y (⟨rfl, h1⟩ | h1)
        · exact ⟨(mem_setAdd _ _ _).mpr (.inr rfl), p, (mem_orderAdd _ _ _).mpr (.inr rfl)⟩
        · obtain ⟨h2, q, h3⟩ := hi.owed y h1
          exact ⟨(mem_setAdd _ _ _).mpr (.inl h2), q, (mem_orderAdd _ _ _).mpr (.inl h3)⟩
      · intro y hyd
        rcases (mem_setAdd _ _ _).mp hyd with h1 | rfl
        · exact .inr (hi.asked y h1)
        · exact .inl ⟨rfl, hx, hy⟩

include hord in
theorem mem_callers {s : State N} {h : History N} (hi : Inv s h) (c x : N) : c ∈ ord (incoming s.deps x) ↔ Calls h c x := by
  rw [(hord _).mem_iff, ← hi.wf c x, ← edge_iff, hi.calls]

include hord in
theorem changed_ok {s : State N} {h : History N} (hi : Inv s h) (x : N) (r : Option N) :
    (functionReturnSignatureChanged ord s x).2 = none ∧ Inv (functionReturnSignatureChanged ord s x).1 ((.changed x, r) :: h) := by
  have hc := fun c => mem_callers ord hord hi c x
  obtain ⟨s', h1, h2, h3, h4, h5, h6, h7⟩ := markAll_ok s (ord (incoming s.deps x))
    (fun c hcm => (hi.known c).mpr (calls_known h c x ((hc c).mp hcm)).1) hi.sorted
  unfold functionReturnSignatureChanged
  rw [h1]
  refine ⟨rfl, by rw [h2]; exact hi.wf, by rw [h3]; exact hi.known, by rw [h2]; exact hi.calls, ?_, ?_, h7⟩
  · rintro y (hy | hy)
    · have := (hc y).mpr hy
      exact ⟨(h4 y).mpr (.inr this), h6 y this⟩
    · obtain ⟨k1, q, k2⟩ := hi.owed y hy
      exact ⟨(h4 y).mpr (.inl k1), q, h5 _ k2⟩
  · intro y hy
    rcases (h4 y).mp hy with k | k
    · exact .inr (hi.asked y k)
    · exact .inl ((hc y).mp k)

include hord in
theorem inv_dropNode {s : State N} {h : History N} (hi : Inv s h) (x : N) (r : Option N) : Inv (dropNode ord s x) ((.dropNode x, r) :: h) := by
  obtain ⟨h1, h2⟩ := disconnect_ok ord hord s.deps hi.wf x
  refine ⟨h1, ?_, ?_, ?_, ?_, hi.sorted⟩
  · intro y
    show ((if y = x then none else s.levels y) : Option Int).isSome ↔ (y ≠ x ∧ Known h y)
    by_cases hy : y = x
    · simp [hy]
    · simp [hy, hi.known y]
  · intro a b
    refine (h2 a b).trans ?_
    show _ ↔ (a ≠ x ∧ b ≠ x ∧ Calls h a b)
    rw [← hi.calls a b]
    exact ⟨fun k => ⟨k.2.1, k.2.2, k.1⟩, fun k => ⟨k.2.2, k.1, k.2.1⟩⟩
  · rintro y ⟨hy1, hy2⟩
    obtain ⟨h3, h4⟩ := hi.owed y hy2
    exact ⟨by simpa [dropNode, h3] using hy1, h4⟩
  · intro y hy
    simp only [dropNode, List.mem_filter, decide_eq_true_eq] at hy
    exact ⟨hy.2, hi.asked y hy.1⟩

/-! ### getNextDirtyNode -/

theorem popLoop_spec (dirty : List N) (l : List (Int × N)) :
    match popLoop dirty l with
    | (none, rest) => rest = [] ∧ ∀ q ∈ l, q.2 ∉ dirty
    | (some x, rest) => x ∈ dirty ∧ ∃ skipped p, l = skipped ++ (p, x) :: rest ∧ ∀ q ∈ skipped, q.2 ∉ dirty := by
  induction l with
  | nil => exact ⟨rfl, by simp⟩
  | cons a l ih =>
    obtain ⟨p, y⟩ := a
    simp only [popLoop]
    by_cases hy : y ∈ dirty
    · simp only [hy, if_true]
      exact ⟨trivial, [], p, rfl, by simp⟩
    · simp only [hy, if_false]
      cases hp : popLoop dirty l with
      | mk o rest =>
        rw [hp] at ih
        cases o with
        | none =>
          refine ⟨ih.1, ?_⟩
          intro q hq
          rcases List.mem_cons.mp hq with rfl | hq
          · exact hy
          · exact ih.2 q hq
        | some x =>
          obtain ⟨h1, sk, p', h2, h3⟩ := ih
          refine ⟨h1, (p, y) :: sk, p', by rw [h2]; rfl, ?_⟩
          intro q hq
          rcases List.mem_cons.mp hq with rfl | hq
          · exact hy
          · exact h3 q hq

/-- The two outcomes of getNextDirtyNode. -/
theorem getNext_cases (s : State N) :
    (getNext s = (none, { s with order := [] }) ∧ ∀ q ∈ s.order, q.2 ∉ s.dirty) ∨
    (∃ x p rest skipped, getNext s = (some x, { s with order := rest, dirty := s.dirty.filter (· ≠ x) }) ∧
      x ∈ s.dirty ∧ s.order = rest ++ (p, x) :: skipped ∧ ∀ q ∈ skipped, q.2 ∉ s.dirty) := by
  have h := popLoop_spec s.dirty s.order.reverse
  unfold getNext
  cases hp : popLoop s.dirty s.order.reverse with
  | mk o rest =>
    rw [hp] at h
    cases o with
    | none =>
      left
      obtain ⟨h1, h2⟩ := h
      exact ⟨by simp [h1], fun q hq => h2 q (List.mem_reverse.mpr hq)⟩
    | some x =>
      right
      obtain ⟨h1, sk, p, h2, h3⟩ := h
      refine ⟨x, p, rest.reverse, sk.reverse, rfl, h1, ?_, fun q hq => h3 q (List.mem_reverse.mp hq)⟩
      have := congrArg List.reverse h2
      simpa using this

theorem inv_getNext {s : State N} {h : History N} (hi : Inv s h) : Inv (getNext s).2 ((.getNext, (getNext s).1) :: h) := by
  rcases getNext_cases s with ⟨h1, h2⟩ | ⟨x, p, rest, sk, h1, h2, h3, h4⟩
  · rw [h1]
    refine ⟨hi.wf, hi.known, hi.calls, ?_, fun y hy => ⟨by simp, hi.asked y hy⟩, List.Pairwise.nil⟩
    intro y hy
    obtain ⟨h3, q, h4⟩ := hi.owed y hy.2
    exact absurd h3 (h2 _ h4)
  · rw [h1]
    refine ⟨hi.wf, hi.known, hi.calls, ?_, ?_, ?_⟩
    · rintro y ⟨hy1, hy2⟩
      have hy1 : x ≠ y := fun e => hy1 (by rw [e])
      obtain ⟨h5, q, h6⟩ := hi.owed y hy2
      refine ⟨by simpa [h5] using Ne.symm hy1, q, ?_⟩
      rw [h3] at h6
      rcases List.mem_append.mp h6 with h6 | h6
      · exact h6
      · rcases List.mem_cons.mp h6 with h6 | h6
        · exact absurd (congrArg Prod.snd h6).symm hy1
        · exact absurd h5 (h4 _ h6)
    · intro y hy
      simp only [List.mem_filter, decide_eq_true_eq] at hy
      exact ⟨fun e => hy.2 (Option.some.inj e).symm, hi.asked y hy.1⟩
    · have := hi.sorted
      rw [h3] at this
      exact this.sublist (List.sublist_append_left _ _)

include hord in
theorem inv_apply {s : State N} {h : History N} (hi : Inv s h) (op : Op N) : Inv (apply ord s op) ((op, returned s op) :: h) := by
  cases op with
  | dropNode x => exact inv_dropNode ord hord hi x _
  | getNext => exact inv_getNext hi
  | addRoot x => exact inv_addRoot hi x _
  | addEdge a b => exact inv_addEdge hi a b _
  | markDirty x n => exact inv_mark hi x _ _ _ (.inr ⟨n, rfl⟩)
  | markLow x => exact inv_mark hi x _ _ _ (.inl rfl)
  | changed x => exact (changed_ok ord hord hi x _).2

include hord in
theorem inv_run (ops : List (Op N)) : Inv (run ord ops).1 (run ord ops).2 := by
  unfold run
  have : ∀ (ops : List (Op N)) (sh : State N × History N), Inv sh.1 sh.2 →
      Inv (ops.foldl (fun sh op => (apply ord sh.1 op, (op, returned sh.1 op) :: sh.2)) sh).1
        (ops.foldl (fun sh op => (apply ord sh.1 op, (op, returned sh.1 op) :: sh.2)) sh).2 := by
    intro ops
    induction ops with
    | nil => exact fun s h => h
    | cons op ops ih => exact fun s h => ih _ (inv_apply ord hord h op)
  exact this ops _ inv_init

/-- The history lists the calls. -/
theorem history_ops (ops : List (Op N)) : (run ord ops).2.map Prod.fst = ops.reverse := by
  unfold run
  have : ∀ (ops : List (Op N)) (sh : State N × History N),
      (ops.foldl (fun sh op => (apply ord sh.1 op, (op, returned sh.1 op) :: sh.2)) sh).2.map Prod.fst = ops.reverse ++ sh.2.map Prod.fst := by
    intro ops
    induction ops with
    | nil => simp
    | cons op ops ih =>
      intro sh
      rw [List.foldl_cons, ih]
      simp
  simpa using this ops (init, [])

include hord in
/-- C45: after any history, getNextDirtyNode returns None only when nothing is pending. -/
theorem none_means_clean (ops : List (Op N)) (h : (getNext (run ord ops).1).1 = none) (x : N) : ¬ Pending (run ord ops).2 x := by
  intro hx
  obtain ⟨h1, p, h2⟩ := (inv_run ord hord ops).owed x hx
  rcases getNext_cases (run ord ops).1 with ⟨_, h3⟩ | ⟨y, _, _, _, h3, _⟩
  · exact h3 _ h2 h1
  · rw [h3] at h
    cases h

include hord in
/-- C45: what is returned was marked and neither dropped nor returned since. -/
theorem returned_was_marked (ops : List (Op N)) (x : N) (h : (getNext (run ord ops).1).1 = some x) :
    MaybePending (run ord ops).2 x := by
  rcases getNext_cases (run ord ops).1 with ⟨h1, _⟩ | ⟨y, _, _, _, h1, h2, _, _⟩
  · rw [h1] at h
    cases h
  · rw [h1] at h
    cases h
    exact (inv_run ord hord ops).asked _ h2

/-- C45: where no marking raised the two notions of pending are the same. -/
theorem maybe_iff_pending (h : History N) (hf : NoFailedMark h) (x : N) : MaybePending h x ↔ Pending h x := by
  induction h with
  | nil => exact Iff.rfl
  | cons e t ih =>
    obtain ⟨op, r⟩ := e
    cases op with
    | markDirty y n => simp [MaybePending, Pending, ih hf.2, hf.1]
    | markLow y => simp [MaybePending, Pending, ih hf.2, hf.1]
    | dropNode y => simp [MaybePending, Pending, ih hf]
    | getNext => simp [MaybePending, Pending, ih hf]
    | addRoot y => simp [MaybePending, Pending, ih hf]
    | addEdge a b => simp [MaybePending, Pending, ih hf]
    | changed y => simp [MaybePending, Pending, ih hf]

theorem drain_spec (n : Nat) (s : State N) (h : History N) (hi : Inv s h) (hn : s.order.length < n) :
    (getNext (drain n s).2).1 = none ∧ (drain n s).1.Nodup ∧ (∀ x ∈ (drain n s).1, x ∈ s.dirty) ∧
      ∀ x, Pending h x → x ∈ (drain n s).1 := by
  induction n generalizing s h with
  | zero => omega
  | succ n ih =>
    rcases getNext_cases s with ⟨h1, h2⟩ | ⟨x, p, rest, sk, h1, h2, h3, h4⟩
    · have hd : drain (n + 1) s = ([], { s with order := [] }) := by simp [drain, h1]
      rw [hd]
      refine ⟨rfl, List.nodup_nil, by simp, ?_⟩
      intro x hx
      obtain ⟨h5, q, h6⟩ := hi.owed x hx
      exact absurd h5 (h2 _ h6)
    · have hi' := inv_getNext hi
      rw [h1] at hi'
      have hlen : rest.length < n := by
        rw [h3] at hn
        simp at hn
        omega
      obtain ⟨k1, k2, k3, k4⟩ := ih _ _ hi' hlen
      simp only [drain, h1]
      refine ⟨k1, ?_, ?_, ?_⟩
      · rw [List.nodup_cons]
        refine ⟨fun hx => ?_, k2⟩
        have := k3 x hx
        simp at this
      · intro y hy
        rcases List.mem_cons.mp hy with rfl | hy
        · exact h2
        · have := k3 y hy
          simp only [List.mem_filter] at this
          exact this.1
      · intro y hy
        by_cases hxy : x = y
        · simp [hxy]
        · exact List.mem_cons_of_mem _ (k4 y ⟨by simpa using hxy, hy⟩)

include hord in
/-- C45: no work is lost: after any history, calling getNextDirtyNode until it returns None returns every pending node, and no
node twice; and it does return None. -/
theorem drain_returns_all (ops : List (Op N)) :
    ∃ n, (getNext (drain n (run ord ops).1).2).1 = none ∧ (drain n (run ord ops).1).1.Nodup ∧
      (∀ x, Pending (run ord ops).2 x → x ∈ (drain n (run ord ops).1).1) ∧
      ∀ x ∈ (drain n (run ord ops).1).1, MaybePending (run ord ops).2 x := by
  have hi := inv_run ord hord ops
  obtain ⟨h1, h2, h3, h4⟩ := drain_spec ((run ord ops).1.order.length + 1) _ _ hi (by omega)
  exact ⟨_, h1, h2, h4, fun x hx => hi.asked x (h3 x hx)⟩

include hord in
/-- C45: which calls raise: marking a node that is not known, and adding an edge from one. In particular a changed signature
never raises. -/
theorem raises_iff (ops : List (Op N)) (x y : N) (isNew : Bool) :
    ((addRoot (run ord ops).1 x).2 = none) ∧
    ((functionReturnSignatureChanged ord (run ord ops).1 x).2 = none) ∧
    ((addEdge (run ord ops).1 x y).2 = none ↔ Known (run ord ops).2 x) ∧
    ((markDirty (run ord ops).1 x isNew).2 = none ↔ Known (run ord ops).2 x) ∧
    ((markDirtyWithLowPriority (run ord ops).1 x).2 = none ↔ Known (run ord ops).2 x) := by
  have hi := inv_run ord hord ops
  have hm : ∀ pr, (mark (run ord ops).1 x pr).2 = none ↔ Known (run ord ops).2 x := by
    intro pr
    rw [← hi.known]
    by_cases hk : ((run ord ops).1.levels x).isSome
    · obtain ⟨p, hp⟩ := mark_some (run ord ops).1 x pr hk
      simp [hp, hk]
    · rw [mark_none _ x pr hk]
      simp [hk]
  refine ⟨?_, (changed_ok ord hord hi x none).1, ?_, hm _, hm _⟩
  · unfold addRoot
    cases hl : (run ord ops).1.levels x with
    | some l => rfl
    | none =>
      obtain ⟨p, hp⟩ := markDirty_some { (run ord ops).1 with levels := fun z => if z = x then some 0 else (run ord ops).1.levels z } x false (by simp)
      simp only [hp]
  · rw [← hi.known]
    unfold addEdge
    cases ha : (run ord ops).1.levels x with
    | none => simp
    | some l =>
      cases hb : (run ord ops).1.levels y with
      | some l' => simp
      | none =>
        obtain ⟨p, hp⟩ := markDirty_some { (run ord ops).1 with levels := fun z => if z = y then some (l + 1) else (run ord ops).1.levels z } y true (by simp)
        simp only [hp]
        simp

include hord in
/-- C45: getNamesDependedOn lists the functions called. -/
theorem names_depended_on (ops : List (Op N)) (x y : N) : y ∈ getNamesDependedOn (run ord ops).1 x ↔ Calls (run ord ops).2 x y := by
  rw [← (inv_run ord hord ops).calls x y, edge_iff]
  rfl

include hord in
/-- C45: the node returned has a priority not lower than that of any queued pair of a dirty node. -/
theorem highest_first (ops : List (Op N)) (x : N) (h : (getNext (run ord ops).1).1 = some x) :
    ∃ p, (p, x) ∈ (run ord ops).1.order ∧ ∀ q y, (q, y) ∈ (run ord ops).1.order → y ∈ (run ord ops).1.dirty → q ≤ p := by
  have hi := inv_run ord hord ops
  rcases getNext_cases (run ord ops).1 with ⟨h1, _⟩ | ⟨y, p, rest, sk, h1, h2, h3, h4⟩
  · rw [h1] at h
    cases h
  · rw [h1] at h
    cases h
    refine ⟨p, by rw [h3]; simp, ?_⟩
    intro q z hq hz
    have hs := hi.sorted
    rw [h3] at hs hq
    rcases List.mem_append.mp hq with hq | hq
    · exact (List.pairwise_append.mp hs).2.2 _ hq (p, x) (by simp)
    · rcases List.mem_cons.mp hq with hq | hq
      · cases hq
        exact Int.le_refl _
      · exact absurd hz (h4 _ hq)

/-! ### examples -/

/-- A root calling two functions; the root is returned, then the second callee; then the first callee's signature changes. -/
def sample : List (Op Nat) := [.addRoot 1, .getNext, .addEdge 1 2, .addEdge 1 3, .getNext, .changed 2]

/-- Nodes 1 and 2 are pending, and are what draining returns; new nodes go before others. -/
example : (drain 10 (run (fun l => l) sample).1).1 = [2, 1] := by decide +kernel
example : (run (fun l => l) sample).2.map Prod.snd = [none, some 3, none, none, some 1, none] := by decide +kernel
example : NoFailedMark (run (fun l => l) sample).2 ∧ Pending (run (fun l => l) sample).2 1 ∧ Pending (run (fun l => l) sample).2 2 ∧
    ¬ Pending (run (fun l => l) sample).2 3 := by
  have : (run (fun l => l) sample).2 =
      [(.changed 2, none), (.getNext, some 3), (.addEdge 1 3, none), (.addEdge 1 2, none), (.getNext, some 1), (.addRoot 1, none)] := rfl
  rw [this]
  simp [Pending, Calls, Known, NoFailedMark]

/-- A marking that raises leaves the node in the dirty set without a queued pair; getNextDirtyNode returns None although the
internal set is not empty. -/
example : (run (fun l => l) [Op.markDirty 7 false]).1.dirty = [7] ∧ (getNext (run (fun l => l) [Op.markDirty 7 false]).1).1 = none :=
  ⟨rfl, rfl⟩

end Verif.DependencyGraph
