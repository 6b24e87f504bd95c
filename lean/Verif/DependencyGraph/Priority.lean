import Verif.DependencyGraph.Props
import Mathlib.Data.List.Induction
/-
C45: in which order work is handed out: new functions first, then what was marked as usual, and last what was marked with low
priority.
-/
namespace Verif.DependencyGraph
open Spec DirectedGraph

variable {N : Type} [DecidableEq N] (ord : List N → List N) (hord : ∀ l, (ord l).Perm l)

/-- The priority of a marking, function_dependency_graph.py:55-72. -/
def prio : Urgency → Int → Int
  | .low, l => -1000000 + l
  | .usual, l => l
  | .new, l => 1000000 - l

/-- The least priority of a marking at least this urgent, while levels stay below 500000. -/
def bound : Urgency → Int
  | .low => -1000000
  | .usual => 0
  | .new => 500000

theorem bound_le_prio (c c' : Urgency) (l : Int) (h0 : 0 ≤ l) (h1 : l < 500000) : bound c ≤ prio c' l ↔ c.rank ≤ c'.rank := by
  cases c <;> cases c' <;> simp [bound, prio, Urgency.rank] <;> omega

/-- What a call does to the pairs: only markings of this call are new, and they are all there. -/
structure Pairs (s s' : State N) (h : History N) (op : Op N) : Prop where
  back : ∀ p x, (p, x) ∈ s'.order → (p, x) ∈ s.order ∨ ∃ c l, Marks h op x c ∧ s'.levels x = some l ∧ p = prio c l
  there : ∀ x c, Marks h op x c → ∃ l, s'.levels x = some l ∧ (prio c l, x) ∈ s'.order

/-- The levels, and the pairs as markings. -/
structure Inv2 (s : State N) (h : History N) : Prop where
  levels : ∀ x l, s.levels x = some l → 0 ≤ l ∧ l ≤ h.length
  ever : ∀ c p x, (p, x) ∈ s.order → bound c ≤ p → EverMarked h c x
  pend : ∀ c x, PendingAt h c x → ∃ p, bound c ≤ p ∧ (p, x) ∈ s.order

theorem pendingAt_pending (h : History N) (c : Urgency) (x : N) (hp : PendingAt h c x) : Pending h x := by
  induction h with
  | nil => exact hp.elim
  | cons e t ih =>
    obtain ⟨op, r⟩ := e
    rcases hp with ⟨c', _, hm⟩ | ⟨h1, h2, h3⟩
    · cases op <;> simp only [Marks] at hm
      · exact .inl ⟨hm.1, hm.2.1⟩
      · exact .inl ⟨hm.1, hm.2.1, hm.2.2.1⟩
      · exact .inl ⟨hm.1, hm.2.1⟩
      · exact .inl ⟨hm.1, hm.2.1⟩
      · exact .inl hm.1
    · have := ih h3
      cases op with
      | dropNode y => exact ⟨fun e => h1 (by rw [e]), this⟩
      | getNext => exact ⟨h2, this⟩
      | _ => exact .inr this

theorem inv2_step {s s' : State N} {h : History N} {op : Op N} {r : Option N} (hi : Inv2 s h) (hp : Pairs s s' h op)
    (hm : ∀ q ∈ s.order, q ∈ s'.order) (hl : ∀ x l, s'.levels x = some l → 0 ≤ l ∧ l ≤ h.length + 1) (hn : h.length + 1 < 500000) :
    Inv2 s' ((op, r) :: h) := by
  refine ⟨?_, ?_, ?_⟩
  · intro x l hx
    have := hl x l hx
    simp only [List.length_cons]
    omega
  · intro c p x hx hb
    rcases hp.back p x hx with h1 | ⟨c', l, h1, h2, rfl⟩
    · exact .inr (hi.ever c p x h1 hb)
    · have := hl x l h2
      exact .inl ⟨c', (bound_le_prio c c' l this.1 (by omega)).mp hb, h1⟩
  · rintro c x (⟨c', hc, h1⟩ | ⟨_, _, h1⟩)
    · obtain ⟨l, h2, h3⟩ := hp.there x c' h1
      have := hl x l h2
      exact ⟨_, (bound_le_prio c c' l this.1 (by omega)).mpr hc, h3⟩
    · obtain ⟨p, h2, h3⟩ := hi.pend c x h1
      exact ⟨p, h2, hm _ h3⟩

/-- Marking a known node. -/
theorem mark_known (s : State N) (c : N) (pr : Int → Int) (l : Int) (h : s.levels c = some l) :
    mark s c pr = ({ s with dirty := setAdd s.dirty c, order := orderAdd s.order (pr l, c) }, none) := by
  simp [mark, h]

/-- Marking several nodes as usual. -/
theorem markAll_pairs (cs : List N) : ∀ (s : State N), (∀ c ∈ cs, (s.levels c).isSome) →
    (markAll s cs).1.levels = s.levels ∧ (∀ q ∈ s.order, q ∈ (markAll s cs).1.order) ∧
    (∀ p x, (p, x) ∈ (markAll s cs).1.order → (p, x) ∈ s.order ∨ (x ∈ cs ∧ s.levels x = some p)) ∧
    (∀ x ∈ cs, ∃ l, s.levels x = some l ∧ (l, x) ∈ (markAll s cs).1.order) := by
  induction cs with
  | nil => exact fun s _ => ⟨rfl, fun q h => h, fun p x h => .inl h, by simp⟩
  | cons c cs ih =>
    intro s hk
    obtain ⟨l, hl⟩ := Option.isSome_iff_exists.mp (hk c (by simp))
    have hm : markDirty s c false = ({ s with dirty := setAdd s.dirty c, order := orderAdd s.order (l, c) }, none) := by
      unfold markDirty
      rw [mark_known s c _ l hl]
      rfl
    obtain ⟨h1, h2, h3, h4⟩ := ih { s with dirty := setAdd s.dirty c, order := orderAdd s.order (l, c) }
      (fun c' hc' => hk c' (by simp [hc']))
    have he : markAll s (c :: cs) = markAll { s with dirty := setAdd s.dirty c, order := orderAdd s.order (l, c) } cs := by
      simp only [markAll, hm]
    rw [he]
    refine ⟨h1, fun q hq => h2 q ((mem_orderAdd _ _ _).mpr (.inl hq)), ?_, ?_⟩
    · intro p x hx
      rcases h3 p x hx with h5 | ⟨h5, h6⟩
      · rcases (mem_orderAdd _ _ _).mp h5 with h5 | h5
        · exact .inl h5
        · cases h5
          exact .inr ⟨by simp, hl⟩
      · exact .inr ⟨by simp [h5], h6⟩
    · intro x hx
      rcases List.mem_cons.mp hx with rfl | hx
      · exact ⟨l, hl, h2 _ ((mem_orderAdd _ _ _).mpr (.inr rfl))⟩
      · exact h4 x hx

theorem not_known {s : State N} {h : History N} (hi : Inv s h) {x : N} (hx : s.levels x = none) : ¬ Known h x := fun hk => by
  have := (hi.known x).mpr hk
  rw [hx] at this
  cases this

theorem is_known {s : State N} {h : History N} (hi : Inv s h) {x : N} {l : Int} (hx : s.levels x = some l) : Known h x :=
  (hi.known x).mp (by rw [hx]; rfl)

/-- A marking of one node. -/
theorem inv2_mark {s : State N} {h : History N} (hi : Inv s h) (h2 : Inv2 s h) (y : N) (pr : Int → Int) (c : Urgency) (op : Op N)
    (r : Option N) (hpr : pr = prio c) (hop : ∀ x c', Marks h op x c' ↔ x = y ∧ Known h y ∧ c' = c) (hn : h.length + 1 < 500000) :
    Inv2 (mark s y pr).1 ((op, r) :: h) := by
  subst hpr
  have hlv : ∀ x l, s.levels x = some l → 0 ≤ l ∧ l ≤ h.length + 1 := fun x l hx => by
    have := h2.levels x l hx
    omega
  cases hl : s.levels y with
  | none =>
    rw [mark_none s y _ (by rw [hl]; simp)]
    refine inv2_step h2 ⟨fun p x hx => .inl hx, ?_⟩ (fun q hq => hq) hlv hn
    intro x c' hm
    exact absurd ((hop x c').mp hm).2.1 (not_known hi hl)
  | some l =>
    rw [mark_known s y _ l hl]
    refine inv2_step h2 ⟨?_, ?_⟩ (fun q hq => (mem_orderAdd _ _ _).mpr (.inl hq)) hlv hn
    · intro p x hx
      rcases (mem_orderAdd _ _ _).mp hx with h3 | h3
      · exact .inl h3
      · cases h3
        exact .inr ⟨c, l, (hop _ _).mpr ⟨rfl, is_known hi hl, rfl⟩, hl, rfl⟩
    · intro x c' hm
      obtain ⟨rfl, _, rfl⟩ := (hop x c').mp hm
      exact ⟨l, hl, (mem_orderAdd _ _ _).mpr (.inr rfl)⟩

theorem inv2_addRoot {s : State N} {h : History N} (hi : Inv s h) (h2 : Inv2 s h) (y : N) (r : Option N) (hn : h.length + 1 < 500000) :
    Inv2 (addRoot s y).1 ((.addRoot y, r) :: h) := by
  unfold addRoot
  cases hl : s.levels y with
  | some l =>
    refine inv2_step h2 ⟨fun p x hx => .inl hx, ?_⟩ (fun q hq => hq) ?_ hn
    · rintro x c ⟨_, h3, _⟩
      exact absurd (is_known hi hl) h3
    · intro x l hx
      have := h2.levels x l hx
      omega
  | none =>
    have hm : markDirty { s with levels := fun x => if x = y then some 0 else s.levels x } y false =
        ({ s with levels := fun x => if x = y then some 0 else s.levels x, dirty := setAdd s.dirty y, order := orderAdd s.order (0, y) },
          none) := by
      unfold markDirty
      rw [mark_known _ y _ 0 (by simp)]
      rfl
    simp only [hm]
    refine inv2_step h2 ⟨?_, ?_⟩ (fun q hq => (mem_orderAdd _ _ _).mpr (.inl hq)) ?_ hn
    · intro p x hx
      rcases (mem_orderAdd _ _ _).mp hx with h3 | h3
      · exact .inl h3
      · cases h3
        exact .inr ⟨.usual, 0, ⟨rfl, not_known hi hl, rfl⟩, by simp, rfl⟩
    · rintro x c ⟨rfl, _, rfl⟩
      exact ⟨0, by simp, (mem_orderAdd _ _ _).mpr (.inr rfl)⟩
    · intro x l hx
      have hx : (if x = y then some 0 else s.levels x) = some l := hx
      split at hx
      · cases hx
        omega
      · have := h2.levels x l hx
        omega

theorem inv2_addEdge {s : State N} {h : History N} (hi : Inv s h) (h2 : Inv2 s h) (a b : N) (r : Option N) (hn : h.length + 1 < 500000) :
    Inv2 (addEdge s a b).1 ((.addEdge a b, r) :: h) := by
  have hlv : ∀ x l, s.levels x = some l → 0 ≤ l ∧ l ≤ h.length + 1 := fun x l hx => by
    have := h2.levels x l hx
    omega
  unfold addEdge
  cases ha : s.levels a with
  | none =>
    refine inv2_step h2 ⟨fun p x hx => .inl hx, ?_⟩ (fun q hq => hq) hlv hn
    rintro x c ⟨_, h3, _⟩
    exact absurd h3 (not_known hi ha)
  | some l =>
    cases hb : s.levels b with
    | some l' =>
      refine inv2_step h2 ⟨fun p x hx => .inl hx, ?_⟩ (fun q hq => hq) hlv hn
      rintro x c ⟨_, _, h3, _⟩
      exact absurd (is_known hi hb) h3
    | none =>
      have hm : markDirty { s with levels := fun x => if x = b then some (l + 1) else s.levels x } b true =
          ({ s with levels := fun x => if x = b then some (l + 1) else s.levels x, dirty := setAdd s.dirty b,
                    order := orderAdd s.order (1000000 - (l + 1), b) }, none) := by
        unfold markDirty
        rw [mark_known _ b _ (l + 1) (by simp)]
        rfl
      simp only [hm]
      refine inv2_step h2 ⟨?_, ?_⟩ (fun q hq => (mem_orderAdd _ _ _).mpr (.inl hq)) ?_ hn
      · intro p x hx
        rcases (mem_orderAdd _ _ _).mp hx with h3 | h3
        · exact .inl h3
        · cases h3
          exact .inr ⟨.new, l + 1, ⟨rfl, is_known hi ha, not_known hi hb, rfl⟩, by simp, rfl⟩
      · rintro x c ⟨rfl, _, _, rfl⟩
        exact ⟨l + 1, by simp, (mem_orderAdd _ _ _).mpr (.inr rfl)⟩
      · intro x k hx
        have hx : (if x = b then some (l + 1) else s.levels x) = some k := hx
        have := h2.levels a l ha
        split at hx
        · cases hx
          omega
        · exact hlv x k hx

include hord in
theorem inv2_apply {s : State N} {h : History N} (hi : Inv s h) (h2 : Inv2 s h) (op : Op N) (hn : h.length + 1 < 500000) :
    Inv2 (apply ord s op) ((op, returned s op) :: h) := by
  have hlv : ∀ x l, s.levels x = some l → 0 ≤ l ∧ l ≤ h.length + 1 := fun x l hx => by
    have := h2.levels x l hx
    omega
  cases op with
  | addRoot y => exact inv2_addRoot hi h2 y _ hn
  | addEdge a b => exact inv2_addEdge hi h2 a b _ hn
  | markLow y => exact inv2_mark hi h2 y _ .low _ _ rfl (fun _ _ => Iff.rfl) hn
  | markDirty y n =>
    cases n
    · exact inv2_mark hi h2 y _ .usual _ _ rfl (fun _ _ => Iff.rfl) hn
    · exact inv2_mark hi h2 y _ .new _ _ rfl (fun _ _ => Iff.rfl) hn
  | changed y =>
    have hc := fun c => mem_callers ord hord hi c y
    obtain ⟨h3, h4, h5, h6⟩ := markAll_pairs (ord (incoming s.deps y)) s
      (fun c hcm => (hi.known c).mpr (calls_known h c y ((hc c).mp hcm)).1)
    refine inv2_step (s' := (markAll s (ord (incoming s.deps y))).1) h2 ⟨?_, ?_⟩ h4 (by rw [h3]; exact hlv) hn
    · intro p x hx
      rcases h5 p x hx with h7 | ⟨h7, h8⟩
      · exact .inl h7
      · exact .inr ⟨.usual, p, ⟨(hc x).mp h7, rfl⟩, by rw [h3]; exact h8, rfl⟩
    · rintro x c ⟨h7, rfl⟩
      rw [h3]
      exact h6 x ((hc x).mpr h7)
  | dropNode y =>
    refine inv2_step (s' := dropNode ord s y) h2 ⟨fun p x hx => .inl hx, fun x c hm => hm.elim⟩ (fun q hq => hq) ?_ hn
    intro x l hx
    have hx : (if x = y then none else s.levels x) = some l := hx
    split at hx
    · cases hx
    · exact hlv x l hx
  | getNext =>
    rcases getNext_cases s with ⟨h3, h4⟩ | ⟨z, p, rest, sk, h3, h4, h5, h6⟩
    · show Inv2 (getNext s).2 ((.getNext, (getNext s).1) :: h)
      rw [h3]
      refine ⟨fun x l hx => by have := hlv x l hx; simpa using this, by simp, ?_⟩
      rintro c x (⟨_, _, hm⟩ | ⟨_, _, hp⟩)
      · exact hm.elim
      · obtain ⟨h7, q, h8⟩ := hi.owed x (pendingAt_pending h c x hp)
        exact absurd h7 (h4 _ h8)
    · show Inv2 (getNext s).2 ((.getNext, (getNext s).1) :: h)
      rw [h3]
      refine ⟨fun x l hx => by have := hlv x l hx; simpa using this, ?_, ?_⟩
      · intro c q x hx hb
        exact .inr (h2.ever c q x (by rw [h5]; exact List.mem_append_left _ hx) hb)
      · rintro c x (⟨_, _, hm⟩ | ⟨_, hr, hp⟩)
        · exact hm.elim
        · obtain ⟨q, h7, h8⟩ := h2.pend c x hp
          refine ⟨q, h7, ?_⟩
          rw [h5] at h8
          rcases List.mem_append.mp h8 with h8 | h8
          · exact h8
          · rcases List.mem_cons.mp h8 with h8 | h8
            · exact absurd (congrArg (fun t => some t.2) h8).symm hr
            · exact absurd (hi.owed x (pendingAt_pending h c x hp)).1 (h6 _ h8)

include hord in
theorem inv2_run (ops : List (Op N)) (hn : ops.length < 500000) : Inv2 (run ord ops).1 (run ord ops).2 := by
  induction ops using List.reverseRecOn with
  | nil => exact ⟨fun x l hx => by simp [run, init] at hx, fun c p x hx => by simp [run, init] at hx, fun c x hx => hx.elim⟩
  | append_singleton ops op ih =>
    have hl : (run ord ops).2.length = ops.length := by
      have := congrArg List.length (history_ops ord ops)
      simpa using this
    have he : run ord (ops ++ [op]) = (apply ord (run ord ops).1 op, (op, returned (run ord ops).1 op) :: (run ord ops).2) := by
      simp [run]
    simp only [List.length_append, List.length_singleton] at hn
    rw [he]
    exact inv2_apply ord hord (inv_run ord hord ops) (ih (by omega)) op (by omega)

include hord in
/-- C45: the node returned is as urgent as any that is pending: whenever some node is pending from a marking at least as urgent as
`c`, the node returned has been marked at least that urgently.  (It holds for the first half million calls: levels count up to the
number of calls, and the three classes of priorities are half a million or more apart.) -/
theorem urgent_first (ops : List (Op N)) (hn : ops.length < 500000) (x y : N) (c : Urgency)
    (h : (getNext (run ord ops).1).1 = some x) (hy : PendingAt (run ord ops).2 c y) : EverMarked (run ord ops).2 c x := by
  have hi := inv_run ord hord ops
  have h2 := inv2_run ord hord ops hn
  obtain ⟨p, h3, h4⟩ := highest_first ord hord ops x h
  obtain ⟨q, h5, h6⟩ := h2.pend c y hy
  exact h2.ever c p x h3 (Int.le_trans h5 (h4 q y h6 (hi.owed y (pendingAt_pending _ c y hy)).1))

/-- A low marking, a usual one and a new callee: handed out new, usual, low. -/
def mixed : List (Op Nat) := [.addRoot 1, .addRoot 2, .getNext, .getNext, .markLow 2, .markDirty 1 false, .addEdge 1 3]

example : (drain 10 (run (fun l => l) mixed).1).1 = [3, 1, 2] := by decide +kernel

/-- The hypotheses of `urgent_first` are met by `mixed`: 3 is returned while 1 is pending as usual. -/
example : mixed.length < 500000 ∧ (getNext (run (fun l => l) mixed).1).1 = some 3 ∧ PendingAt (run (fun l => l) mixed).2 .usual 1 := by
  refine ⟨by decide, by decide +kernel, ?_⟩
  refine .inr ⟨by simp, by simp [returned], .inl ⟨.usual, by decide, rfl, ?_, rfl⟩⟩
  simp [Known]

end Verif.DependencyGraph
