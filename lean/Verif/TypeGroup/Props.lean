import Verif.TypeGroup.Steps
/-
C90.  For every graph of objects, every number of threads and every schedule: the groups are the classes of
objects that see each other, nothing raises, and calls return.
-/
namespace Verif.TypeGroup

variable {O H : Type} [LinearOrder O] [LinearOrder H] [HashOps H]

/-- The most steps a call makes when everything it can see is in `U`. -/
def bound (W : World O H) (U : List O) : Nat := (U.map (fun u => (W.succs u).length + 3)).sum

/-- What holds in every state of a process. -/
structure SysInv (W : World O H) (s : Sys O H) : Prop where
  reg : RegInv W s.reg
  calls : ∀ c ∈ s.calls, CallInv W s.reg c
  raised : s.raised = []
  returned : ∀ r ∈ s.returned, Asg W s.reg r
  bounded : ∀ c ∈ s.calls, ∀ U, Covers W U c.root → c.steps + todo W s.reg U c ≤ bound W U

theorem startCall_root {W : World O H} {reg : Reg O H} {root : O} {c : Call O}
    (h : startCall W reg root = .ok c) : c.root = root ∧ c.steps = 0 := by
  simp only [startCall, pushGroup, List.not_mem_nil, if_false, Except.ok.injEq] at h
  subst h; exact ⟨rfl, rfl⟩

theorem startCall_todo {W : World O H} {reg : Reg O H} {root : O} {c : Call O}
    (h : startCall W reg root = .ok c) {U : List O} (hU : Covers W U root) :
    c.steps + todo W reg U c ≤ bound W U := by
  simp only [startCall, pushGroup, List.not_mem_nil, if_false, Except.ok.injEq] at h
  subst h
  have hw := sum_drop (U := U) (o := root) (a := weight W reg [root])
    (b := fun u => (W.succs u).length + 3) (d := (W.succs root).length + 3) (by
      intro u
      unfold weight
      by_cases h : u ∈ [root] ∨ unassigned W reg u = false
      · rw [if_pos h]; omega
      · rw [if_neg h]) hU.mem (by
      unfold weight
      have h : root ∈ [root] ∨ unassigned W reg root = false := .inl (by simp)
      rw [if_pos h]; omega)
  have hf := List.length_filter_le (unassigned W reg) (W.succs root)
  simp only [todo, bound, List.map_cons, List.map_nil, List.sum_cons, List.sum_nil, List.length_cons,
    List.length_nil, Option.isSome_none, Bool.false_eq_true, if_false, List.length_reverse] at hw ⊢
  omega

theorem asg_of_reg {W : World O H} {reg reg' : Reg O H} (h : ∀ x g, reg x = some g → reg' x = some g)
    (y : O) (hy : Asg W reg y) : Asg W reg' y := by
  rcases asg_iff.1 hy with ⟨g, hg⟩ | hc
  · exact asg_iff.2 (.inl ⟨g, h _ _ hg⟩)
  · exact asg_iff.2 (.inr hc)

theorem next_inv {W : World O H} {s s' : Sys O H} (h : SysInv W s) (hn : Next W s s') :
    SysInv W s' ∧ (∀ x g, s.reg x = some g → s'.reg x = some g) ∧
      ∀ x g, s'.reg x = some g → s.reg x = some g ∨
        ∀ z ∈ g.members, ∀ y ∈ W.succs z, y ∈ g.members ∨ Asg W s.reg y := by
  cases hn with
  | @start root c hc =>
    refine ⟨⟨h.reg, ?_, h.raised, h.returned, ?_⟩, fun _ _ h => h, fun _ _ h => .inl h⟩
    · intro c' hc'
      rcases List.mem_cons.1 hc' with rfl | hc'
      · exact startCall_inv hc
      · exact h.calls c' hc'
    · intro c' hc' U hU
      rcases List.mem_cons.1 hc' with rfl | hc'
      · rw [(startCall_root hc).1] at hU
        exact startCall_todo hc hU
      · exact h.bounded c' hc' U hU
  | @startRaises root e hc =>
    obtain ⟨c, hc'⟩ := startCall_ok W s.reg root
    rw [hc] at hc'; cases hc'
  | @step before c after reg' c' hcalls hne hstep =>
    obtain ⟨r2, c2, e1, e2, e3, e4, e8, e5, e6, e7⟩ :=
      callStep_spec h.reg (h.calls c (by rw [hcalls]; simp)) hne
    rw [hstep] at e1
    simp only [Except.ok.injEq, Prod.mk.injEq] at e1
    obtain ⟨rfl, rfl⟩ := e1
    have ha := asg_of_reg (W := W) e4
    refine ⟨⟨e2, ?_, h.raised, fun r hr => ha _ (h.returned r hr), ?_⟩, e4, e8⟩
    · intro d hd
      rcases List.mem_append.1 hd with hd | hd
      · exact (h.calls d (by rw [hcalls]; simp [hd])).mono ha
      · rcases List.mem_cons.1 hd with rfl | hd
        · exact e3
        · exact (h.calls d (by rw [hcalls]; simp [hd])).mono ha
    · intro d hd U hU
      have old : d ∈ s.calls → d.steps + todo W reg' U d ≤ bound W U := by
        intro hd
        have := h.bounded d hd U hU
        have := todo_mono U d ha
        omega
      rcases List.mem_append.1 hd with hd | hd
      · exact old (by rw [hcalls]; simp [hd])
      · rcases List.mem_cons.1 hd with rfl | hd
        · rw [e5] at hU
          have := h.bounded c (by rw [hcalls]; simp) U hU
          have := e7 U hU
          show d.steps + todo W reg' U d ≤ bound W U
          omega
        · exact old (by rw [hcalls]; simp [hd])
  | @raises before c after e hcalls hne hstep =>
    obtain ⟨r2, c2, e1, _⟩ := callStep_spec h.reg (h.calls c (by rw [hcalls]; simp)) hne
    rw [hstep] at e1; cases e1
  | @returns before c after hcalls hnil =>
    refine ⟨⟨h.reg, ?_, h.raised, ?_, ?_⟩, fun _ _ h => h, fun _ _ h => .inl h⟩
    · intro d hd
      refine h.calls d ?_
      rw [hcalls]
      rcases List.mem_append.1 hd with hd | hd <;> simp [hd]
    · intro r hr
      rcases List.mem_cons.1 hr with rfl | hr
      · have hc := h.calls c (by rw [hcalls]; simp)
        rcases hc.done with h | h
        · exact h
        · obtain ⟨q, hq, _⟩ := (hc.mem c.root).1 h
          rw [hnil] at hq; simp at hq
      · exact h.returned r hr
    · intro d hd
      refine h.bounded d ?_
      rw [hcalls]
      rcases List.mem_append.1 hd with hd | hd <;> simp [hd]

theorem reachable_inv {W : World O H} {s : Sys O H} (h : Reachable W s) : SysInv W s := by
  induction h with
  | init => exact ⟨⟨by simp, by simp, by simp, by simp, by simp, by simp⟩, by simp, rfl, by simp, by simp⟩
  | next _ hn ih => exact (next_inv ih hn).1

/-! ### The statements -/

/-- No call ever raises one of the exceptions of the code. -/
theorem never_raises {W : World O H} {s : Sys O H} (h : Reachable W s) : s.raised = [] :=
  (reachable_inv h).raised

/-- A group holds the objects that see each other: all of them, and no others; each has one index, and each
is registered with this group. -/
theorem group_is_class {W : World O H} {s : Sys O H} (h : Reachable W s) {x : O} {g : Grp O H}
    (hx : s.reg x = some g) :
    (∀ y, y ∈ g.members ↔ Together W x y) ∧ g.members.Nodup ∧ ∀ y ∈ g.members, s.reg y = some g :=
  ⟨(reachable_inv h).reg.scc x g hx, (reachable_inv h).reg.nodup x g hx, (reachable_inv h).reg.all x g hx⟩

/-- Two registered objects have the same group exactly when they see each other. -/
theorem same_group_iff {W : World O H} {s : Sys O H} (h : Reachable W s) {x y : O} {g g' : Grp O H}
    (hx : s.reg x = some g) (hy : s.reg y = some g') : g = g' ↔ Together W x y := by
  have hr := (reachable_inv h).reg
  constructor
  · rintro rfl
    exact (hr.scc x g hx y).1 (hr.self y g hy)
  · intro ht
    have := hr.all x g hx y ((hr.scc x g hx y).2 ht)
    rw [hy] at this
    simpa using this.symm

/-- Once a call has returned, everything its root sees has a group, except constants. -/
theorem returned_registers {W : World O H} {s : Sys O H} (h : Reachable W s) {r x : O} (hr : r ∈ s.returned)
    (hs : Sees W r x) (hc : ¬ IsConst W x) : ∃ g, s.reg x = some g := by
  have hi := reachable_inv h
  rcases asg_iff.1 (hi.reg.sees (hi.returned r hr) hs) with h | h
  · exact h
  · exact absurd h hc

/-- At any time, an object that has a group only sees constants and objects that have a group. -/
theorem registered_sees_registered {W : World O H} {s : Sys O H} (h : Reachable W s) {x y : O} {g : Grp O H}
    (hx : s.reg x = some g) (hs : Sees W x y) (hc : ¬ IsConst W y) : ∃ g', s.reg y = some g' := by
  have hi := reachable_inv h
  rcases asg_iff.1 (hi.reg.sees (asg_iff.2 (.inl ⟨g, hx⟩)) hs) with h | h
  · exact h
  · exact absurd h hc

/-- Constants are never put in a group. -/
theorem constants_ungrouped {W : World O H} {s : Sys O H} (h : Reachable W s) {x : O} (hc : IsConst W x) :
    s.reg x = none := by
  cases hx : s.reg x with
  | none => rfl
  | some g => have := (reachable_inv h).reg.nonconst x g hx; simp [IsConst, this] at hc

/-- An object keeps its group. -/
theorem group_persists {W : World O H} {s s' : Sys O H} (h : Reachable W s) (hn : Next W s s') {x : O}
    {g : Grp O H} (hx : s.reg x = some g) : s'.reg x = some g := (next_inv (reachable_inv h) hn).2.1 x g hx

/-- A call that sees finitely many objects makes a bounded number of steps, whatever the other threads do:
at most three for each object and one for each mention. -/
theorem call_bounded {W : World O H} {s : Sys O H} (h : Reachable W s) {c : Call O} (hc : c ∈ s.calls)
    {U : List O} (hr : c.root ∈ U) (hU : ∀ x ∈ U, ∀ y ∈ W.succs x, y ∈ U) :
    c.steps ≤ (U.map (fun u => (W.succs u).length + 3)).sum :=
  Nat.le_trans (Nat.le_add_right _ _) ((reachable_inv h).bounded c hc U ⟨hr, hU⟩)

/-- A call can always go on: it makes a step, which is counted, or it returns. -/
theorem call_goes_on {W : World O H} {s : Sys O H} (h : Reachable W s) {before after : List (Call O)}
    {c : Call O} (hc : s.calls = before ++ c :: after) :
    (∃ reg' c', c'.steps = c.steps + 1 ∧ c'.root = c.root ∧
      Next W s ⟨reg', before ++ c' :: after, s.returned, s.raised⟩) ∨
    Next W s ⟨s.reg, before ++ after, c.root :: s.returned, s.raised⟩ := by
  have hi := reachable_inv h
  by_cases hne : c.search.stack = []
  · exact .inr (.returns hc hne)
  · obtain ⟨r2, c2, e1, _, _, _, _, e5, e6, _⟩ := callStep_spec hi.reg (hi.calls c (by rw [hc]; simp)) hne
    exact .inl ⟨r2, c2, e6, e5, .step hc hne e1⟩

end Verif.TypeGroup
