import Verif.TypeGroup.Search
/-
Every step of every call keeps the invariants, and makes progress.
-/
namespace Verif.TypeGroup

variable {O H : Type} [LinearOrder O] [LinearOrder H] [HashOps H]

/-! ### Installing a group -/

theorem asg_install {W : World O H} {reg : Reg O H} {g : Grp O H} {x : O} (h : Asg W reg x) :
    Asg W (install reg g) x := by
  rcases asg_iff.1 h with ⟨g', hg⟩ | hc
  · exact asg_iff.2 (.inl ⟨g', by simp only [install, hg]⟩)
  · exact asg_iff.2 (.inr hc)

theorem asg_install_mem {W : World O H} {reg : Reg O H} {g : Grp O H} {x : O} (h : x ∈ g.members) :
    Asg W (install reg g) x := by
  refine asg_iff.2 (.inl ?_)
  unfold install
  cases reg x with
  | some g' => exact ⟨g', rfl⟩
  | none => exact ⟨g, by simp [h]⟩

theorem asg_nonconst {W : World O H} {reg : Reg O H} {x : O} (h : Asg W reg x) (hc : W.const x = none) :
    ∃ g, reg x = some g := by
  rcases asg_iff.1 h with h | h
  · exact h
  · simp [IsConst, hc] at h

/-- Nothing changes when the objects have a group already. -/
theorem install_same {W : World O H} {reg : Reg O H} {g : Grp O H}
    (h : ∀ x ∈ g.members, ∃ g', reg x = some g') : install reg g = reg := by
  funext x
  unfold install
  cases hr : reg x with
  | some g' => rfl
  | none =>
    by_cases hx : x ∈ g.members
    · obtain ⟨g', hg⟩ := h x hx; rw [hr] at hg; cases hg
    · simp [hx]

theorem RegInv.install {W : World O H} {reg : Reg O H} (hr : RegInv W reg) {topos : List O} {g : Grp O H}
    (hg : IsGroup W topos) (ho : ∀ x ∈ topos, ∀ y ∈ W.succs x, y ∈ topos ∨ Asg W reg y)
    (hb : build W reg topos = .ok g) (hn : g.members.Nodup) (hm : ∀ x, x ∈ g.members ↔ x ∈ topos) :
    RegInv W (install reg g) := by
  by_cases hany : ∃ x ∈ topos, Asg W reg x
  · obtain ⟨x, hx, ha⟩ := hany
    rw [install_same (W := W)]
    · exact hr
    · intro y hy
      have hy' := (hm y).1 hy
      exact asg_nonconst (allOrNone hr hg.conn hx hy' ha) (hg.nonconst y hy')
  · have hnone : ∀ x ∈ topos, reg x = none := by
      intro x hx
      cases h : reg x with
      | none => rfl
      | some g' => exact absurd ⟨x, hx, asg_iff.2 (.inl ⟨g', h⟩)⟩ hany
    have old : ∀ x g', reg x = some g' → TypeGroup.install reg g x = some g' := by
      intro x g' h; simp only [TypeGroup.install, h]
    have new : ∀ x ∈ topos, TypeGroup.install reg g x = some g := by
      intro x h; simp only [TypeGroup.install, hnone x h, (hm x).2 h, if_true]
    have out : ∀ y, y ∉ topos → TypeGroup.install reg g y = reg y := by
      intro y hy
      unfold TypeGroup.install
      cases hy' : reg y with
      | some g' => rfl
      | none => simp [hm, hy]
    have split : ∀ x g', TypeGroup.install reg g x = some g' →
        reg x = some g' ∨ (x ∈ topos ∧ g' = g) := by
      intro x g' h
      by_cases hx : x ∈ topos
      · rw [new x hx] at h; exact .inr ⟨hx, by simpa using h.symm⟩
      · rw [out x hx] at h; exact .inl h
    constructor
    · intro x g' h y hy
      rcases split x g' h with h | ⟨h0, rfl⟩
      · exact asg_install (hr.closed x g' h y hy)
      · rcases ho x h0 y hy with h | h
        · exact asg_install_mem ((hm y).2 h)
        · exact asg_install h
    · intro x g' h
      rcases split x g' h with h | ⟨h0, rfl⟩
      · exact hr.nonconst x g' h
      · exact hg.nonconst x h0
    · intro x g' h y hy
      rcases split x g' h with h | ⟨h0, rfl⟩
      · exact old _ _ (hr.all x g' h y hy)
      · exact new y ((hm y).1 hy)
    · intro x g' h
      rcases split x g' h with h | ⟨h0, rfl⟩
      · exact hr.nodup x g' h
      · exact hn
    · intro x g' h y
      rcases split x g' h with h | ⟨h0, rfl⟩
      · exact hr.scc x g' h y
      · rw [hm]
        exact ⟨fun hy => ⟨hg.conn x h0 y hy, hg.conn y hy x h0⟩, fun hy => hg.full x h0 y hy⟩
    · intro x g' h
      rcases split x g' h with h | ⟨h0, rfl⟩
      · obtain ⟨t, h1, h2, h3⟩ := hr.built x g' h
        refine ⟨t, h1, h2, ?_⟩
        rw [← h3]
        apply build_congr h1
        intro a ha y hy _
        have hya := hr.closed a g' (hr.all x g' h a ((h2 a).1 ha)) y hy
        by_cases hyt : y ∈ topos
        · exact absurd ⟨y, hyt, hya⟩ hany
        · exact out y hyt
      · refine ⟨topos, hg, fun y => (hm y).symm, ?_⟩
        rw [← hb]
        exact build_congr hg fun a _ y _ hyt => out y hyt

/-! ### Invariants of calls -/

theorem CallInv.pop {W : World O H} {reg reg2 : Reg O H} {c : Call O} (h : CallInv W reg c) {g : List O}
    {rest : List (List O × List O)} (hs : c.search.stack = (g, []) :: rest)
    (hr : ∀ y, Asg W reg y → Asg W reg2 y) (hg : ∀ x ∈ g, Asg W reg2 x) (n : Nat) :
    CallInv W reg2 ⟨c.root, popGroup c.search g, none, n⟩ := by
  have h0 := h.toStackInv
  rw [hs] at h0
  have hd := List.pairwise_cons.1 h0.disj
  have hin : ∀ x, x ∈ (popGroup c.search g).inGroup ↔ x ∈ c.search.inGroup ∧ x ∉ g := by
    intro x; simp [popGroup]
  have htail : (popGroup c.search g).stack = rest := by simp [popGroup, hs]
  refine { nodup := ?_, ne := ?_, disj := ?_, conn := ?_, chain := ?_, edges := ?_, cov := ?_, root := ?_,
           mem := ?_, done := ?_, pending := ?_ }
  · simp only [htail]; exact fun q hq => h0.nodup q (by simp [hq])
  · simp only [htail]; exact fun q hq => h0.ne q (by simp [hq])
  · simp only [htail]; exact hd.2
  · simp only [htail]; exact fun q hq => h0.conn q (by simp [hq])
  · simp only [htail]; exact (List.pairwise_cons.1 h0.chain).2
  · simp only [htail]; exact fun q hq => h0.edges q (by simp [hq])
  · simp only [htail]
    refine h0.cov.2.mono hr ?_
    intro y hy
    simp only [List.append_nil] at hy
    exact .inr (hg y hy)
  · simp only [htail]; exact fun q hq => h0.root q (by simp [hq])
  · intro x
    simp only [htail, hin, h.mem, hs]
    constructor
    · rintro ⟨⟨q, hq, hx⟩, hn⟩
      rcases List.mem_cons.1 hq with rfl | hq
      · exact absurd hx hn
      · exact ⟨q, hq, hx⟩
    · rintro ⟨q, hq, hx⟩
      exact ⟨⟨q, by simp [hq], hx⟩, fun hg' => hd.1 q hq x hg' hx⟩
  · simp only [hin]
    rcases h.done with h | h
    · exact .inl (hr _ h)
    · by_cases hc : c.root ∈ g
      · exact .inl (hg _ hc)
      · exact .inr ⟨h, hc⟩
  · simp

theorem startCall_inv {W : World O H} {reg : Reg O H} {root : O} {c : Call O}
    (h : startCall W reg root = .ok c) : CallInv W reg c := by
  simp only [startCall, pushGroup, List.not_mem_nil, if_false, Except.ok.injEq] at h
  subst h
  refine { nodup := ?_, ne := ?_, disj := ?_, conn := ?_, chain := ?_, edges := ?_, cov := ?_, root := ?_,
           mem := ?_, done := ?_, pending := ?_ }
  · simp
  · simp
  · simp
  · simp [Sees.refl]
  · simp
  · simp only [List.mem_singleton, forall_eq, List.mem_reverse, List.mem_filter]
    exact fun o ho => ⟨root, rfl, ho.1⟩
  · refine ⟨?_, trivial⟩
    intro x hx y hy
    simp only [List.mem_singleton] at hx
    subst hx
    by_cases ha : Asg W reg y
    · exact .inl ha
    · exact .inr (.inl (by simp only [List.mem_reverse, List.mem_filter]; exact ⟨hy, not_asg.2 ha⟩))
  · simp [Sees.refl]
  · simp
  · simp
  · simp

theorem startCall_ok (W : World O H) (reg : Reg O H) (root : O) : ∃ c, startCall W reg root = .ok c := by
  simp [startCall, pushGroup]

/-! ### Progress -/

/-- What is left to do for an object: nothing when it is on the stack or assigned. -/
def weight (W : World O H) (reg : Reg O H) (inGroup : List O) (u : O) : Nat :=
  if u ∈ inGroup ∨ unassigned W reg u = false then 0 else (W.succs u).length + 3

/-- What is left to do for a call, when everything it can see is in `U`. -/
def todo (W : World O H) (reg : Reg O H) (U : List O) (c : Call O) : Nat :=
  (U.map (weight W reg c.search.inGroup)).sum + (c.search.stack.map (fun q => q.2.length)).sum
    + 2 * c.search.stack.length - (if c.pending.isSome then 1 else 0)

omit [LinearOrder O] in
theorem sum_le {U : List O} {a b : O → Nat} (h : ∀ u, a u ≤ b u) : (U.map a).sum ≤ (U.map b).sum := by
  induction U with
  | nil => simp
  | cons u U ih => have := h u; simp only [List.map_cons, List.sum_cons]; omega

omit [LinearOrder O] in
theorem sum_drop {U : List O} {a b : O → Nat} (h : ∀ u, a u ≤ b u) {o : O} {d : Nat} (ho : o ∈ U)
    (hd : a o + d ≤ b o) : (U.map a).sum + d ≤ (U.map b).sum := by
  induction U with
  | nil => simp at ho
  | cons u U ih =>
    simp only [List.map_cons, List.sum_cons]
    rcases List.mem_cons.1 ho with rfl | ho
    · have := sum_le (U := U) h; omega
    · have := ih ho; have := h u; omega

theorem weight_mono {W : World O H} {reg reg2 : Reg O H} {a b : List O}
    (h : ∀ u, (u ∈ a ∨ Asg W reg u) → (u ∈ b ∨ Asg W reg2 u)) (u : O) :
    weight W reg2 b u ≤ weight W reg a u := by
  unfold weight
  by_cases h1 : u ∈ a ∨ unassigned W reg u = false
  · have h2 : u ∈ b ∨ unassigned W reg2 u = false := h u h1
    rw [if_pos h2]; omega
  · rw [if_neg h1]
    by_cases h2 : u ∈ b ∨ unassigned W reg2 u = false
    · rw [if_pos h2]; omega
    · rw [if_neg h2]

/-- The steps of other calls do not add anything to do. -/
theorem todo_mono {W : World O H} {reg reg2 : Reg O H} (U : List O) (c : Call O)
    (h : ∀ u, Asg W reg u → Asg W reg2 u) : todo W reg2 U c ≤ todo W reg U c := by
  have := sum_le (U := U) (weight_mono (a := c.search.inGroup) (b := c.search.inGroup)
    (fun u hu => hu.imp_right (h u)))
  unfold todo; omega

/-- Everything the call can see is in `U`. -/
structure Covers (W : World O H) (U : List O) (root : O) : Prop where
  mem : root ∈ U
  closed : ∀ x ∈ U, ∀ y ∈ W.succs x, y ∈ U

/-- One step: no exception, the invariants, and progress. -/
theorem callStep_spec {W : World O H} {reg : Reg O H} (hr : RegInv W reg) {c : Call O} (hc : CallInv W reg c)
    (hne : c.search.stack ≠ []) :
    ∃ reg' c', callStep W reg c = .ok (reg', c') ∧ RegInv W reg' ∧ CallInv W reg' c' ∧
      (∀ x g, reg x = some g → reg' x = some g) ∧
      (∀ x g, reg' x = some g → reg x = some g ∨
        ∀ z ∈ g.members, ∀ y ∈ W.succs z, y ∈ g.members ∨ Asg W reg y) ∧
      c'.root = c.root ∧ c'.steps = c.steps + 1 ∧
      ∀ U, Covers W U c.root → todo W reg' U c' + 1 ≤ todo W reg U c := by
  obtain ⟨root, ⟨inG, stack⟩, pending, n⟩ := c
  match pending, stack with
  | _, [] => exact absurd rfl hne
  | some topos, q :: rest =>
    obtain ⟨⟨rest', hst⟩, hg⟩ := hc.pending topos rfl
    simp only [List.cons.injEq] at hst
    obtain ⟨rfl, rfl⟩ := hst
    have hcov := hc.cov.1
    have ho : ∀ x ∈ topos, ∀ y ∈ W.succs x, y ∈ topos ∨ Asg W reg y := by
      intro x hx y hy
      rcases hcov x hx y hy with h | h | h | h
      · exact .inr h
      · simp at h
      · exact .inl h
      · simp at h
    obtain ⟨g, hb, hn, hm⟩ := build_ok hr.self hg ho
    refine ⟨install reg g, ⟨root, popGroup ⟨inG, (topos, []) :: rest⟩ topos, none, n + 1⟩,
      by simp only [callStep, hb], hr.install hg ho hb hn hm,
      hc.pop rfl (fun y => asg_install) (fun x hx => asg_install_mem ((hm x).2 hx)) _,
      fun x g' h => by simp only [install, h], ?_, rfl, rfl, ?_⟩
    · intro x g' h
      unfold install at h
      cases hx : reg x with
      | some g2 => rw [hx] at h; exact .inl h
      | none =>
        rw [hx] at h
        by_cases hxm : x ∈ g.members
        · simp only [hxm, if_true, Option.some.injEq] at h
          subst h
          refine .inr fun z hz y hy => ?_
          rw [hm]
          exact ho z ((hm z).1 hz) y hy
        · simp [hxm] at h
    intro U _
    have hw := sum_le (U := U) (weight_mono (W := W) (reg := reg) (reg2 := install reg g) (a := inG)
      (b := (popGroup ⟨inG, (topos, []) :: rest⟩ topos).inGroup) (by
        rintro u (h | h)
        · by_cases hu : u ∈ topos
          · exact .inr (asg_install_mem ((hm u).2 hu))
          · exact .inl (by simp [popGroup, h, hu])
        · exact .inr (asg_install h)))
    simp only [todo, popGroup, List.tail_cons, List.map_cons, List.sum_cons, List.length_cons,
      Option.isSome_none, Option.isSome_some, Bool.false_eq_true, if_true, if_false] at hw ⊢
    simp only [List.length_nil]
    omega
  | none, (g, []) :: rest =>
    simp only [callStep]
    by_cases hany : (g.any fun t => !unassigned W reg t) = true
    · rw [if_pos hany]
      obtain ⟨x, hx, ha⟩ := List.any_eq_true.1 hany
      have ha' : Asg W reg x := by simpa [Asg] using ha
      have hall : ∀ y ∈ g, Asg W reg y := fun y hy =>
        allOrNone hr (hc.conn (g, []) (by simp)) hx hy ha'
      have hno : ¬ (g.any (unassigned W reg)) = true := by
        intro h
        obtain ⟨y, hy, hu⟩ := List.any_eq_true.1 h
        have := hall y hy
        rw [Asg, hu] at this; cases this
      rw [if_neg hno]
      refine ⟨reg, _, rfl, hr, hc.pop rfl (fun _ h => h) hall _, fun _ _ h => h, fun _ _ h => .inl h, rfl, rfl, ?_⟩
      intro U _
      have hw := sum_le (U := U) (weight_mono (W := W) (reg := reg) (reg2 := reg) (a := inG)
        (b := (popGroup ⟨inG, (g, []) :: rest⟩ g).inGroup) (by
          rintro u (h | h)
          · by_cases hu : u ∈ g
            · exact .inr (hall u hu)
            · exact .inl (by simp [popGroup, h, hu])
          · exact .inr h))
      simp only [todo, popGroup, List.tail_cons, List.map_cons, List.sum_cons, List.length_cons,
        Option.isSome_none, Bool.false_eq_true, if_false] at hw ⊢
      simp only [List.length_nil]
      omega
    · rw [if_neg hany]
      have hnone : ∀ x ∈ g, ¬ Asg W reg x := by
        intro x hx ha
        apply hany
        exact List.any_eq_true.2 ⟨x, hx, by rw [Asg] at ha; simp [ha]⟩
      have hgr : IsGroup W g := by
        refine ⟨hc.nodup (g, []) (by simp), hc.ne (g, []) (by simp), hc.conn (g, []) (by simp), ?_, ?_⟩
        · intro x hx y hxy
          have : y ∈ g ∨ Asg W reg y := by
            refine hxy.1.closed (P := fun y => y ∈ g ∨ Asg W reg y) ?_ (.inl hx)
            rintro a (ha | ha) b hb
            · rcases hc.cov.1 a ha b hb with h | h | h | h
              · exact .inr h
              · simp at h
              · exact .inl h
              · simp at h
            · exact .inr (hr.sees ha (.one hb))
          rcases this with h | h
          · exact h
          · exact absurd (hr.sees h hxy.2) (hnone x hx)
        · intro x hx
          cases h : W.const x with
          | none => rfl
          | some k => exact absurd (asg_iff.2 (.inr (by simp [IsConst, h]))) (hnone x hx)
      refine ⟨reg, _, rfl, hr, { hc with pending := ?_ }, fun _ _ h => h, fun _ _ h => .inl h, rfl, rfl, ?_⟩
      · intro t ht
        simp only [Option.some.injEq] at ht
        subst ht
        exact ⟨⟨rest, rfl⟩, hgr⟩
      · intro U _
        simp only [todo, List.length_cons, Option.isSome_none, Option.isSome_some, Bool.false_eq_true, if_true,
          if_false]
        omega
  | none, (g, o :: e) :: rest =>
    simp only [callStep]
    have hmem := hc.mem
    have hedge := hc.edges (g, o :: e) (by simp) o (by simp)
    obtain ⟨x0, hx0, hox⟩ := hedge
    by_cases hu : unassigned W reg o = true
    · rw [if_pos hu]
      by_cases hin : o ∈ inG
      · rw [if_pos hin]
        have hi : MergeInv W reg root o g e rest := by
          have hd := List.pairwise_cons.1 hc.disj
          have hch := List.pairwise_cons.1 hc.chain
          refine { nodup := ?_, ne := ?_, disj := List.pairwise_cons.2 hd, conn := ?_, top := ?_, inner := ?_,
                   chain := List.pairwise_cons.2 hch, edges := ?_, cov := ?_, root := ?_ }
          · intro q hq
            rcases List.mem_cons.1 hq with rfl | hq
            · exact hc.nodup (g, o :: e) (by simp)
            · exact hc.nodup q (by simp [hq])
          · intro q hq
            rcases List.mem_cons.1 hq with rfl | hq
            · exact hc.ne (g, o :: e) (by simp)
            · exact hc.ne q (by simp [hq])
          · exact fun q hq => hc.conn q (by simp [hq])
          · exact fun x hx => (hc.conn (g, o :: e) (by simp) x hx x0 hx0).step hox
          · exact fun h y hy => hc.conn (g, o :: e) (by simp) o h y hy
          · intro q hq p hp
            rcases List.mem_cons.1 hq with rfl | hq
            · exact hc.edges (g, o :: e) (by simp) p (by simp [hp])
            · exact hc.edges q (by simp [hq]) p hp
          · refine ⟨?_, ?_⟩
            · intro x hx y hy
              rcases hc.cov.1 x hx y hy with h | h | h | h
              · exact .inl h
              · rcases List.mem_cons.1 h with rfl | h
                · exact .inr (.inr (.inr (by simp)))
                · exact .inr (.inl h)
              · exact .inr (.inr (.inl h))
              · simp at h
            · refine hc.cov.2.mono (fun _ h => h) ?_
              intro y hy
              left
              simp only [List.append_nil] at hy
              simp [hy]
          · intro q hq
            rcases List.mem_cons.1 hq with rfl | hq
            · exact hc.root (g, o :: e) (by simp)
            · exact hc.root q (by simp [hq])
        have hwhere : o ∈ g ∨ ∃ q ∈ rest, o ∈ q.1 := by
          obtain ⟨q, hq, ho⟩ := (hmem o).1 hin
          rcases List.mem_cons.1 hq with rfl | hq
          · exact .inl ho
          · exact .inr ⟨q, hq, ho⟩
        obtain ⟨stack, e1, e2, e3, e4, e5, e6⟩ := mergeTo_spec rest g e hi hwhere
        rw [e1]
        refine ⟨reg, _, rfl, hr, { e2 with mem := ?_, done := hc.done, pending := by simp }, fun _ _ h => h,
          fun _ _ h => .inl h, rfl, rfl, ?_⟩
        · intro x
          rw [hmem x, e3 x]
          constructor
          · rintro ⟨q, hq, h⟩
            rcases List.mem_cons.1 hq with rfl | hq
            · exact .inl h
            · exact .inr ⟨q, hq, h⟩
          · rintro (h | ⟨q, hq, h⟩)
            · exact ⟨_, List.mem_cons_self, h⟩
            · exact ⟨q, List.mem_cons_of_mem _ hq, h⟩
        · intro U _
          simp only [todo, e4, List.map_cons, List.sum_cons, List.length_cons, Option.isSome_none,
            Bool.false_eq_true, if_false]
          omega
      · rw [if_neg hin]
        simp only [pushGroup, hin, if_false]
        have hch := List.pairwise_cons.1 hc.chain
        have hd := List.pairwise_cons.1 hc.disj
        have hout : ∀ q ∈ (g, o :: e) :: rest, o ∉ q.1 := fun q hq h => hin ((hmem o).2 ⟨q, hq, h⟩)
        refine ⟨reg, _, rfl, hr, ?_, fun _ _ h => h, fun _ _ h => .inl h, rfl, rfl, ?_⟩
        · refine { nodup := ?_, ne := ?_, disj := ?_, conn := ?_, chain := ?_, edges := ?_, cov := ?_,
                   root := ?_, mem := ?_, done := ?_, pending := by simp }
          · intro q hq
            rcases List.mem_cons.1 hq with rfl | hq
            · simp
            · rcases List.mem_cons.1 hq with rfl | hq
              · exact hc.nodup (g, o :: e) (by simp)
              · exact hc.nodup q (by simp [hq])
          · intro q hq
            rcases List.mem_cons.1 hq with rfl | hq
            · simp
            · rcases List.mem_cons.1 hq with rfl | hq
              · exact hc.ne (g, o :: e) (by simp)
              · exact hc.ne q (by simp [hq])
          · refine List.pairwise_cons.2 ⟨?_, List.pairwise_cons.2 hd⟩
            intro q hq x hx
            simp only [List.mem_singleton] at hx
            subst hx
            rcases List.mem_cons.1 hq with rfl | hq
            · exact hout (g, x :: e) (by simp)
            · exact hout q (by simp [hq])
          · intro q hq x hx y hy
            rcases List.mem_cons.1 hq with rfl | hq
            · simp only [List.mem_singleton] at hx hy
              subst hx; subst hy; exact .refl
            · rcases List.mem_cons.1 hq with rfl | hq
              · exact hc.conn (g, o :: e) (by simp) x hx y hy
              · exact hc.conn q (by simp [hq]) x hx y hy
          · refine List.pairwise_cons.2 ⟨?_, List.pairwise_cons.2 hch⟩
            intro q hq x hx y hy
            simp only [List.mem_singleton] at hy
            subst hy
            rcases List.mem_cons.1 hq with rfl | hq
            · exact (hc.conn (g, y :: e) (by simp) x hx x0 hx0).step hox
            · exact (hch.1 q hq x hx x0 hx0).step hox
          · intro q hq p hp
            rcases List.mem_cons.1 hq with rfl | hq
            · simp only [List.mem_reverse, List.mem_filter] at hp
              exact ⟨o, by simp, hp.1⟩
            · rcases List.mem_cons.1 hq with rfl | hq
              · exact hc.edges (g, o :: e) (by simp) p (by simp [hp])
              · exact hc.edges q (by simp [hq]) p hp
          · refine ⟨?_, ?_, ?_⟩
            · intro x hx y hy
              simp only [List.mem_singleton] at hx
              subst hx
              by_cases ha : Asg W reg y
              · exact .inl ha
              · exact .inr (.inl (by simp only [List.mem_reverse, List.mem_filter]; exact ⟨hy, not_asg.2 ha⟩))
            · intro x hx y hy
              rcases hc.cov.1 x hx y hy with h | h | h | h
              · exact .inl h
              · rcases List.mem_cons.1 h with rfl | h
                · exact .inr (.inr (.inr (by simp)))
                · exact .inr (.inl h)
              · exact .inr (.inr (.inl h))
              · simp at h
            · refine hc.cov.2.mono (fun _ h => h) ?_
              intro y hy
              left
              simp only [List.append_nil] at hy
              simp [hy]
          · intro q hq x hx
            rcases List.mem_cons.1 hq with rfl | hq
            · simp only [List.mem_singleton] at hx
              subst hx
              exact (hc.root (g, x :: e) (by simp) x0 hx0).step hox
            · rcases List.mem_cons.1 hq with rfl | hq
              · exact hc.root (g, o :: e) (by simp) x hx
              · exact hc.root q (by simp [hq]) x hx
          · intro x
            simp only [List.mem_cons]
            rw [hmem x]
            constructor
            · rintro (rfl | ⟨q, hq, h⟩)
              · exact ⟨_, .inl rfl, by simp⟩
              · rcases List.mem_cons.1 hq with rfl | hq
                · exact ⟨_, .inr (.inl rfl), h⟩
                · exact ⟨q, .inr (.inr hq), h⟩
            · rintro ⟨q, hq, h⟩
              rcases hq with rfl | rfl | hq
              · simp only [List.mem_singleton] at h; exact .inl h
              · exact .inr ⟨_, List.mem_cons_self, h⟩
              · exact .inr ⟨q, List.mem_cons_of_mem _ hq, h⟩
          · rcases hc.done with h | h
            · exact .inl h
            · exact .inr (List.mem_cons_of_mem _ h)
        · intro U hU
          have hoU : o ∈ U :=
            ((hc.root (g, o :: e) (by simp) x0 hx0).step hox).closed (P := fun x => x ∈ U) hU.closed hU.mem
          have hw := sum_drop (U := U) (o := o) (d := (W.succs o).length + 3)
            (weight_mono (W := W) (reg := reg) (reg2 := reg) (a := inG) (b := o :: inG)
              (fun u hu => hu.imp_left (List.mem_cons_of_mem _))) hoU (by
              unfold weight
              have h2 : o ∈ o :: inG ∨ unassigned W reg o = false := .inl (by simp)
              have h3 : ¬ (o ∈ inG ∨ unassigned W reg o = false) := by simp [hin, hu]
              rw [if_pos h2, if_neg h3]; omega)
          have hf := List.length_filter_le (unassigned W reg) (W.succs o)
          simp only [todo, List.map_cons, List.sum_cons, List.length_cons, Option.isSome_none,
            Bool.false_eq_true, if_false, List.length_reverse] at hw ⊢
          omega
    · rw [if_neg hu]
      have ha : Asg W reg o := by simpa [Asg] using hu
      refine ⟨reg, _, rfl, hr, ?_, fun _ _ h => h, fun _ _ h => .inl h, rfl, rfl, ?_⟩
      · refine { nodup := ?_, ne := ?_, disj := ?_, conn := ?_, chain := ?_, edges := ?_, cov := ?_,
                 root := ?_, mem := ?_, done := hc.done, pending := by simp }
        · intro q hq
          rcases List.mem_cons.1 hq with rfl | hq
          · exact hc.nodup (g, o :: e) (by simp)
          · exact hc.nodup q (by simp [hq])
        · intro q hq
          rcases List.mem_cons.1 hq with rfl | hq
          · exact hc.ne (g, o :: e) (by simp)
          · exact hc.ne q (by simp [hq])
        · exact List.pairwise_cons.2 (List.pairwise_cons.1 hc.disj)
        · intro q hq
          rcases List.mem_cons.1 hq with rfl | hq
          · exact hc.conn (g, o :: e) (by simp)
          · exact hc.conn q (by simp [hq])
        · exact List.pairwise_cons.2 (List.pairwise_cons.1 hc.chain)
        · intro q hq p hp
          rcases List.mem_cons.1 hq with rfl | hq
          · exact hc.edges (g, o :: e) (by simp) p (by simp [hp])
          · exact hc.edges q (by simp [hq]) p hp
        · refine ⟨?_, hc.cov.2⟩
          intro x hx y hy
          rcases hc.cov.1 x hx y hy with h | h | h | h
          · exact .inl h
          · rcases List.mem_cons.1 h with rfl | h
            · exact .inl ha
            · exact .inr (.inl h)
          · exact .inr (.inr (.inl h))
          · simp at h
        · intro q hq
          rcases List.mem_cons.1 hq with rfl | hq
          · exact hc.root (g, o :: e) (by simp)
          · exact hc.root q (by simp [hq])
        · intro x
          rw [hmem x]
          constructor
          · rintro ⟨q, hq, h⟩
            rcases List.mem_cons.1 hq with rfl | hq
            · exact ⟨_, List.mem_cons_self, h⟩
            · exact ⟨q, List.mem_cons_of_mem _ hq, h⟩
          · rintro ⟨q, hq, h⟩
            rcases List.mem_cons.1 hq with rfl | hq
            · exact ⟨_, List.mem_cons_self, h⟩
            · exact ⟨q, List.mem_cons_of_mem _ hq, h⟩
      · intro U _
        simp only [todo, List.map_cons, List.sum_cons, List.length_cons, Option.isSome_none,
          Bool.false_eq_true, if_false]
        omega

end Verif.TypeGroup
