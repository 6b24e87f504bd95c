import Verif.TypeGroup.Build
/-
The search for groups: what holds in every state of a process.
-/
namespace Verif.TypeGroup

variable {O H : Type} [LinearOrder O] [LinearOrder H] [HashOps H]

/-- The object is in a group or is a constant. -/
def Asg (W : World O H) (reg : Reg O H) (x : O) : Prop := unassigned W reg x = false

theorem asg_iff {W : World O H} {reg : Reg O H} {x : O} :
    Asg W reg x ↔ (∃ g, reg x = some g) ∨ IsConst W x := by
  unfold Asg unassigned IsConst
  cases reg x <;> cases W.const x <;> simp

theorem not_asg {W : World O H} {reg : Reg O H} {x : O} : unassigned W reg x = true ↔ ¬ Asg W reg x := by
  unfold Asg; cases unassigned W reg x <;> simp

/-- What holds of the registry. -/
structure RegInv (W : World O H) (reg : Reg O H) : Prop where
  closed : ∀ x g, reg x = some g → ∀ y ∈ W.succs x, Asg W reg y
  nonconst : ∀ x g, reg x = some g → W.const x = none
  all : ∀ x g, reg x = some g → ∀ y ∈ g.members, reg y = some g
  nodup : ∀ x g, reg x = some g → g.members.Nodup
  scc : ∀ x g, reg x = some g → ∀ y, y ∈ g.members ↔ Together W x y
  built : ∀ x g, reg x = some g → ∃ topos, IsGroup W topos ∧ (∀ y, y ∈ topos ↔ y ∈ g.members) ∧
    build W reg topos = .ok g

theorem RegInv.self {W : World O H} {reg : Reg O H} (h : RegInv W reg) : SelfReg reg :=
  fun x g hx => (h.scc x g hx x).2 ⟨.refl, .refl⟩

theorem RegInv.sees {W : World O H} {reg : Reg O H} (h : RegInv W reg) {x y : O} (hx : Asg W reg x)
    (hs : Sees W x y) : Asg W reg y := by
  refine hs.closed (P := Asg W reg) ?_ hx
  intro a ha b hb
  rcases asg_iff.1 ha with ⟨g, hg⟩ | hc
  · exact h.closed a g hg b hb
  · have := (Sees.one hb).const hc
    subst this; exact ha

/-- What the groups on the stack mention: constants, objects that have a group, edges to follow, and objects
of the same group or of the groups above. -/
def Cov (W : World O H) (reg : Reg O H) : List O → List (List O × List O) → Prop
  | _, [] => True
  | above, (g, e) :: rest =>
    (∀ x ∈ g, ∀ y ∈ W.succs x, Asg W reg y ∨ y ∈ e ∨ y ∈ g ∨ y ∈ above) ∧ Cov W reg (g ++ above) rest

theorem Cov.mono {W : World O H} {reg reg2 : Reg O H} (hr : ∀ y, Asg W reg y → Asg W reg2 y) :
    ∀ {stack : List (List O × List O)} {a b : List O}, (∀ y ∈ a, y ∈ b ∨ Asg W reg2 y) → Cov W reg a stack →
      Cov W reg2 b stack
  | [], _, _, _, _ => trivial
  | (g, e) :: rest, a, b, hab, h => by
    refine ⟨fun x hx y hy => ?_, Cov.mono hr ?_ h.2⟩
    · rcases h.1 x hx y hy with h | h | h | h
      · exact .inl (hr _ h)
      · exact .inr (.inl h)
      · exact .inr (.inr (.inl h))
      · rcases hab _ h with h | h
        · exact .inr (.inr (.inr h))
        · exact .inl h
    · intro y hy
      rcases List.mem_append.1 hy with h | h
      · exact .inl (by simp [h])
      · rcases hab _ h with h | h
        · exact .inl (by simp [h])
        · exact .inr h

/-- What holds of the stack of a search. -/
structure StackInv (W : World O H) (reg : Reg O H) (root : O) (stack : List (List O × List O)) : Prop where
  nodup : ∀ q ∈ stack, q.1.Nodup
  ne : ∀ q ∈ stack, q.1 ≠ []
  disj : stack.Pairwise (fun up low => ∀ x ∈ up.1, x ∉ low.1)
  conn : ∀ q ∈ stack, ∀ x ∈ q.1, ∀ y ∈ q.1, Sees W x y
  chain : stack.Pairwise (fun up low => ∀ x ∈ low.1, ∀ y ∈ up.1, Sees W x y)
  edges : ∀ q ∈ stack, ∀ o ∈ q.2, ∃ x ∈ q.1, o ∈ W.succs x
  cov : Cov W reg [] stack
  root : ∀ q ∈ stack, ∀ x ∈ q.1, Sees W root x

/-- What holds of a call. -/
structure CallInv (W : World O H) (reg : Reg O H) (c : Call O) : Prop extends
    StackInv W reg c.root c.search.stack where
  mem : ∀ x, x ∈ c.search.inGroup ↔ ∃ q ∈ c.search.stack, x ∈ q.1
  done : Asg W reg c.root ∨ c.root ∈ c.search.inGroup
  pending : ∀ topos, c.pending = some topos →
    (∃ rest, c.search.stack = (topos, []) :: rest) ∧ IsGroup W topos

theorem StackInv.mono {W : World O H} {reg reg2 : Reg O H} {root : O} {stack : List (List O × List O)}
    (hr : ∀ y, Asg W reg y → Asg W reg2 y) (h : StackInv W reg root stack) : StackInv W reg2 root stack :=
  { h with cov := h.cov.mono hr (fun _ hy => .inl hy) }

theorem CallInv.mono {W : World O H} {reg reg2 : Reg O H} {c : Call O}
    (hr : ∀ y, Asg W reg y → Asg W reg2 y) (h : CallInv W reg c) : CallInv W reg2 c :=
  { h.toStackInv.mono hr with
    mem := h.mem
    done := h.done.imp_left (hr _)
    pending := h.pending }

/-- The groups of a stack are assigned all or not at all. -/
theorem allOrNone {W : World O H} {reg : Reg O H} (hr : RegInv W reg) {g : List O}
    (conn : ∀ x ∈ g, ∀ y ∈ g, Sees W x y) {x y : O} (hx : x ∈ g) (hy : y ∈ g) (ha : Asg W reg x) :
    Asg W reg y := hr.sees ha (conn x hx y hy)

/-! ### Merging -/

theorem mem_insertAll {a b : List O} {x : O} : x ∈ insertAll a b ↔ x ∈ a ∨ x ∈ b := by
  simp only [insertAll, List.mem_append, List.mem_filter, decide_eq_true_eq]
  by_cases h : x ∈ a <;> simp [h]

theorem nodup_insertAll {a b : List O} (ha : a.Nodup) (hb : b.Nodup) : (insertAll a b).Nodup := by
  rw [insertAll, List.nodup_append]
  refine ⟨ha, hb.filter _, ?_⟩
  intro x hx y hy h
  subst h
  simp only [List.mem_filter, decide_eq_true_eq] at hy
  exact hy.2 hx

/-- What holds of a stack whose first group is being merged with the ones below. -/
structure MergeInv (W : World O H) (reg : Reg O H) (root o : O) (g e : List O)
    (rest : List (List O × List O)) : Prop where
  nodup : ∀ q ∈ (g, e) :: rest, q.1.Nodup
  ne : ∀ q ∈ (g, e) :: rest, q.1 ≠ []
  disj : ((g, e) :: rest).Pairwise (fun up low => ∀ x ∈ up.1, x ∉ low.1)
  conn : ∀ q ∈ rest, ∀ x ∈ q.1, ∀ y ∈ q.1, Sees W x y
  top : ∀ x ∈ g, Sees W x o
  inner : o ∈ g → ∀ y ∈ g, Sees W o y
  chain : ((g, e) :: rest).Pairwise (fun up low => ∀ x ∈ low.1, ∀ y ∈ up.1, Sees W x y)
  edges : ∀ q ∈ (g, e) :: rest, ∀ o ∈ q.2, ∃ x ∈ q.1, o ∈ W.succs x
  cov : Cov W reg [o] ((g, e) :: rest)
  root : ∀ q ∈ (g, e) :: rest, ∀ x ∈ q.1, Sees W root x

theorem MergeInv.final {W : World O H} {reg : Reg O H} {root o : O} {g e : List O}
    {rest : List (List O × List O)} (h : MergeInv W reg root o g e rest) (ho : o ∈ g) :
    Cov W reg [] ((g, e) :: rest) := by
  refine ⟨?_, ?_⟩
  · intro x hx y hy
    rcases h.cov.1 x hx y hy with h | h | h | h
    · exact .inl h
    · exact .inr (.inl h)
    · exact .inr (.inr (.inl h))
    · simp only [List.mem_singleton] at h
      subst h
      exact .inr (.inr (.inl ho))
  · refine h.cov.2.mono (fun _ h => h) ?_
    intro y hy
    left
    simp only [List.mem_append, List.mem_singleton, List.append_nil] at hy ⊢
    rcases hy with h | rfl
    · exact h
    · exact ho

theorem mergeTo_spec {W : World O H} {reg : Reg O H} {root o : O} :
    ∀ (rest : List (List O × List O)) (g e : List O), MergeInv W reg root o g e rest →
    (o ∈ g ∨ ∃ q ∈ rest, o ∈ q.1) →
    ∃ stack, mergeTo o g e rest = .ok stack ∧ StackInv W reg root stack ∧
      (∀ x, (∃ q ∈ stack, x ∈ q.1) ↔ x ∈ g ∨ ∃ q ∈ rest, x ∈ q.1) ∧
      (stack.map (fun q => q.2.length)).sum = e.length + (rest.map (fun q => q.2.length)).sum ∧
      stack.length ≤ rest.length + 1 ∧ stack ≠ [] := by
  intro rest
  induction rest with
  | nil =>
    intro g e hi ho
    have ho' : o ∈ g := by simpa using ho
    refine ⟨[(g, e)], by rw [mergeTo, if_pos ho'], ?_, by simp, by simp, by simp, by simp⟩
    refine { hi with conn := ?_, cov := hi.final ho' }
    intro q hq x hx y hy
    simp only [List.mem_singleton] at hq
    subst hq
    exact (hi.top x hx).trans (hi.inner ho' y hy)
  | cons q rest ih =>
    obtain ⟨g2, e2⟩ := q
    intro g e hi ho
    by_cases ho' : o ∈ g
    · refine ⟨(g, e) :: (g2, e2) :: rest, by rw [mergeTo, if_pos ho'], ?_, ?_, by simp, by simp, by simp⟩
      · refine { hi with conn := ?_, cov := hi.final ho' }
        intro q hq x hx y hy
        rcases List.mem_cons.1 hq with rfl | hq
        · exact (hi.top x hx).trans (hi.inner ho' y hy)
        · exact hi.conn q hq x hx y hy
      · intro x
        constructor
        · rintro ⟨q, hq, hx⟩
          rcases List.mem_cons.1 hq with rfl | hq
          · exact .inl hx
          · exact .inr ⟨q, hq, hx⟩
        · rintro (h | ⟨q, hq, hx⟩)
          · exact ⟨_, List.mem_cons_self, h⟩
          · exact ⟨q, List.mem_cons_of_mem _ hq, hx⟩
    · have hdis := List.pairwise_cons.1 hi.disj
      have hch := List.pairwise_cons.1 hi.chain
      have hdis2 := List.pairwise_cons.1 hdis.2
      have hch2 := List.pairwise_cons.1 hch.2
      have hb : ∀ x ∈ g2, ∀ y ∈ g, Sees W x y := hch.1 (g2, e2) (by simp)
      obtain ⟨a0, ha0⟩ := List.exists_mem_of_ne_nil _ (hi.ne (g, e) (by simp))
      have hi' : MergeInv W reg root o (insertAll g2 g) (e ++ e2) rest := by
        constructor
        · intro q hq
          rcases List.mem_cons.1 hq with rfl | hq
          · exact nodup_insertAll (hi.nodup (g2, e2) (by simp)) (hi.nodup (g, e) (by simp))
          · exact hi.nodup q (by simp [hq])
        · intro q hq
          rcases List.mem_cons.1 hq with rfl | hq
          · intro h
            have : a0 ∈ insertAll g2 g := mem_insertAll.2 (.inr ha0)
            simp only at h
            rw [h] at this; simp at this
          · exact hi.ne q (by simp [hq])
        · refine List.pairwise_cons.2 ⟨?_, hdis2.2⟩
          intro q hq x hx
          rcases mem_insertAll.1 hx with h | h
          · exact hdis2.1 q hq x h
          · exact hdis.1 q (by simp [hq]) x h
        · exact fun q hq => hi.conn q (by simp [hq])
        · intro x hx
          rcases mem_insertAll.1 hx with h | h
          · exact (hb x h a0 ha0).trans (hi.top a0 ha0)
          · exact hi.top x h
        · intro hom y hy
          have ho2 : o ∈ g2 := (mem_insertAll.1 hom).resolve_right ho'
          rcases mem_insertAll.1 hy with h | h
          · exact hi.conn (g2, e2) (by simp) o ho2 y h
          · exact hb o ho2 y h
        · refine List.pairwise_cons.2 ⟨?_, hch2.2⟩
          intro q hq x hx y hy
          rcases mem_insertAll.1 hy with h | h
          · exact hch2.1 q hq x hx y h
          · exact hch.1 q (by simp [hq]) x hx y h
        · intro q hq p hp
          rcases List.mem_cons.1 hq with rfl | hq
          · rcases List.mem_append.1 hp with h | h
            · obtain ⟨x, hx, hs⟩ := hi.edges (g, e) (by simp) p h
              exact ⟨x, mem_insertAll.2 (.inr hx), hs⟩
            · obtain ⟨x, hx, hs⟩ := hi.edges (g2, e2) (by simp) p h
              exact ⟨x, mem_insertAll.2 (.inl hx), hs⟩
          · exact hi.edges q (by simp [hq]) p hp
        · obtain ⟨c1, c2, c3⟩ := hi.cov
          refine ⟨?_, ?_⟩
          · intro x hx y hy
            rw [List.mem_append, mem_insertAll]
            rcases mem_insertAll.1 hx with h | h
            · rcases c2 x h y hy with h | h | h | h
              · exact .inl h
              · exact .inr (.inl (.inr h))
              · exact .inr (.inr (.inl (.inl h)))
              · rcases List.mem_append.1 h with h | h
                · exact .inr (.inr (.inl (.inr h)))
                · exact .inr (.inr (.inr h))
            · rcases c1 x h y hy with h | h | h | h
              · exact .inl h
              · exact .inr (.inl (.inl h))
              · exact .inr (.inr (.inl (.inr h)))
              · exact .inr (.inr (.inr h))
          · refine c3.mono (fun _ h => h) ?_
            intro y hy
            left
            simp only [List.mem_append] at hy ⊢
            rcases hy with h | h | h
            · exact .inl (mem_insertAll.2 (.inl h))
            · exact .inl (mem_insertAll.2 (.inr h))
            · exact .inr h
        · intro q hq x hx
          rcases List.mem_cons.1 hq with rfl | hq
          · rcases mem_insertAll.1 hx with h | h
            · exact hi.root (g2, e2) (by simp) x h
            · exact hi.root (g, e) (by simp) x h
          · exact hi.root q (by simp [hq]) x hx
      obtain ⟨stack, e1, e3, e4, e5, e6, e7⟩ := ih (insertAll g2 g) (e ++ e2) hi' (by
        rcases ho with h | ⟨q, hq, h⟩
        · exact absurd h ho'
        · rcases List.mem_cons.1 hq with rfl | hq
          · exact .inl (mem_insertAll.2 (.inl h))
          · exact .inr ⟨q, hq, h⟩)
      refine ⟨stack, by rw [mergeTo, if_neg ho']; exact e1, e3, ?_, ?_, ?_, e7⟩
      · intro x
        rw [e4 x, mem_insertAll]
        constructor
        · rintro ((h | h) | ⟨q, hq, h⟩)
          · exact .inr ⟨_, List.mem_cons_self, h⟩
          · exact .inl h
          · exact .inr ⟨q, List.mem_cons_of_mem _ hq, h⟩
        · rintro (h | ⟨q, hq, h⟩)
          · exact .inl (.inr h)
          · rcases List.mem_cons.1 hq with rfl | hq
            · exact .inl (.inl h)
            · exact .inr ⟨q, hq, h⟩
      · rw [e5]; simp; omega
      · simp only [List.length_cons]; omega

end Verif.TypeGroup
