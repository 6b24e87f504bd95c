import Verif.DirectedGraph.Walk
import Mathlib.Data.List.Nodup
/-
C44: directed graphs.
-/
namespace Verif.DirectedGraph
open Spec Relation

variable {N : Type} [DecidableEq N] (ord : List N → List N) (hord : ∀ l, (ord l).Perm l)

theorem empty_wf : Wf (empty : Graph N) := by
  intro x y
  simp [empty, outgoing, incoming, Dict.get]

theorem edge_nodes {g : Graph N} (h : Wf g) {x y : N} (he : Edge g x y) : x ∈ nodes g ∧ y ∈ nodes g := by
  rw [edge_iff] at he
  have h2 := (h x y).mp he
  unfold nodes
  constructor
  · rw [List.mem_append]
    left
    unfold outgoing Dict.get at he
    split at he
    · assumption
    · cases he
  · rw [List.mem_append]
    right
    unfold incoming Dict.get at h2
    split at h2
    · assumption
    · cases h2

include hord in
theorem apply_ok (g : Graph N) (h : Wf g) (op : Op N) :
    (∃ g', apply ord g op = .ok g' ∧ Wf g' ∧ ∀ x y, Edge g' x y ↔ applyOp (Edge g) op x y) ∨
    (∃ s d, op = .drop s d ∧ ¬ Edge g s d ∧ apply ord g op = .error .noEdge) := by
  cases op with
  | add s d => exact .inl ⟨_, rfl, addEdge_wf g h s d, addEdge_edge g s d⟩
  | discard s d => exact .inl ⟨_, rfl, discardEdge_wf g h s d, discardEdge_edge g s d⟩
  | drop s d =>
    by_cases he : hasEdge g s d = true
    · exact .inl ⟨_, by simp [apply, dropEdge, he], discardEdge_wf g h s d, discardEdge_edge g s d⟩
    · exact .inr ⟨s, d, rfl, he, by simp [apply, dropEdge, he]⟩
  | dropNode n t =>
    obtain ⟨g', h1, h2, h3⟩ := dropNode_ok ord hord g h n t
    refine .inl ⟨g', h1, h2, fun x y => ?_⟩
    rw [h3]
    cases t <;> simp [applyOp]

include hord in
theorem run_ok (ops : List (Op N)) : Wf (run ord ops) ∧ ∀ x y, Edge (run ord ops) x y ↔ edgesAfter ops x y := by
  unfold run edgesAfter
  have : ∀ (ops : List (Op N)) (g : Graph N) (E : N → N → Prop), Wf g → (∀ x y, Edge g x y ↔ E x y) →
      Wf (ops.foldl (fun g op => match apply ord g op with | .ok g' => g' | .error _ => g) g) ∧
      ∀ x y, Edge (ops.foldl (fun g op => match apply ord g op with | .ok g' => g' | .error _ => g) g) x y ↔
        ops.foldl applyOp E x y := by
    intro ops
    induction ops with
    | nil => exact fun g E h1 h2 => ⟨h1, h2⟩
    | cons op ops ih =>
      intro g E h1 h2
      have hE : Edge g = E := funext fun x => funext fun y => propext (h2 x y)
      rw [List.foldl_cons, List.foldl_cons]
      rcases apply_ok ord hord g h1 op with ⟨g', h3, h4, h5⟩ | ⟨s, d, rfl, h3, h4⟩
      · rw [h3]
        exact ih g' _ h4 (by rw [← hE]; exact h5)
      · rw [h4]
        refine ih g _ h1 fun x y => ?_
        rw [h2, applyOp, withoutEdge]
        constructor
        · intro h
          refine ⟨h, ?_⟩
          rintro ⟨rfl, rfl⟩
          exact h3 ((h2 _ _).mpr h)
        · exact fun h => h.1
  refine this ops empty _ empty_wf fun x y => ?_
  rw [edge_iff]
  simp [empty, outgoing, Dict.get]

include hord in
/-- C44: after any sequence of calls, `hasEdge`, `outgoing` and `incoming` tell the edges that the sequence describes. -/
theorem edges_after (ops : List (Op N)) (x y : N) :
    (hasEdge (run ord ops) x y = true ↔ edgesAfter ops x y) ∧
    (y ∈ outgoing (run ord ops) x ↔ edgesAfter ops x y) ∧
    (x ∈ incoming (run ord ops) y ↔ edgesAfter ops x y) := by
  obtain ⟨h1, h2⟩ := run_ok ord hord ops
  refine ⟨h2 x y, ?_, ?_⟩
  · rw [← edge_iff, h2]
  · rw [← h1 x y, ← edge_iff, h2]

include hord in
/-- C44: no call raises, but `dropEdge` of an edge that is not there. -/
theorem calls_raise (ops : List (Op N)) (op : Op N) :
    (∃ g', apply ord (run ord ops) op = .ok g') ∨
      (∃ s d, op = .drop s d ∧ ¬ edgesAfter ops s d ∧ apply ord (run ord ops) op = .error .noEdge) := by
  obtain ⟨h1, h2⟩ := run_ok ord hord ops
  rcases apply_ok ord hord _ h1 op with ⟨g', h3, _⟩ | ⟨s, d, h3, h4, h5⟩
  · exact .inl ⟨g', h3⟩
  · exact .inr ⟨s, d, h3, fun e => h4 ((h2 s d).mpr e), h5⟩

/-- C44: removing a node transitively keeps what reaches what among the other nodes. -/
theorem bypass_keeps_reachability (E : N → N → Prop) (n a b : N) (ha : a ≠ n) (hb : b ≠ n) :
    TransGen (bypassNode E n) a b ↔ TransGen E a b := by
  constructor
  · intro h
    have step : ∀ x y, bypassNode E n x y → TransGen E x y := by
      rintro x y ⟨h | ⟨h1, h2⟩, _, _⟩
      · exact .single h
      · exact .tail (.single h1) h2
    clear ha hb
    induction h with
    | single h => exact step _ _ h
    | tail _ h ih => exact ih.trans (step _ _ h)
  · intro h
    -- a path from `a` either ends elsewhere than `n`, or ends in an edge into `n`
    have key : ∀ c, TransGen E a c → (c ≠ n → TransGen (bypassNode E n) a c) ∧
        (c = n → ∃ p, (p = a ∨ TransGen (bypassNode E n) a p) ∧ p ≠ n ∧ E p n) := by
      intro c hc
      induction hc with
      | @single c h => exact ⟨fun hn => .single ⟨.inl h, ha, hn⟩, fun e => ⟨a, .inl rfl, ha, e ▸ h⟩⟩
      | @tail c d hc hd ih =>
        by_cases hcn : c = n
        · obtain ⟨p, h1, h2, h3⟩ := ih.2 hcn
          refine ⟨fun hn => ?_, fun e => ⟨p, h1, h2, h3⟩⟩
          have hs : bypassNode E n p d := ⟨.inr ⟨h3, hcn ▸ hd⟩, h2, hn⟩
          rcases h1 with rfl | h1
          · exact .single hs
          · exact .tail h1 hs
        · have h1 := ih.1 hcn
          exact ⟨fun hn => .tail h1 ⟨.inl hd, hcn, hn⟩, fun e => ⟨c, .inr h1, hcn, e ▸ hd⟩⟩
    exact (key b h).1 hb

/-! ### levels -/

theorem acyclic_of_rank (E : N → N → Prop) (r : N → Int) (h : ∀ p n, E p n → r p < r n) : ¬ Cyclic E := by
  rintro ⟨n, hn⟩
  have : ∀ a b, TransGen E a b → r a < r b := by
    intro a b hab
    induction hab with
    | single h' => exact h _ _ h'
    | tail _ h' ih => exact Int.lt_trans ih (h _ _ h')
  exact Int.lt_irrefl _ (this n n hn)

theorem cyclic_flip (E : N → N → Prop) : Cyclic (fun a b => E b a) ↔ Cyclic E := by
  constructor
  · rintro ⟨n, hn⟩
    exact ⟨n, by rw [← transGen_swap]; exact hn⟩
  · rintro ⟨n, hn⟩
    refine ⟨n, ?_⟩
    rw [← transGen_swap] at hn
    exact hn

/-- The edges seen from the level-0 end. -/
def dir (E : N → N → Prop) (reversed : Bool) : N → N → Prop := if reversed then fun a b => E b a else E

include hord in
theorem levels_ok (ops : List (Op N)) (reversed : Bool) :
    (levels ord (run ord ops) reversed = .error .cycle ∧ Cyclic (edgesAfter ops)) ∨
    (∃ L, levels ord (run ord ops) reversed = .ok L ∧
      ∀ n, IsLevel (dir (edgesAfter ops) reversed) (fun x => (L x).getD 0) n) := by
  obtain ⟨hwf, hE⟩ := run_ok ord hord ops
  generalize run ord ops = g at hwf hE
  have hch : ∀ n c, c ∈ ord (if reversed then outgoing g n else incoming g n) ↔ dir (edgesAfter ops) reversed c n := by
    intro n c
    rw [(hord _).mem_iff]
    cases reversed with
    | true => simp [dir, ← hE, edge_iff]
    | false => simp [dir, ← hE, edge_iff, hwf c n]
  have hU : ∀ n, ∀ c ∈ ord (if reversed then outgoing g n else incoming g n), c ∈ nodes g := by
    intro n c hc
    rw [hch] at hc
    cases reversed with
    | true => exact (edge_nodes hwf ((hE n c).mpr (by simpa [dir] using hc))).2
    | false => exact (edge_nodes hwf ((hE c n).mpr (by simpa [dir] using hc))).1
  rcases walkFrom_ok (fun n => ord (if reversed then outgoing g n else incoming g n)) (nodes g) hU ((nodes g).length + 1) (by omega)
    (nodes g) (fun n h => h) (fun _ => none) (by intro n v h; cases h) (by intro g h; cases h) with
    ⟨L, h1, h2, h3, _, h5⟩ | ⟨h1, h2⟩
  · right
    refine ⟨L, h1, fun n => ?_⟩
    have hno : L n = none → ∀ p, ¬ dir (edgesAfter ops) reversed p n := by
      intro hn p hp
      have : n ∈ nodes g := by
        cases reversed with
        | true => exact (edge_nodes hwf ((hE n p).mpr (by simpa [dir] using hp))).1
        | false => exact (edge_nodes hwf ((hE p n).mpr (by simpa [dir] using hp))).2
      obtain ⟨v, hv⟩ := h5 n this
      rw [hn] at hv
      cases hv
    cases hn : L n with
    | none =>
      refine ⟨fun _ => by simp [hn], fun p hp => absurd hp (hno hn p), ?_⟩
      rintro ⟨p, hp⟩
      exact absurd hp (hno hn p)
    | some v =>
      rcases h2 n v hn with h | h
      · exact absurd (h ▸ hn) (h3 n)
      · refine ⟨fun hs => ?_, fun p hp => ?_, ?_⟩
        · simp only [hn, Option.getD_some]
          apply h.leaf
          rw [List.eq_nil_iff_forall_not_mem]
          intro c hc
          exact hs c ((hch n c).mp hc)
        · obtain ⟨w, hw1, hw2, hw3⟩ := h.above p ((hch n p).mpr hp)
          simpa [hn, hw1] using ⟨hw2, hw3⟩
        · rintro ⟨p, hp⟩
          obtain ⟨c, hc, w, hw1, hw2, hw3⟩ := h.tight (List.ne_nil_of_mem ((hch n p).mpr hp))
          exact ⟨c, (hch n c).mp hc, by simp [hn, hw1, hw3]⟩
  · left
    refine ⟨h1, ?_⟩
    have : (fun a b => b ∈ ord (if reversed then outgoing g a else incoming g a)) = fun a b => dir (edgesAfter ops) reversed b a := by
      funext a b
      exact propext (hch a b)
    rw [this, cyclic_flip] at h2
    cases reversed with
    | true =>
      have : dir (edgesAfter ops) true = fun a b => edgesAfter ops b a := by simp [dir]
      rw [this, cyclic_flip] at h2
      exact h2
    | false =>
      have : dir (edgesAfter ops) false = edgesAfter ops := by simp [dir]
      rw [this] at h2
      exact h2

theorem dir_cyclic (E : N → N → Prop) (reversed : Bool) : Cyclic (dir E reversed) ↔ Cyclic E := by
  cases reversed with
  | true =>
    have : dir E true = fun a b => E b a := by simp [dir]
    rw [this, cyclic_flip]
  | false =>
    have : dir E false = E := by simp [dir]
    rw [this]

include hord in
/-- C44: `levels` raises exactly when the graph has a cycle. -/
theorem levels_raises_iff (ops : List (Op N)) (reversed : Bool) :
    levels ord (run ord ops) reversed = .error .cycle ↔ Cyclic (edgesAfter ops) := by
  rcases levels_ok ord hord ops reversed with ⟨h1, h2⟩ | ⟨L, h1, h2⟩
  · simp [h1, h2]
  · rw [h1]
    constructor
    · intro h
      cases h
    · intro h
      exfalso
      rw [← dir_cyclic _ reversed] at h
      exact acyclic_of_rank _ (fun x => (L x).getD 0) (fun p n hp => by have := (h2 n).above p hp; omega) h

include hord in
/-- C44: otherwise it gives each node one more than the highest of its predecessors (successors, if reversed). -/
theorem levels_of_acyclic (ops : List (Op N)) (reversed : Bool) (hc : ¬ Cyclic (edgesAfter ops)) :
    ∃ L, levels ord (run ord ops) reversed = .ok L ∧
      ∀ n, IsLevel (dir (edgesAfter ops) reversed) (fun x => (L x).getD 0) n := by
  rcases levels_ok ord hord ops reversed with ⟨_, h2⟩ | h
  · exact absurd h2 hc
  · exact h

theorem keyLe_trans (L : Levels N) (ns : List N) (a b c : N) : keyLe L ns a b = true → keyLe L ns b c = true → keyLe L ns a c = true := by
  unfold keyLe
  simp only [Bool.or_eq_true, Bool.and_eq_true, decide_eq_true_eq]
  omega

theorem keyLe_total (L : Levels N) (ns : List N) (a b : N) : (keyLe L ns a b || keyLe L ns b a) = true := by
  unfold keyLe
  simp only [Bool.or_eq_true, Bool.and_eq_true, decide_eq_true_eq]
  omega

theorem level_lt (E : N → N → Prop) (r : N → Int) (h : ∀ n, IsLevel E r n) (a b : N) (hab : TransGen E a b) : r a < r b := by
  induction hab with
  | single h' => have := (h _).above _ h'; omega
  | tail _ h' ih => have := (h _).above _ h'; omega

include hord in
/-- C44: in an acyclic graph `topologicalSort` rearranges the nodes given so that none comes before one that reaches it (that it
reaches, if reversed). -/
theorem topologicalSort_sorts (ops : List (Op N)) (ns : List N) (reversed : Bool) (hc : ¬ Cyclic (edgesAfter ops)) :
    ∃ out, topologicalSort ord (run ord ops) ns reversed = .ok out ∧ out.Perm ns ∧
      out.Pairwise (fun a b => ¬ TransGen (dir (edgesAfter ops) reversed) b a) := by
  obtain ⟨L, h1, h2⟩ := levels_of_acyclic ord hord ops reversed hc
  have : Std.Total (fun a b => keyLe L ns a b = true) := ⟨fun a b => by simpa using keyLe_total L ns a b⟩
  have : IsTrans N (fun a b => keyLe L ns a b = true) := ⟨keyLe_trans L ns⟩
  refine ⟨ns.insertionSort (fun a b => keyLe L ns a b = true), by simp [topologicalSort, h1], List.perm_insertionSort _ _, ?_⟩
  have hp := List.pairwise_insertionSort (fun a b => keyLe L ns a b = true) ns
  refine hp.imp ?_
  intro a b hab hba
  have := level_lt _ _ h2 b a hba
  unfold keyLe at hab
  simp only [Bool.or_eq_true, Bool.and_eq_true, decide_eq_true_eq] at hab
  omega

include hord in
/-- C44: nodes not connected at all keep the order given; here for a list without repetitions in which no node has edges. -/
theorem topologicalSort_stable (ops : List (Op N)) (ns : List N) (reversed : Bool) (hnd : ns.Nodup)
    (hc : ¬ Cyclic (edgesAfter ops)) (hno : ∀ n ∈ ns, ∀ p, ¬ dir (edgesAfter ops) reversed p n) :
    topologicalSort ord (run ord ops) ns reversed = .ok ns := by
  obtain ⟨L, h1, h2⟩ := levels_of_acyclic ord hord ops reversed hc
  have h0 : ∀ n ∈ ns, (L n).getD 0 = 0 := fun n hn => (h2 n).source (hno n hn)
  have hsorted : ns.Pairwise (fun a b => keyLe L ns a b = true) := by
    rw [List.pairwise_iff_getElem]
    intro i j hi hj hij
    have hidx : ∀ k (hk : k < ns.length), lastIndex ns ns[k] = k := by
      intro k hk
      unfold lastIndex
      have hr : ns.reverse.idxOf ns[k] = ns.length - 1 - k := by
        have hk' : ns.length - 1 - k < ns.reverse.length := by simp; omega
        have := List.Nodup.idxOf_getElem (List.nodup_reverse.mpr hnd) (ns.length - 1 - k) hk'
        rw [List.getElem_reverse] at this
        have e : ns.length - 1 - (ns.length - 1 - k) = k := by omega
        simp only [e] at this
        exact this
      rw [hr]
      omega
    unfold keyLe
    rw [h0 _ (List.getElem_mem _), h0 _ (List.getElem_mem _), hidx i hi, hidx j hj]
    simp
    omega
  simp only [topologicalSort, h1, Except.ok.injEq]
  exact List.Pairwise.insertionSort_eq hsorted

/-! ### createsCycle -/

theorem reach_add (E : N → N → Prop) (s d : N) (hE : ¬ Cyclic E) : Cyclic (withEdge E s d) ↔ ReflTransGen E d s := by
  constructor
  · rintro ⟨n, hn⟩
    -- a path in the larger graph is a path in the smaller one, or goes through the new edge
    have key : ∀ a b, TransGen (withEdge E s d) a b → TransGen E a b ∨ (ReflTransGen E a s ∧ ReflTransGen E d b) ∨ ReflTransGen E d s := by
      intro a b hab
      induction hab with
      | single h =>
        rcases h with h | ⟨rfl, rfl⟩
        · exact .inl (.single h)
        · exact .inr (.inl ⟨.refl, .refl⟩)
      | tail _ h ih =>
        rcases h with h | ⟨rfl, rfl⟩
        · rcases ih with ih | ⟨ih1, ih2⟩ | ih
          · exact .inl (.tail ih h)
          · exact .inr (.inl ⟨ih1, .tail ih2 h⟩)
          · exact .inr (.inr ih)
        · rcases ih with ih | ⟨ih1, ih2⟩ | ih
          · exact .inr (.inl ⟨ih.to_reflTransGen, .refl⟩)
          · exact .inr (.inr ih2)
          · exact .inr (.inr ih)
    rcases key n n hn with h | ⟨h1, h2⟩ | h
    · exact absurd ⟨n, h⟩ hE
    · exact h2.trans h1
    · exact h
  · intro h
    refine ⟨s, TransGen.head' (.inr ⟨rfl, rfl⟩) ?_⟩
    exact ReflTransGen.mono (r := E) (fun _ _ h => Or.inl h) _ _ h

include hord in
/-- C44: for different nodes `createsCycle(source, dest)` tells whether `dest` reaches `source`. -/
theorem createsCycle_iff (ops : List (Op N)) (s d : N) (hsd : s ≠ d) :
    ∃ r, createsCycle ord (run ord ops) s d = .ok r ∧ (r = true ↔ ReflTransGen (edgesAfter ops) d s) := by
  obtain ⟨hwf, hE⟩ := run_ok ord hord ops
  generalize run ord ops = g at hwf hE
  have hout : ∀ x y, y ∈ ord (outgoing g x) ↔ edgesAfter ops x y := by
    intro x y
    rw [(hord _).mem_iff, ← edge_iff, hE]
  have hU : ∀ n, ∀ c ∈ ord (outgoing g n), c ∈ d :: nodes g := by
    intro n c hc
    rw [hout, ← hE] at hc
    exact List.mem_cons_of_mem _ (edge_nodes hwf hc).2
  have h1 := walkDown_ok (fun n => ord (outgoing g n)) (d :: nodes g) hU ((nodes g).length + 2) d (by simp) []
  cases hw : walkDown (fun n => ord (outgoing g n)) ((nodes g).length + 2) d [] with
  | error e =>
    rw [hw] at h1
    have h2 : unseen (d :: nodes g) [] ≤ (d :: nodes g).length := List.countP_le_length
    have h3 := h1.2
    simp only [List.length_cons] at h2
    omega
  | ok seen =>
    rw [hw] at h1
    obtain ⟨_, h2, h3⟩ := h1
    refine ⟨decide (s ∈ seen), by simp [createsCycle, hsd, hw], ?_⟩
    have hEq : (fun a b => b ∈ ord (outgoing g a)) = edgesAfter ops := by
      funext a b
      exact propext (hout a b)
    rw [decide_eq_true_eq]
    constructor
    · intro hs
      rcases h3 s hs with h | ⟨h, _⟩
      · cases h
      · rw [hEq] at h
        exact h
    · intro hr
      induction hr with
      | refl => exact h2
      | @tail b c _ he ih =>
        by_cases e : c = d
        · exact e ▸ h2
        · by_cases hb : b = d
          · rcases h3 d h2 with h | ⟨_, h⟩
            · cases h
            · exact h c ((hout d c).mpr (hb ▸ he))
          · have hbs : b ∈ seen := ih hb
            rcases h3 b hbs with h | ⟨_, h⟩
            · cases h
            · exact h c ((hout b c).mpr he)

include hord in
/-- C44: in an acyclic graph, for different nodes, `createsCycle(source, dest)` tells whether `levels` would raise after
`addEdge(source, dest)`. -/
theorem createsCycle_predicts (ops : List (Op N)) (s d : N) (hsd : s ≠ d) (reversed : Bool) (hc : ¬ Cyclic (edgesAfter ops)) :
    createsCycle ord (run ord ops) s d = .ok true ↔ levels ord (run ord (ops ++ [.add s d])) reversed = .error .cycle := by
  obtain ⟨r, h1, h2⟩ := createsCycle_iff ord hord ops s d hsd
  rw [levels_raises_iff ord hord, edgesAfter, List.foldl_append]
  show _ ↔ Cyclic (withEdge (edgesAfter ops) s d)
  rw [reach_add _ _ _ hc, ← h2, h1]
  simp

/-- C44, refuted for a node and itself: `createsCycle(n, n)` is False although `levels` raises after `addEdge(n, n)`. -/
theorem createsCycle_self_refuted :
    createsCycle (fun l => l) (run (fun l => l) ([] : List (Op Nat))) 1 1 = .ok false ∧
    levels (fun l => l) (run (fun l => l) [Op.add 1 1]) false = .error .cycle := ⟨rfl, rfl⟩

/-! ### examples -/

/-- 1 → 2 → 4, 1 → 3 → 4, and 4 → 5 after removing a node in between. -/
def diamond : List (Op Nat) := [.add 1 2, .add 1 3, .add 2 4, .add 3 4, .add 4 9, .add 9 5, .dropNode 9 true]

example : (match levels (fun l => l.reverse) (run (fun l => l) diamond) false with
    | .ok L => [1, 2, 3, 4, 5].map L
    | .error _ => []) = [some 0, some 1, some 1, some 2, some 3] := rfl

example : (match topologicalSort (fun l => l) (run (fun l => l) diamond) [5, 4, 3, 2, 1, 7] false with
    | .ok ns => ns
    | .error _ => []) = [1, 7, 3, 2, 4, 5] := by decide +kernel

example : createsCycle (fun l => l) (run (fun l => l) diamond) 5 1 = .ok true ∧
    createsCycle (fun l => l) (run (fun l => l) diamond) 1 5 = .ok false := ⟨rfl, rfl⟩

/-- The diamond is acyclic, so the theorems about acyclic graphs apply to it. -/
example : ¬ Cyclic (edgesAfter diamond) := by
  rw [← levels_raises_iff (fun l => l) (fun l => List.Perm.refl l) diamond false]
  intro h
  have : (match levels (fun l => l) (run (fun l => l) diamond) false with | .ok _ => true | .error _ => false) = true := rfl
  rw [h] at this
  cases this

example : levels (fun l => l) (run (fun l => l) (diamond ++ [.add 5 1])) false = .error .cycle := rfl

end Verif.DirectedGraph
