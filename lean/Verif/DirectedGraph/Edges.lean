import Verif.DirectedGraph.Model
import Mathlib.Tactic.Linarith
import Mathlib.Data.List.Perm.Basic
/-
What the operations do to the edges.
-/
namespace Verif.DirectedGraph
open Spec Relation

variable {N : Type} [DecidableEq N]

/-- The edges of a graph, as `hasEdge` tells them. -/
def Edge (g : Graph N) (x y : N) : Prop := hasEdge g x y = true

theorem edge_iff (g : Graph N) (x y : N) : Edge g x y ↔ y ∈ outgoing g x := by
  unfold Edge hasEdge outgoing Dict.get
  by_cases h : x ∈ g.sourceToDest.keys <;> simp [h]

/-- Both dicts tell the same edges. -/
def Wf (g : Graph N) : Prop := ∀ x y, y ∈ outgoing g x ↔ x ∈ incoming g y

theorem setdefault_keys (d : Dict N) (k x : N) : x ∈ (d.setdefault k).keys ↔ x ∈ d.keys ∨ x = k := by
  unfold Dict.setdefault
  split
  · rename_i h
    constructor
    · exact .inl
    · rintro (h1 | rfl)
      · exact h1
      · exact h
  · simp

theorem setdefault_val (d : Dict N) (k : N) : (d.setdefault k).val k = d.get k := by
  unfold Dict.setdefault Dict.get
  split <;> simp

theorem setdefault_get (d : Dict N) (k x : N) : (d.setdefault k).get x = d.get x := by
  unfold Dict.get
  by_cases h : x ∈ d.keys
  · have : x ∈ (d.setdefault k).keys := (setdefault_keys d k x).mpr (.inl h)
    simp only [h, this, if_true]
    unfold Dict.setdefault
    split
    · rfl
    · rename_i hk
      have : x ≠ k := fun e => hk (e ▸ h)
      simp [this]
  · by_cases hx : x = k
    · subst hx
      simp only [h, if_false]
      have := setdefault_val d x
      simp [(setdefault_keys d x x).mpr (.inr rfl), this, Dict.get, h]
    · have : x ∉ (d.setdefault k).keys := by
        rw [setdefault_keys]
        rintro (h1 | h1)
        · exact h h1
        · exact hx h1
      simp [h, this]

theorem addTo_get (d : Dict N) (k v x : N) (hk : k ∈ d.keys) :
    (d.addTo k v).get x = if x = k ∧ v ∉ d.get k then d.get x ++ [v] else d.get x := by
  unfold Dict.addTo Dict.get
  by_cases h : x = k
  · subst h
    by_cases hv : v ∈ d.val x <;> simp [hk, hv]
  · simp [h]

theorem addEdge_outgoing (g : Graph N) (s d x : N) :
    outgoing (addEdge g s d) x = if x = s ∧ d ∉ outgoing g s then outgoing g x ++ [d] else outgoing g x := by
  unfold addEdge outgoing
  simp only [setdefault_val]
  split
  · rw [addTo_get _ _ _ _ ((setdefault_keys _ _ _).mpr (.inr rfl))]
    simp [setdefault_get]
  · rename_i h
    have h : d ∈ g.sourceToDest.get s := by simpa using h
    simp [setdefault_get, h]

theorem addEdge_incoming (g : Graph N) (s d x : N) :
    incoming (addEdge g s d) x =
      if d ∉ outgoing g s ∧ x = d ∧ s ∉ incoming g d then incoming g x ++ [s] else incoming g x := by
  unfold addEdge incoming outgoing
  simp only [setdefault_val]
  split
  · rename_i h
    rw [addTo_get _ _ _ _ ((setdefault_keys _ _ _).mpr (.inr rfl))]
    simp [setdefault_get, h]
  · rename_i h
    have h : d ∈ g.sourceToDest.get s := by simpa using h
    simp [h]

theorem addEdge_edge (g : Graph N) (s d x y : N) : Edge (addEdge g s d) x y ↔ withEdge (Edge g) s d x y := by
  unfold withEdge
  rw [edge_iff, edge_iff, addEdge_outgoing]
  split
  · rename_i h
    simp only [List.mem_append, List.mem_singleton, h.1, true_and]
  · rename_i h
    constructor
    · exact .inl
    · rintro (h1 | ⟨rfl, rfl⟩)
      · exact h1
      · by_cases hm : y ∈ outgoing g x
        · exact hm
        · exact absurd ⟨rfl, hm⟩ h

theorem addEdge_wf (g : Graph N) (h : Wf g) (s d : N) : Wf (addEdge g s d) := by
  intro x y
  rw [addEdge_outgoing, addEdge_incoming]
  by_cases hm : d ∈ outgoing g s
  · simp [hm, h x y]
  · have hm' : s ∉ incoming g d := fun e => hm ((h s d).mpr e)
    simp only [hm, hm', not_false_iff, and_true, true_and]
    by_cases hx : x = s <;> by_cases hy : y = d
    · simp [hx, hy]
    · simp [hx, hy, h s y]
    · simp [hx, hy, h x d]
    · simp [hx, hy, h x y]

theorem discardFrom_get (d : Dict N) (k v x : N) :
    (if k ∈ d.keys then d.discardFrom k v else d).get x = if x = k then (d.get x).filter (· ≠ v) else d.get x := by
  unfold Dict.get Dict.discardFrom
  by_cases hk : k ∈ d.keys
  · by_cases hx : x = k
    · simp [hx, hk]
    · simp [hx, hk]
  · by_cases hx : x = k
    · simp [hx, hk]
    · simp [hx, hk]

theorem discardEdge_outgoing (g : Graph N) (s d x : N) :
    outgoing (discardEdge g s d) x = if x = s then (outgoing g x).filter (· ≠ d) else outgoing g x :=
  discardFrom_get g.sourceToDest s d x

theorem discardEdge_incoming (g : Graph N) (s d x : N) :
    incoming (discardEdge g s d) x = if x = d then (incoming g x).filter (· ≠ s) else incoming g x :=
  discardFrom_get g.destToSource d s x

theorem discardEdge_edge (g : Graph N) (s d x y : N) : Edge (discardEdge g s d) x y ↔ withoutEdge (Edge g) s d x y := by
  unfold withoutEdge
  rw [edge_iff, edge_iff, discardEdge_outgoing]
  by_cases hx : x = s
  · simp [hx]
  · simp [hx]

theorem discardEdge_wf (g : Graph N) (h : Wf g) (s d : N) : Wf (discardEdge g s d) := by
  intro x y
  rw [discardEdge_outgoing, discardEdge_incoming]
  by_cases hx : x = s <;> by_cases hy : y = d <;> simp [hx, hy, h _ _]

/-! ### dropNode -/

theorem foldl_discard_in (node : N) (l : List N) (g : Graph N) (h : Wf g) :
    Wf (l.foldl (fun g i => discardEdge g i node) g) ∧
      ∀ x y, Edge (l.foldl (fun g i => discardEdge g i node) g) x y ↔ Edge g x y ∧ ¬ (x ∈ l ∧ y = node) := by
  induction l generalizing g with
  | nil => exact ⟨h, by simp⟩
  | cons i l ih =>
    obtain ⟨h1, h2⟩ := ih (discardEdge g i node) (discardEdge_wf g h i node)
    refine ⟨h1, fun x y => ?_⟩
    rw [List.foldl_cons, h2, discardEdge_edge, withoutEdge]
    simp only [List.mem_cons]
    tauto

theorem foldl_discard_out (node : N) (l : List N) (g : Graph N) (h : Wf g) :
    Wf (l.foldl (fun g o => discardEdge g node o) g) ∧
      ∀ x y, Edge (l.foldl (fun g o => discardEdge g node o) g) x y ↔ Edge g x y ∧ ¬ (x = node ∧ y ∈ l) := by
  induction l generalizing g with
  | nil => exact ⟨h, by simp⟩
  | cons i l ih =>
    obtain ⟨h1, h2⟩ := ih (discardEdge g node i) (discardEdge_wf g h node i)
    refine ⟨h1, fun x y => ?_⟩
    rw [List.foldl_cons, h2, discardEdge_edge, withoutEdge]
    simp only [List.mem_cons]
    tauto

variable (ord : List N → List N) (hord : ∀ l, (ord l).Perm l)
include hord

theorem disconnect_ok (g : Graph N) (h : Wf g) (node : N) :
    Wf (disconnect ord g node) ∧ ∀ x y, Edge (disconnect ord g node) x y ↔ withoutNode (Edge g) node x y := by
  unfold disconnect
  obtain ⟨h1, h2⟩ := foldl_discard_in node (ord (incoming g node)) g h
  obtain ⟨h3, h4⟩ := foldl_discard_out node
    (ord (outgoing ((ord (incoming g node)).foldl (fun g i => discardEdge g i node) g) node)) _ h1
  refine ⟨h3, fun x y => ?_⟩
  have hin : ∀ z, z ∈ ord (incoming g node) ↔ Edge g z node := by
    intro z
    rw [(hord _).mem_iff, ← h z node, ← edge_iff]
  have hout : ∀ z, z ∈ ord (outgoing ((ord (incoming g node)).foldl (fun g i => discardEdge g i node) g) node) ↔
      Edge g node z ∧ ¬ (Edge g node node ∧ z = node) := by
    intro z
    rw [(hord _).mem_iff, ← edge_iff, h2, hin]
  rw [h4, h2, hin, hout, withoutNode]
  constructor
  · rintro ⟨⟨ha, hb⟩, hc⟩
    have hy : y ≠ node := by
      rintro rfl
      exact hb ⟨ha, rfl⟩
    refine ⟨ha, ?_, hy⟩
    rintro rfl
    exact hc ⟨rfl, ha, fun e => hy e.2⟩
  · rintro ⟨ha, hx, hy⟩
    exact ⟨⟨ha, fun e => hy e.2⟩, fun e => hx e.1⟩

omit hord in
theorem addEdge_outgoing_same (g : Graph N) (node i o : N) (ho : o ∈ outgoing g node) :
    outgoing (addEdge g i o) node = outgoing g node := by
  rw [addEdge_outgoing]
  by_cases h : node = i
  · subst h
    simp [ho]
  · simp [h]

omit hord in
theorem addEdge_incoming_same (g : Graph N) (h : Wf g) (node i o : N) (hi : i ∈ incoming g node) :
    incoming (addEdge g i o) node = incoming g node := by
  rw [addEdge_incoming]
  by_cases hn : node = o
  · subst hn
    simp [(h i node).mpr hi]
  · simp [hn]

omit hord in
/-- The inner loop of lines 61-62. -/
theorem inner_loop (node i : N) (outs : List N) (l : List N) (g : Graph N) (h : Wf g) (ins : List N)
    (hi : i ∈ ins) (hins : incoming g node = ins) (houts : outgoing g node = outs) (hl : ∀ o ∈ l, o ∈ outs) :
    ∃ g', forLive (fun g => outgoing g node) outs.length (fun g o => .ok (addEdge g i o)) g l = .ok g' ∧
      Wf g' ∧ incoming g' node = ins ∧ outgoing g' node = outs ∧ ∀ x y, Edge g' x y ↔ Edge g x y ∨ (x = i ∧ y ∈ l) := by
  induction l generalizing g with
  | nil => exact ⟨g, by simp [forLive, houts], h, hins, houts, by simp⟩
  | cons o l ih =>
    have ho : o ∈ outgoing g node := houts ▸ hl o (by simp)
    obtain ⟨g', h1, h2, h3, h4, h5⟩ := ih (addEdge g i o) (addEdge_wf g h i o)
      (by rw [addEdge_incoming_same g h node i o (hins ▸ hi), hins])
      (by rw [addEdge_outgoing_same g node i o ho, houts]) (fun o' h' => hl o' (by simp [h']))
    refine ⟨g', by simpa [forLive, houts] using h1, h2, h3, h4, fun x y => ?_⟩
    rw [h5, addEdge_edge, withEdge]
    simp only [List.mem_cons]
    tauto

/-- The outer loop of lines 60-62. -/
theorem outer_loop (node : N) (ins outs : List N) (l : List N) (g : Graph N) (h : Wf g)
    (hins : incoming g node = ins) (houts : outgoing g node = outs) (hl : ∀ i ∈ l, i ∈ ins) :
    ∃ g', forLive (fun g => incoming g node) ins.length
        (fun g i => forLive (fun g => outgoing g node) (outgoing g node).length (fun g o => .ok (addEdge g i o)) g (ord (outgoing g node)))
        g l = .ok g' ∧
      Wf g' ∧ ∀ x y, Edge g' x y ↔ Edge g x y ∨ (x ∈ l ∧ y ∈ outs) := by
  induction l generalizing g with
  | nil => exact ⟨g, by simp [forLive, hins], h, by simp⟩
  | cons i l ih =>
    obtain ⟨g1, h1, h2, h3, h4, h5⟩ := inner_loop node i outs (ord outs) g h ins (hl i (by simp)) hins houts
      (fun o ho => ((hord outs).mem_iff).mp ho)
    obtain ⟨g', k1, k2, k3⟩ := ih g1 h2 h3 h4 (fun i' h' => hl i' (by simp [h']))
    refine ⟨g', ?_, k2, fun x y => ?_⟩
    · simp only [forLive, hins, if_true, houts, h1]
      exact k1
    · rw [k3, h5, (hord outs).mem_iff]
      simp only [List.mem_cons]
      tauto

theorem connectThrough_ok (g : Graph N) (h : Wf g) (node : N) :
    ∃ g', connectThrough ord g node = .ok g' ∧ Wf g' ∧ ∀ x y, Edge g' x y ↔ Edge g x y ∨ (Edge g x node ∧ Edge g node y) := by
  obtain ⟨g', h1, h2, h3⟩ := outer_loop ord hord node _ _ (ord (incoming g node)) g h rfl rfl
    (fun i hi => ((hord _).mem_iff).mp hi)
  refine ⟨g', h1, h2, fun x y => ?_⟩
  rw [h3, (hord _).mem_iff, ← h x node, ← edge_iff, ← edge_iff]

theorem dropNode_ok (g : Graph N) (h : Wf g) (node : N) (t : Bool) :
    ∃ g', dropNode ord g node t = .ok g' ∧ Wf g' ∧
      ∀ x y, Edge g' x y ↔ (if t then bypassNode (Edge g) node x y else withoutNode (Edge g) node x y) := by
  cases t with
  | false =>
    obtain ⟨h1, h2⟩ := disconnect_ok ord hord g h node
    exact ⟨_, rfl, h1, by simpa using h2⟩
  | true =>
    obtain ⟨g1, h1, h2, h3⟩ := connectThrough_ok ord hord g h node
    obtain ⟨h4, h5⟩ := disconnect_ok ord hord g1 h2 node
    refine ⟨_, by simp only [dropNode, h1, if_true], h4, fun x y => ?_⟩
    rw [h5]
    simp only [if_true, withoutNode, bypassNode, h3]

end Verif.DirectedGraph
