import Mathlib.Logic.Relation
/-
Directed graphs as relations, independently of the code.
-/
namespace Verif.DirectedGraph.Spec

variable {N : Type}

/-- Some node reaches itself by one or more edges. -/
def Cyclic (E : N → N → Prop) : Prop := ∃ n, Relation.TransGen E n n

/-- Adding the edge from `s` to `d`. -/
def withEdge (E : N → N → Prop) (s d : N) : N → N → Prop := fun x y => E x y ∨ (x = s ∧ y = d)

/-- Removing the edge from `s` to `d`. -/
def withoutEdge (E : N → N → Prop) (s d : N) : N → N → Prop := fun x y => E x y ∧ ¬ (x = s ∧ y = d)

/-- Removing a node. -/
def withoutNode (E : N → N → Prop) (n : N) : N → N → Prop := fun x y => E x y ∧ x ≠ n ∧ y ≠ n

/-- Removing a node, connecting its predecessors to its successors. -/
def bypassNode (E : N → N → Prop) (n : N) : N → N → Prop := fun x y => (E x y ∨ (E x n ∧ E n y)) ∧ x ≠ n ∧ y ≠ n

/-- A call that changes the graph. -/
inductive Op (N : Type)
  | add (source dest : N)
  | discard (source dest : N)
  | drop (source dest : N)
  | dropNode (node : N) (transitively : Bool)

/-- What a call does to the edges. -/
def applyOp (E : N → N → Prop) : Op N → N → N → Prop
  | .add s d => withEdge E s d
  | .discard s d => withoutEdge E s d
  | .drop s d => withoutEdge E s d
  | .dropNode n false => withoutNode E n
  | .dropNode n true => bypassNode E n

/-- The edges after a sequence of calls on an empty graph. -/
def edgesAfter (ops : List (Op N)) : N → N → Prop := ops.foldl applyOp (fun _ _ => False)

/-- `level` is the length of the longest path to each node: a node without predecessors has level 0, any other is one above its
highest predecessor. -/
structure IsLevel (E : N → N → Prop) (level : N → Int) (n : N) : Prop where
  source : (∀ p, ¬ E p n) → level n = 0
  above : ∀ p, E p n → 0 ≤ level p ∧ level p + 1 ≤ level n
  tight : (∃ p, E p n) → ∃ p, E p n ∧ level n = level p + 1

end Verif.DirectedGraph.Spec
