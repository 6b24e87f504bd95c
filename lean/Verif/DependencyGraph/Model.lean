import Verif.DirectedGraph.Props
import Verif.DependencyGraph.Spec
/-
Model of /repo/typed_python/compiler/function_dependency_graph.py, with `SortedSet` from sortedcontainers.

Simplifications: as for DirectedGraph (sets are lists; `ord` is the order in which a set is iterated).
-/
namespace Verif.DependencyGraph
open Spec DirectedGraph

variable {N : Type} [DecidableEq N]

/-- function_dependency_graph.py:6-19. -/
structure State (N : Type) where
  deps : Graph N
  levels : N → Option Int
  dirty : List N
  order : List (Int × N)

inductive Err
  | keyError
  | unknownIdentity
  deriving DecidableEq

/-- function_dependency_graph.py:6-19 `__init__`. -/
def init : State N := ⟨DirectedGraph.empty, fun _ => none, [], []⟩

/-- sortedcontainers SortedSet.add with key `pair[0]`: nothing if the pair is there, else insert after all pairs whose key is not
larger. -/
def orderAdd (l : List (Int × N)) (p : Int × N) : List (Int × N) :=
  if p ∈ l then l else l.takeWhile (fun q => decide (q.1 ≤ p.1)) ++ p :: l.dropWhile (fun q => decide (q.1 ≤ p.1))

/-- `set.add`. -/
def setAdd (l : List N) (x : N) : List N := if x ∈ l then l else l ++ [x]

/-- function_dependency_graph.py:21-25 `dropNode`. -/
def dropNode (ord : List N → List N) (s : State N) (node : N) : State N :=
  { s with
    deps := DirectedGraph.disconnect ord s.deps node
    levels := fun x => if x = node then none else s.levels x
    dirty := s.dirty.filter (· ≠ node) }

/-- function_dependency_graph.py:28-34: pop the last pair until one is dirty; the list is reversed, last first. -/
def popLoop (dirty : List N) : List (Int × N) → Option N × List (Int × N)
  | [] => (none, [])
  | (_, identity) :: rest => if identity ∈ dirty then (some identity, rest) else popLoop dirty rest

/-- function_dependency_graph.py:27-34 `getNextDirtyNode`. -/
def getNext (s : State N) : Option N × State N :=
  match popLoop s.dirty s.order.reverse with
  | (none, rest) => (none, { s with order := rest.reverse })
  | (some x, rest) => (some x, { s with order := rest.reverse, dirty := s.dirty.filter (· ≠ x) })

/-- function_dependency_graph.py:52-53 `getNamesDependedOn`. -/
def getNamesDependedOn (s : State N) (caller : N) : List N := outgoing s.deps caller

/-- Lines 57-60, 63-72: add to the dirty set, then look up the level, which may raise KeyError, then queue the pair. -/
def mark (s : State N) (callee : N) (priority : Int → Int) : State N × Option Err :=
  match s.levels callee with
  | none => ({ s with dirty := setAdd s.dirty callee }, some .keyError)
  | some level => ({ s with dirty := setAdd s.dirty callee, order := orderAdd s.order (priority level, callee) }, none)

/-- function_dependency_graph.py:62-72 `markDirty`. -/
def markDirty (s : State N) (callee : N) (isNew : Bool) : State N × Option Err :=
  mark s callee (fun level => if isNew then 1000000 - level else level)

/-- function_dependency_graph.py:55-60 `markDirtyWithLowPriority`. -/
def markDirtyWithLowPriority (s : State N) (callee : N) : State N × Option Err :=
  mark s callee (fun level => -1000000 + level)

/-- function_dependency_graph.py:36-39 `addRoot`. -/
def addRoot (s : State N) (identity : N) : State N × Option Err :=
  match s.levels identity with
  | some _ => (s, none)
  | none => markDirty { s with levels := fun x => if x = identity then some 0 else s.levels x } identity false

/-- function_dependency_graph.py:41-50 `addEdge`. -/
def addEdge (s : State N) (caller callee : N) : State N × Option Err :=
  match s.levels caller with
  | none => (s, some .unknownIdentity)
  | some level =>
    match s.levels callee with
    | some _ => ({ s with deps := DirectedGraph.addEdge s.deps caller callee }, none)
    | none =>
      match markDirty { s with levels := fun x => if x = callee then some (level + 1) else s.levels x } callee true with
      | (s', some e) => (s', some e)
      | (s', none) => ({ s' with deps := DirectedGraph.addEdge s'.deps caller callee }, none)

/-- function_dependency_graph.py:75-76: the loop over the callers. -/
def markAll (s : State N) : List N → State N × Option Err
  | [] => (s, none)
  | c :: cs =>
    match markDirty s c false with
    | (s', some e) => (s', some e)
    | (s', none) => markAll s' cs

/-- function_dependency_graph.py:74-76 `functionReturnSignatureChanged`. -/
def functionReturnSignatureChanged (ord : List N → List N) (s : State N) (identity : N) : State N × Option Err :=
  markAll s (ord (incoming s.deps identity))

/-- One call; an exception leaves the state as it was when raised. -/
def apply (ord : List N → List N) (s : State N) : Op N → State N
  | .dropNode x => dropNode ord s x
  | .getNext => (getNext s).2
  | .addRoot x => (addRoot s x).1
  | .addEdge a b => (addEdge s a b).1
  | .markDirty x n => (markDirty s x n).1
  | .markLow x => (markDirtyWithLowPriority s x).1
  | .changed x => (functionReturnSignatureChanged ord s x).1

/-- What the call returns, if it returns a node. -/
def returned (s : State N) : Op N → Option N
  | .getNext => (getNext s).1
  | _ => none

/-- Any sequence of calls, with its history. -/
def run (ord : List N → List N) (ops : List (Op N)) : State N × History N :=
  ops.foldl (fun sh op => (apply ord sh.1 op, (op, returned sh.1 op) :: sh.2)) (init, [])

/-- Call getNextDirtyNode until it returns None, at most `n` times. -/
def drain : Nat → State N → List N × State N
  | 0, s => ([], s)
  | n + 1, s =>
    match getNext s with
    | (none, s') => ([], s')
    | (some x, s') => (x :: (drain n s').1, (drain n s').2)

end Verif.DependencyGraph
