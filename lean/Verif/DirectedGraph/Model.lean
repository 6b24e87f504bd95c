import Verif.DirectedGraph.Spec
import Mathlib.Data.List.Sort
/-
Model of /repo/typed_python/compiler/directed_graph.py.

Simplifications: a dict of sets is the list of its keys, in insertion order, with the members of each value; a set is a list
of its members.  The order in which a set is iterated is left open: `ord` is any function permuting a list.  Python's
recursion limit is not modelled (a chain of about a thousand nodes makes `levels` and `createsCycle` raise RecursionError).
-/
namespace Verif.DirectedGraph

variable {N : Type} [DecidableEq N]

/-- A dict whose values are sets. -/
structure Dict (N : Type) where
  keys : List N
  val : N → List N

/-- `d.get(k, set())`. -/
def Dict.get (d : Dict N) (k : N) : List N := if k ∈ d.keys then d.val k else []

/-- `d.setdefault(k, set())`. -/
def Dict.setdefault (d : Dict N) (k : N) : Dict N :=
  if k ∈ d.keys then d else ⟨d.keys ++ [k], fun x => if x = k then [] else d.val x⟩

/-- `d[k].add(v)` for a key in the dict. -/
def Dict.addTo (d : Dict N) (k v : N) : Dict N :=
  ⟨d.keys, fun x => if x = k then (if v ∈ d.val x then d.val x else d.val x ++ [v]) else d.val x⟩

/-- `d[k].discard(v)` for a key in the dict. -/
def Dict.discardFrom (d : Dict N) (k v : N) : Dict N :=
  ⟨d.keys, fun x => if x = k then (d.val x).filter (· ≠ v) else d.val x⟩

/-- directed_graph.py:22-24. -/
structure Graph (N : Type) where
  sourceToDest : Dict N
  destToSource : Dict N

inductive Err
  | noEdge
  | cycle
  | changedDuringIteration
  | keyError
  | fuel
  deriving DecidableEq

/-- directed_graph.py:22-24 `__init__`. -/
def empty : Graph N := ⟨⟨[], fun _ => []⟩, ⟨[], fun _ => []⟩⟩

/-- directed_graph.py:26-29 `addEdge`. -/
def addEdge (g : Graph N) (source dest : N) : Graph N :=
  let s := g.sourceToDest.setdefault source
  if dest ∉ s.val source then ⟨s.addTo source dest, (g.destToSource.setdefault dest).addTo dest source⟩
  else ⟨s, g.destToSource⟩

/-- directed_graph.py:36-40 `discardEdge`. -/
def discardEdge (g : Graph N) (source dest : N) : Graph N :=
  ⟨if source ∈ g.sourceToDest.keys then g.sourceToDest.discardFrom source dest else g.sourceToDest,
   if dest ∈ g.destToSource.keys then g.destToSource.discardFrom dest source else g.destToSource⟩

/-- directed_graph.py:42-45 `hasEdge`. -/
def hasEdge (g : Graph N) (source dest : N) : Bool :=
  if source ∉ g.sourceToDest.keys then false else decide (dest ∈ g.sourceToDest.val source)

/-- directed_graph.py:31-34 `dropEdge`. -/
def dropEdge (g : Graph N) (source dest : N) : Except Err (Graph N) :=
  if hasEdge g source dest then .ok (discardEdge g source dest) else .error .noEdge

/-- directed_graph.py:47-48 `outgoing`. -/
def outgoing (g : Graph N) (n : N) : List N := g.sourceToDest.get n

/-- directed_graph.py:50-51 `incoming`. -/
def incoming (g : Graph N) (n : N) : List N := g.destToSource.get n

/-- A Python `for` over a live set: after each iteration the set must have the size it had at the start, or RuntimeError is
raised.  `items` are the members still to come, `size` the size at the start. -/
def forLive (live : Graph N → List N) (size : Nat) (body : Graph N → N → Except Err (Graph N)) : Graph N → List N → Except Err (Graph N)
  | g, [] => if (live g).length = size then .ok g else .error .changedDuringIteration
  | g, x :: xs =>
    if (live g).length = size then
      match body g x with
      | .error e => .error e
      | .ok g' => forLive live size body g' xs
    else .error .changedDuringIteration

/-- directed_graph.py:59-62: connect the predecessors of `node` to its successors. -/
def connectThrough (ord : List N → List N) (g : Graph N) (node : N) : Except Err (Graph N) :=
  forLive (fun g => incoming g node) (incoming g node).length
    (fun g i => forLive (fun g => outgoing g node) (outgoing g node).length (fun g o => .ok (addEdge g i o)) g (ord (outgoing g node)))
    g (ord (incoming g node))

/-- directed_graph.py:64-68: copies of the sets are iterated. -/
def disconnect (ord : List N → List N) (g : Graph N) (node : N) : Graph N :=
  let g1 := (ord (incoming g node)).foldl (fun g i => discardEdge g i node) g
  (ord (outgoing g1 node)).foldl (fun g o => discardEdge g node o) g1

/-- directed_graph.py:53-68 `dropNode`. -/
def dropNode (ord : List N → List N) (g : Graph N) (node : N) (transitively : Bool) : Except Err (Graph N) :=
  if transitively then
    match connectThrough ord g node with
    | .error e => .error e
    | .ok g' => .ok (disconnect ord g' node)
  else .ok (disconnect ord g node)

/-- The dict `levels` of lines 77-99. -/
abbrev Levels (N : Type) := N → Option Int

/-- `levels[n] = v`. -/
def Levels.set (L : Levels N) (n : N) (v : Int) : Levels N := fun x => if x = n then some v else L x

/-- directed_graph.py:87: the larger of the maximum so far, if any, and a new value. -/
def pickMax (m : Option Int) (v : Int) : Int :=
  match m with
  | none => v
  | some u => max u v

/-- directed_graph.py:87: the maximum of `walk(child)`, `none` if there was no child. -/
def maxWalk (w : N → Levels N → Except Err (Levels N × Int)) : List N → Levels N → Option Int → Except Err (Levels N × Option Int)
  | [], L, m => .ok (L, m)
  | c :: cs, L, m =>
    match w c L with
    | .error e => .error e
    | .ok (L', v) => maxWalk w cs L' (some (pickMax m v))

/-- directed_graph.py:85-87: fill in the level of a node not seen before. -/
def visit (children : N → List N) (w : N → Levels N → Except Err (Levels N × Int)) (n : N) (L : Levels N) : Except Err (Levels N) :=
  match L n with
  | some _ => .ok L
  | none =>
    match maxWalk w (children n) (L.set n (-2)) none with
    | .error e => .error e
    | .ok (L', m) => .ok (L'.set n (1 + m.getD (-1)))

/-- directed_graph.py:84-92 `walk`; the fuel stands for the recursion. -/
def walk (children : N → List N) : Nat → N → Levels N → Except Err (Levels N × Int)
  | 0, _, _ => .error .fuel
  | f + 1, n, L =>
    match visit children (walk children f) n L with
    | .error e => .error e
    | .ok L' =>
      match L' n with
      | none => .error .keyError
      | some v => if v = -2 then .error .cycle else .ok (L', v)

/-- directed_graph.py:94-97: walk from a list of nodes. -/
def walkFrom (children : N → List N) (fuel : Nat) : List N → Levels N → Except Err (Levels N)
  | [], L => .ok L
  | n :: ns, L =>
    match walk children fuel n L with
    | .error e => .error e
    | .ok (L', _) => walkFrom children fuel ns L'

/-- All keys, lines 94 and 96. -/
def nodes (g : Graph N) : List N := g.sourceToDest.keys ++ g.destToSource.keys

/-- directed_graph.py:70-99 `levels`. -/
def levels (ord : List N → List N) (g : Graph N) (reversed : Bool) : Except Err (Levels N) :=
  walkFrom (fun n => ord (if reversed then outgoing g n else incoming g n)) ((nodes g).length + 1) (nodes g) (fun _ => none)

/-- directed_graph.py:103: the last index of a node in the list. -/
def lastIndex (ns : List N) (n : N) : Nat := ns.length - 1 - (ns.reverse.idxOf n)

/-- directed_graph.py:105: comparison of `(levels.get(n, 0), indices[n])`. -/
def keyLe (L : Levels N) (ns : List N) (a b : N) : Bool :=
  decide ((L a).getD 0 < (L b).getD 0) || (decide ((L a).getD 0 = (L b).getD 0) && decide (lastIndex ns a ≤ lastIndex ns b))

/-- directed_graph.py:101-105 `topologicalSort`; Python's `sorted` is a stable sort (here insertion
sort). -/
def topologicalSort (ord : List N → List N) (g : Graph N) (ns : List N) (reversed : Bool) : Except Err (List N) :=
  match levels ord g reversed with
  | .error e => .error e
  | .ok L => .ok (ns.insertionSort (fun a b => keyLe L ns a b = true))

/-- directed_graph.py:114-121 the inner `walk`; `seen` is `downstreamSet`. -/
def walkDown (out : N → List N) : Nat → N → List N → Except Err (List N)
  | 0, _, _ => .error .fuel
  | f + 1, x, seen =>
    if x ∈ seen then .ok seen
    else (out x).foldl (fun acc y => match acc with
      | .error e => .error e
      | .ok s => walkDown out f y s) (.ok (x :: seen))

/-- directed_graph.py:107-125 `createsCycle`. -/
def createsCycle (ord : List N → List N) (g : Graph N) (source dest : N) : Except Err Bool :=
  if source = dest then .ok false
  else
    match walkDown (fun n => ord (outgoing g n)) ((nodes g).length + 2) dest [] with
    | .error e => .error e
    | .ok seen => .ok (decide (source ∈ seen))

/-- Do one call. -/
def apply (ord : List N → List N) (g : Graph N) : Spec.Op N → Except Err (Graph N)
  | .add s d => .ok (addEdge g s d)
  | .discard s d => .ok (discardEdge g s d)
  | .drop s d => dropEdge g s d
  | .dropNode n t => dropNode ord g n t

/-- Any sequence of calls, starting with an empty graph; a call that raises changes nothing (line 33 raises before any change;
that `dropNode` does not raise is `dropNode_ok`). -/
def run (ord : List N → List N) (ops : List (Spec.Op N)) : Graph N :=
  ops.foldl (fun g op => match apply ord g op with
    | .ok g' => g'
    | .error _ => g) empty

end Verif.DirectedGraph
