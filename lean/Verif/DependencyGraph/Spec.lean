/-
What the worklist owes its user, as a function of the calls made so far and of what getNextDirtyNode returned.
-/
namespace Verif.DependencyGraph.Spec

variable {N : Type}

/-- The calls. -/
inductive Op (N : Type)
  | dropNode (x : N)
  | getNext
  | addRoot (x : N)
  | addEdge (caller callee : N)
  | markDirty (x : N) (isNew : Bool)
  | markLow (x : N)
  | changed (x : N)

/-- The calls so far, newest first, each with the node it returned, if any. -/
abbrev History (N : Type) := List (Op N × Option N)

/-- Nodes added as a root or as callee of a known node, and not dropped since. -/
def Known : History N → N → Prop
  | [], _ => False
  | (.addRoot y, _) :: t, x => x = y ∨ Known t x
  | (.addEdge a b, _) :: t, x => (x = b ∧ Known t a) ∨ Known t x
  | (.dropNode y, _) :: t, x => x ≠ y ∧ Known t x
  | _ :: t, x => Known t x

/-- `x` calls `y`: the edge was added when `x` was known, and neither has been dropped since. -/
def Calls : History N → N → N → Prop
  | [], _, _ => False
  | (.addEdge a b, _) :: t, x, y => (x = a ∧ y = b ∧ Known t a) ∨ Calls t x y
  | (.dropNode z, _) :: t, x, y => x ≠ z ∧ y ≠ z ∧ Calls t x y
  | _ :: t, x, y => Calls t x y

/-- Work to be done: `x` was new, was marked while known, or calls a function whose signature changed, and it has neither been
dropped nor been returned since. -/
def Pending : History N → N → Prop
  | [], _ => False
  | (.addRoot y, _) :: t, x => (x = y ∧ ¬ Known t y) ∨ Pending t x
  | (.addEdge a b, _) :: t, x => (x = b ∧ Known t a ∧ ¬ Known t b) ∨ Pending t x
  | (.markDirty y _, _) :: t, x => (x = y ∧ Known t y) ∨ Pending t x
  | (.markLow y, _) :: t, x => (x = y ∧ Known t y) ∨ Pending t x
  | (.changed y, _) :: t, x => Calls t x y ∨ Pending t x
  | (.dropNode y, _) :: t, x => x ≠ y ∧ Pending t x
  | (.getNext, r) :: t, x => r ≠ some x ∧ Pending t x

/-- The same, counting also the markings of nodes that are not known, which raise. -/
def MaybePending : History N → N → Prop
  | [], _ => False
  | (.addRoot y, _) :: t, x => (x = y ∧ ¬ Known t y) ∨ MaybePending t x
  | (.addEdge a b, _) :: t, x => (x = b ∧ Known t a ∧ ¬ Known t b) ∨ MaybePending t x
  | (.markDirty y _, _) :: t, x => x = y ∨ MaybePending t x
  | (.markLow y, _) :: t, x => x = y ∨ MaybePending t x
  | (.changed y, _) :: t, x => Calls t x y ∨ MaybePending t x
  | (.dropNode y, _) :: t, x => x ≠ y ∧ MaybePending t x
  | (.getNext, r) :: t, x => r ≠ some x ∧ MaybePending t x

/-- No marking raised. -/
def NoFailedMark : History N → Prop
  | [] => True
  | (.markDirty y _, _) :: t => Known t y ∧ NoFailedMark t
  | (.markLow y, _) :: t => Known t y ∧ NoFailedMark t
  | _ :: t => NoFailedMark t

/-- How urgent a marking is: new functions before others, low priority last. -/
inductive Urgency
  | low
  | usual
  | new

def Urgency.rank : Urgency → Nat
  | .low => 0
  | .usual => 1
  | .new => 2

/-- The call marks `x`, with this urgency, after the history `t`. -/
def Marks (t : History N) : Op N → N → Urgency → Prop
  | .addRoot y, x, c => x = y ∧ ¬ Known t y ∧ c = .usual
  | .addEdge a b, x, c => x = b ∧ Known t a ∧ ¬ Known t b ∧ c = .new
  | .markDirty y isNew, x, c => x = y ∧ Known t y ∧ c = (if isNew then .new else .usual)
  | .markLow y, x, c => x = y ∧ Known t y ∧ c = .low
  | .changed y, x, c => Calls t x y ∧ c = .usual
  | .dropNode _, _, _ => False
  | .getNext, _, _ => False

/-- `x` was marked at least this urgently at some time. -/
def EverMarked : History N → Urgency → N → Prop
  | [], _, _ => False
  | (op, _) :: t, c, x => (∃ c', c.rank ≤ c'.rank ∧ Marks t op x c') ∨ EverMarked t c x

/-- `x` was marked at least this urgently, and neither dropped nor returned since. -/
def PendingAt : History N → Urgency → N → Prop
  | [], _, _ => False
  | (op, r) :: t, c, x => (∃ c', c.rank ≤ c'.rank ∧ Marks t op x c') ∨ (op ≠ .dropNode x ∧ r ≠ some x ∧ PendingAt t c x)

end Verif.DependencyGraph.Spec
