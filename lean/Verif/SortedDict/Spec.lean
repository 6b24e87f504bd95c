import Verif.SortedDict.Model
import Mathlib.Data.List.Perm.Basic
/-
What a sorted dictionary is: an association list in insertion order, whose `items` are presented sorted.
-/
namespace Verif.SortedDict.Spec
open Verif.SortedDict
variable {K V : Type}

/-- The comparator is a strict weak order. -/
structure StrictWeak (lt : K → K → Bool) : Prop where
  asymm : ∀ a b, lt a b = true → lt b a = false
  ntrans : ∀ a b c, lt a b = false → lt b c = false → lt a c = false

section
variable (lt : K → K → Bool)

/-- Two keys are the same key when neither is smaller. -/
def same (a b : K) : Bool := !lt a b && !lt b a

/-- The value of a key. -/
def lookup (m : List (K × V)) (k : K) : Option V := (m.find? (fun e => same lt e.1 k)).map (·.2)

/-- Assigning: overwrite the value of an existing key (keeping the key object), or add a new entry. -/
def assign (m : List (K × V)) (k : K) (v : V) : List (K × V) :=
  if (lookup lt m k).isSome then m.map (fun e => if same lt e.1 k then (e.1, v) else e) else m ++ [(k, v)]

/-- Deleting. -/
def erase (m : List (K × V)) (k : K) : List (K × V) := m.filter (fun e => !same lt e.1 k)

/-- Strictly ascending. -/
def Ascending (l : List (K × V)) : Prop := l.Pairwise (fun a b => lt a.1 b.1 = true)

/-- `r` is what an operation on the map `m` may answer: the value, or `none` for `KeyError`. -/
def Answer (m : List (K × V)) : Op K V → Option (Res K V) → Prop
  | .getitem k, r => r = (lookup lt m k).map .val
  | .contains k, r => r = some (.bool (lookup lt m k).isSome)
  | .setitem _ _, r => r = some .unit
  | .delitem k, r => r = (lookup lt m k).map (fun _ => .unit)
  | .pop k, r => r = (lookup lt m k).map .val
  | .popD k v, r => r = some (.val ((lookup lt m k).getD v))
  | .first, r => (m = [] ∧ r = some (.key none)) ∨
      ∃ e ∈ m, (∀ e' ∈ m, lt e'.1 e.1 = false) ∧ r = some (.key (some e.1))
  | .last, r => (m = [] ∧ r = some (.key none)) ∨
      ∃ e ∈ m, (∀ e' ∈ m, lt e.1 e'.1 = false) ∧ r = some (.key (some e.1))
  | .getD k v, r => r = some (.val ((lookup lt m k).getD v))
  | .setdefault k v, r => r = some (.val ((lookup lt m k).getD v))
  | .len, r => r = some (.int m.length)
  | .items, r => ∃ l, r = some (.list l) ∧ l.Perm m ∧ Ascending lt l

/-- The map after an operation. -/
def effect (m : List (K × V)) : Op K V → List (K × V)
  | .setitem k v => assign lt m k v
  | .delitem k => erase lt m k
  | .pop k => erase lt m k
  | .popD k _ => erase lt m k
  | .setdefault k v => if (lookup lt m k).isSome then m else assign lt m k v
  | _ => m

/-- A whole history answers as the map. -/
def Answers (m : List (K × V)) : List (Op K V) → List (Except Err (Res K V)) → Prop
  | [], os => os = []
  | op :: ops, os => ∃ o os', os = o :: os' ∧
      (∃ r, Answer lt m op r ∧ o = (match r with | some x => .ok x | none => .error .keyError)) ∧
      Answers (effect lt m op) ops os'

end
end Verif.SortedDict.Spec
