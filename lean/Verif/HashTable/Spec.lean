import Verif.HashTable.Model

/-!
# What a dictionary is

An association list in insertion order.
-/

namespace Verif.HashTable.Spec
open Verif.HashTable

variable {K V : Type}

/-- What the code needs from a key type: equality is symmetric and transitive (it need not be reflexive: `nan`), equal
keys have equal hashes, and hashes are 32-bit integers.  Nothing else is assumed about hashes. -/
structure LawfulKey (ko : KeyOps K) : Prop where
  symm : ∀ a b, ko.eq a b = true → ko.eq b a = true
  trans : ∀ a b c, ko.eq a b = true → ko.eq b c = true → ko.eq a c = true
  hash : ∀ a b, ko.eq a b = true → ko.hash a = ko.hash b
  int32 : ∀ a, -2 ^ 31 ≤ ko.hash a ∧ ko.hash a < 2 ^ 31

variable (ko : KeyOps K)

/-- The value of a key. -/
def lookup (m : List (K × V)) (k : K) : Option V := (m.find? (fun e => ko.eq k e.1)).map (·.2)

/-- Assigning: overwrite the value of an existing key in place (the key object and position stay), or append. -/
def assign (m : List (K × V)) (k : K) (v : V) : List (K × V) :=
  if (lookup ko m k).isSome then m.map (fun e => if ko.eq k e.1 then (e.1, v) else e) else m ++ [(k, v)]

/-- Deleting. -/
def erase (m : List (K × V)) (k : K) : List (K × V) := m.filter (fun e => !ko.eq k e.1)

/-- The answer of a call on the dictionary `m`. -/
def answer (m : List (K × V)) : Op K V → Except Err (Res K V)
  | .getitem k => match lookup ko m k with | some v => .ok (.val v) | none => .error .keyError
  | .contains k => .ok (.bool (lookup ko m k).isSome)
  | .setitem _ _ => .ok .unit
  | .delitem k => if (lookup ko m k).isSome then .ok .unit else .error .keyError
  | .pop k => match lookup ko m k with | some v => .ok (.val v) | none => .error .keyError
  | .popD k d => .ok (.val ((lookup ko m k).getD d))
  | .get k d => .ok (.val ((lookup ko m k).getD d))
  | .setdefault k d => .ok (.val ((lookup ko m k).getD d))
  | .clear => .ok .unit
  | .len => .ok (.int m.length)
  | .items => .ok (.list m)

/-- The dictionary after a call. -/
def effect (m : List (K × V)) : Op K V → List (K × V)
  | .setitem k v => assign ko m k v
  | .delitem k => erase ko m k
  | .pop k => erase ko m k
  | .popD k _ => erase ko m k
  | .setdefault k d => if (lookup ko m k).isSome then m else m ++ [(k, d)]
  | .clear => []
  | _ => m

/-- The dictionary after a history. -/
def final (m : List (K × V)) : List (Op K V) → List (K × V)
  | [] => m
  | op :: ops => final (effect ko m op) ops

/-- The answers along a history. -/
def answers (m : List (K × V)) : List (Op K V) → List (Except Err (Res K V))
  | [] => []
  | op :: ops => answer ko m op :: answers (effect ko m op) ops

/-- The dictionary never has more than `n` entries before a call of the history. -/
def Fits (n : Nat) (m : List (K × V)) : List (Op K V) → Prop
  | [] => True
  | op :: ops => m.length ≤ n ∧ Fits n (effect ko m op) ops

end Verif.HashTable.Spec
