import Verif.HashTable.SetModel
import Verif.HashTable.Spec

/-!
# What set methods mean

A set is a predicate on keys; a store gives the value of every set object.
-/

namespace Verif.HashTable.Spec
open Verif.HashTable

variable {K : Type} (ko : KeyOps K)

abbrev Store (K : Type) := Nat → K → Prop

/-- Membership in an argument. -/
def inArg (S : Store K) (x : K) : Arg K → Prop
  | .set j => S j x
  | .iter l => ∃ y ∈ l, ko.eq x y = true

/-- `l` lists the set without repetition. -/
def Lists (P : K → Prop) (l : List K) : Prop :=
  l.Pairwise (fun a b => ko.eq a b = false) ∧ ∀ x, P x ↔ ∃ y ∈ l, ko.eq x y = true

/-- Object `d` becomes `P`; the others stay. -/
def Becomes (S S' : Store K) (d : Nat) (P : K → Prop) : Prop :=
  ∀ j x, S' j x ↔ if j = d then P x else S j x

/-- Nothing changes. -/
def Same (S S' : Store K) : Prop := ∀ j x, S' j x ↔ S j x

/-- The relation tested by a comparison. -/
def rel (P Q : K → Prop) : Rel → Prop
  | .eq => ∀ x, P x ↔ Q x
  | .ne => ¬∀ x, P x ↔ Q x
  | .le => ∀ x, P x → Q x
  | .lt => (∀ x, P x → Q x) ∧ ¬∀ x, Q x → P x
  | .ge => ∀ x, Q x → P x
  | .gt => (∀ x, Q x → P x) ∧ ¬∀ x, P x → Q x

/-- The answer is a truth value. -/
def Says (S S' : Store K) (r : Except Err (SRes K)) (P : Prop) : Prop :=
  Same S S' ∧ ∃ b, r = .ok (.bool b) ∧ (b = true ↔ P)

/-- What a call on store `S` answers and leaves. -/
def post (S : Store K) (op : SOp K) (r : Except Err (SRes K)) (S' : Store K) : Prop :=
  match op with
  | .add i k => r = .ok .unit ∧ Becomes S S' i (fun x => S i x ∨ ko.eq x k = true)
  | .discard i k => r = .ok .unit ∧ Becomes S S' i (fun x => S i x ∧ ¬ko.eq x k = true)
  | .remove i k =>
    (S i k ∧ r = .ok .unit ∧ Becomes S S' i (fun x => S i x ∧ ¬ko.eq x k = true)) ∨
    (¬S i k ∧ r = .error .keyError ∧ Same S S')
  | .pop i =>
    (∃ k, S i k ∧ r = .ok (.key k) ∧ Becomes S S' i (fun x => S i x ∧ ¬ko.eq x k = true)) ∨
    ((∀ x, ¬S i x) ∧ r = .error .keyError ∧ Same S S')
  | .clear i => r = .ok .unit ∧ Becomes S S' i (fun _ => False)
  | .contains i k => Says S S' r (S i k)
  | .len i => Same S S' ∧ ∃ l, Lists ko (S i) l ∧ r = .ok (.int l.length)
  | .items i => Same S S' ∧ ∃ l, Lists ko (S i) l ∧ r = .ok (.keys l)
  | .copy d i => r = .ok .unit ∧ Becomes S S' d (S i)
  | .make d l => r = .ok .unit ∧ Becomes S S' d (fun x => ∃ y ∈ l, ko.eq x y = true)
  | .union d i args => r = .ok .unit ∧ Becomes S S' d (fun x => S i x ∨ ∃ a ∈ args, inArg ko S x a)
  | .update i args => r = .ok .unit ∧ Becomes S S' i (fun x => S i x ∨ ∃ a ∈ args, inArg ko S x a)
  | .inter d i args => r = .ok .unit ∧ Becomes S S' d (fun x => S i x ∧ ∀ a ∈ args, inArg ko S x a)
  | .interUpdate i args => r = .ok .unit ∧ Becomes S S' i (fun x => S i x ∧ ∀ a ∈ args, inArg ko S x a)
  | .diff d i args => r = .ok .unit ∧ Becomes S S' d (fun x => S i x ∧ ∀ a ∈ args, ¬inArg ko S x a)
  | .diffUpdate i args => r = .ok .unit ∧ Becomes S S' i (fun x => S i x ∧ ∀ a ∈ args, ¬inArg ko S x a)
  | .symDiff d i a =>
    r = .ok .unit ∧ Becomes S S' d (fun x => (S i x ∧ ¬inArg ko S x a) ∨ (¬S i x ∧ inArg ko S x a))
  | .symDiffUpdate i a =>
    r = .ok .unit ∧ Becomes S S' i (fun x => (S i x ∧ ¬inArg ko S x a) ∨ (¬S i x ∧ inArg ko S x a))
  | .issubset i a => Says S S' r (∀ x, S i x → inArg ko S x a)
  | .issuperset i a => Says S S' r (∀ x, inArg ko S x a → S i x)
  | .isdisjoint i a => Says S S' r (∀ x, ¬(S i x ∧ inArg ko S x a))
  | .cmp c i j => Says S S' r (rel (S i) (S j) c)

/-- A program's answers, starting from the store `S`. -/
inductive Prog : Store K → List (SOp K) → List (Except Err (SRes K)) → Prop
  | nil (S) : Prog S [] []
  | cons (S S' op r ops rs) : post ko S op r S' → Prog S' ops rs → Prog S (op :: ops) (r :: rs)

end Verif.HashTable.Spec
