/-
C3 linearization as the Python documentation describes it ("The Python 2.3 Method Resolution
Order"), and what users rely on: a linearization keeps every order it is given.
-/
namespace Verif.Mro

/-- The rest of a list after the class `h` has been taken: if the list begins with `h`, its tail. -/
def dropHead (h : Nat) : List Nat → List Nat
  | [] => []
  | x :: t => if x = h then t else x :: t

/-- `h` is a good head for the lists `ls`: it is in the tail of none of them. -/
def GoodHead (h : Nat) (ls : List (List Nat)) : Prop := ∀ l ∈ ls, h ∉ l.tail

/-- `Merge ls out`: C3's merge of the lists `ls` is `out`.  Take the first of the heads, in the order
of the lists, that is in no tail; take it off the lists; go on until all lists are empty. -/
inductive Merge : List (List Nat) → List Nat → Prop
  | done {ls} : (∀ l ∈ ls, l = []) → Merge ls []
  | take {ls pre h t post out} :
      ls = pre ++ (h :: t) :: post →
      (∀ x u, x :: u ∈ pre → ¬ GoodHead x ls) →
      GoodHead h ls →
      Merge (ls.map (dropHead h)) out →
      Merge ls (h :: out)

/-- `L` is a linearization of the lists `ls`: their elements in one order, each once, that keeps the
order of every list. -/
structure Linearizes (ls : List (List Nat)) (L : List Nat) : Prop where
  nodup : L.Nodup
  mem : ∀ c, c ∈ L ↔ ∃ l ∈ ls, c ∈ l
  keeps : ∀ l ∈ ls, l.Sublist L

/-- `a` is a subclass of `b`, given the direct bases of each class: `b` is reached from `a` by going
from a class to one of its bases, any number of times. -/
inductive Sub (bases : Nat → List Nat) : Nat → Nat → Prop
  | refl (a) : Sub bases a a
  | step {a b c} : b ∈ bases a → Sub bases b c → Sub bases a c

end Verif.Mro
