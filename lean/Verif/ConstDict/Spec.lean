import Mathlib.Order.Defs.LinearOrder
import Mathlib.Data.List.Nodup
/-
What an immutable mapping is, independently of the code: programs that build mappings and the finite map each denotes.
-/
namespace Verif.ConstDict.Spec

variable {K V : Type} [DecidableEq K]

/-- A program that builds a mapping: a literal, `a + b`, `a - keys`. -/
inductive Expr (K V : Type)
  | lit (pairs : List (K × V))
  | add (a b : Expr K V)
  | sub (a : Expr K V) (keys : List K)

/-- The value that a list of pairs gives to a key. -/
def assoc (pairs : List (K × V)) (k : K) : Option V :=
  match pairs with
  | [] => none
  | (k', v) :: rest => if k' = k then some v else assoc rest k

/-- The finite map a program denotes: `+` is right-biased union, `-` is removal. -/
def denote : Expr K V → K → Option V
  | .lit pairs, k => assoc pairs k
  | .add a b, k => (denote b k).or (denote a k)
  | .sub a keys, k => if k ∈ keys then none else denote a k

/-- All literals in the program have distinct keys, as the keys of a Python dict are. -/
def Literals : Expr K V → Prop
  | .lit pairs => (pairs.map (·.1)).Nodup
  | .add a b => Literals a ∧ Literals b
  | .sub a _ => Literals a

end Verif.ConstDict.Spec
