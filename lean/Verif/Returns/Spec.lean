import Verif.Returns.Model
/-
What the types of results mean: which values a type has, and what is known of a call before it happens.
-/
namespace Verif.Returns

/-- A value: an instance (number `k`) of a type with a name, or a class. -/
inductive Val where
  | inst (c k : Nat)
  | cls (c : Nat)

/-- The values of a type that is not a OneOf. -/
def OfAtom (sub : Nat → Nat → Bool) : Val → Atom → Prop
  | .inst c _, .named d => c = d ∨ sub c d = true
  | .inst c k, .value k' c' => c = c' ∧ k = k'
  | .cls c, .subclassOf d => c = d ∨ sub c d = true
  | _, _ => False

/-- The values of a type. -/
def Of (sub : Nat → Nat → Bool) (v : Val) : Ty → Prop
  | .atom a => OfAtom sub v a
  | .oneOf ts => ∃ a ∈ ts, OfAtom sub v a

/-- A subclass of a subclass is a subclass. -/
def Transitive (sub : Nat → Nat → Bool) : Prop := ∀ a b c, sub a b = true → sub b c = true → sub a c = true

/-- The pairs of types for which `trivial` is to be trusted: not two different OneOfs, and not a SubclassOf beside a type with a name. -/
def Safe : Ty → Ty → Prop
  | .oneOf as, .oneOf bs => as = bs ∨ as.length ≤ 1
  | .atom (.subclassOf _), .atom (.named _) => False
  | _, _ => True

/-- What is known of an overload is true of the call: the stated type is the known one, and a signature function states some type; a certain
match matches, and what cannot match does not. -/
structure Honest (o : Overload) : Prop where
  unspecified : o.known = .unspecified → o.stated = none
  type : ∀ t, o.known = .type t → o.stated = some t
  cannot : o.known = .cannot → o.stated ≠ none
  yes : ∀ l, o.couldMatch l = .yes → o.matched l = true
  no : ∀ l, o.couldMatch l = .no → o.matched l = false

/-- The overload says something about its result. -/
def Says (o : Overload) : Prop := o.known ≠ .unspecified

/-- Some class says what the result is, whatever the arguments are: one of its overloads matches for certain, and all of them say something. -/
def Decided : List Block → Prop
  | [] => False
  | b :: bs => ((∀ o ∈ b, Says o) ∧ ∃ o ∈ b, ∃ l, o.couldMatch l = .yes) ∨ Decided bs

/-- No overload leaves its result open, unless a class above it decides. -/
def NothingOpen : List Block → Prop
  | [] => True
  | b :: bs => ((∀ o ∈ b, Says o) ∨ Decided bs) ∧ NothingOpen bs

/-- `mergeTypeWrappers` gives a type that has the values of all its arguments. -/
def Covers (sub : Nat → Nat → Bool) (merge : List Ty → Ty) : Prop := ∀ ts t, t ∈ ts → ∀ v, Of sub v t → Of sub v (merge ts)

end Verif.Returns
