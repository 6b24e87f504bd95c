import Verif.CConv.Spec
import Verif.CConv.Model
/-
When compiled code converts as the interpreter does: the pairs of types that are met on the way, and the pairs at which the two are
known to differ.
-/
namespace Verif.CConv

open Verif.Conv

/-- What the interpreter makes of a value, as an outcome. -/
def toOut : Option Data → Out
  | some d => .ok d
  | none => .fail

mutual
/-- No OneOf and no constant in the type. -/
def noChoice : Ty → Bool
  | .value _ | .oneOf _ => false
  | .tupleOf t | .listOf t => noChoice t
  | .tuple ts | .named _ ts => noChoices ts
  | _ => true
/-- No OneOf and no constant in the types. -/
def noChoices : List Ty → Bool
  | [] => true
  | t :: ts => noChoice t && noChoices ts
end

mutual
/-- There is a ListOf in the type. -/
def hasList : Ty → Bool
  | .listOf _ => true
  | .tupleOf t => hasList t
  | .tuple ts | .named _ ts | .oneOf ts => hasLists ts
  | _ => false
/-- There is a ListOf in the types. -/
def hasLists : List Ty → Bool
  | [] => false
  | t :: ts => hasList t || hasLists ts
end

/-- The type of what a loop over a container, a text or bytes yields. -/
def yields : Ty → Option Ty
  | .tupleOf v | .listOf v => some v
  | .str => some .str
  | .bytes => some (.reg .i64)
  | _ => none

/-- The type of the elements of a container that is built. -/
def eltOf : Ty → Option Ty
  | .tupleOf u | .listOf u => some u
  | _ => none

/-- The types of the fields of a tuple. -/
def fieldsOf : Ty → Option (List Ty)
  | .tuple ts | .named _ ts => some ts
  | _ => none

/-- A conversion that is attempted: the level in compiled code and the level in the interpreter, whether the compiler has been asked in
advance and did not refuse, and the types. -/
structure Pair where
  compiled : Level
  interpreted : Level
  asked : Bool
  source : Ty
  target : Ty

/-- The level at which the interpreter converts the elements of a container. -/
def elemLevel (l : Level) : Level := if l < .implicit then l else .implicitContainers

/-- The level at which the interpreter converts the fields of a tuple. -/
def fieldLevel (l : Level) : Level := if l < .implicit then l else .implicit

/-- One conversion leads to another. -/
inductive Step : Pair → Pair → Prop
  /-- a value of a OneOf is converted as the alternative it holds -/
  | alternative {l l' : Level} {g : Bool} {ss : List Ty} {a t : Ty} : a ∈ ss → Step ⟨l, l', g, .oneOf ss, t⟩ ⟨l, l', false, a, t⟩
  /-- a constant is converted as its value -/
  | constant {l l' : Level} {g : Bool} {c : Const} {t : Ty} : Step ⟨l, l', g, .value c, t⟩ ⟨l, l', false, constTy c, t⟩
  /-- a OneOf tries its alternatives, level by level -/
  | choice {l l' m : Level} {g : Bool} {s b : Ty} {ts : List Ty} : s.plain = true → b ∈ ts → m ≤ l → m ≤ l' →
      Step ⟨l, l', g, s, .oneOf ts⟩ ⟨m, m, true, s, b⟩
  | last {l l' : Level} {g : Bool} {s b : Ty} {ts : List Ty} : s.plain = true → b ∈ ts →
      Step ⟨l, l', g, s, .oneOf ts⟩ ⟨l, l', true, s, b⟩
  /-- the elements of a container -/
  | element {l l' : Level} {g : Bool} {s t v u : Ty} : yields s = some v → eltOf t = some u → .upcastContainers ≤ l →
      Step ⟨l, l', g, s, t⟩ ⟨l, elemLevel l', false, v, u⟩
  /-- the fields of a tuple, for a container -/
  | item {l l' : Level} {g : Bool} {s t v u : Ty} {ss : List Ty} : fieldsOf s = some ss → v ∈ ss → eltOf t = some u →
      .upcastContainers ≤ l → Step ⟨l, l', g, s, t⟩ ⟨l, elemLevel l', true, v, u⟩
  /-- the fields of a tuple, for a tuple -/
  | field {l l' : Level} {g : Bool} {s t v u : Ty} {ss ts : List Ty} {i : Nat} : fieldsOf s = some ss → fieldsOf t = some ts →
      ss[i]? = some v → ts[i]? = some u → .upcast ≤ l → Step ⟨l, l', g, s, t⟩ ⟨l, fieldLevel l', g, v, u⟩
  /-- the fields of a NamedTuple, for a NamedTuple -/
  | name {l l' : Level} {g : Bool} {ns ns' : List String} {ss ts : List Ty} {i : Nat} {n : String} {v u : Ty} :
      ns[i]? = some n → ts[i]? = some u → typeOf ns' ss n = some v → .upcast ≤ l →
      Step ⟨l, l', g, .named ns' ss, .named ns ts⟩ ⟨l, fieldLevel l', g, v, u⟩

/-- The conversions that are attempted on the way, the first included. -/
inductive Meets : Pair → Pair → Prop
  | here {a : Pair} : Meets a a
  | next {a b c : Pair} : Step a b → Meets b c → Meets a c

/-- The conversions at which compiled code and the interpreter are known to differ, or may differ. -/
inductive Odd : Pair → Prop
  /-- a float for an integer or a boolean: what is not finite -/
  | fraction {l l' : Level} {g : Bool} {r r' : Reg} : .implicit ≤ l → r.isFloat = true → r'.isFloat = false →
      Odd ⟨l, l', g, .reg r, .reg r'⟩
  /-- an integer for a Float32: rounded once or twice -/
  | rounded {l l' : Level} {g : Bool} : .implicit ≤ l → Odd ⟨l, l', g, .reg .i64, .reg .f32⟩
  /-- a number for a constant of another type -/
  | constant {l l' : Level} {g : Bool} {r r' : Reg} {n : Num} : r ≠ r' → ¬ (r = .bool ∧ r' = .i64) →
      Odd ⟨l, l', g, .reg r, .value (.num r' n)⟩
  /-- what compiled code converts only when the compiler has not been asked: `None` for text or a boolean, bytes for numbers, and
  containers for booleans -/
  | noneText {l l' : Level} : Odd ⟨l, l', false, .none, .str⟩
  | noneTruth {l l' : Level} : Odd ⟨l, l', false, .none, .reg .bool⟩
  | bytesNumber {l l' : Level} {r : Reg} : r = .bool ∨ r = .i64 ∨ r = .f64 → Odd ⟨l, l', false, .bytes, .reg r⟩
  | truth {l l' : Level} {s : Ty} : s.plain = true → (fieldsOf s).isSome = true ∨ (eltOf s).isSome = true →
      Odd ⟨l, l', false, s, .reg .bool⟩
  /-- text or bytes for a container, below the level at which the interpreter loops over it -/
  | text {l l' : Level} {g : Bool} {s t : Ty} : s = .str ∨ s = .bytes → (eltOf t).isSome = true → l' < .implicitContainers →
      .upcastContainers ≤ l → Odd ⟨l, l', g, s, t⟩
  /-- a container for a tuple -/
  | shape {l l' : Level} {g : Bool} {s t : Ty} : (eltOf s).isSome = true → (fieldsOf t).isSome = true → Odd ⟨l, l', g, s, t⟩
  /-- a container or tuple that holds OneOfs or constants, for the same type, when it is copied element by element -/
  | copied {l l' : Level} {g : Bool} {s : Ty} : s.plain = true → noChoice s = false → Odd ⟨l, l', g, s, s⟩
  /-- a list inside a container or tuple, for which the levels differ -/
  | list {l l' : Level} {g : Bool} {s u : Ty} : s ≠ .listOf u → l ≠ l' → Odd ⟨l, l', g, s, .listOf u⟩
  | inner {l' : Level} {g : Bool} {s t : Ty} : s ≠ t → hasList t = true → (∀ u, t ≠ .listOf u) → Odd ⟨.implicit, l', g, s, t⟩

/-- None of the conversions on the way is one of those. -/
def Usual (a : Pair) : Prop := ∀ b, Meets a b → ¬ Odd b

end Verif.CConv
