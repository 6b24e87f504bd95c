import Verif.Str.Model
import Verif.Wire.Props
/-
Typed values, the heap they live in, and what it means for two of them to be the same graph: independent of the
serialized form.
-/
namespace Verif.Typed

open Verif.Wire (Reg InRange)

/-- The types whose serialization is modelled.  `tuple` is `Tuple` and `NamedTuple` (CompositeType.hpp); `alt` lists the
named tuples of an `Alternative`; `named n` is a reference to a recursive type, resolved by an environment (a `Forward`).
A type that is not part of a reference cycle is written out instead of being named. -/
inductive Ty
  | reg (r : Reg)
  | unit
  | bytes
  | str
  | tuple (fields : List Ty)
  | oneOf (choices : List Ty)
  | alt (cases : List Ty)
  | tupleOf (elt : Ty)
  | listOf (elt : Ty)
  | constDict (key value : Ty)
  | dict (key value : Ty)
  | set (key : Ty)
  | named (n : Nat)
  deriving Repr

/-- Values.  Mutable containers are references into a heap of their elements; everything else is immutable and is its
contents.  `seq` holds the fields of a tuple, the elements of a `TupleOf`, or the keys and values of a `ConstDict`
alternately; `tag` is a choice of a `OneOf` or `Alternative`.  Text is a list of code points. -/
inductive Val
  | reg (v : Int)
  | unit
  | bytes (b : List Nat)
  | str (points : List Nat)
  | seq (vs : List Val)
  | tag (i : Nat) (v : Val)
  | ref (addr : Nat)
  deriving Repr

mutual
/-- Equality of values is decidable. -/
def Val.decEq : (a b : Val) → Decidable (a = b)
  | .reg v, .reg v' => if h : v = v' then isTrue (by rw [h]) else isFalse (by simp [h])
  | .unit, .unit => isTrue rfl
  | .bytes v, .bytes v' => if h : v = v' then isTrue (by rw [h]) else isFalse (by simp [h])
  | .str v, .str v' => if h : v = v' then isTrue (by rw [h]) else isFalse (by simp [h])
  | .seq v, .seq v' => match Val.decEqAll v v' with
    | isTrue h => isTrue (by rw [h])
    | isFalse h => isFalse (by simp [h])
  | .tag i v, .tag i' v' => if hi : i = i' then
      match Val.decEq v v' with
      | isTrue h => isTrue (by rw [h, hi])
      | isFalse h => isFalse (by simp [h])
    else isFalse (by simp [hi])
  | .ref v, .ref v' => if h : v = v' then isTrue (by rw [h]) else isFalse (by simp [h])
  | .reg _, .unit | .reg _, .bytes _ | .reg _, .str _ | .reg _, .seq _ | .reg _, .tag _ _ | .reg _, .ref _ => isFalse nofun
  | .unit, .reg _ | .unit, .bytes _ | .unit, .str _ | .unit, .seq _ | .unit, .tag _ _ | .unit, .ref _ => isFalse nofun
  | .bytes _, .reg _ | .bytes _, .unit | .bytes _, .str _ | .bytes _, .seq _ | .bytes _, .tag _ _ | .bytes _, .ref _ =>
    isFalse nofun
  | .str _, .reg _ | .str _, .unit | .str _, .bytes _ | .str _, .seq _ | .str _, .tag _ _ | .str _, .ref _ => isFalse nofun
  | .seq _, .reg _ | .seq _, .unit | .seq _, .bytes _ | .seq _, .str _ | .seq _, .tag _ _ | .seq _, .ref _ => isFalse nofun
  | .tag _ _, .reg _ | .tag _ _, .unit | .tag _ _, .bytes _ | .tag _ _, .str _ | .tag _ _, .seq _ | .tag _ _, .ref _ =>
    isFalse nofun
  | .ref _, .reg _ | .ref _, .unit | .ref _, .bytes _ | .ref _, .str _ | .ref _, .seq _ | .ref _, .tag _ _ => isFalse nofun
/-- Equality of lists of values is decidable. -/
def Val.decEqAll : (a b : List Val) → Decidable (a = b)
  | [], [] => isTrue rfl
  | [], _ :: _ => isFalse nofun
  | _ :: _, [] => isFalse nofun
  | a :: as, b :: bs => match Val.decEq a b, Val.decEqAll as bs with
    | isTrue h, isTrue h' => isTrue (by rw [h, h'])
    | isFalse h, _ => isFalse (by simp [h])
    | _, isFalse h => isFalse (by simp [h])
end

instance : DecidableEq Val := Val.decEq

/-- The size of a machine type in memory (`sizeof`). -/
def regSize : Reg → Nat
  | .bool => 1
  | .uint n => n
  | .int n => n
  | .float n => n

mutual
/-- RegisterTypes.hpp 206-208, CompositeType.hpp 75-83, OneOfType.hpp 68-76, AlternativeType.hpp 321-323, Type.hpp
659-661 `isPODConcrete`, with the size in memory: CompositeType.cpp 45-48, OneOfType.cpp 111-118, AlternativeType.cpp
58-64 and 81.  Nothing for a type that is not plain data.  A recursive type contains a pointer, so it is not. -/
def podSize : Ty → Option Nat
  | .reg r => some (regSize r)
  | .unit => some 0
  | .tuple ts => podSum ts
  | .oneOf ts => match podMax ts with
    | none => none
    | some n => some (n + 1)
  | .alt ts => match podMax ts with
    | some 0 => some 1
    | _ => none
  | _ => none
/-- CompositeType.cpp 45-48. -/
def podSum : List Ty → Option Nat
  | [] => some 0
  | t :: ts => match podSize t, podSum ts with
    | some a, some b => some (a + b)
    | _, _ => none
/-- OneOfType.cpp 111-118. -/
def podMax : List Ty → Option Nat
  | [] => some 0
  | t :: ts => match podSize t, podMax ts with
    | some a, some b => some (max a b)
    | _, _ => none
end

mutual
/-- The value with every reference changed by `f`. -/
def rename (f : Nat → Nat) : Val → Val
  | .reg v => .reg v
  | .unit => .unit
  | .bytes b => .bytes b
  | .str s => .str s
  | .seq vs => .seq (renameAll f vs)
  | .tag i v => .tag i (rename f v)
  | .ref a => .ref (f a)
/-- `rename` on every value of a list. -/
def renameAll (f : Nat → Nat) : List Val → List Val
  | [] => []
  | v :: vs => rename f v :: renameAll f vs
end

mutual
/-- The references in a value. -/
def refs : Val → List Nat
  | .reg _ => []
  | .unit => []
  | .bytes _ => []
  | .str _ => []
  | .seq vs => refsAll vs
  | .tag _ v => refs v
  | .ref a => [a]
/-- The references in a list of values. -/
def refsAll : List Val → List Nat
  | [] => []
  | v :: vs => refs v ++ refsAll vs
end

/-- The objects that can be reached from a value: `heap a` is what the object at `a` contains. -/
inductive Reach (heap : Nat → List Val) (root : Val) : Nat → Prop
  | root {a} : a ∈ refs root → Reach heap root a
  | step {a b} : Reach heap root a → b ∈ refsAll (heap a) → Reach heap root b

/-- Two values with their heaps are the same graph: there is a one-to-one correspondence between the reachable objects
that takes one root to the other and the contents of each object to the contents of its image. -/
def SameGraph (heap : Nat → List Val) (v : Val) (heap' : Nat → List Val) (v' : Val) : Prop :=
  ∃ f : Nat → Nat, v' = rename f v ∧
    (∀ a, Reach heap v a → heap' (f a) = renameAll f (heap a)) ∧
    (∀ a b, Reach heap v a → Reach heap v b → f a = f b → a = b)

mutual
/-- The value with every reference replaced by a value. -/
def subst (f : Nat → Val) : Val → Val
  | .reg v => .reg v
  | .unit => .unit
  | .bytes b => .bytes b
  | .str s => .str s
  | .seq vs => .seq (substAll f vs)
  | .tag i v => .tag i (subst f v)
  | .ref a => f a
/-- `subst` on every value of a list. -/
def substAll (f : Nat → Val) : List Val → List Val
  | [] => []
  | v :: vs => subst f v :: substAll f vs
end

/-- What can be seen of a value by looking through at most `n` references: the value `==` compares. -/
def view (heap : Nat → List Val) : Nat → Val → Val
  | 0 => subst fun _ => .unit
  | n + 1 => subst fun a => .seq ((heap a).map (view heap n))

/-- What the elements of a container object are: the type of each position, or nothing for a type that is not a mutable
container. -/
def eltAt : Ty → Option (Nat → Ty)
  | .listOf t => some fun _ => t
  | .dict k v => some fun i => if i % 2 = 0 then k else v
  | .set k => some fun _ => k
  | _ => none

/-- That many elements of the type fit into memory. -/
def Fits (t : Ty) (n : Nat) : Prop := ∀ size, podSize t = some size → size * n < 2 ^ 63

/-- The value is a value of the type.  `heapTy` gives the type of each object; the objects are those in `dom`. -/
inductive HasType (env : Nat → Ty) (heapTy : Nat → Ty) (dom : List Nat) : Ty → Val → Prop
  | reg {r v} : InRange r v → HasType env heapTy dom (.reg r) (.reg v)
  | unit : HasType env heapTy dom .unit .unit
  | bytes {b} : b.length < 2 ^ 31 → (∀ x ∈ b, x < 256) → HasType env heapTy dom .bytes (.bytes b)
  | str {s} : (∀ c ∈ s, c ≤ Str.Spec.maxPoint) → (s.flatMap Str.Spec.utf8).length < 2 ^ 31 →
      HasType env heapTy dom .str (.str s)
  | tuple {ts vs} : vs.length = ts.length → ts.length < 2 ^ 31 →
      (∀ i (h : i < ts.length) (h' : i < vs.length), HasType env heapTy dom ts[i] vs[i]) →
      HasType env heapTy dom (.tuple ts) (.seq vs)
  | oneOf {ts i v} (h : i < ts.length) : i < 256 → HasType env heapTy dom ts[i] v →
      HasType env heapTy dom (.oneOf ts) (.tag i v)
  | alt {ts i v} (h : i < ts.length) : i < 256 → HasType env heapTy dom ts[i] v →
      HasType env heapTy dom (.alt ts) (.tag i v)
  | tupleOf {t vs} : vs.length < 2 ^ 31 → Fits t vs.length → (∀ i (h : i < vs.length), HasType env heapTy dom t vs[i]) →
      HasType env heapTy dom (.tupleOf t) (.seq vs)
  | constDict {k w vs} : vs.length < 2 ^ 31 → vs.length % 2 = 0 →
      (∀ i (h : i < vs.length), HasType env heapTy dom (if i % 2 = 0 then k else w) vs[i]) →
      HasType env heapTy dom (.constDict k w) (.seq vs)
  | ref {t a} : (eltAt t).isSome → a ∈ dom → heapTy a = t → HasType env heapTy dom t (.ref a)
  | named {n v} : HasType env heapTy dom (env n) v → HasType env heapTy dom (.named n) v

/-- A heap of well-typed objects: each contains elements of the right types, no more than an `int32_t` can count, and a
dictionary has as many keys as values. -/
structure HeapOk (env : Nat → Ty) (heapTy : Nat → Ty) (dom : List Nat) (heap : Nat → List Val) : Prop where
  small : ∀ a ∈ dom, (heap a).length < 2 ^ 31
  room : ∀ a ∈ dom, ∀ t, heapTy a = .listOf t → Fits t (heap a).length
  pairs : ∀ a ∈ dom, ∀ k v, heapTy a = .dict k v → (heap a).length % 2 = 0
  elts : ∀ a ∈ dom, ∀ e, eltAt (heapTy a) = some e → ∀ i (h : i < (heap a).length), HasType env heapTy dom (e i) (heap a)[i]

end Verif.Typed
