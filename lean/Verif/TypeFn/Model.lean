import Verif.Common
/-
Type functions: /repo/typed_python/type_function.py `_buildTypeFunction`, with `Forward.define` of ForwardType.hpp.

What a decorated function does is a program that may call type functions, see what they give (a type, or an exception it may catch)
and finally gives something itself.  All calls here are made by one thread; the lock (98) lets no other thread run a function.

Simplifications: a type is a tree of named constructions over forwards; two types are the same object when they are equal trees.  The
keys of dictionaries passed as arguments are strings.  Floats are whole numbers, or others that equal no integer.  The test whether a
type would contain itself is a parameter.  A function that gives something that is not a type is one that raises (`define` refuses it).
-/
namespace Verif.TypeFn

/-- A type: a forward, or something built from other types. -/
inductive Ty
  | fwd (i : Nat)
  | con (name : String) (args : List Ty)
  deriving Repr

mutual
/-- Whether two types are the same. -/
def Ty.decEq : (a b : Ty) → Decidable (a = b)
  | .fwd i, .fwd j => if h : i = j then isTrue (by rw [h]) else isFalse (by simp [h])
  | .con n as, .con m bs => if hn : n = m then match Ty.decEqAll as bs with
      | isTrue h => isTrue (by rw [h, hn])
      | isFalse h => isFalse (by simp [h])
    else isFalse (by simp [hn])
  | .fwd _, .con _ _ => isFalse nofun
  | .con _ _, .fwd _ => isFalse nofun
/-- Whether two lists of types are the same. -/
def Ty.decEqAll : (a b : List Ty) → Decidable (a = b)
  | [], [] => isTrue rfl
  | [], _ :: _ => isFalse nofun
  | _ :: _, [] => isFalse nofun
  | a :: as, b :: bs => match Ty.decEq a b, Ty.decEqAll as bs with
    | isTrue h, isTrue h' => isTrue (by rw [h, h'])
    | isFalse h, _ => isFalse (by simp [h])
    | _, isFalse h => isFalse (by simp [h])
end

instance : DecidableEq Ty := Ty.decEq

/-- An argument of a type function.  `whole` is a float without a fraction, `frac` any other float, `other` an object that type
functions do not take. -/
inductive Arg
  | none
  | ty (t : Ty)
  | int (n : Int)
  | bool (b : Bool)
  | whole (n : Int)
  | frac (bits : Nat)
  | str (s : String)
  | bytes (b : List Nat)
  | func (id : Nat)
  | tuple (items : List Arg)
  | list (items : List Arg)
  | dict (items : List (String × Arg))
  | other (id : Nat)
  deriving Repr

mutual
/-- Whether two arguments are the same. -/
def Arg.decEq : (a b : Arg) → Decidable (a = b)
  | .none, .none => isTrue rfl
  | .ty s, .ty t => if h : s = t then isTrue (by rw [h]) else isFalse (by simp [h])
  | .int s, .int t => if h : s = t then isTrue (by rw [h]) else isFalse (by simp [h])
  | .bool s, .bool t => if h : s = t then isTrue (by rw [h]) else isFalse (by simp [h])
  | .whole s, .whole t => if h : s = t then isTrue (by rw [h]) else isFalse (by simp [h])
  | .frac s, .frac t => if h : s = t then isTrue (by rw [h]) else isFalse (by simp [h])
  | .str s, .str t => if h : s = t then isTrue (by rw [h]) else isFalse (by simp [h])
  | .bytes s, .bytes t => if h : s = t then isTrue (by rw [h]) else isFalse (by simp [h])
  | .func s, .func t => if h : s = t then isTrue (by rw [h]) else isFalse (by simp [h])
  | .other s, .other t => if h : s = t then isTrue (by rw [h]) else isFalse (by simp [h])
  | .tuple s, .tuple t => match Arg.decEqAll s t with
    | isTrue h => isTrue (by rw [h])
    | isFalse h => isFalse (by simp [h])
  | .list s, .list t => match Arg.decEqAll s t with
    | isTrue h => isTrue (by rw [h])
    | isFalse h => isFalse (by simp [h])
  | .dict s, .dict t => match Arg.decEqItems s t with
    | isTrue h => isTrue (by rw [h])
    | isFalse h => isFalse (by simp [h])
  | .none, .ty _ | .none, .int _ | .none, .bool _ | .none, .whole _ | .none, .frac _ | .none, .str _ | .none, .bytes _ | .none, .func _
  | .none, .other _ | .none, .tuple _ | .none, .list _ | .none, .dict _ => isFalse nofun
  | .ty _, .none | .ty _, .int _ | .ty _, .bool _ | .ty _, .whole _ | .ty _, .frac _ | .ty _, .str _ | .ty _, .bytes _ | .ty _, .func _
  | .ty _, .other _ | .ty _, .tuple _ | .ty _, .list _ | .ty _, .dict _ => isFalse nofun
  | .int _, .none | .int _, .ty _ | .int _, .bool _ | .int _, .whole _ | .int _, .frac _ | .int _, .str _ | .int _, .bytes _ | .int _, .func _
  | .int _, .other _ | .int _, .tuple _ | .int _, .list _ | .int _, .dict _ => isFalse nofun
  | .bool _, .none | .bool _, .ty _ | .bool _, .int _ | .bool _, .whole _ | .bool _, .frac _ | .bool _, .str _ | .bool _, .bytes _
  | .bool _, .func _ | .bool _, .other _ | .bool _, .tuple _ | .bool _, .list _ | .bool _, .dict _ => isFalse nofun
  | .whole _, .none | .whole _, .ty _ | .whole _, .int _ | .whole _, .bool _ | .whole _, .frac _ | .whole _, .str _ | .whole _, .bytes _
  | .whole _, .func _ | .whole _, .other _ | .whole _, .tuple _ | .whole _, .list _ | .whole _, .dict _ => isFalse nofun
  | .frac _, .none | .frac _, .ty _ | .frac _, .int _ | .frac _, .bool _ | .frac _, .whole _ | .frac _, .str _ | .frac _, .bytes _
  | .frac _, .func _ | .frac _, .other _ | .frac _, .tuple _ | .frac _, .list _ | .frac _, .dict _ => isFalse nofun
  | .str _, .none | .str _, .ty _ | .str _, .int _ | .str _, .bool _ | .str _, .whole _ | .str _, .frac _ | .str _, .bytes _
  | .str _, .func _ | .str _, .other _ | .str _, .tuple _ | .str _, .list _ | .str _, .dict _ => isFalse nofun
  | .bytes _, .none | .bytes _, .ty _ | .bytes _, .int _ | .bytes _, .bool _ | .bytes _, .whole _ | .bytes _, .frac _ | .bytes _, .str _
  | .bytes _, .func _ | .bytes _, .other _ | .bytes _, .tuple _ | .bytes _, .list _ | .bytes _, .dict _ => isFalse nofun
  | .func _, .none | .func _, .ty _ | .func _, .int _ | .func _, .bool _ | .func _, .whole _ | .func _, .frac _ | .func _, .str _
  | .func _, .bytes _ | .func _, .other _ | .func _, .tuple _ | .func _, .list _ | .func _, .dict _ => isFalse nofun
  | .other _, .none | .other _, .ty _ | .other _, .int _ | .other _, .bool _ | .other _, .whole _ | .other _, .frac _ | .other _, .str _
  | .other _, .bytes _ | .other _, .func _ | .other _, .tuple _ | .other _, .list _ | .other _, .dict _ => isFalse nofun
  | .tuple _, .none | .tuple _, .ty _ | .tuple _, .int _ | .tuple _, .bool _ | .tuple _, .whole _ | .tuple _, .frac _ | .tuple _, .str _
  | .tuple _, .bytes _ | .tuple _, .func _ | .tuple _, .other _ | .tuple _, .list _ | .tuple _, .dict _ => isFalse nofun
  | .list _, .none | .list _, .ty _ | .list _, .int _ | .list _, .bool _ | .list _, .whole _ | .list _, .frac _ | .list _, .str _
  | .list _, .bytes _ | .list _, .func _ | .list _, .other _ | .list _, .tuple _ | .list _, .dict _ => isFalse nofun
  | .dict _, .none | .dict _, .ty _ | .dict _, .int _ | .dict _, .bool _ | .dict _, .whole _ | .dict _, .frac _ | .dict _, .str _
  | .dict _, .bytes _ | .dict _, .func _ | .dict _, .other _ | .dict _, .tuple _ | .dict _, .list _ => isFalse nofun
/-- Whether two lists of arguments are the same. -/
def Arg.decEqAll : (a b : List Arg) → Decidable (a = b)
  | [], [] => isTrue rfl
  | [], _ :: _ => isFalse nofun
  | _ :: _, [] => isFalse nofun
  | a :: as, b :: bs => match Arg.decEq a b, Arg.decEqAll as bs with
    | isTrue h, isTrue h' => isTrue (by rw [h, h'])
    | isFalse h, _ => isFalse (by simp [h])
    | _, isFalse h => isFalse (by simp [h])
/-- Whether two lists of named arguments are the same. -/
def Arg.decEqItems : (a b : List (String × Arg)) → Decidable (a = b)
  | [], [] => isTrue rfl
  | [], _ :: _ => isFalse nofun
  | _ :: _, [] => isFalse nofun
  | (k, a) :: as, (l, b) :: bs => if hk : k = l then match Arg.decEq a b, Arg.decEqItems as bs with
      | isTrue h, isTrue h' => isTrue (by rw [h, h', hk])
      | isFalse h, _ => isFalse (by simp [h])
      | _, isFalse h => isFalse (by simp [h])
    else isFalse (by simp [hk])
end

instance : DecidableEq Arg := Arg.decEq

/-! ### Arguments -/

/-- A pair put in its place. -/
def insertPair (a : String × α) : List (String × α) → List (String × α)
  | [] => [a]
  | b :: l => if a.1 < b.1 then a :: b :: l else b :: insertPair a l

/-- Python's `sorted` of pairs whose first parts are different strings. -/
def sortPairs : List (String × α) → List (String × α)
  | [] => []
  | a :: l => insertPair a (sortPairs l)

mutual
/-- type_function.py:59-81 `mapArg`; `none` is its TypeError (81). -/
def mapArg : Arg → Option Arg
  | .tuple xs => (mapArgs xs).map .tuple
  | .list xs => (mapArgs xs).map .tuple
  | .dict xs => (mapItems xs).map fun ys => .tuple ((sortPairs ys).map fun (k, v) => .tuple [.str k, v])
  | .other _ => none
  | a => some a
termination_by structural a => a
/-- type_function.py:70 and 83. -/
def mapArgs : List Arg → Option (List Arg)
  | [] => some []
  | a :: as => do some ((← mapArg a) :: (← mapArgs as))
termination_by structural as => as
/-- type_function.py:73 and 84, before sorting. -/
def mapItems : List (String × Arg) → Option (List (String × Arg))
  | [] => some []
  | (k, a) :: as => do some ((k, ← mapArg a) :: (← mapItems as))
termination_by structural as => as
end

mutual
/-- Two arguments are equal in Python, and so the same key of a dictionary, when this makes them identical: 1, 1.0 and True are
equal. -/
def canon : Arg → Arg
  | .bool b => .int (if b then 1 else 0)
  | .whole n => .int n
  | .tuple xs => .tuple (canons xs)
  | a => a
termination_by structural a => a
/-- The same of every argument in a list. -/
def canons : List Arg → List Arg
  | [] => []
  | a :: as => canon a :: canons as
termination_by structural as => as
end

/-- A call of a type function: which one, its arguments and its keyword arguments. -/
structure Call where
  fn : Nat
  args : List Arg
  kwargs : List (String × Arg)
  deriving DecidableEq

/-- type_function.py:83-86: the call with its arguments mapped and its keyword arguments sorted. -/
def normal (c : Call) : Option Call := do
  some ⟨c.fn, ← mapArgs c.args, sortPairs (← mapItems c.kwargs)⟩

/-- type_function.py:86, 88: the key as the dictionary sees it. -/
def key (c : Call) : Call := ⟨c.fn, canons c.args, c.kwargs.map fun (k, v) => (k, canon v)⟩

/-! ### Running -/

/-- What a call gives: a type, an exception that `except Exception` catches, or one it does not (KeyboardInterrupt). -/
inductive Outcome
  | ty (t : Ty)
  | raised (e : String)
  | interrupted
  deriving DecidableEq, Repr

/-- What a decorated function does. -/
inductive Prog
  | done (o : Outcome)
  | call (c : Call) (next : Outcome → Prog)

/-- What the memo holds: a type (a forward while the function runs), or an exception. -/
inductive Entry
  | ty (t : Ty)
  | raised (e : String)
  deriving DecidableEq, Repr

/-- The memo (type_function.py:45), which type was made by which call (23), the forwards that are defined and their number, and two
records for the theorems: the calls for which a function was run, and whether any function failed. -/
structure State where
  memo : Call → Option Entry
  made : Ty → Option Call
  defined : Nat → Option Ty
  forwards : Nat
  ran : List Call
  failed : Bool

/-- Nothing has been called. -/
def State.initial : State := ⟨fun _ => none, fun _ => none, fun _ => none, 0, [], false⟩

/-- ForwardType.hpp:76-82, for at most so many steps. -/
def followN (s : State) : Nat → Ty → Ty
  | 0, t => t
  | n + 1, t => match t with
    | .fwd j => match s.defined j with
      | some t' => followN s n t'
      | none => t
    | t => t

/-- ForwardType.hpp:76-82: to the end of a chain of defined forwards.  A forward is never defined to a chain ending in itself (84-86),
so a chain has no circle and is not longer than the number of forwards. -/
def follow (s : State) (t : Ty) : Ty := followN s s.forwards t

/-- ForwardType.hpp:71-116 `define`: `none` for the exceptions of 84-86 and 98-105. -/
def define (contains : State → Nat → Ty → Bool) (s : State) (i : Nat) (t : Ty) : Option State :=
  let target := follow s t
  if target = .fwd i then none
  else if contains s i target then none
  else some { s with defined := fun j => if j = i then some target else s.defined j }

/-- What is given: ForwardType.hpp's test whether a type would contain itself, and what the functions do with the arguments they get. -/
structure World where
  contains : State → Nat → Ty → Bool
  body : Nat → List Arg → List (String × Arg) → Prog

/-- type_function.py:99-108: the memo is asked; otherwise a forward is made for the call. -/
def begin_ (s : State) (k c : Call) : State :=
  { s with
    memo := fun k' => if k' = k then some (.ty (.fwd s.forwards)) else s.memo k'
    made := fun t => if t = .fwd s.forwards then some c else s.made t
    forwards := s.forwards + 1
    ran := k :: s.ran }

/-- type_function.py:123-126. -/
def fail (s : State) (k : Call) (e : String) : Outcome × State :=
  (.raised e, { s with memo := fun k' => if k' = k then some (.raised e) else s.memo k', failed := true })

/-- type_function.py:113-126: what happens with what the function gave. -/
def finish (w : World) (k c : Call) (i : Nat) (o : Outcome) (s : State) : Outcome × State :=
  match o with
  | .interrupted => (.interrupted, { s with failed := true })
  | .raised e => fail s k e
  | .ty t => match define w.contains s i t with
    | none => fail s k "define"
    | some s1 =>
      let popped : Ty → Option Call := fun t' => if t' = .fwd i then none else s1.made t'
      (.ty t, { s1 with
        made := if popped t = none then fun t' => if t' = t then some c else popped t' else popped
        memo := fun k' => if k' = k then some (.ty t) else s1.memo k' })

/-- The body of a decorated function (type_function.py:111), given what calling type functions does. -/
def exec (rec : Call → State → Option (Outcome × State)) : Prog → State → Option (Outcome × State)
  | .done o, s => some (o, s)
  | .call c next, s => match rec c s with
    | none => none
    | some (o, s1) => exec rec (next o) s1

/-- type_function.py:48-126 `_buildTypeFunction`.  `none`: deeper than the given depth (the interpreter's stack is finite). -/
def call (w : World) : Nat → Call → State → Option (Outcome × State)
  | 0, _, _ => none
  | depth + 1, c0, s =>
    match normal c0 with
    | none => some (.raised "TypeError", s)
    | some c => match s.memo (key c) with
      | some (.raised e) => some (.raised e, s)
      | some (.ty t) => some (.ty t, s)
      | none => match exec (call w depth) (w.body c.fn c.args c.kwargs) (begin_ s (key c) c) with
        | none => none
        | some (o, s2) => some (finish w (key c) c s.forwards o s2)

/-- type_function.py:26-42: the call that made a type, made again. -/
def again (w : World) (depth : Nat) (s : State) (t : Ty) : Option (Outcome × State) :=
  match s.made t with
  | none => none
  | some c => call w depth c s

end Verif.TypeFn
