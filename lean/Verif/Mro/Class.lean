import Verif.Mro.Model
/-
What a class statement makes: `ClassMetaclass.__new__` (typed_python/internals.py:265-356),
`HeldClass::Make` (HeldClassType.cpp:436-520), `HeldClass::initializeMRO`
(HeldClassType.hpp:891-959), the layout of instances and the lookup of attributes.

Names, objects and overloads are numbers.  A `std::map` or `dict` is a list of pairs whose keys are
distinct; the order of the keys, which decides only which of several errors is reported, is that of
insertion.
-/
namespace Verif.Mro.Obj

abbrev Name := Nat
/-- A Python object, by its identity. -/
abbrev PyObj := Nat
/-- One overload of a function. -/
abbrev Ov := Nat

/-- `map.find`. -/
def find {β : Type} (m : List (Name × β)) (n : Name) : Option β :=
  match m with
  | [] => none
  | (k, v) :: t => if k = n then some v else find t n

/-- `map[n] = v`. -/
def put {β : Type} (m : List (Name × β)) (n : Name) (v : β) : List (Name × β) :=
  match m with
  | [] => [(n, v)]
  | (k, u) :: t => if k = n then (n, v) :: t else (k, u) :: put t n v

/-- `MemberDefinition`: the name, the size of the type, the flag `nonempty`. -/
structure Mem where
  name : Name
  size : Nat
  nonempty : Bool
deriving DecidableEq, Repr

/-- The contents of a class body (internals.py:285-339): what a name is bound to. -/
inductive Elt where
  /-- `Member(T, nonempty=..)`; `obj` is the `Member` object -/
  | member (size : Nat) (nonempty : Bool) (obj : PyObj)
  | property (f : Ov)
  | classmethod (f : Ov)
  | staticmethod (f : Ov)
  /-- a function with its overloads -/
  | function (f : Ov)
  | value (obj : PyObj)
deriving DecidableEq, Repr

inductive Err where
  /-- "method can't be both a staticmethod and a classmethod" (internals.py:297, 310) -/
  | bothStaticAndClass
  /-- "Can't subclass %s because it's marked 'Final'" (HeldClassType.cpp:457-465) -/
  | finalBase
  /-- "Class %s can't redefine classmember %s" (HeldClassType.cpp:476-482) -/
  | redefinedClassMember
  /-- "Class %s can't have data members because ..." (HeldClassType.cpp:488-497) -/
  | twoBasesWithMembers
  /-- HeldClassType.hpp:832-835 -/
  | noLinearization
  /-- "Can't redefine member named " (HeldClassType.hpp:921) -/
  | redefinedMember
  /-- the bound on the rounds of the loop of `_computeMroSequence`; not reached -/
  | fuel
deriving DecidableEq, Repr

/-- The arguments of `_types.Class` (internals.py:341-351). -/
structure Body where
  members : List Mem := []
  functions : List (Name × List Ov) := []
  statics : List (Name × List Ov) := []
  properties : List (Name × List Ov) := []
  classMembers : List (Name × PyObj) := []
  classMethods : List (Name × List Ov) := []
deriving DecidableEq, Repr

/-- `memberFunctions[eltName] = ...` (internals.py:329-337): a further definition adds an overload. -/
def addOverload (m : List (Name × List Ov)) (n : Name) (f : Ov) : List (Name × List Ov) :=
  match find m n with
  | none => put m n [f]
  | some fs => put m n (fs ++ [f])

/-- One round of the loop over `namespace.order` (internals.py:285-339).  `__classcell__`, `__name__`
and `__typed_python_template__` are left out. -/
def collect1 (b : Body) (n : Name) : Elt → Except Err Body
  | .member size nonempty obj =>
    .ok { b with members := b.members ++ [⟨n, size, nonempty⟩],
                 classMembers := put b.classMembers n obj }
  | .property f => .ok { b with properties := put b.properties n [f] }
  | .classmethod f =>
    if (find b.statics n).isSome then .error .bothStaticAndClass
    else .ok { b with classMethods := addOverload b.classMethods n f }
  | .staticmethod f =>
    if (find b.classMethods n).isSome then .error .bothStaticAndClass
    else .ok { b with statics := addOverload b.statics n f }
  | .function f => .ok { b with functions := addOverload b.functions n f }
  | .value obj => .ok { b with classMembers := put b.classMembers n obj }

/-- The loop over `namespace.order` (internals.py:285-339). -/
def collect : Body → List (Name × Elt) → Except Err Body
  | b, [] => .ok b
  | b, (n, e) :: rest =>
    match collect1 b n e with
    | .error x => .error x
    | .ok b' => collect b' rest

/-- A class statement. -/
structure Stmt where
  bases : List Nat
  final : Bool := false
  body : List (Name × Elt) := []
deriving DecidableEq, Repr

/-- A `HeldClass`: what its body defines (`m_own_...`), its order, and what it has with inheritance
(`m_members`, `m_classMembers`, `m_memberFunctions`, ...). -/
structure Cls where
  bases : List Nat
  final : Bool
  own : Body
  mro : List Nat
  members : List Mem
  functions : List (Name × List Ov)
  statics : List (Name × List Ov)
  properties : List (Name × List Ov)
  classMembers : List (Name × PyObj)
  classMethods : List (Name × List Ov)
deriving DecidableEq, Repr

/-- The classes made so far. -/
abbrev World := List Cls

/-- The hierarchy without the contents. -/
def World.shape (w : World) : Mro.World := w.map (fun k => ⟨k.bases, k.mro⟩)

/-- The names `Make` lets a class define again (HeldClassType.cpp:470-474), which are
`__typed_python_template__`, `__qualname__`, `__module__` and `__classcell__`. -/
def exempt (n : Name) : Bool := decide (n < 4)

/-- The loop over the class members of the new class (HeldClassType.cpp:467-485) for one base. -/
def redefines (base : Cls) (classMembers : List (Name × PyObj)) : Bool :=
  classMembers.any (fun p => match find base.own.classMembers p.1 with
    | none => false
    | some obj => !exempt p.1 && obj != p.2)

/-- The loop over the bases (HeldClassType.cpp:452-486); the result is `withMembers.size()`. -/
def checkBases (classMembers : List (Name × PyObj)) : List Cls → Nat → Except Err Nat
  | [], count => .ok count
  | base :: rest, count =>
    let count' := if base.members = [] then count else count + 1
    if base.final then .error .finalBase
    else if redefines base classMembers then .error .redefinedClassMember
    else checkBases classMembers rest count'

/-- `HeldClass::mergeInto` (HeldClassType.hpp:1018-1031) with `Function::merge`
(FunctionType.hpp:1624-1655), which puts the overloads one after the other. -/
def mergeInto (target : List (Name × List Ov)) : List (Name × List Ov) → List (Name × List Ov)
  | [] => target
  | (n, f) :: rest =>
    mergeInto (match find target n with
      | none => put target n f
      | some g => put target n (g ++ f)) rest

/-- The loop over the class members of a base (HeldClassType.hpp:878-882). -/
def inheritClassMembers (target : List (Name × PyObj)) : List (Name × PyObj) → List (Name × PyObj)
  | [] => target
  | (n, v) :: rest =>
    inheritClassMembers (match find target n with
      | none => put target n v
      | some _ => target) rest

/-- `m_members = base->m_members` (HeldClassType.hpp:908-913): the last base with members. -/
def baseMembers (bases : List Cls) (acc : List Mem) : List Mem := match bases with
  | [] => acc
  | b :: rest => baseMembers rest (if b.members = [] then acc else b.members)

/-- The loop over the members of the class itself (HeldClassType.hpp:919-927).  `membersSoFar` is the
names of `acc`. -/
def addMembers (acc : List Mem) : List Mem → Except Err (List Mem)
  | [] => .ok acc
  | m :: rest =>
    if acc.any (fun x => x.name == m.name) then .error .redefinedMember
    else addMembers (acc ++ [m]) rest

/-- The own part of the class `i` of the order of the new class `this`, whose body is `own`. -/
def ownOf (w : World) (own : Body) (i : Nat) : Body :=
  match w[i]? with
  | some k => k.own
  | none => own

/-- `HeldClass::Make` (HeldClassType.cpp:436-520) and `initializeMRO` (HeldClassType.hpp:891-959)
without the dispatch tables. -/
def make (w : World) (bases : List Nat) (final : Bool) (own : Body) : Except Err Cls :=
  let bs := bases.filterMap (fun b => w[b]?)
  match checkBases own.classMembers bs 0 with
  | .error e => .error e
  | .ok count =>
    if count > 1 then .error .twoBasesWithMembers
    else match computeMro w.shape.mroOf w.length bases with
      | none => .error .fuel
      | some (.error _) => .error .noLinearization
      | some (.ok mro) =>
        let bodies := mro.map (ownOf w own)
        match addMembers (baseMembers bs []) own.members with
        | .error e => .error e
        | .ok members => .ok {
            bases := bases
            final := final
            own := own
            mro := mro
            members := members
            functions := bodies.foldl (fun t b => mergeInto t b.functions) []
            statics := bodies.foldl (fun t b => mergeInto t b.statics) []
            properties := bodies.foldl (fun t b => mergeInto t b.properties) []
            classMembers := bodies.foldl (fun t b => inheritClassMembers t b.classMembers) []
            classMethods := bodies.foldl (fun t b => mergeInto t b.classMethods) [] }

/-- A class statement (internals.py:265-356) in a world; a statement whose bases are not classes of
the world does nothing. -/
def exec (w : World) (s : Stmt) : World × Option Err :=
  if s.bases.all (fun b => decide (b < w.length)) then
    match collect {} s.body with
    | .error e => (w, some e)
    | .ok own => match make w s.bases s.final own with
      | .error e => (w, some e)
      | .ok k => (w ++ [k], none)
  else (w, none)

/-- The classes after these class statements. -/
def run (ss : List Stmt) : World := ss.foldl (fun w s => (exec w s).1) []

/-! ### Layout of instances -/

/-- `updateBytesOfInitBits` (HeldClassType.cpp:54-67), the same number as `ClassWrapper.__init__`
computes (class_wrapper.py:173-179); the vtable holds it (HeldClassType.hpp:946-950). -/
def initBytes (k : Cls) : Nat :=
  if k.members.any (fun m => !m.nonempty) then (k.members.length + 7) / 8 else 0

/-- The bytes of the members before member `ix`. -/
def bytesBefore (ms : List Mem) (ix : Nat) : Nat := ((ms.take ix).map Mem.size).sum

/-- `m_byte_offsets[ix]` (HeldClassType.cpp:74-79), used by the interpreter (HeldClassType.hpp:559-561). -/
def offset (k : Cls) (ix : Nat) : Nat := initBytes k + bytesBefore k.members ix

/-- `ClassWrapper.memberPtr` (class_wrapper.py:561-572) on an instance of the class `actual` that the
compiler knows as a `view`: where member `ix` of `view` is.  The offsets are those of `view`
(class_wrapper.py:181-187); the bytes of the initialization bits are looked up in the vtable of the
instance unless `view` is final (class_wrapper.py:443-458). -/
def memberPtr (view actual : Cls) (ix : Nat) : Nat :=
  (if view.final then initBytes view else initBytes actual) + bytesBefore view.members ix

/-! ### Attributes -/

/-- What an attribute of an instance is. -/
inductive Attr where
  /-- data member `ix` -/
  | member (ix : Nat)
  | method (fs : List Ov)
  | property (fs : List Ov)
  | value (obj : PyObj)
  | classMethod (fs : List Ov)
  | static (fs : List Ov)
deriving DecidableEq, Repr

/-- `getMemberIndex`. -/
def memberIndex (ms : List Mem) (n : Name) : Option Nat := ms.findIdx? (fun m => m.name == n)

/-- `PyClassInstance::tpGetattrGeneric` (PyClassInstance.cpp:538-659): `x.n` in the interpreter for an
instance of `k`.  A class without `__getattribute__` and `__getattr__`.  The last case is the type
dictionary (PyClassInstance.cpp:780-822), in which a class method replaces a static one; the names
the library adds to it are left out. -/
def getattr (k : Cls) (n : Name) : Option Attr :=
  match memberIndex k.members n with
  | some ix => some (.member ix)
  | none =>
    match find k.functions n with
    | some fs => some (.method fs)
    | none =>
      match find k.properties n with
      | some fs => some (.property fs)
      | none =>
        match find k.classMembers n with
        | some obj => some (.value obj)
        | none =>
          match find k.classMethods n with
          | some fs => some (.classMethod fs)
          | none => match find k.statics n with
            | some fs => some (.static fs)
            | none => none

/-- `ClassWrapper.convert_attribute` (class_wrapper.py:645-691) and `Wrapper.convert_attribute`
(wrapper.py:229-244): `x.n` in compiled code for an expression of type `view` and an instance of
`actual`.  Methods and properties are compiled for the class of the instance
(class_wrapper.py:727-731, 744-756, 1273-1308), so they are those of `actual`, where a method is taken
before a property and a class method before a static one; a class member is the constant of `view`; an attribute that `view` does not have is looked up by the interpreter unless `view` is
final (class_wrapper.py:686-691).  No class has `__getattr__`. -/
def getattrCompiled (view actual : Cls) (n : Name) : Option Attr :=
  match find view.functions n with
  | some _ => (find actual.functions n).map .method
  | none =>
    match find view.classMethods n with
    | some _ => (find actual.classMethods n).map .classMethod
    | none =>
      match find view.statics n with
      | some _ => match find actual.classMethods n with
        | some fs => some (.classMethod fs)
        | none => (find actual.statics n).map .static
      | none =>
        match find view.properties n with
        | some _ => match find actual.functions n with
          | some fs => some (.property fs)
          | none => (find actual.properties n).map .property
        | none =>
          match memberIndex view.members n with
          | some ix => some (.member ix)
          | none =>
            match find view.classMembers n with
            | some obj => some (.value obj)
            | none => if view.final then none else getattr actual n

/-! ### What the compiler concludes from two classes -/

inductive Could where
  | yes | no | maybe
deriving DecidableEq, Repr

/-- `_classCouldBeInstanceOf` (class_wrapper.py:117-148) for two classes other than `Class` itself:
could an instance that is known as a `c` be an instance of `d`? -/
def classCouldBeInstanceOf (w : World) (c d : Nat) : Could :=
  match w[c]?, w[d]? with
  | some kc, some kd =>
    if kc.mro.contains d then .yes
    else if kd.mro.contains c then .maybe
    else if kc.final || kd.final then .no
    else if !kc.members.isEmpty && !kd.members.isEmpty then .no
    else if kc.classMembers.any (fun p => !exempt p.1 && (match find kd.classMembers p.1 with
        | some obj => obj != p.2
        | none => false)) then .no
    else .maybe
  | _, _ => .maybe

end Verif.Mro.Obj
