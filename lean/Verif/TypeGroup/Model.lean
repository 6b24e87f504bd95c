import Mathlib.Order.Defs.LinearOrder
import Mathlib.Data.String.Basic
import Mathlib.Data.List.Sort
/-
Groups of mutually recursive types and the identity hashes built on them
(typed_python/MutuallyRecursiveTypeGroup.cpp).
-/
namespace Verif.TypeGroup

/-- What the code uses of `ShaHash` (ShaHash.hpp:24-191): `zero` is `ShaHash()`, `raw1 t` is
`ShaHash(uint64_t)`, `raw2 t1 t2` is `ShaHash(uint64_t, uint64_t)`, `sha s` is `ShaHash(std::string)`,
`add` is `operator+` and `poison` is `ShaHash::poison()`.  `add_poison` and `poison_add` are
ShaHash.hpp:180-182.  The digest itself is modelled in Verif.Sha. -/
class HashOps (H : Type) where
  zero : H
  raw1 : Nat → H
  raw2 : Nat → Nat → H
  sha : String → H
  add : H → H → H
  poison : H
  add_poison : ∀ h, add h poison = poison
  poison_add : ∀ h, add poison h = poison

open HashOps

/-- `VisitRecord` (CompilerVisibleObjectVisitor.hpp:32-136): what a walk over one object reports. -/
inductive Rec (O H : Type) where
  | hash (h : H)
  | str (s : String)
  | topo (o : O)
  | named (n : String) (o : O)
  | err (e : String)
deriving DecidableEq

/-- The object a record mentions. -/
def Rec.target {O H : Type} : Rec O H → Option O
  | .topo o => some o
  | .named _ o => some o
  | _ => none

/-- The objects and types of a process, as the compiler sees them.  `O` stands for `TypeOrPyobj`
(TypeOrPyobj.hpp:28-108).

* `walk o` is what `CompilerVisibleObjectVisitor::walk` reports on `o`
  (CompilerVisibleObjectVisitor.hpp:559-855).  It does not change: `visit` raises when it does
  (CompilerVisibleObjectVisitor.hpp:287-301).
* `const o` is the hash of `o` when it is a simple constant (CompilerVisibleObjectVisitor.hpp:460-507,
  MutuallyRecursiveTypeGroup.cpp:824-1004).  Constants are not walked
  (CompilerVisibleObjectVisitor.hpp:603-606).
* `type o` is the category and the name of `o` when it is a `Type`.
* `tpName o` is the name of `o` when it is a class, a function or an alternative
  (MutuallyRecursiveTypeGroup.cpp:304-305).
* `pyName o` is the name of `o` when it is a module, a Python type or a Python function
  (MutuallyRecursiveTypeGroup.cpp:320-353).
* `kindName o` is the name of the type `o`, or of the type of the Python object `o`
  (MutuallyRecursiveTypeGroup.cpp:382-386). -/
structure World (O H : Type) where
  walk : O → List (Rec O H)
  const : O → Option H
  type : O → Option (Nat × String)
  tpName : O → Option String
  pyName : O → Option String
  kindName : O → String
  const_leaf : ∀ o, (const o).isSome → walk o = []

variable {O H : Type} [LinearOrder O] [LinearOrder H] [HashOps H]

/-- The objects that the walk over `o` mentions, in order. -/
def World.succs (W : World O H) (o : O) : List O := (W.walk o).filterMap Rec.target

/-- A `MutuallyRecursiveTypeGroup` (MutuallyRecursiveTypeGroup.hpp:32-153): its objects by index and its
hash.  Deserializer groups and intended hashes are left out. -/
structure Grp (O H : Type) where
  members : List O
  hash : H

/-- `mTypeGroups` (MutuallyRecursiveTypeGroup.hpp:124), with the `mTypeGroup` of types, which is set at the
same time (MutuallyRecursiveTypeGroup.cpp:145-158). -/
abbrev Reg (O H : Type) := O → Option (Grp O H)

/-- The exceptions of the code below. -/
inductive Err where
  /-- "Can't create a new group for an object we're already considering" -/
  | alreadyConsidered
  /-- "Never found parent of object!" -/
  | neverFoundParent
  /-- "Somehow we have an MRTG where some of its members were found by another group, but not all?" -/
  | partlyAssigned
  /-- "Couldn't find all the topos" -/
  | notAllFound
  /-- "All reachable objects should be in this group or hashed already." -/
  | notHashed
  /-- "this should never happen" -/
  | noRoot
deriving DecidableEq

/-- `objectIsUnassigned` (MutuallyRecursiveTypeGroup.cpp:191-210). -/
def unassigned (W : World O H) (reg : Reg O H) (o : O) : Bool :=
  (reg o).isNone && (W.const o).isNone

/-- `MutuallyRecursiveTypeGroup::shaHash` (MutuallyRecursiveTypeGroup.cpp:791-803), with
`groupAndIndexFor` (MutuallyRecursiveTypeGroup.cpp:811-822).  This is also `Type::identityHash` once the
groups have been computed (Type.hpp:880-889). -/
def shaHash (W : World O H) (reg : Reg O H) (o : O) : H :=
  match W.const o, reg o with
  | some h, _ => h
  | none, none => zero
  | none, some g => add (add (raw1 2) g.hash) (raw1 (g.members.idxOf o))

/-- `Type::typesEquivalent` (Type.hpp:601-615) on types that are not null. -/
def typesEquivalent (W : World O H) (reg : Reg O H) (a b : O) : Prop :=
  a = b ∨ ((W.type a).map Prod.fst = (W.type b).map Prod.fst ∧ shaHash W reg a = shaHash W reg b)

/-! ### The root of a group -/

/-- `namedThings[k].push_back(t)` on a `std::map`, the smallest key first. -/
def insertKey {K : Type} [LinearOrder K] (k : K) (t : O) : List (K × List O) → List (K × List O)
  | [] => [(k, [t])]
  | (k', ts) :: rest =>
    if k = k' then (k', ts ++ [t]) :: rest
    else if k < k' then (k, [t]) :: (k', ts) :: rest
    else (k', ts) :: insertKey k t rest

/-- The loops that fill a map with the objects that have a key (MutuallyRecursiveTypeGroup.cpp:303-307,
319-355 and 418-420). -/
def byKey {K : Type} [LinearOrder K] (key : O → Option K) (topos : List O) : List (K × List O) :=
  topos.foldl (fun m t => match key t with | some k => insertKey k t m | none => m) []

/-- The first entry with a single object (MutuallyRecursiveTypeGroup.cpp:310-314, 358-362 and 423-427). -/
def single {K : Type} : List (K × List O) → Option O
  | [] => none
  | (_, [t]) :: _ => some t
  | _ :: rest => single rest

/-- What one record adds to the hash of an object in a pass (MutuallyRecursiveTypeGroup.cpp:390-408). -/
def passRec (W : World O H) (reg : Reg O H) (topos : List O) (cur : O → H) (newHash : H) : Rec O H → H
  | .hash h => add newHash h
  | .str s => add newHash (sha s)
  | .topo t => add newHash (if t ∈ topos then cur t else shaHash W reg t)
  | .named s t => add (add newHash (sha s)) (if t ∈ topos then cur t else shaHash W reg t)
  | .err _ => newHash

/-- One pass of the loop over hashes (MutuallyRecursiveTypeGroup.cpp:379-414). -/
def pass (W : World O H) (reg : Reg O H) (topos : List O) (cur : O → H) : O → H := fun t =>
  (W.walk t).foldl (passRec W reg topos cur) (sha (W.kindName t))

/-- The hashes after the two passes (MutuallyRecursiveTypeGroup.cpp:366-415). -/
def passes (W : World O H) (reg : Reg O H) (topos : List O) : O → H :=
  pass W reg topos (pass W reg topos (fun _ => zero))

/-- "just pick the first one. It's not stable." (MutuallyRecursiveTypeGroup.cpp:429-434). -/
def anyRoot {K : Type} : List (K × List O) → Except Err (O × Bool)
  | (_, t :: _) :: _ => .ok (t, true)
  | _ => .error .noRoot

/-- `computeRoot` (MutuallyRecursiveTypeGroup.cpp:290-435).  `topos` is a `std::set`: the objects in the
order of their addresses. -/
def computeRoot (W : World O H) (reg : Reg O H) (topos : List O) : Except Err (O × Bool) :=
  match single (byKey W.tpName topos).reverse with
  | some t => .ok (t, false)
  | none =>
    match single (byKey W.pyName topos).reverse with
    | some t => .ok (t, false)
    | none =>
      match single (byKey (fun t => some (passes W reg topos t)) topos) with
      | some t => .ok (t, false)
      | none => anyRoot (byKey (fun t => some (passes W reg topos t)) topos)

/-! ### The order and the hash of a group -/

/-- The recursive `visit` (MutuallyRecursiveTypeGroup.cpp:486-502), as the list of the objects in the order
in which they are found.  The depth is bounded by `fuel`; `visit_enough` shows that the bound used is never
reached. -/
def visit (W : World O H) (topos : List O) : Nat → List O → O → List O
  | 0, ordering, _ => ordering
  | fuel + 1, ordering, parent =>
    if parent ∉ topos ∨ parent ∈ ordering then ordering
    else (W.succs parent).foldl (visit W topos fuel) (ordering ++ [parent])

/-- `visitTopo` (MutuallyRecursiveTypeGroup.cpp:604-633): what is added to `res`. -/
def topoCode (W : World O H) (reg : Reg O H) (order : List O) (o : O) : Except Err H :=
  match W.const o with
  | some h => .ok (add (raw1 1) h)
  | none =>
    if o ∈ order then .ok (raw2 3 (order.idxOf o))
    else
      match reg o with
      | none => .error .notHashed
      | some g =>
        if o ∈ g.members then .ok (add (add (raw1 4) g.hash) (raw1 (g.members.idxOf o)))
        else .error .notHashed

/-- The callbacks of the walk in `computeTopoHash` (MutuallyRecursiveTypeGroup.cpp:638-647): what one
record adds to `res`. -/
def recCodes (W : World O H) (reg : Reg O H) (order : List O) : Rec O H → Except Err (List H)
  | .hash h => .ok [add (raw1 1) h]
  | .str s => .ok [add (raw1 2) (sha s)]
  | .topo o => (topoCode W reg order o).map (fun c => [c])
  | .named n o => (topoCode W reg order o).map (fun c => [add (raw1 5) (sha n), c])
  | .err _ => .ok []

/-- What a whole walk adds to `res`, in order. -/
def walkCodes (W : World O H) (reg : Reg O H) (order : List O) : List (Rec O H) → Except Err (List H)
  | [] => .ok []
  | r :: rs =>
    match recCodes W reg order r, walkCodes W reg order rs with
    | .ok a, .ok b => .ok (a ++ b)
    | .error e, _ => .error e
    | .ok _, .error e => .error e

/-- The start of `computeTopoHash` (MutuallyRecursiveTypeGroup.cpp:593-602). -/
def topoStart (W : World O H) (order : List O) (o : O) : H :=
  match W.type o with
  | some (cat, name) =>
    if order.length ≠ 1 then add (add zero (raw2 1 cat)) (sha name) else add zero (raw2 1 cat)
  | none => add zero (raw1 2)

/-- `computeTopoHash` (MutuallyRecursiveTypeGroup.cpp:592-651). -/
def topoHash (W : World O H) (reg : Reg O H) (order : List O) (o : O) : Except Err H :=
  (walkCodes W reg order (W.walk o)).map (fun cs => cs.foldl add (topoStart W order o))

/-- The loop over the objects of a group (MutuallyRecursiveTypeGroup.cpp:578-582). -/
def groupHash (W : World O H) (reg : Reg O H) (order : List O) : List O → H → Except Err H
  | [], whole => .ok whole
  | o :: os, whole =>
    match topoHash W reg order o with
    | .ok h => groupHash W reg order os (add whole h)
    | .error e => .error e

/-- `computeHash` (MutuallyRecursiveTypeGroup.cpp:546-590).  The check on `currentlyHashing` is left out. -/
def computeHash (W : World O H) (reg : Reg O H) (order : List O) (bad : Bool) : Except Err H :=
  if bad then .ok poison else groupHash W reg order order zero

/-- `buildCompilerRecursiveGroup` once the objects are known to be unassigned
(MutuallyRecursiveTypeGroup.cpp:472-513), and the call of `computeHash`
(MutuallyRecursiveTypeGroup.cpp:127-132). -/
def build (W : World O H) (reg : Reg O H) (topos : List O) : Except Err (Grp O H) :=
  match computeRoot W reg (topos.insertionSort (· ≤ ·)) with
  | .error e => .error e
  | .ok (root, bad) =>
    if (visit W topos (topos.length + 1) [] root).length ≠ topos.length then .error .notAllFound
    else
      match computeHash W reg (visit W topos (topos.length + 1) [] root) bad with
      | .error e => .error e
      | .ok h => .ok ⟨visit W topos (topos.length + 1) [] root, h⟩

/-- The registration of a group (MutuallyRecursiveTypeGroup.cpp:145-158): objects that have a group keep
it. -/
def install (reg : Reg O H) (g : Grp O H) : Reg O H := fun o =>
  match reg o with
  | some g' => some g'
  | none => if o ∈ g.members then some g else none

/-! ### The search for groups -/

/-- `MutuallyRecursiveTypeGroupSearch` (MutuallyRecursiveTypeGroup.cpp:655-763).  The last group comes first
in `stack`, with its outbound edges, of which the last one also comes first. -/
structure Search (O : Type) where
  inGroup : List O
  stack : List (List O × List O)

/-- `pushGroup` (MutuallyRecursiveTypeGroup.cpp:660-698). -/
def pushGroup (W : World O H) (reg : Reg O H) (s : Search O) (o : O) : Except Err (Search O) :=
  if o ∈ s.inGroup then .error .alreadyConsidered
  else .ok ⟨o :: s.inGroup, ([o], ((W.succs o).filter (unassigned W reg)).reverse) :: s.stack⟩

/-- `std::set::insert` of the elements of `b` into `a`. -/
def insertAll (a b : List O) : List O := a ++ b.filter (fun x => decide (x ∉ a))

/-- The loop that merges groups until `o` is in the last one (MutuallyRecursiveTypeGroup.cpp:731-749).  The
first two arguments are the last group and its edges.  Without a group below, the program would index
below the vector. -/
def mergeTo (o : O) : List O → List O → List (List O × List O) → Except Err (List (List O × List O))
  | g, e, rest =>
    if o ∈ g then .ok ((g, e) :: rest)
    else
      match rest with
      | [] => .error .neverFoundParent
      | (g2, e2) :: rest' => mergeTo o (insertAll g2 g) (e ++ e2) rest'

/-- One call of `ensureRecursiveTypeGroup(root)` (MutuallyRecursiveTypeGroup.cpp:766-789).  `pending` holds
the objects of a group that was found unassigned and is not installed yet; `steps` counts the steps made,
for the statement that bounds them. -/
structure Call (O : Type) where
  root : O
  search : Search O
  pending : Option (List O)
  steps : Nat

/-- The group is finished: forget its objects (MutuallyRecursiveTypeGroup.cpp:711-716). -/
def popGroup (s : Search O) (g : List O) : Search O :=
  ⟨s.inGroup.filter (fun x => decide (x ∉ g)), s.stack.tail⟩

/-- One step of a call, with what it leaves in the registry: `doOneStep`
(MutuallyRecursiveTypeGroup.cpp:706-752), in which the test of `buildCompilerRecursiveGroup`
(MutuallyRecursiveTypeGroup.cpp:446-469) and the rest of it are two steps: other threads may run in
between, because walks over objects can run Python code.  The root, the order and the hash are computed in
the step that installs the group.  There is no step when the search is over. -/
def callStep (W : World O H) (reg : Reg O H) (c : Call O) : Except Err (Reg O H × Call O) :=
  match c.pending, c.search.stack with
  | some topos, _ =>
    match build W reg topos with
    | .error e => .error e
    | .ok g => .ok (install reg g, ⟨c.root, popGroup c.search topos, none, c.steps + 1⟩)
  | none, [] => .ok (reg, c)
  | none, (g, []) :: _ =>
    if g.any (fun t => !unassigned W reg t) then
      if g.any (unassigned W reg) then .error .partlyAssigned
      else .ok (reg, ⟨c.root, popGroup c.search g, none, c.steps + 1⟩)
    else .ok (reg, ⟨c.root, c.search, some g, c.steps + 1⟩)
  | none, (g, o :: e) :: rest =>
    if unassigned W reg o then
      if o ∈ c.search.inGroup then
        match mergeTo o g e rest with
        | .error er => .error er
        | .ok stack => .ok (reg, ⟨c.root, ⟨c.search.inGroup, stack⟩, none, c.steps + 1⟩)
      else
        match pushGroup W reg ⟨c.search.inGroup, (g, e) :: rest⟩ o with
        | .error er => .error er
        | .ok s => .ok (reg, ⟨c.root, s, none, c.steps + 1⟩)
    else .ok (reg, ⟨c.root, ⟨c.search.inGroup, (g, e) :: rest⟩, none, c.steps + 1⟩)

/-! ### Threads -/

/-- A process: the registry, the calls that run (each in its own thread), the roots of the calls that
returned, and the exceptions that calls raised. -/
structure Sys (O H : Type) where
  reg : Reg O H
  calls : List (Call O)
  returned : List O
  raised : List Err

/-- A new call (MutuallyRecursiveTypeGroup.cpp:781). -/
def startCall (W : World O H) (reg : Reg O H) (root : O) : Except Err (Call O) :=
  match pushGroup W reg ⟨[], []⟩ root with
  | .error e => .error e
  | .ok s => .ok ⟨root, s, none, 0⟩

/-- What can happen next in a process: a thread calls `ensureRecursiveTypeGroup`, a call makes a step, a
call whose search is over returns (MutuallyRecursiveTypeGroup.cpp:700-704), or a call that raised ends. -/
inductive Next (W : World O H) : Sys O H → Sys O H → Prop where
  | start {s root c} : startCall W s.reg root = .ok c →
      Next W s ⟨s.reg, c :: s.calls, s.returned, s.raised⟩
  | startRaises {s root e} : startCall W s.reg root = .error e →
      Next W s ⟨s.reg, s.calls, s.returned, e :: s.raised⟩
  | step {s before c after reg' c'} : s.calls = before ++ c :: after → c.search.stack ≠ [] →
      callStep W s.reg c = .ok (reg', c') →
      Next W s ⟨reg', before ++ c' :: after, s.returned, s.raised⟩
  | raises {s before c after e} : s.calls = before ++ c :: after → c.search.stack ≠ [] →
      callStep W s.reg c = .error e →
      Next W s ⟨s.reg, before ++ after, s.returned, e :: s.raised⟩
  | returns {s before c after} : s.calls = before ++ c :: after → c.search.stack = [] →
      Next W s ⟨s.reg, before ++ after, c.root :: s.returned, s.raised⟩

/-- The states of a process: nothing is registered at the start. -/
inductive Reachable (W : World O H) : Sys O H → Prop where
  | init : Reachable W ⟨fun _ => none, [], [], []⟩
  | next {s s'} : Reachable W s → Next W s s' → Reachable W s'

end Verif.TypeGroup
