import Verif.Mro.Spec
/-
`HeldClass::_computeMroSequence` (typed_python/HeldClassType.hpp:786-861) and the class hierarchy it
runs in.  A class is its number; pointers to distinct `HeldClass` objects are distinct numbers.
-/
namespace Verif.Mro

inductive Err where
  /-- "Class MRO order for ... couldn't be determined. No valid linearization exists."
  (HeldClassType.hpp:832-835) -/
  | noLinearization
deriving DecidableEq, Repr

/-- One entry of `chains` with the entry of `chainTails` of the same index
(HeldClassType.hpp:790-791).  The `std::set` is a list; only membership and erasure are used. -/
structure Chain where
  items : List Nat
  tail : List Nat
deriving DecidableEq, Repr

/-- The loop that fills `chainTails` (HeldClassType.hpp:800-804). -/
def mkChain (l : List Nat) : Chain := ⟨l, l.drop 1⟩

/-- `std::set::erase`. -/
def setErase (x : Nat) (s : List Nat) : List Nat := s.filter (fun y => y != x)

/-- `isValid` (HeldClassType.hpp:808-816). -/
def isValid (cs : List Chain) (h : Nat) : Bool := cs.all (fun c => !c.tail.contains h)

/-- The loop of `pickCls` (HeldClassType.hpp:821-829) over the chains that remain; `all` are all the
chains. -/
def pickLoop (all : List Chain) (anyPopulated : Bool) : List Chain → Except Err (Option Nat)
  | [] => if anyPopulated then .error .noLinearization else .ok none
  | c :: rest =>
    match c.items with
    | [] => pickLoop all anyPopulated rest
    | h :: _ => if isValid all h then .ok (some h) else pickLoop all true rest

/-- `pickCls` (HeldClassType.hpp:818-839); `none` is the null pointer. -/
def pickCls (cs : List Chain) : Except Err (Option Nat) := pickLoop cs false cs

/-- One step of the loop that takes the class off the chains (HeldClassType.hpp:850-859). -/
def popChain (hc : Nat) (c : Chain) : Chain :=
  match c.items with
  | [] => c
  | h :: t =>
    if h = hc then
      match t with
      | [] => ⟨[], setErase hc c.tail⟩
      | x :: _ => ⟨t, setErase x (setErase hc c.tail)⟩
    else c

/-- The main loop (HeldClassType.hpp:841-860), with the number of rounds bounded by `fuel`; `none`:
the bound was reached (`computeMro_spec` shows that this does not happen). -/
def mroLoop : Nat → List Chain → List Nat → Option (Except Err (List Nat))
  | 0, _, _ => none
  | fuel + 1, cs, mro =>
    match pickCls cs with
    | .error e => some (.error e)
    | .ok none => some (.ok mro)
    | .ok (some hc) => mroLoop fuel (cs.map (popChain hc)) (mro ++ [hc])

/-- The chains (HeldClassType.hpp:793-797). -/
def chains (mroOf : Nat → List Nat) (bases : List Nat) : List (List Nat) :=
  bases.map mroOf ++ [bases]

/-- `_computeMroSequence` (HeldClassType.hpp:786-861) of the class `this` with these bases. -/
def computeMro (mroOf : Nat → List Nat) (this : Nat) (bases : List Nat) :
    Option (Except Err (List Nat)) :=
  let cs := (chains mroOf bases).map mkChain
  mroLoop ((cs.map (fun c => c.items.length)).sum + 1) cs [this]

/-- A class: its bases (`m_bases`) and its `m_mro` (HeldClassType.hpp:788, 848). -/
structure Cls where
  bases : List Nat
  mro : List Nat
deriving DecidableEq, Repr

/-- The classes made so far, in the order in which they were made. -/
abbrev World := List Cls

/-- `getMro` (HeldClassType.hpp:1047-1049). -/
def World.mroOf (w : World) (c : Nat) : List Nat := match w[c]? with
  | some k => k.mro
  | none => []

/-- `getBases` (HeldClassType.hpp:692-694). -/
def World.basesOf (w : World) (c : Nat) : List Nat := match w[c]? with
  | some k => k.bases
  | none => []

/-- A class statement with these bases (internals.py:265-356, HeldClassType.cpp:436-520), as far as
the order is concerned: the bases are classes that exist, `Make` gives the new class its order, and
when that throws there is no new class.  The other reasons for `Make` to throw, which are final bases
and redefined members, are in `Verif.Mro.Class`. -/
def declare (w : World) (bases : List Nat) : World × Option Err :=
  if bases.all (fun b => decide (b < w.length)) then
    match computeMro w.mroOf w.length bases with
    | some (.ok mro) => (w ++ [⟨bases, mro⟩], none)
    | some (.error e) => (w, some e)
    | none => (w, none)
  else (w, none)

/-- The classes after these class statements. -/
def run (decls : List (List Nat)) : World := decls.foldl (fun w b => (declare w b).1) []

/-- `issubclass` (internals.py:358-368, HeldClassType.hpp:1033-1041): `cls in subcls.MRO`. -/
def World.isSub (w : World) (sub cls : Nat) : Bool := (w.mroOf sub).contains cls

end Verif.Mro
