import Verif.Conv.Model
/-
How compiled code converts a value of one declared type to another, below the level of explicit conversions:
/repo/typed_python/compiler/type_wrappers/wrapper.py `convert_to_type`, `can_convert_to_type`, `convert_to_type_with_target` and
`convert_to_self_with_target`, with the methods of the wrappers of `None`, numbers, text, bytes, constants, TupleOf, ListOf, Tuple,
NamedTuple and OneOf.  The types, the data and the machine numbers are those of the interpreter's conversions, Verif.Conv.

Simplifications: classes, dictionaries, sets and Python objects are not modelled.  A value that is not a literal is converted;
literals take a way of their own (wrapper.py:568-576, `convert_to_type_constant`), see `literalTo`.  A conversion that
fails and one that raises TypeError or ValueError because it failed are both `fail`.  The names of a NamedTuple are distinct.
-/
namespace Verif.CConv

open Verif.Conv

/-- What `std::isnan` and `std::isfinite` say of a double. -/
structure Fp where
  nan : Nat → Bool
  finite : Nat → Bool

/-- What a conversion into a slot ends in: the slot initialised with data; not initialised, and the failure reported; an exception of
something called on the way; or success reported although the slot was not initialised. -/
inductive Out
  | ok (d : Data)
  | fail
  | raise
  | junk
  deriving DecidableEq, Repr

/-- What the compiler says in advance: `True`, `False` or "Maybe" (wrapper.py:447-450). -/
inductive Verdict
  | yes | no | maybe
  deriving DecidableEq, Repr

/-- wrapper.py:462-468: what the source type and the target type say. -/
def Verdict.join (toType fromType : Verdict) : Verdict :=
  if toType = .yes ∨ fromType = .yes then .yes
  else if fromType = .no ∧ toType = .no then .no
  else .maybe

/-- tuple_wrapper.py:480-497 and tuple_of_wrapper.py:630-643: what is said of all the fields together. -/
def Verdict.both : Verdict → Verdict → Verdict
  | .no, _ | _, .no => .no
  | .maybe, _ | _, .maybe => .maybe
  | .yes, .yes => .yes

/-! ### What the compiler says in advance -/

/-- The methods `_can_convert_to_type` below the level `New`: none_wrapper.py:69-73, arithmetic_wrapper.py:114-134,
string_wrapper.py:1007-1013, bytes_wrapper.py:1757-1767, value_wrapper.py:87-88, tuple_of_wrapper.py:763-773, tuple_wrapper.py:582-592,
one_of_wrapper.py:427-431.  The test for equal types is made before (wrapper.py:456-457). -/
def canTo (s t : Ty) (l : Level) : Verdict :=
  match s with
  | .reg r => match t with
    | .reg r' =>
      if !isValidConversion r r' l then .no
      else if r.isFloat && !r'.isFloat && r' ≠ .bool then .maybe
      else .yes
    | _ => .no
  | .value _ | .oneOf _ => .maybe
  | _ => .no

/-- wrapper.py:456-468 `can_convert_to_type`, given what the target type says. -/
def verdict (s t : Ty) (l : Level) (fromType : Verdict) : Verdict :=
  if s = t then .yes else (canTo s t l).join fromType

/-- tuple_wrapper.py:453-457: the type of the field of the other named tuple with this name. -/
def typeOf : List String → List Ty → String → Option Ty
  | n :: ns, t :: ts, name => if n = name then some t else typeOf ns ts name
  | _, _, _ => none

/-- tuple_of_wrapper.py:619-648, given what is said of an element of another type: other containers, tuples, what is not iterable, and
what may be. -/
def canItems (s : Ty) (f : Ty → Verdict) : Verdict :=
  match s with
  | .tupleOf v | .listOf v => if f v = .yes then .yes else .maybe
  | .tuple ss | .named _ ss => ss.foldr (fun v rest => (f v).both rest) .yes
  | .none | .reg _ => .no
  | _ => .maybe

mutual
/-- The methods `_can_convert_from_type` below the level `New`: wrapper.py:483-491 (for `None` and constants),
arithmetic_wrapper.py:136-137, string_wrapper.py:431-432, bytes_wrapper.py:1725-1729, tuple_of_wrapper.py:603-648,
tuple_wrapper.py:470-502, one_of_wrapper.py:433-440.  tuple_of_wrapper.py:613-617: the level of the elements is the same level. -/
def canFrom (t s : Ty) (l : Level) : Verdict :=
  match t with
  | .none => if s = .none then .yes else .maybe
  | .reg _ | .str | .bytes => .no
  | .value c => if s = .value c then .yes else .maybe
  | .tupleOf u =>
    if l < .upcastContainers then .no
    else canItems s fun v => verdict v u l (canFrom u v l)
  | .listOf u =>
    if l < .implicitContainers then .no
    else canItems s fun v => verdict v u l (canFrom u v l)
  | .tuple ts => match s with
    | .tuple ss | .named _ ss =>
      if l < .upcast then .no
      else if ss.length ≠ ts.length then .no
      else canZip ts ss l
    | .tupleOf _ | .listOf _ => .maybe
    | _ => .no
  | .named ns ts => match s with
    | .tuple ss =>
      if l < .upcast then .no
      else if ss.length ≠ ts.length then .no
      else canZip ts ss l
    | .named ns' ss =>
      if l < .upcast then .no
      else if ns'.all (fun n => ns.contains n) then canFields ns ts (typeOf ns' ss) l
      else .no
    | .tupleOf _ | .listOf _ => .maybe
    | _ => .no
  | .oneOf ts => if s = .oneOf ts ∨ s ∈ ts then .yes else .maybe
termination_by structural t
/-- tuple_wrapper.py:465-468 and 482-497: field by field. -/
def canZip (ts ss : List Ty) (l : Level) : Verdict :=
  match ts, ss with
  | t :: ts, s :: ss => (verdict s t l (canFrom t s l)).both (canZip ts ss l)
  | _, _ => .yes
termination_by structural ts
/-- tuple_wrapper.py:451-463 and 482-497: field by field by name; a field the other has not needs a default. -/
def canFields (ns : List String) (ts : List Ty) (get : String → Option Ty) (l : Level) : Verdict :=
  match ts with
  | [] => .yes
  | t :: ts =>
    let v := match get (ns.headD "") with
      | some s => verdict s t l (canFrom t s l)
      | none => if (dflt t).isSome then .yes else .no
    v.both (canFields ns.tail ts get l)
termination_by structural ts
end

/-- wrapper.py:437-468 `can_convert_to_type`. -/
def canConvert (s t : Ty) (l : Level) : Verdict := verdict s t l (canFrom t s l)

/-! ### Conversion -/

/-- The type of a constant. -/
def constTy : Const → Ty
  | .num r _ => .reg r
  | .str _ => .str
  | .bytes _ => .bytes

/-- The data of a constant. -/
def constData : Const → Data
  | .num _ n => .num n
  | .str s => .str s
  | .bytes b => .bytes b

mutual
/-- one_of_wrapper.py:449-476 and value_wrapper.py:90-91: a value of a OneOf is converted as a value of the alternative it holds, a
constant as the value it stands for, whatever the target. -/
def resolve : Ty → Data → Ty × Data
  | .value c, _ => (constTy c, constData c)
  | .oneOf ts, .tag k d => resolveAt ts k d
  | t, d => (t, d)
/-- one_of_wrapper.py:454-463: the alternative that is held. -/
def resolveAt : List Ty → Nat → Data → Ty × Data
  | [], _, d => (.none, d)
  | t :: _, 0, d => resolve t d
  | _ :: ts, k + 1, d => resolveAt ts k d
end

/-- arithmetic_wrapper.py:206-284 (integers), 518-563 (booleans), 666-722 (floats), below the level `New`, for a valid conversion to
another number: a float becomes an integer only when it is finite (_runtime.cpp:1811-1870), and is true when it is ordered and not
zero (native_ast_to_llvm_function_converter.py:1269-1276). -/
def numTo (e : Env) (p : Fp) (r : Reg) (n : Num) (r' : Reg) : Out :=
  match n with
  | .int _ => .ok (.num (cast e r' n))
  | .flt x =>
    if r' = .bool then .ok (.num (.int (if e.nonzero x && !p.nan x then 1 else 0)))
    else if r.isFloat && !r'.isFloat then if p.finite x then .ok (.num (cast e r' n)) else .fail
    else .ok (.num (cast e r' n))

/-- The text "None". -/
def noneText : List Nat := [78, 111, 110, 101]

/-- What is not zero is true. -/
def truth (b : Bool) : Data := .num (.int (if b then 1 else 0))

/-- What the wrapper of the source does by itself in `convert_to_type_with_target`, at any level below `New`; nothing when it leaves it
to the target: none_wrapper.py:75-84, arithmetic_wrapper.py:206-284, 518-563 and 666-722, string_wrapper.py:1035-1041,
bytes_wrapper.py:1769-1797 (the conversions of _runtime.cpp are `int(b)` and `float(b)`, see C105), tuple_of_wrapper.py:775-783,
tuple_wrapper.py:594-599. -/
def own (e : Env) (p : Fp) (s : Ty) (d : Data) (t : Ty) (l : Level) : Option Out :=
  match s, d with
  | .none, _ => match t with
    | .reg .bool => some (.ok (truth false))
    | .str => some (.ok (.str noneText))
    | _ => none
  | .reg r, .num n => match t with
    | .reg r' => if isValidConversion r r' l then some (numTo e p r n r') else none
    | _ => none
  | .str, d => match t with
    | .str => some (.ok d)
    | _ => none
  | .bytes, .bytes b => match t with
    | .reg .bool => some (.ok (truth !b.isEmpty))
    | .reg .i64 => some (match e.long (.bytes b) with
      | some n => .ok (.num (.int n))
      | none => .raise)
    | .reg .f64 => some (match e.float (.bytes b) with
      | some x => .ok (.num (.flt x))
      | none => .raise)
    | _ => none
  | .tupleOf _, .seq ds | .listOf _, .seq ds => match t with
    | .reg .bool => some (.ok (truth !ds.isEmpty))
    | _ => none
  | .tuple ss, _ | .named _ ss, _ => match t with
    | .reg .bool => some (.ok (truth !ss.isEmpty))
    | _ => none
  | _, _ => none

/-- value_wrapper.py:93-94: `==` of the constant and the value; arithmetic_wrapper.py:382-407 for numbers (both are converted to the
type the C++ code would choose, see type_promotion.py:71-109), string_wrapper.py:449-461, bytes_wrapper.py:1055-1059; values of other
types are not equal (wrapper.py:692-693). -/
def isConst (e : Env) (c : Const) (s : Ty) (d : Data) : Bool :=
  match c, s, d with
  | .num r n, .reg r', .num m => eqNum e r n r' m
  | .str a, .str, .str b => a = b
  | .bytes a, .bytes, .bytes b => a = b
  | _, _, _ => false

/-- tuple_of_wrapper.py:191: what a loop over the value yields, with its types; text yields text and bytes yield integers. -/
def elements (s : Ty) (d : Data) : Option (List (Ty × Data)) :=
  match s, d with
  | .tupleOf v, .seq ds | .listOf v, .seq ds => some (ds.map fun d => (v, d))
  | .tuple ss, .seq ds | .named _ ss, .seq ds => some (ss.zip ds)
  | .str, .str cs => some (cs.map fun c => (.str, .str [c]))
  | .bytes, .bytes b => some (b.map fun n : Nat => (.reg .i64, .num (.int n)))
  | _, _ => none

/-- The field of the other named tuple with this name: its type and its data. -/
def fieldNamed : List String → List Ty → List Data → String → Option (Ty × Data)
  | n :: ns, t :: ts, d :: ds, name => if n = name then some (t, d) else fieldNamed ns ts ds name
  | _, _, _, _ => none

/-- One conversion after another, until one does not succeed. -/
def Out.bind (o : Out) (f : Data → Out) : Out :=
  match o with
  | .ok d => f d
  | .fail => .fail
  | .raise => .raise
  | .junk => .junk

/-- tuple_of_wrapper.py:190-195: element by element into the new container; `k` makes the container of them. -/
def each {α : Type} (f : α → Out) : List α → (List Data → Out) → Out
  | [], k => k []
  | x :: xs, k => (f x).bind fun d => each f xs fun ds => k (d :: ds)

/-- tuple_of_wrapper.py:682-683, tuple_wrapper.py:506-520, one_of_wrapper.py:497-498: when the compiler said that the conversion would
succeed, success is reported whatever happened. -/
def promised (v : Verdict) (o : Out) : Out :=
  if v = .yes ∧ o = .fail then .junk else o

/-- tuple_of_wrapper.py:650-685, given the elementwise conversion. -/
def seqSelf (t s : Ty) (d : Data) (v : Verdict) (f : Ty × Data → Out) : Out :=
  if v = .no then if s = t then .ok d else .fail
  else match elements s d with
    | none => .raise
    | some xs => promised v (each f xs fun ds => .ok (.seq ds))

mutual
/-- wrapper.py:648-673 `convert_to_type_with_target`: the source wrapper, and what it leaves to the target.  The methods
`convert_to_self_with_target`: wrapper.py:675-680 (`None`, numbers, bytes), string_wrapper.py:1015-1033 (1017 copies the slot into
itself), value_wrapper.py:93-94, tuple_of_wrapper.py:650-685, tuple_wrapper.py:504-580 (in the simple case of 506-520 the fields after
one that fails are converted as well), one_of_wrapper.py:478-575. -/
def into (e : Env) (p : Fp) (t : Ty) (s : Ty) (d : Data) (l : Level) : Out :=
  match own e p (resolve s d).1 (resolve s d).2 t l with
  | some o => o
  | none => match t with
    | .none => if (resolve s d).1 = .none then .ok .unit else .fail
    | .reg r => if (resolve s d).1 = .reg r then .ok (resolve s d).2 else .fail
    | .str => if (resolve s d).1 = .str then .junk else .fail
    | .bytes => if (resolve s d).1 = .bytes then .ok (resolve s d).2 else .fail
    | .value c => if isConst e c (resolve s d).1 (resolve s d).2 then .ok .unit else .fail
    | .tupleOf u => seqSelf (.tupleOf u) (resolve s d).1 (resolve s d).2 (canFrom (.tupleOf u) (resolve s d).1 l)
        fun x => into e p u x.1 x.2 l
    | .listOf u => seqSelf (.listOf u) (resolve s d).1 (resolve s d).2 (canFrom (.listOf u) (resolve s d).1 l)
        fun x => into e p u x.1 x.2 l
    | .tuple ts => match resolve s d with
      | (.tuple ss, .seq ds) =>
        if ss.length ≠ ts.length then .fail
        else promised (canFrom (.tuple ts) (.tuple ss) l) (intoZip e p ts (ss.zip ds) l fun ds => .ok (.seq ds))
      | (.named ns' ss, .seq ds) =>
        if ss.length ≠ ts.length then .fail
        else promised (canFrom (.tuple ts) (.named ns' ss) l) (intoZip e p ts (ss.zip ds) l fun ds => .ok (.seq ds))
      | _ => .fail
    | .named ns ts => match resolve s d with
      | (.tuple ss, .seq ds) =>
        if ss.length ≠ ts.length then .fail
        else promised (canFrom (.named ns ts) (.tuple ss) l) (intoZip e p ts (ss.zip ds) l fun ds => .ok (.seq ds))
      | (.named ns' ss, .seq ds) =>
        if ns'.all (fun n => ns.contains n) then
          promised (canFrom (.named ns ts) (.named ns' ss) l)
            (intoFields e p ns ts (fieldNamed ns' ss ds) l fun ds => .ok (.seq ds))
        else .fail
      | _ => .fail
    | .oneOf ts => promised (canFrom (.oneOf ts) (resolve s d).1 l)
        (((oneOfLevels.filter (· ≤ l)).foldr
          (fun l' rest => match intoAny e p ts (resolve s d).1 (resolve s d).2 l' 0 with
            | .fail => rest
            | o => o) .fail))
termination_by structural t
/-- tuple_wrapper.py:552-576: field by field. -/
def intoZip (e : Env) (p : Fp) (ts : List Ty) (xs : List (Ty × Data)) (l : Level) (k : List Data → Out) : Out :=
  match ts, xs with
  | t :: ts, x :: xs => (into e p t x.1 x.2 l).bind fun d => intoZip e p ts xs l fun ds => k (d :: ds)
  | _, _ => k []
termination_by structural ts
/-- tuple_wrapper.py:451-463 and 552-576: field by field by name, with the default for those that are missing. -/
def intoFields (e : Env) (p : Fp) (ns : List String) (ts : List Ty) (get : String → Option (Ty × Data)) (l : Level)
    (k : List Data → Out) : Out :=
  match ts with
  | [] => k []
  | t :: ts =>
    let o := match get (ns.headD "") with
      | some x => into e p t x.1 x.2 l
      | none => match dflt t with
        | some d => .ok d
        | none => .fail
    o.bind fun d => intoFields e p ns.tail ts get l fun ds => k (d :: ds)
termination_by structural ts
/-- one_of_wrapper.py:513-562, one round: the first alternative that is the type of the value, or accepts it at this level.  `k` is the
index of the first of `ts`. -/
def intoAny (e : Env) (p : Fp) (ts : List Ty) (s : Ty) (d : Data) (l : Level) (k : Nat) : Out :=
  match ts with
  | [] => .fail
  | t :: ts =>
    if t = s then .ok (.tag k d)
    else if verdict s t l (canFrom t s l) = .no then intoAny e p ts s d l (k + 1)
    else match into e p t s d l with
      | .ok d => .ok (.tag k d)
      | .fail => intoAny e p ts s d l (k + 1)
      | o => o
termination_by structural ts
end

/-- wrapper.py:537-646 `convert_to_type` of a value that is not a literal: nothing to do for the same type; TypeError when the compiler
said no; otherwise the conversion into a new slot. -/
def convertTo (e : Env) (p : Fp) (s t : Ty) (d : Data) (l : Level) : Out :=
  if s = t then .ok d
  else if canConvert s t l = .no then .fail
  else into e p t s d l

/-- wrapper.py:568-576 and arithmetic_wrapper.py:139-152 `convert_to_type_constant`: a finite number written in the source, for another
machine type except Float32.  Line 146 asks whether the target can be converted to the type of the literal.  When it can, the target
type is called with the literal (148); otherwise the literal is converted like any value. -/
def literalTo (e : Env) (p : Fp) (r : Reg) (n : Num) (r' : Reg) (l : Level) : Out :=
  if r = r' then .ok (.num n)
  else if r' ≠ .f32 ∧ isValidConversion r' r l = true then .ok (.num (cast e r' n))
  else convertTo e p (.reg r) (.reg r') (.num n) l

end Verif.CConv
