import Verif.Conv.Types
/-
How a Python value becomes a value of a declared type: /repo/typed_python/PyInstance.cpp `copyConstructFromPythonInstance` and
`pyValCouldBeOfType` with the methods they dispatch to (PyNoneInstance.hpp, PyRegisterTypeInstance.hpp, PyStringInstance.hpp,
PyBytesInstance.hpp, PyValueInstance.hpp, PyTupleOrListOfInstance.cpp, PyCompositeTypeInstance.cpp, PyOneOfInstance.hpp), and how a
stored value is given back to Python: `extractPythonObject`.

Simplifications: a conversion that raises is `none`, whatever it raises.  Numpy arrays and scalars, references (`RefTo`), classes,
alternatives, dictionaries, sets, subclasses of typed_python types and arbitrary Python objects as types are not modelled.  Two
types are the same type when they are equal (Type.hpp:601-615 also compares identity hashes, see C92).  An integer too large for a
double is converted to whatever `double` makes of it (the code stores -1.0 and leaves an exception pending).  Iterating does not
change the object iterated over, and ends.
-/
namespace Verif.Conv

/-! ### Machine numbers -/

/-- RegisterTypes.hpp:179-183. -/
def Reg.isFloat : Reg → Bool
  | .f32 | .f64 => true
  | _ => false

/-- RegisterTypes.hpp:130-137. -/
def Reg.isUnsigned : Reg → Bool
  | .u64 | .u32 | .u16 | .u8 | .bool => true
  | _ => false

/-- RegisterTypes.hpp:143-157. -/
def Reg.bits : Reg → Nat
  | .bool => 1
  | .i8 | .u8 => 8
  | .i16 | .u16 => 16
  | .i32 | .u32 | .f32 => 32
  | .i64 | .u64 | .f64 => 64

/-- RegisterTypes.hpp:97-124 `isValidUpcast_`. -/
def isValidUpcast (src dst : Reg) : Bool :=
  if src = .bool then true
  else if src.isFloat && !dst.isFloat then false
  else if src.bits > dst.bits then false
  else if dst.isFloat then true
  else if !dst.isUnsigned && dst.bits > src.bits then true
  else if dst.isUnsigned ≠ src.isUnsigned then false
  else true

/-- RegisterTypes.hpp:70-84 `isValidConversion`. -/
def isValidConversion (src dst : Reg) (l : Level) : Bool :=
  if .implicit ≤ l then true
  else if src = dst then true
  else if .upcast ≤ l ∧ isValidUpcast src dst = true then true
  else false

/-- What an integer becomes in a variable of the given width. -/
def wrap (bits : Nat) (signed : Bool) (n : Int) : Int :=
  if signed then (n + 2 ^ (bits - 1)) % 2 ^ bits - 2 ^ (bits - 1) else n % 2 ^ bits

/-- The conversion of the C++ assignment `((T*)tgt)[0] = x`. -/
def cast (e : Env) : Reg → Num → Num
  | .bool, .int n => .int (if n = 0 then 0 else 1)
  | .bool, .flt x => .int (if e.nonzero x then 1 else 0)
  | .f32, .int n => .flt (e.single n)
  | .f64, .int n => .flt (e.double n)
  | .f32, .flt x => .flt (e.narrow x)
  | .f64, .flt x => .flt x
  | r, .int n => .int (wrap r.bits (!r.isUnsigned) n)
  | r, .flt x => .int (wrap r.bits (!r.isUnsigned) (e.trunc x))

/-- The integers of 64 bits. -/
def inInt64 (n : Int) : Bool := -2 ^ 63 ≤ n && n < 2 ^ 63

/-- PyRegisterTypeInstance.hpp:588-603: `PyLong_AsLongLong`, and the low 64 bits of what does not fit. -/
def longBits (n : Int) : Int := if inInt64 n then n else n % 2 ^ 64

/-- PyRegisterTypeInstance.hpp:583-604: an integer of Python for a machine type. -/
def fromInt (e : Env) (r : Reg) (n : Int) : Num :=
  if r.isFloat then cast e r (.flt (e.double n)) else cast e r (.int (longBits n))

/-- PyRegisterTypeInstance.hpp:504-606 for the machine number `n` of type `src`, and the explicit conversions 608-665. -/
def convReg (e : Env) (r : Reg) (v : Py) (l : Level) : Option Data :=
  let explicit : Option Data :=
    if .new ≤ l then
      if r = .bool then (e.truth v).map fun b => .num (.int (if b then 1 else 0))
      else if r.isFloat then (e.float v).map fun x => .num (cast e r (.flt x))
      else (e.long v).map fun n => .num (cast e r (.int (longBits n)))
    else none
  match v with
  | .inst (.reg src) (.num n) => if isValidConversion src r l then some (.num (cast e r n)) else explicit
  | .bool b => if isValidConversion .bool r l then some (.num (cast e r (.int (if b then 1 else 0)))) else explicit
  | .float x => if isValidConversion .f64 r l then some (.num (cast e r (.flt x))) else explicit
  | .int n => if isValidConversion .i64 r l then some (.num (fromInt e r n)) else explicit
  | _ => explicit

/-- PyRegisterTypeInstance.hpp:670-699 `pyValCouldBeOfTypeConcrete` below the level of explicit conversions.  The categories of
objects that are not numbers have -1 bits (RegisterTypes.hpp:155). -/
def regCouldBe (r : Reg) (v : Py) (l : Level) : Bool :=
  match v with
  | .float _ => isValidConversion .f64 r l
  | .int _ => isValidConversion .i64 r l
  | .bool _ => isValidConversion .bool r l
  | .inst (.reg src) _ => isValidConversion src r l
  | .inst _ _ => decide (.implicit ≤ l) || (decide (.upcast ≤ l) && !r.isUnsigned)
  | _ => false

/-! ### Constants -/

/-- PromotesTo.hpp:27-150. -/
def promotesTo (a b : Reg) : Reg :=
  if a = .bool then b
  else if b = .bool then a
  else if a.isFloat || b.isFloat then if a.bits = 64 || b.bits = 64 then .f64 else .f32
  else
    let n := max a.bits b.bits
    if a.isUnsigned && b.isUnsigned then
      if n = 8 then .u8 else if n = 16 then .u16 else if n = 32 then .u32 else .u64
    else if n = 8 then .i8 else if n = 16 then .i16 else if n = 32 then .i32 else .i64

/-- `==` of two numbers of the same machine type. -/
def sameNum (e : Env) : Num → Num → Bool
  | .int a, .int b => a = b
  | .flt a, .flt b => e.feq a b
  | _, _ => false

/-- PyRegisterTypeInstance.hpp:872-876 `pyCompare` with `Py_EQ`. -/
def eqNum (e : Env) (ra : Reg) (a : Num) (rb : Reg) (b : Num) : Bool :=
  sameNum e (cast e (promotesTo ra rb) a) (cast e (promotesTo ra rb) b)

/-- PyRegisterTypeInstance.hpp:896-915: which objects are compared at all when the types have to match.  `PyLong_Check` accepts
booleans. -/
def exactNum (r : Reg) (v : Py) : Bool :=
  match r, v with
  | .bool, .bool _ => true
  | .i64, .int _ => true
  | .i64, .bool _ => true
  | .f64, .float _ => true
  | .bool, _ | .i64, _ | .f64, _ => false
  | r, .inst (.reg r') _ => r = r'
  | _, _ => false

/-- PyRegisterTypeInstance.hpp:918-955 with `Py_EQ`. -/
def eqNumPy (e : Env) (r : Reg) (n : Num) (v : Py) : Bool :=
  match v with
  | .bool b => eqNum e r n .bool (.int (if b then 1 else 0))
  | .int m => if inInt64 m then eqNum e r n .i64 (.int m) else eqNum e r n .u64 (.int (m % 2 ^ 64))
  | .float x => eqNum e r n .f64 (.flt x)
  | .inst (.reg r') (.num m) => eqNum e r n r' m
  | _ => false

/-- PyInstance.cpp:1393-1423 `compare_to_python` of a constant with `Py_EQ`: 1407-1409 for an object of the same type,
RegisterTypes.hpp:223-232; PyRegisterTypeInstance.hpp:885-956; PyStringInstance.hpp:82-121; PyBytesInstance.hpp:93-114. -/
def constEq (e : Env) (c : Const) (v : Py) (exact : Bool) : Bool :=
  match c with
  | .num r n => if exact && !exactNum r v then false else eqNumPy e r n v
  | .str s => match v with
    | .str s' => s = s'
    | _ => false
  | .bytes b => match v with
    | .bytes b' => b = b'
    | _ => false

/-! ### Giving stored values back to Python -/

/-- PyRegisterTypeInstance.hpp:728-739 and PyInstance.cpp:302-306. -/
def numToPy (r : Reg) (n : Num) : Py :=
  match r, n with
  | .i64, .int n => .int n
  | .f64, .flt x => .float x
  | .bool, .int n => .bool (n ≠ 0)
  | r, n => .inst (.reg r) (.num n)

/-- PyValueInstance.hpp:75-77. -/
def constToPy : Const → Py
  | .num r n => numToPy r n
  | .str s => .str s
  | .bytes b => .bytes b

mutual
/-- PyInstance.cpp:264-308 `extractPythonObject`: PyNoneInstance.hpp:37-39, PyRegisterTypeInstance.hpp:728-739,
PyStringInstance.hpp:70-80, PyBytesInstance.hpp:86-91, PyValueInstance.hpp:75-77, PyOneOfInstance.hpp:66-69; everything else becomes
an object of its type. -/
def extract : Ty → Data → Py
  | .none, _ => .none
  | .reg r, .num n => numToPy r n
  | .str, .str s => .str s
  | .bytes, .bytes b => .bytes b
  | .value c, _ => constToPy c
  | .oneOf ts, .tag k d => extractAt ts k d
  | t, d => .inst t d
/-- PyOneOfInstance.hpp:67-68: the alternative that is stored. -/
def extractAt : List Ty → Nat → Data → Py
  | [], _, _ => .none
  | t :: _, 0, d => extract t d
  | _ :: ts, k + 1, d => extractAt ts k d
end

/-! ### Objects as sequences -/

/-- PyTupleOrListOfInstance.cpp:322-333, PyCompositeTypeInstance.cpp:61-72: tuples and lists, typed or not. -/
def isSequence : Py → Bool
  | .tuple _ | .list _ => true
  | .inst (.tupleOf _) _ | .inst (.listOf _) _ | .inst (.tuple _) _ | .inst (.named _ _) _ => true
  | _ => false

/-- What `iter(v)` yields, when `v` is iterable. -/
def items : Py → Option (List Py)
  | .tuple xs | .list xs | .iter _ xs => some xs
  | .dict ks _ => some ks
  | .str s => some (s.map fun c => .str [c])
  | .bytes b => some (b.map fun c : Nat => .int (c : Int))
  | .inst (.tupleOf t) (.seq ds) | .inst (.listOf t) (.seq ds) => some (ds.map (extract t))
  | .inst (.tuple ts) (.seq ds) | .inst (.named _ ts) (.seq ds) => some (List.zipWith extract ts ds)
  | _ => none

/-- `len(v)`, when `v` has a length. -/
def length : Py → Option Nat
  | .iter false _ => none
  | v => (items v).map List.length

/-- CompositeType.hpp:200-207 `indexOfName`, and the type and data of the field. -/
def fieldOf : List String → List Ty → List Data → String → Option Py
  | n :: ns, t :: ts, d :: ds, name => if n = name then some (extract t d) else fieldOf ns ts ds name
  | _, _, _, _ => none

/-- The code points of a name. -/
def points (s : String) : List Nat := s.toList.map Char.toNat

/-- PyDict_GetItemString: the value of a key. -/
def dictGet : List Py → List Py → String → Option Py
  | .str s :: ks, v :: vs, name => if s = points name then some v else dictGet ks vs name
  | _ :: ks, _ :: vs, name => dictGet ks vs name
  | _, _, _ => none

/-- PyCompositeTypeInstance.cpp:354-369: every key is the name of a field. -/
def keysAreNames (names : List String) : List Py → Bool
  | [] => true
  | .str s :: ks => names.any (fun n => points n = s) && keysAreNames names ks
  | _ :: _ => false

/-! ### Default values -/

/-- The default value of a machine type: RegisterTypes.hpp:242-244. -/
def zero (r : Reg) : Num := if r.isFloat then .flt 0 else .int 0

mutual
/-- The `constructor` without arguments of the types that have one: OneOfType.cpp:120-133, CompositeType.cpp:132-142 and
40-54, RegisterTypes.hpp:242-244. -/
def dflt : Ty → Option Data
  | .none => some .unit
  | .reg r => some (.num (zero r))
  | .str => some (.str [])
  | .bytes => some (.bytes [])
  | .value _ => some .unit
  | .tupleOf _ | .listOf _ => some (.seq [])
  | .tuple ts | .named _ ts => (dfltAll ts).map .seq
  | .oneOf ts => dfltAny 0 ts
/-- CompositeType.cpp:139-141. -/
def dfltAll : List Ty → Option (List Data)
  | [] => some []
  | t :: ts => (dflt t).bind fun d => (dfltAll ts).map (d :: ·)
/-- OneOfType.cpp:126-132: the first alternative that has a default. -/
def dfltAny (k : Nat) : List Ty → Option Data
  | [] => none
  | t :: ts => match dflt t with
    | some d => some (.tag k d)
    | none => dfltAny (k + 1) ts
end

/-! ### Conversion -/

/-- The methods `pyValCouldBeOfTypeConcrete`, at the levels below `new` at which `OneOf` asks: PyNoneInstance.hpp:33-35,
PyRegisterTypeInstance.hpp:670-699, PyStringInstance.hpp:67, PyBytesInstance.hpp:83, PyValueInstance.hpp:67-72,
PyTupleOrListOfInstance.cpp:31-66, PyCompositeTypeInstance.hpp:39-41, PyOneOfInstance.hpp:62-64. -/
def couldBeTo (e : Env) (t : Ty) (v : Py) (l : Level) : Bool :=
  match t with
  | .none => match v with
    | .none => true
    | _ => false
  | .reg r => regCouldBe r v l
  | .str => match v with
    | .str _ => true
    | _ => false
  | .bytes => match v with
    | .bytes _ => true
    | _ => false
  | .value c => constEq e c v (!decide (.new ≤ l))
  | .listOf _ => .implicitContainers ≤ l
  | .tupleOf _ =>
    if l = .signature then false
    else if l = .upcast then false
    else if .implicitContainers ≤ l then true
    else isSequence v
  | .tuple _ | .named _ _ | .oneOf _ => true

/-- PyInstance.cpp:125-143 `pyValCouldBeOfType`. -/
def couldBe (e : Env) (t : Ty) (v : Py) (l : Level) : Bool :=
  match v with
  | .inst t' d => if t' = t then true else couldBeTo e t (.inst t' d) l
  | v => couldBeTo e t v l

/-- PyTupleOrListOfInstance.cpp:295-316: the level for the elements; nothing when the conversion is refused. -/
def seqChild (isList : Bool) (v : Py) (l : Level) : Option Level :=
  if l < .implicitContainers then
    if isList then none
    else if l = .upcast then none
    else if l = .signature then none
    else if !isSequence v then none
    else if l = .upcastContainers then some .upcastContainers
    else some .implicitContainers
  else some .implicitContainers

/-- PyCompositeTypeInstance.cpp:39-78. -/
def compChild (v : Py) (l : Level) : Option Level :=
  if l < .upcast then none
  else if l < .new ∧ isSequence v = false then none
  else some (if l = .new then .implicitContainers
    else if l = .upcastContainers then .upcastContainers
    else if l = .upcast then .upcast
    else .implicit)

/-- PyBytesInstance.hpp:25-75; 31-41 is the short way for lists of bytes, which 47 would convert to the same. -/
def convBytes (e : Env) (v : Py) (l : Level) : Option Data :=
  match v with
  | .bytes b => some (.bytes b)
  | v => if .new ≤ l then (e.bytes v).map .bytes else none

/-- PyStringInstance.hpp:25-60; `str` of text is the text. -/
def convStr (e : Env) (v : Py) (l : Level) : Option Data :=
  match v with
  | .str s => some (.str s)
  | v => if .new ≤ l then (e.str v).map .str else none

/-- PyOneOfInstance.hpp:45-51. -/
def oneOfLevels : List Level := [.signature, .upcast, .upcastContainers, .implicit, .implicitContainers]

/-- PyTupleOrListOfInstance.cpp:341-352: bytes for a list or tuple of bytes. -/
def rawBytes (t : Ty) (v : Py) : Option Data :=
  match t, v with
  | .reg .u8, .bytes b => some (.seq (b.map fun n : Nat => .num (.int (n : Int))))
  | _, _ => none

/-- PyInstance.cpp:146-187 `copyConstructFromPythonInstance`: an object of the type is copied, anything else is left to the method of
the type, whose result is `rest`. -/
def copyOr (t : Ty) (v : Py) (rest : Option Data) : Option Data :=
  match v with
  | .inst t' d => if t' = t then some d else rest
  | _ => rest

mutual
/-- The methods `copyConstructFromPythonInstanceConcrete`: PyNoneInstance.hpp:25-31, PyRegisterTypeInstance.hpp:497-668,
PyStringInstance.hpp:25-60, PyBytesInstance.hpp:25-75, PyValueInstance.hpp:42-58, PyTupleOrListOfInstance.cpp:224-378,
PyCompositeTypeInstance.cpp:38-186 and 323-342, PyOneOfInstance.hpp:25-60. -/
def convTo (e : Env) (t : Ty) (v : Py) (l : Level) : Option Data :=
  match t with
  | .none => match v with
    | .none => some .unit
    | _ => none
  | .reg r => convReg e r v l
  | .str => convStr e v l
  | .bytes => convBytes e v l
  | .value c => if constEq e c v (!decide (.new ≤ l)) then some .unit else none
  | .tupleOf t => match seqChild false v l with
    | none => none
    | some child => match rawBytes t v with
      | some d => some d
      | none => match items v with
        | none => none
        | some xs => (xs.mapM fun x => copyOr t x (convTo e t x child)).map .seq
  | .listOf t => match seqChild true v l with
    | none => none
    | some child => match rawBytes t v with
      | some d => some d
      | none => match items v with
        | none => none
        | some xs => (xs.mapM fun x => copyOr t x (convTo e t x child)).map .seq
  | .tuple ts => match compChild v l with
    | none => none
    | some child => match length v, items v with
      | some n, some xs => if n = ts.length then (convZip e ts xs child).map .seq else none
      | _, _ => none
  | .named ns ts => match v with
    | .dict ks vs =>
      if .upcastContainers ≤ l then
        if keysAreNames ns ks then
          (convFields e ns ts (dictGet ks vs) (if .implicitContainers ≤ l then .implicitContainers else l)).map .seq
        else none
      else none
    | .inst (.named ns' ts') (.seq ds) => match compChild v l with
      | none => none
      | some child =>
        if ns'.all (fun n => ns.contains n) then (convFields e ns ts (fieldOf ns' ts' ds) child).map .seq else none
    | v => match compChild v l with
      | none => none
      | some child => match length v, items v with
        | some n, some xs => if n = ts.length then (convZip e ts xs child).map .seq else none
        | _, _ => none
  | .oneOf ts => (oneOfLevels.filter (· ≤ l)).findSome? fun s => convAny e ts v s 0
termination_by structural t
/-- PyCompositeTypeInstance.cpp:161-176: field by field. -/
def convZip (e : Env) (ts : List Ty) (xs : List Py) (l : Level) : Option (List Data) :=
  match ts, xs with
  | t :: ts, x :: xs => (copyOr t x (convTo e t x l)).bind fun d => (convZip e ts xs l).map (d :: ·)
  | [], [] => some []
  | _, _ => none
termination_by structural ts
/-- PyCompositeTypeInstance.cpp:99-135 and 371-407: fields by name, with the default for those that are missing. -/
def convFields (e : Env) (ns : List String) (ts : List Ty) (get : String → Option Py) (l : Level) : Option (List Data) :=
  match ts with
  | [] => some []
  | t :: ts =>
    let d := match get (ns.headD "") with
      | some x => copyOr t x (convTo e t x l)
      | none => dflt t
    d.bind fun d => (convFields e ns.tail ts get l).map (d :: ·)
termination_by structural ts
/-- PyOneOfInstance.hpp:26-43 `tryToConvert`: the first alternative that accepts the value at this level.  `k` is the index of the
first of `ts`. -/
def convAny (e : Env) (ts : List Ty) (v : Py) (l : Level) (k : Nat) : Option Data :=
  match ts with
  | [] => none
  | t :: ts =>
    if couldBe e t v l then
      match copyOr t v (convTo e t v l) with
      | some d => some (.tag k d)
      | none => convAny e ts v l (k + 1)
    else convAny e ts v l (k + 1)
termination_by structural ts
end

/-- PyInstance.cpp:146-187 `copyConstructFromPythonInstance`. -/
def conv (e : Env) (t : Ty) (v : Py) (l : Level) : Option Data := copyOr t v (convTo e t v l)

end Verif.Conv
