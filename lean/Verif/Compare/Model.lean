import Verif.Compare.Types
/-
Comparison and hash of values in the interpreter: the `cmp` and `hash` of each type.
-/
namespace Verif.Compare
open Verif.Conv (Reg)

/-- The Python comparison operators, as `Py_EQ` and so on. -/
inductive Op
  | eq | ne | lt | gt | le | ge
  deriving DecidableEq, Repr

/-- util.hpp:213-226 `cmpResultToBoolForPyOrdering`. -/
def ofSign (s : Int) : Op → Bool
  | .eq => s == 0
  | .ne => s != 0
  | .lt => s < 0
  | .gt => 0 < s
  | .le => s ≤ 0
  | .ge => 0 ≤ s

/-- Type.cpp:122-138 `byteCompare` (which skips equal words of eight bytes) followed by the comparison of lengths, BytesType.cpp:72-97
`cmpStatic`; and StringType.cpp:1409-1461 `cmpStatic`, which does the same with code points.  That the representation of a string does
not matter is C20. -/
def textSign : List Nat → List Nat → Int
  | [], [] => 0
  | [], _ :: _ => -1
  | _ :: _, [] => 1
  | x :: xs, y :: ys => if x < y then -1 else if y < x then 1 else textSign xs ys

mutual
/-- The `cmp` of each type: NoneType.hpp:51-53; RegisterTypes.hpp:223-232; StringType.cpp:1353-1361; BytesType.cpp:40-69;
TupleOrListOfType.cpp:95-157; CompositeType.cpp:74-99; OneOfType.cpp:100-109; AlternativeType.cpp:98-124.  The shortcut for two handles of
the same TupleOf or Alternative (TupleOrListOfType.cpp:112-114, AlternativeType.cpp:112-114) is left out: without NaN it gives the same
answer.  Values of different types are not compared by this function. -/
def cmp : Data → Data → Op → Bool
  | .none, .none, op => ofSign 0 op
  | .num _ a, .num _ b, op => ofSign (if a < b then -1 else if b < a then 1 else 0) op
  | .flt _ a, .flt _ b, op => ofSign (if flt a b then -1 else if flt b a then 1 else 0) op
  | .str a, .str b, op => ofSign (textSign a b) op
  | .bytes a, .bytes b, op => ofSign (textSign a b) op
  | .tupleOf _ as, .tupleOf _ bs, op =>
    if as.isEmpty && bs.isEmpty then ofSign 0 op
    else if as.isEmpty then ofSign (-1) op
    else if bs.isEmpty then ofSign 1 op
    else match op with
      | .ne => !(as.length == bs.length && !anyNe as bs)
      | .eq => as.length == bs.length && !anyNe as bs
      | op =>
        let s := firstNe as bs
        if s != 0 then ofSign s op
        else if as.length < bs.length then ofSign (-1) op
        else if bs.length < as.length then ofSign 1 op
        else ofSign 0 op
  | .tuple as, .tuple bs, op => match op with
    | .ne => !(!anyNe as bs)
    | .eq => !anyNe as bs
    | op => ofSign (firstNe as bs) op
  | .oneOf i a, .oneOf j b, op => if i < j then ofSign (-1) op else if j < i then ofSign 1 op else cmp a b op
  | .alt i a, .alt j b, op => if i < j then ofSign (-1) op else if j < i then ofSign 1 op else cmp a b op
  | _, _, _ => false
termination_by structural a => a

/-- CompositeType.cpp:80-86, TupleOrListOfType.cpp:127-134: is there an element that is not equal to its counterpart? -/
def anyNe : List Data → List Data → Bool
  | a :: as, b :: bs => cmp a b .ne || anyNe as bs
  | _, _ => false
termination_by structural as => as

/-- CompositeType.cpp:89-98, TupleOrListOfType.cpp:137-146: the sign of the first pair of elements that are not equal; 0 if there is
none. -/
def firstNe : List Data → List Data → Int
  | a :: as, b :: bs => if cmp a b .ne then (if cmp a b .lt then -1 else 1) else firstNe as bs
  | _, _ => 0
termination_by structural as => as
end

/-- HashAccumulator.hpp:30-32 `add`. -/
def hadd (s i : BitVec 32) : BitVec 32 := (s * 1000003#32) ^^^ i

/-- HashAccumulator.hpp:51-66 `addRegister` of bools and integers, from state 0. -/
def hashNum : Reg → Int → BitVec 32
  | .i64, n => hadd (hadd 0 (BitVec.ofInt 32 (n / 2 ^ 32))) (BitVec.ofInt 32 n)
  | .u64, n => hadd (hadd 0 (BitVec.ofInt 32 (n / 2 ^ 32))) (BitVec.ofInt 32 n)
  | _, n => hadd 0 (BitVec.ofInt 32 n)

/-- HashAccumulator.hpp:68-78 `addRegister` of floats, from state 0: the integer the float equals or its eight bytes, as two words. -/
def hashFlt (b : Nat) : BitVec 32 :=
  match asInt32 b with
  | some n => hadd 0 (BitVec.ofInt 32 n)
  | none => hadd (hadd 0 (BitVec.ofNat 32 b)) (BitVec.ofNat 32 (b / 2 ^ 32))

/-- TupleOrListOfType.cpp:87-89: -1 means that no hash is cached. -/
def fixCached (h : BitVec 32) : BitVec 32 := if h = -1 then -2 else h

/-- The hashes of strings and bytes objects.  They are functions of the code points and of the bytes: C21 proves it of strings;
BytesType.cpp:19-38 looks at nothing else, except that it tells the null pointer from an object of length 0 (C104); bytes here are taken
not to be objects of length 0. -/
structure TextHash where
  /-- StringType.hpp:286-305 `hash_static`. -/
  str : List Nat → BitVec 32
  /-- BytesType.cpp:19-38 `hash`. -/
  bytes : List Nat → BitVec 32

mutual
/-- The `hash` of each type: NoneType.hpp:55-57; RegisterTypes.hpp:234-240; TupleOrListOfType.cpp:72-93; CompositeType.cpp:122-130;
OneOfType.cpp:96-98; AlternativeType.cpp:170-177 (`catAlternative` is 23, Type.hpp:130).  An empty TupleOf is taken to be the null pointer
(for others see C48). -/
def hash (H : TextHash) : Data → BitVec 32
  | .none => 0
  | .num r n => hashNum r n
  | .flt _ b => hashFlt b
  | .str p => H.str p
  | .bytes b => H.bytes b
  | .tupleOf _ ds => if ds.isEmpty then 0x123 else fixCached (hashAll H 0 ds)
  | .tuple ds => hashAll H 0 ds
  | .oneOf _ d => hash H d
  | .alt i d => hadd (hadd 23 (BitVec.ofNat 32 i)) (hash H d)
termination_by structural d => d

/-- CompositeType.cpp:125-127, TupleOrListOfType.cpp:82-84: accumulate the hashes of the elements. -/
def hashAll (H : TextHash) : BitVec 32 → List Data → BitVec 32
  | s, [] => s
  | s, d :: ds => hashAll H (hadd s (hash H d)) ds
termination_by structural _ ds => ds
end

/-- PyInstance.cpp:1370-1390 `tp_hash`: `hash(x)` in Python. -/
def pyHash (H : TextHash) (d : Data) : Int := if hash H d = -1 then -2 else (hash H d).toInt

end Verif.Compare
