import Verif.Compare.Model
/-
Comparison and hash of values in compiled code.
-/
namespace Verif.Compare
open Verif.Conv (Reg)

/-- native_ast_to_llvm_function_converter.py:1277-1287: comparison of two integers of the same type. -/
def icmp (a b : Int) : Op → Bool
  | .eq => a == b
  | .ne => a != b
  | .lt => a < b
  | .gt => b < a
  | .le => a ≤ b
  | .ge => b ≤ a

/-- native_ast_to_llvm_function_converter.py:1269-1276: comparison of two floats is `fcmp_ordered`, which LLVM defines to be false for
every operator, `!=` included, if an operand is not a number. -/
def fcmp (a b : Nat) (op : Op) : Bool := !isNaN a && !isNaN b && icmp (fkey a) (fkey b) op

/-- wrapper.py:685-711 `convert_bin_op_reverse`: values of types that know nothing of each other are unequal and cannot be ordered
(`none` is the TypeError). -/
def unrelated : Op → Option Bool
  | .eq => some false
  | .ne => some true
  | _ => none

/-- The negation of a result, if there is one. -/
def optNot (r : Option Bool) : Option Bool := r.map (!·)

/-- A test that may raise, and what to do in either case. -/
def ifOpt (c t e : Option Bool) : Option Bool :=
  match c with
  | some true => t
  | some false => e
  | none => none

mutual
/-- A comparison in compiled code; `none` is a TypeError.  `cc M false a b op` is `a op b`, and `cc M true a b op` is `b op a`.
none_wrapper.py:53-62; arithmetic_wrapper.py:494-502, 638-646, 851-859; string_wrapper.py:449-513 (C20); bytes_wrapper.py:1055-1107;
tuple_of_wrapper.py:369-381; tuple_wrapper.py:164-171, 294-303; one_of_wrapper.py:285-309, which compares what the two OneOfs hold;
alternative_wrapper.py:50-76 with _runtime.cpp:469-478 `np_instance_cmp`.  `M` is what comparing numbers of different types gives, which
can be asked for only through a OneOf.  OneOfs with two different TupleOf types, or two different Alternatives, are not modelled. -/
def cc (M : Data → Data → Op → Bool) (rev : Bool) : Data → Data → Op → Option Bool
  | .none, .none, op => some (op == .eq)
  | .num r a, .num r' b, op =>
    if r = r' then some (if rev then icmp b a op else icmp a b op)
    else some (if rev then M (.num r' b) (.num r a) op else M (.num r a) (.num r' b) op)
  | .flt s a, .flt s' b, op =>
    if s = s' then some (if rev then fcmp b a op else fcmp a b op)
    else some (if rev then M (.flt s' b) (.flt s a) op else M (.flt s a) (.flt s' b) op)
  | .num r a, .flt s b, op => some (if rev then M (.flt s b) (.num r a) op else M (.num r a) (.flt s b) op)
  | .flt s a, .num r b, op => some (if rev then M (.num r b) (.flt s a) op else M (.flt s a) (.num r b) op)
  | .str a, .str b, op => some (if rev then ofSign (textSign b a) op else ofSign (textSign a b) op)
  | .bytes a, .bytes b, op => some (if rev then ofSign (textSign b a) op else ofSign (textSign a b) op)
  | .tupleOf l as, .tupleOf l' bs, op =>
    if l = l' then
      match op with
      | .eq => if as.length != bs.length then some false else eqOf M rev as bs
      | .ne => optNot (if as.length != bs.length then some false else eqOf M rev as bs)
      | .lt => ltOf M rev false as bs
      | .le => ltOf M rev true as bs
      | .gt => optNot (ltOf M rev true as bs)
      | .ge => optNot (ltOf M rev false as bs)
    else unrelated op
  | .tuple as, .tuple bs, op =>
    match op with
    | .eq => if as.length != bs.length then some false else eqFields M rev as bs
    | .ne => optNot (if as.length != bs.length then some false else eqFields M rev as bs)
    | .lt => ltFields M rev false as bs
    | .le => ltFields M rev true as bs
    | .gt => optNot (ltFields M rev true as bs)
    | .ge => optNot (ltFields M rev false as bs)
  | .oneOf _ a, .oneOf _ b, op => cc M rev a b op
  | .alt i a, .alt j b, op => some (if rev then cmp (.alt j b) (.alt i a) op else cmp (.alt i a) (.alt j b) op)
  | _, _, op => unrelated op
termination_by structural a => a

/-- tuple_of_wrapper.py:57-61: the loop of `tuple_compare_eq` over the elements. -/
def eqOf (M : Data → Data → Op → Bool) (rev : Bool) : List Data → List Data → Option Bool
  | a :: as, b :: bs => ifOpt (cc M rev a b .ne) (some false) (eqOf M rev as bs)
  | _, _ => some true
termination_by structural as => as

/-- tuple_of_wrapper.py:64-83 `tuple_compare_lt` and, with `orEq`, `tuple_compare_lte`. -/
def ltOf (M : Data → Data → Op → Bool) (rev orEq : Bool) : List Data → List Data → Option Bool
  | a :: as, b :: bs => ifOpt (cc M rev a b .gt) (some false) (ifOpt (cc M rev a b .lt) (some true) (ltOf M rev orEq as bs))
  | [], [] => some orEq
  | [], _ :: _ => some (!rev)
  | _ :: _, [] => some rev
termination_by structural as => as

/-- tuple_wrapper.py:112-125: the loop of `_TupleEq` over the fields. -/
def eqFields (M : Data → Data → Op → Bool) (rev : Bool) : List Data → List Data → Option Bool
  | a :: as, b :: bs => ifOpt (cc M rev a b .eq) (eqFields M rev as bs) (some false)
  | _, _ => some true
termination_by structural as => as

/-- tuple_wrapper.py:51-79: the loop of `_TupleLt` and, with `orEq`, tuple_wrapper.py:82-84 `_TupleLtE`: the second test of each field is
`args[1].refAs(i) < args[0].refAs(i)`. -/
def ltFields (M : Data → Data → Op → Bool) (rev orEq : Bool) : List Data → List Data → Option Bool
  | a :: as, b :: bs => ifOpt (cc M rev a b .lt) (some true) (ifOpt (cc M (!rev) a b .lt) (some false) (ltFields M rev orEq as bs))
  | [], [] => some orEq
  | [], _ :: _ => some (!rev)
  | _ :: _, [] => some rev
termination_by structural as => as
end

/-- A comparison `a op b` in compiled code. -/
def compiled (M : Data → Data → Op → Bool) (a b : Data) (op : Op) : Option Bool := cc M false a b op

/-- arithmetic_wrapper.py:197-204, 515-516: the hash of an integer in compiled code; _runtime.cpp:2003-2017 for the wide ones, conversion to
Int32, which keeps the low bits, for the others. -/
def cHashNum : Reg → Int → BitVec 32
  | .i64, n => hashNum .i64 n
  | .u64, n => hashNum .u64 n
  | _, n => BitVec.ofInt 32 n

mutual
/-- The hash of a value in compiled code: none_wrapper.py:50-51; arithmetic_wrapper.py:197-204, 515-516, 658-664 with _runtime.cpp:1987-2025;
tuple_of_wrapper.py:98-110, 469-470; tuple_wrapper.py:221-228; one_of_wrapper.py:192-194; class_or_alternative_wrapper_mixin.py:182-194 with
_runtime.cpp:2027-2029.  `none` is the fault on an empty TupleOf (C48). -/
def cHash (H : TextHash) : Data → Option (BitVec 32)
  | .none => some 0
  | .num r n => some (cHashNum r n)
  | .flt _ b => some (hashFlt b)
  | .str p => some (H.str p)
  | .bytes b => some (H.bytes b)
  | .tupleOf _ ds => if ds.isEmpty then Option.none else (cHashItems H 0 ds).map fixCached
  | .tuple ds => cHashAll H 0 ds
  | .oneOf _ d => cHash H d
  | .alt i d => some (hash H (.alt i d))
termination_by structural d => d

/-- tuple_wrapper.py:222-228: accumulate the hashes of the fields. -/
def cHashAll (H : TextHash) : BitVec 32 → List Data → Option (BitVec 32)
  | s, [] => some s
  | s, d :: ds => match cHash H d with
    | some h => cHashAll H ((s * 1000003#32) ^^^ h) ds
    | Option.none => Option.none
termination_by structural _ ds => ds

/-- tuple_of_wrapper.py:102-104: the loop of `tuple_of_hash` accumulates what `hash(item)` gives, which is never -1 (hash_wrapper.py:20-30). -/
def cHashItems (H : TextHash) : BitVec 32 → List Data → Option (BitVec 32)
  | s, [] => some s
  | s, d :: ds => match cHash H d with
    | some h => cHashItems H ((s * 1000003#32) ^^^ fixCached h) ds
    | Option.none => Option.none
termination_by structural _ ds => ds
end

/-- hash_wrapper.py:20-30 `tp_hash_to_py_hash`, 43-51: `hash(x)` in compiled code. -/
def cPyHash (H : TextHash) (d : Data) : Option Int := (cHash H d).map fun h => if h = -1 then -2 else h.toInt

end Verif.Compare
