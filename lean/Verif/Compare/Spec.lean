import Verif.Compare.Model
/-
What comparing values means.

Numbers are in numerical order; strings and bytes objects, TupleOfs and tuples in lexicographic order, the shorter first; a OneOf or an
Alternative is ordered by which of its cases it holds and then by what it holds.
-/
namespace Verif.Compare

/-- Lexicographic order of lists of numbers. -/
def textOrder : List Nat → List Nat → Ordering
  | [], [] => .eq
  | [], _ :: _ => .lt
  | _ :: _, [] => .gt
  | x :: xs, y :: ys => (compare x y).then (textOrder xs ys)

mutual
/-- The order of the values of a type. -/
def order : Data → Data → Ordering
  | .num _ a, .num _ b => compare a b
  | .flt _ a, .flt _ b => compare (fkey a) (fkey b)
  | .str a, .str b => textOrder a b
  | .bytes a, .bytes b => textOrder a b
  | .tupleOf _ as, .tupleOf _ bs => orderAll as bs
  | .tuple as, .tuple bs => orderAll as bs
  | .oneOf i a, .oneOf j b => (compare i j).then (order a b)
  | .alt i a, .alt j b => (compare i j).then (order a b)
  | _, _ => .eq
termination_by structural a => a

/-- Lexicographic order of lists of values. -/
def orderAll : List Data → List Data → Ordering
  | [], [] => .eq
  | [], _ :: _ => .lt
  | _ :: _, [] => .gt
  | a :: as, b :: bs => (order a b).then (orderAll as bs)
termination_by structural as => as
end

/-- What a comparison operator answers, given how its operands are ordered. -/
def Op.holds : Op → Ordering → Bool
  | .eq, o => o == .eq
  | .ne, o => o != .eq
  | .lt, o => o == .lt
  | .gt, o => o == .gt
  | .le, o => o != .gt
  | .ge, o => o != .lt

mutual
/-- A value with every negative zero replaced by zero.  Two values are the same value if this makes them identical. -/
def plain : Data → Data
  | .flt s b => .flt s (if b = 2 ^ 63 then 0 else b)
  | .tupleOf l ds => .tupleOf l (plains ds)
  | .tuple ds => .tuple (plains ds)
  | .oneOf i d => .oneOf i (plain d)
  | .alt i d => .alt i (plain d)
  | d => d
termination_by structural d => d

/-- Values with every negative zero replaced by zero. -/
def plains : List Data → List Data
  | [] => []
  | d :: ds => plain d :: plains ds
termination_by structural ds => ds
end

/-- The kinds of types between which compiled code never finds two values equal. -/
def kind : Ty → Nat
  | .none => 0
  | .num _ => 1
  | .flt _ => 1
  | .str => 2
  | .bytes => 3
  | .tupleOf _ _ => 4
  | .tuple _ => 5
  | .oneOf _ => 6
  | .alt _ => 7

mutual
/-- Every OneOf in the type has alternatives of different kinds, such as OneOf(None, int, str).  (A OneOf directly in a OneOf is not
looked for: the runtime flattens it.  The cases of Alternatives are not looked at.) -/
def distinct : Ty → Bool
  | .tupleOf _ t => distinct t
  | .tuple ts => distincts ts
  | .oneOf ts => distincts ts && decide (ts.map kind).Nodup && !(ts.map kind).contains 6
  | _ => true
termination_by structural t => t

/-- The same, of every type in a list. -/
def distincts : List Ty → Bool
  | [] => true
  | t :: ts => distinct t && distincts ts
termination_by structural ts => ts
end

mutual
/-- There is no OneOf in the type, other than in the cases of Alternatives. -/
def noOneOf : Ty → Bool
  | .tupleOf _ t => noOneOf t
  | .tuple ts => noOneOfs ts
  | .oneOf _ => false
  | _ => true
termination_by structural t => t

/-- The same, of every type in a list. -/
def noOneOfs : List Ty → Bool
  | [] => true
  | t :: ts => noOneOf t && noOneOfs ts
termination_by structural ts => ts
end

mutual
/-- No TupleOf in the value is empty, and none has an element whose hash is -1: such as -1 in a TupleOf(Int32), or -1.0 in a
TupleOf(float).  (The cases of Alternatives are not looked at.) -/
def steady (H : TextHash) : Data → Bool
  | .tupleOf _ ds => !ds.isEmpty && steadies H ds && !(ds.map (hash H)).contains (-1)
  | .tuple ds => steadies H ds
  | .oneOf _ d => steady H d
  | _ => true
termination_by structural d => d

/-- The same, of every value in a list. -/
def steadies (H : TextHash) : List Data → Bool
  | [] => true
  | d :: ds => steady H d && steadies H ds
termination_by structural ds => ds
end

end Verif.Compare
