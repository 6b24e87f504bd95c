import Verif.Common
/-!
# The `array` package: `Array(T)` and `Matrix(T)`

Both classes are windows over a `ListOf(T)`: an array reads element `i` of its list at
`offset + i * stride`, a matrix reads entry `(i, j)` at `offset + i * stride[0] + j * stride[1]`.
The lists live in a heap, so that two windows over the same list see each other's writes.

Simplifications, for the whole file.

* `offset`, `stride` and `shape` are natural numbers.  The constructors that take them as arguments
  accept negative ones; no other function makes one.
* A pointer outside the list it was taken from is undefined behaviour; here reading or writing
  there ends the operation with `Err.fault`.  A list's spare capacity is not modelled.
* A function that fills a reserved but still empty list through a pointer (`toList`, `make`) is a
  function that returns the list of the values written, in the order written.
* Integers do not overflow: sizes are far below 2^31 (`ensureOnStack(.., Int32)`).
-/
namespace Verif.Arr

/-- How an operation can end other than by returning. -/
inductive Err
  | index      -- IndexError
  | value      -- ValueError
  | mismatch   -- Exception("Mismatched array sizes.") and Exception("Size mismatch")
  | negative   -- Exception("... negative ...")
  | shape      -- Exception("Can't invert ...")
  | arith      -- the element operation raised, as in a division by zero
  | fault      -- memory outside the list is read or written
  | illegal    -- BLAS is called with a parameter it declares illegal
  | dead       -- the name does not denote an object
  deriving DecidableEq, Repr

/-- The lists that exist. List number `r` holds `buf r`; lists from `next` on do not exist yet. -/
structure Heap (T : Type) where
  next : Nat
  buf : Nat → List T

/-- typed_python/array/array.py:32-51 `Array_`: an array is a window over a list. -/
structure Arr where
  ref : Nat
  off : Nat
  stride : Nat
  len : Nat
  deriving DecidableEq, Repr

/-- typed_python/array/array.py:323-339 `Matrix_`: a matrix is a window of two dimensions. -/
structure Mat where
  ref : Nat
  off : Nat
  s0 : Nat
  s1 : Nat
  rows : Nat
  cols : Nat
  deriving DecidableEq, Repr

variable {T : Type}

/-- A new list. -/
def Heap.alloc (h : Heap T) (l : List T) : Nat × Heap T :=
  (h.next, { next := h.next + 1, buf := fun q => if q = h.next then l else h.buf q })

/-- `(p + k).get()` for a pointer into list `r`. -/
def Heap.read (h : Heap T) (r k : Nat) : Except Err T :=
  match (h.buf r)[k]? with
  | some v => .ok v
  | none => .error .fault

/-- Replaces cell `k` of list `r`. -/
def Heap.put (h : Heap T) (r k : Nat) (v : T) : Heap T :=
  { h with buf := fun q => if q = r then (h.buf r).set k v else h.buf q }

/-- The result of an operation that changes the heap: it returns or raises, and either way the
heap is as the operation left it. -/
abbrev Res (T α : Type) := Except Err α × Heap T

/-- `(p + k).set(v)` for a pointer into list `r`. -/
def Heap.write (h : Heap T) (r k : Nat) (v : T) : Res T Unit :=
  if k < (h.buf r).length then (.ok (), h.put r k v) else (.error .fault, h)

/-- One operation after another, which is skipped when the first raises. -/
def andThen {α β : Type} (r : Res T α) (k : α → Heap T → Res T β) : Res T β :=
  match r with
  | (.error e, h) => (.error e, h)
  | (.ok a, h) => k a h

/-- `for x in xs: body`. -/
def forEach {ι : Type} (body : ι → Heap T → Res T Unit) : List ι → Heap T → Res T Unit
  | [], h => (.ok (), h)
  | x :: xs, h =>
    match body x h with
    | (.ok _, h') => forEach body xs h'
    | (.error e, h') => (.error e, h')

/-- `(p + k).set(value)`, the value being computed first. -/
def assign {ι : Type} (r : Nat) (ad : ι → Nat) (val : ι → Heap T → Except Err T) (i : ι)
    (h : Heap T) : Res T Unit :=
  match val i h with
  | .ok v => h.write r (ad i) v
  | .error e => (.error e, h)

/-- `f(p.get())`. -/
def read1 (f : T → Except Err T) (h : Heap T) (r k : Nat) : Except Err T :=
  match h.read r k with
  | .error e => .error e
  | .ok x => f x

/-- `f(p.get(), p2.get())`. -/
def read2 (f : T → T → Except Err T) (h : Heap T) (r k r' k' : Nat) : Except Err T :=
  match h.read r k with
  | .error e => .error e
  | .ok x => read1 (f x) h r' k'

/-! ## Arrays -/

/-- The cell of element `i`. -/
def Arr.ad (a : Arr) (i : Nat) : Nat := a.off + i * a.stride

/-- typed_python/array/array.py:41-45 `__init__`, with a list of values. The list is copied
(typed_python/PyTupleOrListOfInstance.cpp:1174-1181 `copyListObject` and
typed_python/compiler/type_wrappers/list_of_wrapper.py:402-413 `generateCopy`). -/
def Arr.new (h : Heap T) (vals : List T) : Arr × Heap T :=
  let (r, h') := h.alloc vals
  (⟨r, 0, 1, vals.length⟩, h')

/-- The values read by a loop over `range(n)`. -/
def readAll (h : Heap T) (r : Nat) : List Nat → Except Err (List T)
  | [] => .ok []
  | k :: ks =>
    match h.read r k with
    | .error e => .error e
    | .ok v =>
      match readAll h r ks with
      | .error e => .error e
      | .ok vs => .ok (v :: vs)

/-- typed_python/array/array.py:243-255 `toList`. -/
def Arr.toList (h : Heap T) (a : Arr) : Except Err (List T) :=
  readAll h a.ref ((List.range a.len).map a.ad)

/-- typed_python/array/array.py:239-240 `clone`. -/
def Arr.clone (h : Heap T) (a : Arr) : Res T Arr :=
  match a.toList h with
  | .error e => (.error e, h)
  | .ok l => let (b, h') := Arr.new h l; (.ok b, h')

/-- typed_python/array/array.py:259-265 `full`. -/
def Arr.full (h : Heap T) (count : Int) (value : T) : Res T Arr :=
  if count < 0 then (.error .negative, h)
  else let (a, h') := Arr.new h (List.replicate count.toNat value); (.ok a, h')

/-- typed_python/array/array.py:203-206 `_inplaceBinopCheck`. -/
def Arr.check (a b : Arr) : Except Err Unit :=
  if b.len ≠ a.len then .error .mismatch else .ok ()

/-- typed_python/array/array.py:209-219 `_inplaceBinop`, with an array. -/
def Arr.binop (f : T → T → Except Err T) (a b : Arr) (h : Heap T) : Res T Unit :=
  forEach (assign a.ref a.ad fun i h => read2 f h a.ref (a.ad i) b.ref (b.ad i)) (List.range a.len) h

/-- typed_python/array/array.py:222-227 `_inplaceUnaryOp`, and 230-236 `_inplaceBinop` with an
element, which is the same loop with the second argument of the function given. -/
def Arr.unop (f : T → Except Err T) (a : Arr) (h : Heap T) : Res T Unit :=
  forEach (assign a.ref a.ad fun i h => read1 f h a.ref (a.ad i)) (List.range a.len) h

/-- typed_python/array/array.py:98-101 `__imul__`; `__itruediv__`, `__ifloordiv__` and `__isub__`
(109-112, 120-123, 131-134) differ in the function only, and `__iadd__` (80-90) is this for element
types that are not floating point. -/
def Arr.iop (f : T → T → Except Err T) (a b : Arr) (h : Heap T) : Res T Unit :=
  match a.check b with
  | .error e => (.error e, h)
  | .ok _ => a.binop f b h

/-- typed_python/array/array.py:92-96 `__mul__`; `__truediv__`, `__floordiv__` and `__sub__`
(103-107, 114-118, 125-129) differ in the function only. -/
def Arr.op (f : T → T → Except Err T) (a b : Arr) (h : Heap T) : Res T Arr :=
  match a.check b with
  | .error e => (.error e, h)
  | .ok _ =>
    andThen (a.clone h) fun c h =>
      andThen (c.binop f b h) fun _ h => (.ok c, h)

/-- typed_python/array/array.py:136-139 `abs`; `__pow__`, `log`, `cos`, `sin`, `tanh`, `__neg__`
(141-169) and the binary operators with an element are the same with another function. -/
def Arr.map (f : T → Except Err T) (a : Arr) (h : Heap T) : Res T Arr :=
  andThen (a.clone h) fun c h =>
    andThen (c.unop f h) fun _ h => (.ok c, h)

/-- BLAS `daxpy` with the factor 1.0: for `i` below `n`, cell `y + i * yinc` becomes its sum with
cell `x + i * xinc` (typed_python/array/fortran.py:172-183 `axpy`). A multiplication by 1.0 changes
nothing. -/
def axpy (add : T → T → T) (n : Nat) (xr x xinc yr y yinc : Nat) (h : Heap T) : Res T Unit :=
  forEach (assign yr (fun i => y + i * yinc) fun i h =>
    read2 (fun v w => .ok (add v w)) h yr (y + i * yinc) xr (x + i * xinc)) (List.range n) h

/-- typed_python/array/array.py:80-90 `__iadd__`, for arrays of `float`: the call of `axpy` gives
the first vector, which is `other`, the stride of `self`, and the second the stride of `other`. -/
def Arr.iaddFloat (add : T → T → T) (a b : Arr) (h : Heap T) : Res T Unit :=
  match a.check b with
  | .error e => (.error e, h)
  | .ok _ => axpy add a.len b.ref b.off a.stride a.ref a.off b.stride h

/-- typed_python/array/array.py:74-78 `__add__`, for arrays of `float`. -/
def Arr.addFloat (add : T → T → T) (a b : Arr) (h : Heap T) : Res T Arr :=
  match a.check b with
  | .error e => (.error e, h)
  | .ok _ =>
    andThen (a.clone h) fun c h =>
      andThen (c.iaddFloat add b h) fun _ h => (.ok c, h)

/-- Indexing a `ListOf` with an integer: negative indices count from the end, and the others
outside raise (typed_python/PyTupleOrListOfInstance.cpp:548-567 `sq_item_concrete`). -/
def listIx (n : Nat) (i : Int) : Option Nat :=
  let j := if i < 0 then i + n else i
  if j < 0 ∨ (n : Int) ≤ j then none else some j.toNat

/-- `vals[i]` for a list in the heap. -/
def listGet (h : Heap T) (r : Nat) (i : Int) : Except Err T :=
  match listIx (h.buf r).length i with
  | none => .error .index
  | some k => h.read r k

/-- `vals[i] = v` for a list in the heap. -/
def listSet (h : Heap T) (r : Nat) (i : Int) (v : T) : Res T Unit :=
  match listIx (h.buf r).length i with
  | none => (.error .index, h)
  | some k => h.write r k v

/-- typed_python/array/array.py:287-288 `get`. -/
def Arr.get (h : Heap T) (a : Arr) (i : Int) : Except Err T :=
  listGet h a.ref (i * a.stride + a.off)

/-- typed_python/array/array.py:290-291 `set`. -/
def Arr.set (h : Heap T) (a : Arr) (i : Int) (v : T) : Res T Unit :=
  listSet h a.ref (i * a.stride + a.off) v

/-- typed_python/array/array.py:293-297 `__getitem__`. -/
def Arr.getitem (h : Heap T) (a : Arr) (i : Int) : Except Err T :=
  if i < 0 ∨ i ≥ a.len then .error .index else listGet h a.ref (i * a.stride + a.off)

/-- typed_python/array/array.py:299-303 `__setitem__`. -/
def Arr.setitem (h : Heap T) (a : Arr) (i : Int) (v : T) : Res T Unit :=
  if i < 0 ∨ i ≥ a.len then (.error .index, h) else listSet h a.ref (i * a.stride + a.off) v

/-- typed_python/array/array.py:268-277 `sum`; the additions are done in order from `T()`. -/
def Arr.sum (add : T → T → T) (zero : T) (h : Heap T) (a : Arr) : Except Err T :=
  match a.toList h with
  | .error e => .error e
  | .ok l => .ok (l.foldl add zero)

/-- typed_python/array/array.py:178-194 `__matmul__`, of two arrays. -/
def Arr.dot (add mul : T → T → T) (zero : T) (h : Heap T) (a b : Arr) : Except Err T :=
  if b.len ≠ a.len then .error .mismatch
  else
    match readAll h a.ref ((List.range a.len).map a.ad) with
    | .error e => .error e
    | .ok xs =>
      match readAll h b.ref ((List.range a.len).map b.ad) with
      | .error e => .error e
      | .ok ys => .ok ((List.zipWith mul xs ys).foldl add zero)

/-! ## Matrices -/

/-- The cell of entry `(i, j)`. -/
def Mat.ad (m : Mat) (i j : Nat) : Nat := m.off + i * m.s0 + j * m.s1

/-- typed_python/array/array.py:333-339 `__init__`: the list of values is copied. -/
def Mat.new (h : Heap T) (vals : List T) (off s0 s1 rows cols : Nat) : Mat × Heap T :=
  let (r, h') := h.alloc vals
  (⟨r, off, s0, s1, rows, cols⟩, h')

/-- The pairs `(i0, i1)` in the order of the two nested loops
`for i0 in range(shape[0]): for i1 in range(shape[1])`. -/
def pairs (rows cols : Nat) : List (Nat × Nat) :=
  (List.range rows).flatMap fun i => (List.range cols).map fun j => (i, j)

/-- typed_python/array/array.py:514-531 `toList`. -/
def Mat.toList (h : Heap T) (m : Mat) : Except Err (List T) :=
  readAll h m.ref ((pairs m.rows m.cols).map fun p => m.ad p.1 p.2)

/-- typed_python/array/array.py:534-541 `clone`. -/
def Mat.clone (h : Heap T) (m : Mat) : Res T Mat :=
  match m.toList h with
  | .error e => (.error e, h)
  | .ok l => let (c, h') := Mat.new h l 0 m.cols 1 m.rows m.cols; (.ok c, h')

/-- typed_python/array/array.py:688-689 `flatten`. -/
def Mat.flatten (h : Heap T) (m : Mat) : Res T Arr :=
  match m.toList h with
  | .error e => (.error e, h)
  | .ok l => let (a, h') := Arr.new h l; (.ok a, h')

/-- typed_python/array/array.py:543-545 `isCanonical`. -/
def Mat.isCanonical (m : Mat) : Bool := m.s0 = m.cols ∧ m.s1 = 1

/-- typed_python/array/array.py:547-550 `getCanonicalForm`. -/
def Mat.canonical (h : Heap T) (m : Mat) : Res T Mat :=
  if m.isCanonical then (.ok m, h) else m.clone h

/-- typed_python/array/array.py:553-560 `full`. -/
def Mat.full (h : Heap T) (rows cols : Int) (value : T) : Res T Mat :=
  if rows < 0 ∨ cols < 0 then (.error .negative, h)
  else
    let (m, h') := Mat.new h (List.replicate (rows.toNat * cols.toNat) value) 0 cols.toNat 1
      rows.toNat cols.toNat
    (.ok m, h')

/-- typed_python/array/array.py:564-579 `make`. -/
def Mat.make (h : Heap T) (rows cols : Int) (f : Nat → Nat → T) : Res T Mat :=
  if rows < 0 ∨ cols < 0 then (.error .negative, h)
  else
    let (m, h') := Mat.new h ((pairs rows.toNat cols.toNat).map fun p => f p.1 p.2) 0 cols.toNat 1
      rows.toNat cols.toNat
    (.ok m, h')

/-- typed_python/array/array.py:597-601 `identity`. -/
def Mat.identity (zero one : T) (h : Heap T) (x : Int) : Res T Mat :=
  andThen (Mat.full h x x zero) fun m h =>
    andThen (forEach (assign m.ref (fun i => x.toNat * i + i) fun _ _ => .ok one)
        (List.range x.toNat) h) fun _ h => (.ok m, h)

/-- typed_python/array/array.py:603-613 `__getitem__`: the row shares the list. -/
def Mat.row (m : Mat) (i : Int) : Except Err Arr :=
  if i < 0 ∨ i ≥ m.rows then .error .index
  else .ok ⟨m.ref, m.off + i.toNat * m.s0, m.s1, m.cols⟩

/-- typed_python/array/array.py:616-635 `__setitem__`. -/
def Mat.setRow (m : Mat) (i : Int) (val : Arr) (h : Heap T) : Res T Unit :=
  if i < 0 ∨ i ≥ m.rows then (.error .index, h)
  else if val.len ≠ m.cols then (.error .value, h)
  else
    forEach (assign m.ref (fun j => m.off + m.s0 * i.toNat + j * m.s1) fun j h =>
      h.read val.ref (val.off + j * val.stride)) (List.range m.cols) h

/-- typed_python/array/array.py:637-645 `transpose`: the constructor copies the list. -/
def Mat.transpose (h : Heap T) (m : Mat) : Mat × Heap T :=
  Mat.new h (h.buf m.ref) m.off m.s1 m.s0 m.cols m.rows

/-- typed_python/array/array.py:647-653 `diagonal`, with 25-26 `min`: the array shares the list. -/
def Mat.diagonal (m : Mat) : Arr :=
  ⟨m.ref, m.off, m.s0 + m.s1, if m.rows < m.cols then m.rows else m.cols⟩

/-- typed_python/array/array.py:655-656 `get`. -/
def Mat.get (h : Heap T) (m : Mat) (i j : Int) : Except Err T :=
  listGet h m.ref (i * m.s0 + j * m.s1 + m.off)

/-- typed_python/array/array.py:658-659 `set`. -/
def Mat.set (h : Heap T) (m : Mat) (i j : Int) (v : T) : Res T Unit :=
  listSet h m.ref (i * m.s0 + j * m.s1 + m.off) v

/-- typed_python/array/array.py:460-465 `_inplaceBinopCheck`. -/
def Mat.check (m o : Mat) : Except Err Unit :=
  if o.rows ≠ m.rows then .error .mismatch
  else if o.cols ≠ m.cols then .error .mismatch
  else .ok ()

/-- typed_python/array/array.py:468-484 `_inplaceBinop`, with a matrix. The pointer into `other`
starts at the offset of `self`. The two nested loops are one loop over `pairs`. -/
def Mat.binop (f : T → T → Except Err T) (m o : Mat) (h : Heap T) : Res T Unit :=
  forEach (assign m.ref (fun p : Nat × Nat => m.off + p.1 * m.s0 + p.2 * m.s1) fun p h =>
    read2 f h m.ref (m.off + p.1 * m.s0 + p.2 * m.s1) o.ref (m.off + p.1 * o.s0 + p.2 * o.s1))
    (pairs m.rows m.cols) h

/-- typed_python/array/array.py:502-511 `_inplaceUnaryOp` and 487-500 `_inplaceBinop` with an
element. -/
def Mat.unop (f : T → Except Err T) (m : Mat) (h : Heap T) : Res T Unit :=
  forEach (assign m.ref (fun p : Nat × Nat => m.off + p.1 * m.s0 + p.2 * m.s1) fun p h =>
    read1 f h m.ref (m.off + p.1 * m.s0 + p.2 * m.s1)) (pairs m.rows m.cols) h

/-- typed_python/array/array.py:364-368 `__iadd__`, and the other operators that assign (376-412). -/
def Mat.iop (f : T → T → Except Err T) (m o : Mat) (h : Heap T) : Res T Unit :=
  match m.check o with
  | .error e => (.error e, h)
  | .ok _ => m.binop f o h

/-- typed_python/array/array.py:358-362 `__add__`, and the other binary operators (370-407). -/
def Mat.op (f : T → T → Except Err T) (m o : Mat) (h : Heap T) : Res T Mat :=
  match m.check o with
  | .error e => (.error e, h)
  | .ok _ =>
    andThen (m.clone h) fun c h =>
      andThen (c.binop f o h) fun _ h => (.ok c, h)

/-- typed_python/array/array.py:414-417 `abs`, the other operators of one operand (419-447) and the
binary operators with an element. -/
def Mat.map (f : T → Except Err T) (m : Mat) (h : Heap T) : Res T Mat :=
  andThen (m.clone h) fun c h =>
    andThen (c.unop f h) fun _ h => (.ok c, h)

/-! ## Products and inverses, with the library they call

The numerical library is not part of the repository: it is described here by what its documentation
says, with the element arithmetic as a parameter. -/

/-- The arithmetic of the library: `dot l` is the library's sum of the products in `l`, in an order
of its choosing. -/
structure Blas (T : Type) where
  add : T → T → T
  mul : T → T → T
  zero : T
  one : T
  nan : T
  dot : List T → T

/-- The products that make up one entry: `Σ_l (p + l * ps) * (q + l * qs)`. -/
def dotCells (B : Blas T) (h : Heap T) (k : Nat) (pr p ps qr q qs : Nat) : Except Err T :=
  match readAll h pr ((List.range k).map fun l => p + l * ps) with
  | .error e => .error e
  | .ok xs =>
    match readAll h qr ((List.range k).map fun l => q + l * qs) with
    | .error e => .error e
    | .ok ys => .ok (B.dot (List.zipWith B.mul xs ys))

/-- BLAS `dgemm` with 'N', 'N', factors 1.0 and 0.0 (typed_python/array/fortran.py:277-291 `gemm`):
all matrices are stored by columns, so entry `(i, l)` of the `m` by `k` matrix A is cell
`i + l * lda`, and so on. Leading dimensions below `max(1, rows)` are illegal parameters. -/
def gemm (B : Blas T) (m n k : Nat) (ar a lda br b ldb cr c ldc : Nat) (h : Heap T) : Res T Unit :=
  if lda < max 1 m ∨ ldb < max 1 k ∨ ldc < max 1 m then (.error .illegal, h)
  else
    forEach (assign cr (fun p : Nat × Nat => c + p.2 + p.1 * ldc) fun p h =>
      dotCells B h k ar (a + p.2) lda br (b + p.1 * ldb) 1) (pairs n m) h

/-- BLAS `dgemv` with factors 1.0 and 1.0 (typed_python/array/fortran.py:377-387 `gemv`): `y` is
increased by `A x`, or by the transpose of `A` times `x`. -/
def gemv (B : Blas T) (trans : Bool) (m n : Nat) (ar a lda xr x incx yr y incy : Nat) (h : Heap T) :
    Res T Unit :=
  if lda < max 1 m ∨ incx = 0 ∨ incy = 0 then (.error .illegal, h)
  else
    forEach (assign yr (fun i => y + i * incy) fun i h =>
      match (if trans then dotCells B h m ar (a + i * lda) 1 xr x incx
             else dotCells B h n ar (a + i) lda xr x incx) with
      | .error e => .error e
      | .ok w => read1 (fun v => .ok (B.add v w)) h yr (y + i * incy)) (List.range (if trans then n else m)) h

/-- typed_python/array/array.py:661-686 `__matmul__`, of two matrices. -/
def Mat.matmul (B : Blas T) (m o : Mat) (h : Heap T) : Res T Mat :=
  if m.cols ≠ o.rows then (.error .mismatch, h)
  else
    andThen (m.canonical h) fun m h =>
      andThen (o.canonical h) fun o h =>
        andThen (Mat.full h m.rows o.cols B.zero) fun r h =>
          andThen (gemm B o.cols m.rows m.cols o.ref o.off o.s0 m.ref m.off m.s0 r.ref r.off r.s0 h)
            fun _ h => (.ok r, h)

/-- typed_python/array/array.py:749-773 `__matmul__`, of a matrix and an array: the matrix is passed
as its list, from the first cell. -/
def Mat.mulVec (B : Blas T) (m : Mat) (x : Arr) (h : Heap T) : Res T Arr :=
  andThen (m.canonical h) fun m h =>
    let (y, h) := h.alloc (List.replicate m.rows B.zero)
    if m.cols ≠ x.len then (.error .mismatch, h)
    else
      andThen (gemv B true m.cols m.rows m.ref 0 m.s0 x.ref x.off x.stride y 0 1 h)
        fun _ h => let (a, h') := Arr.new h (h.buf y); (.ok a, h')

/-- typed_python/array/array.py:775-798 `__rmatmul__`, of an array and a matrix (and 196-197
`__matmul__`, which calls it). -/
def Mat.vecMul (B : Blas T) (m : Mat) (x : Arr) (h : Heap T) : Res T Arr :=
  andThen (m.canonical h) fun m h =>
    let (y, h) := h.alloc (List.replicate m.cols B.zero)
    if m.rows ≠ x.len then (.error .mismatch, h)
    else
      andThen (gemv B false m.cols m.rows m.ref 0 m.s0 x.ref x.off x.stride y 0 1 h)
        fun _ h => let (a, h') := Arr.new h (h.buf y); (.ok a, h')

/-- What LAPACK sees at cell `a`: an `n` by `n` matrix stored by columns. -/
def colMajor (dflt : T) (h : Heap T) (r a lda i j : Nat) : T :=
  ((h.buf r)[a + i + j * lda]?).getD dflt

/-- LAPACK `dgetrf` then `dgetri` (typed_python/array/array.py:703-740) put the entries `A` they
computed in the place of the `n` by `n` matrix stored by columns from cell `a` on. -/
def storeCols (A : Nat → Nat → T) (n r a lda : Nat) (h : Heap T) : Res T Unit :=
  forEach (assign r (fun p : Nat × Nat => a + p.2 + p.1 * lda) fun p _ => .ok (A p.2 p.1))
    (pairs n n) h

/-- `vals.resize(n)`, for a growing list. -/
def Heap.grow (h : Heap T) (r n : Nat) (dflt : T) : Heap T :=
  { h with buf := fun q =>
      if q = r then h.buf r ++ List.replicate (n - (h.buf r).length) dflt else h.buf q }

/-- typed_python/array/array.py:691-747 `__invert__`. `inv n A` is what the library does with the
`n` by `n` matrix `A`: whether it succeeds, and the entries it leaves. The list is made twice as long
between the two calls of the library (728), here after both. -/
def Mat.invert (B : Blas T) (inv : Nat → (Nat → Nat → T) → Bool × (Nat → Nat → T)) (m : Mat)
    (h : Heap T) : Res T Mat :=
  if m.rows ≠ m.cols then (.error .shape, h)
  else if m.rows = 0 then (.error .shape, h)
  else
    let (t, h) := m.transpose h
    andThen (t.canonical h) fun t h =>
      let A := inv t.rows (colMajor B.zero h t.ref t.off t.s0)
      andThen (storeCols A.2 t.rows t.ref t.off t.s0 h) fun _ h =>
        let h := h.grow t.ref ((h.buf t.ref).length * 2) B.zero
        if A.1 then let (r, h) := t.transpose h; (.ok r, h)
        else t.map (fun x => .ok (B.mul x B.nan)) h

end Verif.Arr
