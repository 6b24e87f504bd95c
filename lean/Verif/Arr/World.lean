import Verif.Arr.Geometry
/-!
# Histories

A program that uses the package: it makes arrays and matrices, takes rows and diagonals, and applies
operators to what it has, in any order. Everything it can get hold of is stored by rows or columns
and fits its list, and two objects that share a list are views of one matrix.
-/
namespace Verif.Arr

variable {T : Type}

/-- The objects a program holds. -/
structure World (T : Type) where
  heap : Heap T
  mats : List Mat
  arrs : List Arr

/-- One call. Objects are named by their positions, counted from the oldest. The functions given to
the operators are the element operations, which may raise. -/
inductive Op (T : Type)
  | newArr (vals : List T)
  | fullArr (count : Int) (v : T)
  | cloneArr (a : Nat)
  | mapArr (f : T → Except Err T) (a : Nat)
  | unopArr (f : T → Except Err T) (a : Nat)
  | opArr (f : T → T → Except Err T) (a b : Nat)
  | iopArr (f : T → T → Except Err T) (a b : Nat)
  | addFloat (a b : Nat)
  | iaddFloat (a b : Nat)
  | setArr (a : Nat) (i : Int) (v : T)
  | setitemArr (a : Nat) (i : Int) (v : T)
  | fullMat (rows cols : Int) (v : T)
  | makeMat (rows cols : Int) (f : Nat → Nat → T)
  | identity (n : Int)
  | cloneMat (m : Nat)
  | flatten (m : Nat)
  | transpose (m : Nat)
  | row (m : Nat) (i : Int)
  | diagonal (m : Nat)
  | setRow (m : Nat) (i : Int) (a : Nat)
  | setMat (m : Nat) (i j : Int) (v : T)
  | mapMat (f : T → Except Err T) (m : Nat)
  | unopMat (f : T → Except Err T) (m : Nat)
  | opMat (f : T → T → Except Err T) (m o : Nat)
  | iopMat (f : T → T → Except Err T) (m o : Nat)
  | matmul (m o : Nat)
  | mulVec (m a : Nat)
  | vecMul (m a : Nat)
  | invert (m : Nat)

/-- The world after an operation that returns an array. -/
def World.arr (w : World T) : Res T Arr → World T
  | (.ok a, h) => { w with heap := h, arrs := w.arrs ++ [a] }
  | (.error _, h) => { w with heap := h }

/-- The world after an operation that returns a matrix. -/
def World.mat (w : World T) : Res T Mat → World T
  | (.ok m, h) => { w with heap := h, mats := w.mats ++ [m] }
  | (.error _, h) => { w with heap := h }

/-- The world after an operation that returns nothing new. -/
def World.unit (w : World T) (r : Res T Unit) : World T := { w with heap := r.2 }

def World.withArr (w : World T) (a : Nat) (f : Arr → World T) : World T :=
  match w.arrs[a]? with
  | some a => f a
  | none => w

def World.withMat (w : World T) (m : Nat) (f : Mat → World T) : World T :=
  match w.mats[m]? with
  | some m => f m
  | none => w

variable (B : Blas T) (inv : Nat → (Nat → Nat → T) → Bool × (Nat → Nat → T))

/-- One call; a call that raises leaves the heap as it was when it raised. -/
def step (w : World T) : Op T → World T
  | .newArr vals => let (a, h) := Arr.new w.heap vals; w.arr (.ok a, h)
  | .fullArr n v => w.arr (Arr.full w.heap n v)
  | .cloneArr a => w.withArr a fun a => w.arr (a.clone w.heap)
  | .mapArr f a => w.withArr a fun a => w.arr (a.map f w.heap)
  | .unopArr f a => w.withArr a fun a => w.unit (a.unop f w.heap)
  | .opArr f a b => w.withArr a fun a => w.withArr b fun b => w.arr (a.op f b w.heap)
  | .iopArr f a b => w.withArr a fun a => w.withArr b fun b => w.unit (a.iop f b w.heap)
  | .addFloat a b => w.withArr a fun a => w.withArr b fun b => w.arr (a.addFloat B.add b w.heap)
  | .iaddFloat a b => w.withArr a fun a => w.withArr b fun b => w.unit (a.iaddFloat B.add b w.heap)
  | .setArr a i v => w.withArr a fun a => w.unit (a.set w.heap i v)
  | .setitemArr a i v => w.withArr a fun a => w.unit (a.setitem w.heap i v)
  | .fullMat r c v => w.mat (Mat.full w.heap r c v)
  | .makeMat r c f => w.mat (Mat.make w.heap r c f)
  | .identity n => w.mat (Mat.identity B.zero B.one w.heap n)
  | .cloneMat m => w.withMat m fun m => w.mat (m.clone w.heap)
  | .flatten m => w.withMat m fun m => w.arr (m.flatten w.heap)
  | .transpose m => w.withMat m fun m => let (t, h) := m.transpose w.heap; w.mat (.ok t, h)
  | .row m i => w.withMat m fun m => w.arr (m.row i, w.heap)
  | .diagonal m => w.withMat m fun m => w.arr (.ok m.diagonal, w.heap)
  | .setRow m i a => w.withMat m fun m => w.withArr a fun a => w.unit (m.setRow i a w.heap)
  | .setMat m i j v => w.withMat m fun m => w.unit (m.set w.heap i j v)
  | .mapMat f m => w.withMat m fun m => w.mat (m.map f w.heap)
  | .unopMat f m => w.withMat m fun m => w.unit (m.unop f w.heap)
  | .opMat f m o => w.withMat m fun m => w.withMat o fun o => w.mat (m.op f o w.heap)
  | .iopMat f m o => w.withMat m fun m => w.withMat o fun o => w.unit (m.iop f o w.heap)
  | .matmul m o => w.withMat m fun m => w.withMat o fun o => w.mat (m.matmul B o w.heap)
  | .mulVec m a => w.withMat m fun m => w.withArr a fun a => w.arr (m.mulVec B a w.heap)
  | .vecMul m a => w.withMat m fun m => w.withArr a fun a => w.arr (m.vecMul B a w.heap)
  | .invert m => w.withMat m fun m => w.mat (m.invert B inv w.heap)

/-- A program starts with nothing. -/
def World.init : World T := ⟨⟨0, fun _ => []⟩, [], []⟩

def run (ops : List (Op T)) : World T := ops.foldl (step B inv) World.init

/-! ## Lists never shrink -/

/-- The lists of `h` are still there, and not shorter. -/
def Mono (h h' : Heap T) : Prop :=
  h.next ≤ h'.next ∧ ∀ q, q < h.next → (h.buf q).length ≤ (h'.buf q).length

theorem Mono.refl (h : Heap T) : Mono h h := ⟨Nat.le_refl _, fun _ _ => Nat.le_refl _⟩

theorem Mono.trans {h h' h'' : Heap T} (a : Mono h h') (b : Mono h' h'') : Mono h h'' :=
  ⟨Nat.le_trans a.1 b.1, fun q hq =>
    Nat.le_trans (a.2 q hq) (b.2 q (Nat.lt_of_lt_of_le hq a.1))⟩

theorem Agree.mono' {S : Nat → Nat → Prop} {h h' : Heap T} (a : Agree S h h') : Mono h h' :=
  ⟨Nat.le_of_eq a.1.symm, fun q _ => Nat.le_of_eq (a.2.1 q).symm⟩

theorem alloc_mono (h : Heap T) (l : List T) : Mono h (h.alloc l).2 := by
  refine ⟨Nat.le_succ _, fun q hq => ?_⟩
  simp only [Heap.alloc]
  rw [if_neg (by omega)]
  exact Nat.le_refl _

theorem grow_mono (h : Heap T) (r n : Nat) (d : T) : Mono h (h.grow r n d) := by
  refine ⟨Nat.le_refl _, fun q hq => ?_⟩
  simp only [Heap.grow]
  split
  · rename_i e; subst e; simp
  · exact Nat.le_refl _

theorem forEach_mono {ι : Type} (r : Nat) (ad : ι → Nat) (val : ι → Heap T → Except Err T)
    (l : List ι) (h : Heap T) : Mono h (forEach (assign r ad val) l h).2 :=
  (forEach_lengths r ad val l h).mono'

theorem write_mono (h : Heap T) (r k : Nat) (v : T) : Mono h (h.write r k v).2 := by
  simp only [Heap.write]
  split
  · exact (put_agree h r k v).mono'
  · exact Mono.refl _

theorem listSet_mono (h : Heap T) (r : Nat) (i : Int) (v : T) : Mono h (listSet h r i v).2 := by
  simp only [listSet]
  split
  · exact Mono.refl _
  · exact write_mono _ _ _ _

/-- The matrix is new since `h`. -/
def NewMat (h : Heap T) (m : Mat) (h' : Heap T) : Prop := h.next ≤ m.ref ∧ m.WF h'

/-- The array is new since `h`, over the whole of its list. -/
def NewArr (h : Heap T) (a : Arr) (h' : Heap T) : Prop :=
  h.next ≤ a.ref ∧ a.ref < h'.next ∧ a.off = 0 ∧ a.stride = 1 ∧ a.len ≤ (h'.buf a.ref).length

/-- Lists never shrink, and what is returned satisfies `P`. -/
def Good {α : Type} (h : Heap T) (r : Res T α) (P : α → Heap T → Prop) : Prop :=
  Mono h r.2 ∧ ∀ a, r.1 = .ok a → P a r.2

theorem Mat.WF.mono {h h' : Heap T} {m : Mat} (w : m.WF h) (mo : Mono h h') : m.WF h' :=
  ⟨w.toGeo, Nat.lt_of_lt_of_le w.live mo.1, Nat.le_trans w.size (mo.2 _ w.live)⟩

theorem NewMat.later {h h' h'' : Heap T} {m : Mat} (n : NewMat h m h') (mo : Mono h' h'') :
    NewMat h m h'' := ⟨n.1, n.2.mono mo⟩

theorem NewMat.earlier {h h' h'' : Heap T} {m : Mat} (mo : Mono h h') (n : NewMat h' m h'') :
    NewMat h m h'' := ⟨Nat.le_trans mo.1 n.1, n.2⟩

theorem NewArr.later {h h' h'' : Heap T} {a : Arr} (n : NewArr h a h') (mo : Mono h' h'') :
    NewArr h a h'' :=
  ⟨n.1, Nat.lt_of_lt_of_le n.2.1 mo.1, n.2.2.1, n.2.2.2.1,
    Nat.le_trans n.2.2.2.2 (mo.2 _ n.2.1)⟩

theorem NewArr.earlier {h h' h'' : Heap T} {a : Arr} (mo : Mono h h') (n : NewArr h' a h'') :
    NewArr h a h'' := ⟨Nat.le_trans mo.1 n.1, n.2⟩

theorem arrNew_good (h : Heap T) (l : List T) :
    Mono h (Arr.new h l).2 ∧ NewArr h (Arr.new h l).1 (Arr.new h l).2 := by
  refine ⟨alloc_mono h l, Nat.le_refl _, Nat.lt_succ_self _, rfl, rfl, ?_⟩
  simp [Arr.new, Heap.alloc]

theorem matNew_good (h : Heap T) (l : List T) (s0 s1 rows cols : Nat)
    (hs : (s0 = cols ∧ s1 = 1) ∨ (s0 = 1 ∧ s1 = rows)) (hl : rows * cols ≤ l.length) :
    Mono h (Mat.new h l 0 s0 s1 rows cols).2 ∧
      NewMat h (Mat.new h l 0 s0 s1 rows cols).1 (Mat.new h l 0 s0 s1 rows cols).2 := by
  refine ⟨alloc_mono h l, Nat.le_refl _, ⟨rfl, hs⟩, Nat.lt_succ_self _, ?_⟩
  simpa [Mat.new, Heap.alloc] using hl

theorem readAll_length (h : Heap T) (r : Nat) (ks : List Nat) (l : List T)
    (e : readAll h r ks = .ok l) : l.length = ks.length := by
  induction ks generalizing l with
  | nil => simp only [readAll, Except.ok.injEq] at e; subst e; rfl
  | cons k ks ih =>
    simp only [readAll] at e
    split at e
    · cases e
    · split at e
      · cases e
      · rename_i vs hv
        cases e
        simp [ih vs hv]

theorem pairs_length (r c : Nat) : (pairs r c).length = r * c := by
  unfold pairs
  rw [List.length_flatMap]
  simp only [List.length_map, List.length_range]
  induction r with
  | zero => simp
  | succ n ih => rw [List.range_succ, List.map_append, List.sum_append, ih]; simp [Nat.add_mul]

theorem Arr.clone_good (h : Heap T) (a : Arr) : Good h (a.clone h) (NewArr h) := by
  simp only [Arr.clone]
  split
  · exact ⟨Mono.refl _, fun _ e => by cases e⟩
  · refine ⟨(arrNew_good h _).1, fun b e => ?_⟩
    cases e
    exact (arrNew_good h _).2

theorem Mat.toList_length (h : Heap T) (m : Mat) (l : List T) (e : m.toList h = .ok l) :
    l.length = m.rows * m.cols := by
  rw [readAll_length h _ _ _ e, List.length_map, pairs_length]

theorem Mat.clone_good (h : Heap T) (m : Mat) :
    Good h (m.clone h) (fun c h' => NewMat h c h' ∧ c.rows = m.rows ∧ c.cols = m.cols ∧
      c.s0 = m.cols ∧ c.s1 = 1) := by
  simp only [Mat.clone]
  split
  · exact ⟨Mono.refl _, fun _ e => by cases e⟩
  · rename_i l el
    have := matNew_good h l m.cols 1 m.rows m.cols (.inl ⟨rfl, rfl⟩)
      (Nat.le_of_eq (Mat.toList_length h m l el).symm)
    refine ⟨this.1, fun b e => ?_⟩
    cases e
    exact ⟨this.2, rfl, rfl, rfl, rfl⟩

theorem Mat.flatten_good (h : Heap T) (m : Mat) : Good h (m.flatten h) (NewArr h) := by
  simp only [Mat.flatten]
  split
  · exact ⟨Mono.refl _, fun _ e => by cases e⟩
  · refine ⟨(arrNew_good h _).1, fun b e => ?_⟩
    cases e
    exact (arrNew_good h _).2

theorem Arr.full_good (h : Heap T) (n : Int) (v : T) : Good h (Arr.full h n v) (NewArr h) := by
  simp only [Arr.full]
  split
  · exact ⟨Mono.refl _, fun _ e => by cases e⟩
  · refine ⟨(arrNew_good h _).1, fun b e => ?_⟩
    cases e
    exact (arrNew_good h _).2

theorem Mat.full_good (h : Heap T) (r c : Int) (v : T) :
    Good h (Mat.full h r c v) (fun m h' => NewMat h m h' ∧ m.rows = r.toNat ∧ m.cols = c.toNat ∧
      m.s0 = c.toNat ∧ m.s1 = 1) := by
  simp only [Mat.full]
  split
  · exact ⟨Mono.refl _, fun _ e => by cases e⟩
  · have := matNew_good h (List.replicate (r.toNat * c.toNat) v) c.toNat 1 r.toNat c.toNat
      (.inl ⟨rfl, rfl⟩) (by simp)
    refine ⟨this.1, fun b e => ?_⟩
    cases e
    exact ⟨this.2, rfl, rfl, rfl, rfl⟩

theorem Mat.make_good (h : Heap T) (r c : Int) (f : Nat → Nat → T) :
    Good h (Mat.make h r c f) (NewMat h) := by
  simp only [Mat.make]
  split
  · exact ⟨Mono.refl _, fun _ e => by cases e⟩
  · have := matNew_good h ((pairs r.toNat c.toNat).map fun p => f p.1 p.2) c.toNat 1 r.toNat c.toNat
      (.inl ⟨rfl, rfl⟩) (by simp [pairs_length])
    refine ⟨this.1, fun b e => ?_⟩
    cases e
    exact this.2

theorem Mat.transpose_good {h : Heap T} {m : Mat} (w : m.WF h) :
    Mono h (m.transpose h).2 ∧ NewMat h (m.transpose h).1 (m.transpose h).2 := by
  simp only [Mat.transpose]
  rw [w.off]
  refine matNew_good h (h.buf m.ref) m.s1 m.s0 m.cols m.rows ?_ ?_
  · rcases w.strides with ⟨a, b⟩ | ⟨a, b⟩
    · exact .inr ⟨b, a⟩
    · exact .inl ⟨b, a⟩
  · rw [Nat.mul_comm]; exact w.size

/-- The shape of every operator that works on a new object: make it, then change it in place. -/
theorem Good.bind {α β : Type} {h : Heap T} {r : Res T α} {P : α → Heap T → Prop}
    {Q : β → Heap T → Prop} {k : α → Heap T → Res T β} (g : Good h r P)
    (hk : ∀ a h', Mono h h' → P a h' → Good h' (k a h') Q) :
    Good h (andThen r k) Q := by
  obtain ⟨e, h'⟩ := r
  cases e with
  | error e => exact ⟨g.1, fun _ e => by cases e⟩
  | ok a =>
    have := hk a h' g.1 (g.2 a rfl)
    exact ⟨g.1.trans this.1, this.2⟩

theorem Good.inplace {α : Type} {h h0 : Heap T} {r : Res T Unit} {c : α} {P : α → Heap T → Prop}
    (mo : Mono h r.2) (hP : P c r.2) (_ : Mono h0 h) :
    Good h (andThen r fun _ h => (.ok c, h)) P := by
  obtain ⟨e, h'⟩ := r
  cases e with
  | error e => exact ⟨mo, fun _ e => by cases e⟩
  | ok a => exact ⟨mo, fun _ e => by cases e; exact hP⟩

theorem Arr.op_good (f : T → T → Except Err T) (a b : Arr) (h : Heap T) :
    Good h (a.op f b h) (NewArr h) := by
  simp only [Arr.op]
  split
  · exact ⟨Mono.refl _, fun _ e => by cases e⟩
  · exact (Arr.clone_good h a).bind fun c h' mo n =>
      Good.inplace (forEach_mono ..) (n.later (forEach_mono ..)) mo

theorem Arr.map_good (f : T → Except Err T) (a : Arr) (h : Heap T) :
    Good h (a.map f h) (NewArr h) :=
  (Arr.clone_good h a).bind fun _ _ mo n =>
    Good.inplace (forEach_mono ..) (n.later (forEach_mono ..)) mo

theorem Arr.iop_mono (f : T → T → Except Err T) (a b : Arr) (h : Heap T) :
    Mono h (a.iop f b h).2 := by
  simp only [Arr.iop]
  split
  · exact Mono.refl _
  · exact forEach_mono ..

theorem Arr.iaddFloat_mono (add : T → T → T) (a b : Arr) (h : Heap T) :
    Mono h (a.iaddFloat add b h).2 := by
  simp only [Arr.iaddFloat]
  split
  · exact Mono.refl _
  · exact forEach_mono ..

theorem Arr.addFloat_good (add : T → T → T) (a b : Arr) (h : Heap T) :
    Good h (a.addFloat add b h) (NewArr h) := by
  simp only [Arr.addFloat]
  split
  · exact ⟨Mono.refl _, fun _ e => by cases e⟩
  · exact (Arr.clone_good h a).bind fun c h' mo n =>
      Good.inplace (Arr.iaddFloat_mono ..) (n.later (Arr.iaddFloat_mono ..)) mo

theorem Mat.op_good (f : T → T → Except Err T) (m o : Mat) (h : Heap T) :
    Good h (m.op f o h) (NewMat h) := by
  simp only [Mat.op]
  split
  · exact ⟨Mono.refl _, fun _ e => by cases e⟩
  · exact (Mat.clone_good h m).bind fun c h' mo n =>
      Good.inplace (forEach_mono ..) (n.1.later (forEach_mono ..)) mo

theorem Mat.map_good (f : T → Except Err T) (m : Mat) (h : Heap T) :
    Good h (m.map f h) (NewMat h) :=
  (Mat.clone_good h m).bind fun _ _ mo n =>
    Good.inplace (forEach_mono ..) (n.1.later (forEach_mono ..)) mo

theorem Mat.iop_mono (f : T → T → Except Err T) (m o : Mat) (h : Heap T) :
    Mono h (m.iop f o h).2 := by
  simp only [Mat.iop]
  split
  · exact Mono.refl _
  · exact forEach_mono ..

theorem Mat.identity_good (zero one : T) (h : Heap T) (x : Int) :
    Good h (Mat.identity zero one h x) (NewMat h) :=
  (Mat.full_good h x x zero).bind fun _ _ mo n =>
    Good.inplace (forEach_mono ..) (n.1.later (forEach_mono ..)) mo

theorem Mat.setRow_mono (m : Mat) (i : Int) (a : Arr) (h : Heap T) : Mono h (m.setRow i a h).2 := by
  simp only [Mat.setRow]
  split
  · exact Mono.refl _
  · split
    · exact Mono.refl _
    · exact forEach_mono ..

theorem Mat.canonical_good {h : Heap T} {m : Mat} (w : m.WF h) :
    Good h (m.canonical h) (fun c h' => c.WF h' ∧ c.rows = m.rows ∧ c.cols = m.cols ∧
      c.s0 = m.cols ∧ c.s1 = 1) := by
  simp only [Mat.canonical]
  split
  · rename_i hc
    simp only [Mat.isCanonical, decide_eq_true_eq] at hc
    exact ⟨Mono.refl _, fun b e => by cases e; exact ⟨w, rfl, rfl, hc.1, hc.2⟩⟩
  · have := Mat.clone_good h m
    exact ⟨this.1, fun b e => ⟨(this.2 b e).1.2, (this.2 b e).2⟩⟩

theorem gemm_mono (m n k ar a lda br b ldb cr c ldc : Nat) (h : Heap T) :
    Mono h (gemm B m n k ar a lda br b ldb cr c ldc h).2 := by
  simp only [gemm]
  split
  · exact Mono.refl _
  · exact forEach_mono ..

theorem gemv_mono (t : Bool) (m n ar a lda xr x incx yr y incy : Nat) (h : Heap T) :
    Mono h (gemv B t m n ar a lda xr x incx yr y incy h).2 := by
  simp only [gemv]
  split
  · exact Mono.refl _
  · exact forEach_mono ..

theorem Mat.matmul_good {h : Heap T} {m o : Mat} (wm : m.WF h) (wo : o.WF h) :
    Good h (m.matmul B o h) (NewMat h) := by
  simp only [Mat.matmul]
  split
  · exact ⟨Mono.refl _, fun _ e => by cases e⟩
  · refine (Mat.canonical_good wm).bind fun c h1 mo1 _ => ?_
    refine (Mat.canonical_good (wo.mono mo1)).bind fun d h2 mo2 _ => ?_
    refine (Mat.full_good h2 _ _ _).bind fun r h3 mo3 n => ?_
    exact Good.inplace (gemm_mono ..)
      ((n.1.earlier (mo1.trans mo2)).later (gemm_mono ..)) mo3

theorem Mat.mulVec_good {h : Heap T} {m : Mat} (x : Arr) (wm : m.WF h) :
    Good h (m.mulVec B x h) (NewArr h) := by
  simp only [Mat.mulVec]
  refine (Mat.canonical_good wm).bind fun c h1 mo1 _ => ?_
  have ma := alloc_mono h1 (List.replicate c.rows B.zero)
  split
  · exact ⟨ma, fun _ e => by cases e⟩
  · refine Good.bind (P := fun _ _ => True) ⟨ma.trans (gemv_mono ..), fun _ _ => trivial⟩
      fun _ h2 mo2 _ => ?_
    have := arrNew_good h2 (h2.buf (h1.alloc (List.replicate c.rows B.zero)).1)
    exact ⟨this.1, fun b e => by cases e; exact this.2.earlier (mo1.trans mo2)⟩

theorem Mat.vecMul_good {h : Heap T} {m : Mat} (x : Arr) (wm : m.WF h) :
    Good h (m.vecMul B x h) (NewArr h) := by
  simp only [Mat.vecMul]
  refine (Mat.canonical_good wm).bind fun c h1 mo1 _ => ?_
  have ma := alloc_mono h1 (List.replicate c.cols B.zero)
  split
  · exact ⟨ma, fun _ e => by cases e⟩
  · refine Good.bind (P := fun _ _ => True) ⟨ma.trans (gemv_mono ..), fun _ _ => trivial⟩
      fun _ h2 mo2 _ => ?_
    have := arrNew_good h2 (h2.buf (h1.alloc (List.replicate c.cols B.zero)).1)
    exact ⟨this.1, fun b e => by cases e; exact this.2.earlier (mo1.trans mo2)⟩

theorem Mat.invert_good {h : Heap T} {m : Mat} (wm : m.WF h) :
    Good h (m.invert B inv h) (NewMat h) := by
  simp only [Mat.invert]
  split
  · exact ⟨Mono.refl _, fun _ e => by cases e⟩
  split
  · exact ⟨Mono.refl _, fun _ e => by cases e⟩
  have ht := Mat.transpose_good wm
  have hc := Mat.canonical_good ht.2.2
  have hb := hc.bind (Q := NewMat h) (k := fun t h =>
      andThen (storeCols (inv t.rows (colMajor B.zero h t.ref t.off t.s0)).2 t.rows t.ref t.off t.s0 h)
        fun _ h' =>
        if (inv t.rows (colMajor B.zero h t.ref t.off t.s0)).1 then
          (.ok (t.transpose (h'.grow t.ref ((h'.buf t.ref).length * 2) B.zero)).1,
            (t.transpose (h'.grow t.ref ((h'.buf t.ref).length * 2) B.zero)).2)
        else t.map (fun x => .ok (B.mul x B.nan)) (h'.grow t.ref ((h'.buf t.ref).length * 2) B.zero))
    (fun t h1 mo n => by
      refine Good.bind (P := fun _ _ => True) ⟨forEach_mono .., fun _ _ => trivial⟩
        fun _ h2 mo2 _ => ?_
      have mo3 := grow_mono h2 t.ref ((h2.buf t.ref).length * 2) B.zero
      have wt3 := (n.1.mono mo2).mono mo3
      split
      · have := Mat.transpose_good wt3
        exact ⟨mo3.trans this.1, fun b e => by
          cases e; exact this.2.earlier (ht.1.trans (mo.trans (mo2.trans mo3)))⟩
      · have := Mat.map_good (fun x => .ok (B.mul x B.nan)) t
          (h2.grow t.ref ((h2.buf t.ref).length * 2) B.zero)
        exact ⟨mo3.trans this.1, fun b e =>
          (this.2 b e).earlier (ht.1.trans (mo.trans (mo2.trans mo3)))⟩)
  exact ⟨ht.1.trans hb.1, hb.2⟩

/-! ## The invariant -/

/-- Every list belongs to one matrix `g r`, which is the matrix over it if there is one, and which
the arrays over it are views of. -/
def Inv (w : World T) : Prop :=
  ∃ g : Nat → Mat,
    (∀ m ∈ w.mats, m.WF w.heap ∧ g m.ref = m) ∧
    (∀ a ∈ w.arrs, (g a.ref).WF w.heap ∧ (g a.ref).View a)

theorem View.ref {m : Mat} {a : Arr} (v : m.View a) : a.ref = m.ref := by
  rcases v with ⟨_, _, rfl⟩ | rfl <;> rfl

theorem Inv.heap {w : World T} (i : Inv w) {h : Heap T} (mo : Mono w.heap h) :
    Inv { w with heap := h } := by
  obtain ⟨g, hm, ha⟩ := i
  exact ⟨g, fun m x => ⟨(hm m x).1.mono mo, (hm m x).2⟩,
    fun a x => ⟨(ha a x).1.mono mo, (ha a x).2⟩⟩

theorem Inv.arr {w : World T} (i : Inv w) {r : Res T Arr} (gd : Good w.heap r (NewArr w.heap)) :
    Inv (w.arr r) := by
  obtain ⟨e, h⟩ := r
  cases e with
  | error e => exact i.heap gd.1
  | ok a =>
    have n : NewArr w.heap a h := gd.2 a rfl
    obtain ⟨g, hm, ha⟩ := i.heap gd.1
    obtain ⟨g', hm', ha'⟩ := i
    refine ⟨fun q => if q = a.ref then ⟨a.ref, 0, a.len, 1, 1, a.len⟩ else g q, ?_, ?_⟩
    · intro m x
      refine ⟨(hm m x).1, ?_⟩
      have := (hm' m x).1.live
      have n1 := n.1
      simp only
      rw [if_neg (by omega)]
      exact (hm m x).2
    · intro b x
      simp only [World.arr, List.mem_append, List.mem_singleton] at x
      rcases x with x | rfl
      · have h1 := (ha' b x).1.live
        have h2 := View.ref (ha' b x).2
        rw [← h2] at h1
        have n1 := n.1
        simp only
        rw [if_neg (by omega)]
        exact ha b x
      · simp only [if_true]
        obtain ⟨_, live, ho, hs, hl⟩ := n
        refine ⟨⟨whole_geo _ _, live, by rw [Nat.one_mul]; exact hl⟩, ?_⟩
        have := whole_view b.ref b.len
        rw [← hs] at this
        obtain ⟨r, o, s, l⟩ := b
        simp only at ho hs this ⊢
        subst ho hs
        exact this

theorem Inv.view {w : World T} (i : Inv w) {m : Mat} (hmem : m ∈ w.mats) {a : Arr}
    (v : m.View a) : Inv (w.arr (.ok a, w.heap)) := by
  obtain ⟨g, hm, ha⟩ := i
  refine ⟨g, hm, ?_⟩
  intro b x
  simp only [World.arr, List.mem_append, List.mem_singleton] at x
  rcases x with x | rfl
  · exact ha b x
  · rw [View.ref v, (hm m hmem).2]
    exact ⟨(hm m hmem).1, v⟩

theorem Inv.mat {w : World T} (i : Inv w) {r : Res T Mat} (gd : Good w.heap r (NewMat w.heap)) :
    Inv (w.mat r) := by
  obtain ⟨e, h⟩ := r
  cases e with
  | error e => exact i.heap gd.1
  | ok c =>
    have n : NewMat w.heap c h := gd.2 c rfl
    obtain ⟨g, hm, ha⟩ := i.heap gd.1
    obtain ⟨g', hm', ha'⟩ := i
    refine ⟨fun q => if q = c.ref then c else g q, ?_, ?_⟩
    · intro m x
      simp only [World.mat, List.mem_append, List.mem_singleton] at x
      rcases x with x | rfl
      · refine ⟨(hm m x).1, ?_⟩
        have := (hm' m x).1.live
        have n1 := n.1
        simp only
        rw [if_neg (by omega)]
        exact (hm m x).2
      · exact ⟨n.2, by simp⟩
    · intro b x
      have h1 := (ha' b x).1.live
      have h2 := View.ref (ha' b x).2
      rw [← h2] at h1
      have n1 := n.1
      simp only
      rw [if_neg (by omega)]
      exact ha b x

theorem withArr_inv {w : World T} (a : Nat) {f : Arr → World T} (i : Inv w)
    (hf : ∀ a ∈ w.arrs, Inv (f a)) : Inv (w.withArr a f) := by
  simp only [World.withArr]
  split
  · rename_i x hx; exact hf x (List.mem_of_getElem? hx)
  · exact i

theorem withMat_inv {w : World T} (m : Nat) {f : Mat → World T} (i : Inv w)
    (hf : ∀ m ∈ w.mats, Inv (f m)) : Inv (w.withMat m f) := by
  simp only [World.withMat]
  split
  · rename_i x hx; exact hf x (List.mem_of_getElem? hx)
  · exact i

theorem Inv.wf {w : World T} (i : Inv w) {m : Mat} (x : m ∈ w.mats) : m.WF w.heap := by
  obtain ⟨g, hm, _⟩ := i
  exact (hm m x).1

theorem Inv.arrWF {w : World T} (i : Inv w) {a : Arr} (x : a ∈ w.arrs) : a.WF w.heap := by
  obtain ⟨g, _, ha⟩ := i
  exact ⟨_, ha a x⟩

/-- Two matrices that share a list are the same. -/
theorem Inv.same {w : World T} (i : Inv w) {m o : Mat} (x : m ∈ w.mats) (y : o ∈ w.mats)
    (e : m.ref = o.ref) : m = o := by
  obtain ⟨g, hm, _⟩ := i
  rw [← (hm m x).2, ← (hm o y).2, e]

theorem Inv.compat {w : World T} (i : Inv w) {a b : Arr} (x : a ∈ w.arrs) (y : b ∈ w.arrs) :
    a.Compat b := by
  obtain ⟨g, _, ha⟩ := i
  intro e p q hp hq he
  have vb := (ha b y).2
  rw [← e] at vb
  exact View.compat (ha a x).1.toGeo (ha a x).2 vb hp hq he

/-- An array over the list of a matrix is one of its rows or its diagonal. -/
theorem Inv.isView {w : World T} (i : Inv w) {m : Mat} {a : Arr} (x : m ∈ w.mats) (y : a ∈ w.arrs)
    (e : a.ref = m.ref) : m.View a := by
  obtain ⟨g, hm, ha⟩ := i
  have := (ha a y).2
  rwa [e, (hm m x).2] at this

theorem step_inv {w : World T} (i : Inv w) (op : Op T) : Inv (step B inv w op) := by
  cases op with
  | newArr vals =>
    have := arrNew_good w.heap vals
    exact i.arr (r := (.ok _, _)) ⟨this.1, fun _ e => by cases e; exact this.2⟩
  | fullArr n v => exact i.arr (Arr.full_good ..)
  | cloneArr a => exact withArr_inv a i fun a _ => i.arr (Arr.clone_good ..)
  | mapArr f a => exact withArr_inv a i fun a _ => i.arr (Arr.map_good ..)
  | unopArr f a => exact withArr_inv a i fun a _ => i.heap (forEach_mono ..)
  | opArr f a b =>
    exact withArr_inv a i fun a _ => withArr_inv b i fun b _ => i.arr (Arr.op_good ..)
  | iopArr f a b =>
    exact withArr_inv a i fun a _ => withArr_inv b i fun b _ => i.heap (Arr.iop_mono ..)
  | addFloat a b =>
    exact withArr_inv a i fun a _ => withArr_inv b i fun b _ => i.arr (Arr.addFloat_good ..)
  | iaddFloat a b =>
    exact withArr_inv a i fun a _ => withArr_inv b i fun b _ => i.heap (Arr.iaddFloat_mono ..)
  | setArr a k v => exact withArr_inv a i fun a _ => i.heap (listSet_mono ..)
  | setitemArr a k v =>
    refine withArr_inv a i fun a _ => i.heap ?_
    simp only [Arr.setitem]
    split
    · exact Mono.refl _
    · exact listSet_mono ..
  | fullMat r c v =>
    have := Mat.full_good w.heap r c v
    exact i.mat ⟨this.1, fun a e => (this.2 a e).1⟩
  | makeMat r c f => exact i.mat (Mat.make_good ..)
  | identity n => exact i.mat (Mat.identity_good ..)
  | cloneMat m =>
    refine withMat_inv m i fun m _ => ?_
    have := Mat.clone_good w.heap m
    exact i.mat ⟨this.1, fun a e => (this.2 a e).1⟩
  | flatten m => exact withMat_inv m i fun m _ => i.arr (Mat.flatten_good ..)
  | transpose m =>
    refine withMat_inv m i fun m x => ?_
    have := Mat.transpose_good (i.wf x)
    exact i.mat (r := (.ok _, _)) ⟨this.1, fun _ e => by cases e; exact this.2⟩
  | row m k =>
    refine withMat_inv m i fun m x => ?_
    simp only [Mat.row]
    split
    · exact i
    · exact i.view x (.inl ⟨k.toNat, by omega, rfl⟩)
  | diagonal m => exact withMat_inv m i fun m x => i.view x (.inr rfl)
  | setRow m k a =>
    exact withMat_inv m i fun m _ => withArr_inv a i fun a _ => i.heap (Mat.setRow_mono ..)
  | setMat m a b v => exact withMat_inv m i fun m _ => i.heap (listSet_mono ..)
  | mapMat f m => exact withMat_inv m i fun m _ => i.mat (Mat.map_good ..)
  | unopMat f m => exact withMat_inv m i fun m _ => i.heap (forEach_mono ..)
  | opMat f m o =>
    exact withMat_inv m i fun m _ => withMat_inv o i fun o _ => i.mat (Mat.op_good ..)
  | iopMat f m o =>
    exact withMat_inv m i fun m _ => withMat_inv o i fun o _ => i.heap (Mat.iop_mono ..)
  | matmul m o =>
    exact withMat_inv m i fun m x => withMat_inv o i fun o y =>
      i.mat (Mat.matmul_good B (i.wf x) (i.wf y))
  | mulVec m a =>
    exact withMat_inv m i fun m x => withArr_inv a i fun a _ =>
      i.arr (Mat.mulVec_good B a (i.wf x))
  | vecMul m a =>
    exact withMat_inv m i fun m x => withArr_inv a i fun a _ =>
      i.arr (Mat.vecMul_good B a (i.wf x))
  | invert m => exact withMat_inv m i fun m x => i.mat (Mat.invert_good B inv (i.wf x))

/-- **Every history** keeps the invariant. -/
theorem run_inv (ops : List (Op T)) : Inv (run B inv ops) := by
  have : ∀ (ops : List (Op T)) (w : World T), Inv w → Inv (ops.foldl (step B inv) w) := by
    intro ops
    induction ops with
    | nil => intro w i; exact i
    | cons op ops ih => intro w i; exact ih _ (step_inv B inv i op)
  refine this ops World.init ⟨fun _ => ⟨0, 0, 0, 1, 0, 0⟩, ?_, ?_⟩
  · intro m x; cases x
  · intro a x; cases x

end Verif.Arr
