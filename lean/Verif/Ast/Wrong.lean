import Verif.Ast.Props
/-
Where C115 fails: programs that are refused, or come back as something else.
-/
namespace Verif.Ast.Wrong

/-- To a typed tree and back. -/
def trip (v : Version) (p : Py) : Option Py := match convert v "a.py" true p with
  | some a => back v a
  | .none => .none

/-- A whole number. -/
def num (v : Version) (n o : Int) : Py :=
  if 8 ≤ v.minor then .node "Constant" [("value", .const (.int n)), ("kind", .none)] (some (1, o)) else .node "Num" [("n", .const (.int n))] (some (1, o))

/-- `x[...]` -/
def subscript (s : Py) : Py := .node "Subscript" [("value", name "x" 1 0), ("slice", s), ("ctx", .node "Load" [] .none)] (some (1, 0))

/-- `x[1, 2]` before Python 3.9. -/
def pair (v : Version) : Py := subscript (.node "Index" [("value", .node "Tuple" [("elts", .list [num v 1 2, num v 2 5]), ("ctx", .node "Load" [] .none)] (some (1, 2)))] .none)

/-- `x[a:b, c]` before Python 3.9. -/
def mixed : Py := subscript (.node "ExtSlice" [("dims", .list [.node "Slice" [("lower", name "a" 1 2), ("upper", name "b" 1 4), ("step", .none)] .none,
  .node "Index" [("value", name "c" 1 7)] .none])] .none)

theorem any_of {o : Option α} {f : α → Bool} (h : o.any f = true) : ∃ x, o = some x ∧ f x = true := by
  cases o with
  | none => simp at h
  | some x => exact ⟨x, rfl, by simpa using h⟩

/-- Before Python 3.9, `x[1, 2]` comes back as something that is not as the grammar says: the parts of an `ExtSlice` are slices, and
here they are numbers.  `compile` refuses it. -/
theorem comma_breaks (v : Version) (hv : v.minor < 9) :
    (pair v).wf v (.one .expr) = true ∧ ∃ q, trip v (pair v) = some q ∧ q.wf v (.one .expr) = false := by
  have h : ∀ v : Version, v.minor < 9 → (pair v).wf v (.one .expr) = true ∧ (trip v (pair v)).any (fun q => !q.wf v (.one .expr)) = true := by
    intro v; cases v <;> decide +kernel
  obtain ⟨h1, h2⟩ := h v hv
  obtain ⟨q, h3, h4⟩ := any_of h2
  exact ⟨h1, q, h3, by simpa using h4⟩

/-- So does `x[a:b, c]`. -/
theorem slice_and_index_breaks (v : Version) (hv : v.minor < 9) :
    mixed.wf v (.one .expr) = true ∧ ∃ q, trip v mixed = some q ∧ q.wf v (.one .expr) = false := by
  have h : ∀ v : Version, v.minor < 9 → mixed.wf v (.one .expr) = true ∧ (trip v mixed).any (fun q => !q.wf v (.one .expr)) = true := by
    intro v; cases v <;> decide +kernel
  obtain ⟨h1, h2⟩ := h v hv
  obtain ⟨q, h3, h4⟩ := any_of h2
  exact ⟨h1, q, h3, by simpa using h4⟩

/-- No assignment expression `(x := y)` is converted, so no function that has one is compiled or sent. -/
theorem walrus_refused (v : Version) (file : String) (keep : Bool) (fs : List (String × Py)) (pos : Option (Int × Int)) :
    convert v file keep (.node "NamedExpr" fs pos) = .none := by
  have : converters.lookup "NamedExpr" = .none := by decide +kernel
  simp [convert, this]
/-- It is an expression of Python 3.8 and later. -/
example : (Py.node "NamedExpr" [("target", name "x" 1 1), ("value", name "y" 1 6)] (some (1, 1))).wf .v38 (.one .expr) = true := by decide +kernel

/-- A function with such an expression in its body is refused as a whole: so is every list and every node around it. -/
theorem refused_around (v : Version) (file : String) (keep : Bool) (p : Py) (h : convert v file keep p = .none) :
    (∀ l r, convert v file keep (.list (l ++ p :: r)) = .none) ∧
    (∀ c l n r pos, n ≠ "type_comment" → convert v file keep (.node c (l ++ (n, p) :: r) pos) = .none) := by
  have h1 : ∀ l r, convertAll v file keep (l ++ p :: r) = .none := by
    intro l r
    induction l with
    | nil => simp [convertAll, h]
    | cons x l ih =>
      simp only [List.cons_append, convertAll, ih]
      cases convert v file keep x <;> rfl
  have h2 : ∀ l n r, n ≠ "type_comment" → convertFields v file keep (l ++ (n, p) :: r) = .none := by
    intro l n r hn
    induction l with
    | nil => simp [convertFields, h, hn]
    | cons x l ih =>
      obtain ⟨m, y⟩ := x
      simp only [List.cons_append, convertFields, ih]
      split
      · rfl
      · cases convert v file keep y <;> rfl
  constructor
  · intro l r; simp [convert, h1]
  · intro c l n r pos hn
    simp only [convert, h2 l n r hn]
    split <;> rfl

/-- `from . import x`: there is no name of a module, and the typed tree requires one. -/
theorem relative_import_refused (v : Version) (file : String) (keep : Bool) (names level : Py) (pos : Option (Int × Int)) :
    convert v file keep (.node "ImportFrom" [("module", .none), ("names", names), ("level", level)] pos) = .none := by
  have h1 : converters.lookup "ImportFrom" = some (.alt "Statement" "ImportFrom") := by decide +kernel
  have h2 : ∃ ms, membersOf v "Statement" "ImportFrom" = some (("module", .strOrStrs) :: ms) := by
    have : ∀ v, ((membersOf v "Statement" "ImportFrom").any fun ms => ms.head? == some ("module", .strOrStrs)) = true := by intro v; cases v <;> decide +kernel
    obtain ⟨ms, h3, h4⟩ := any_of (this v)
    cases ms with
    | nil => simp at h4
    | cons m ms =>
      simp only [List.head?_cons, beq_iff_eq, Option.some.injEq] at h4
      exact ⟨ms, by rw [h3, h4]⟩
  obtain ⟨ms, hm⟩ := h2
  have h3 : ∀ args, construct v "Statement" "ImportFrom" (("module", .none) :: args) = .none := by
    intro args
    simp only [construct, hm, fill, List.lookup_cons, beq_self_eq_true, fits]
    split <;> simp
  simp only [convert, h1, convertFields, String.reduceEq, if_false]
  cases convert v file keep names with
  | none => rfl
  | some a =>
    cases convert v file keep level with
    | none => rfl
    | some b => simp [Maker.run, h3]
example : (Py.node "ImportFrom" [("module", .none), ("names", .list [.node "alias" [("name", .str "x"), ("asname", .none)] .none]), ("level", .int 1)] (some (1, 0))).wf
    .v39 (.one .stmt) = true := by decide +kernel

/-- In Python 3.7 a whole number comes back with only its lower 64 bits, as a number with a sign, without an error. -/
theorem number_wraps (n l o : Int) (hl : small l = true) (ho : small o = true) :
    trip .v37 (.node "Num" [("n", .const (.int n))] (some (l, o))) = some (.node "Num" [("n", .const (.int (wrap n)))] (some (l, o))) := by
  have hc : converters.lookup "Num" = some .num := by decide +kernel
  have hm : membersOf .v37 "Expr" "Num" = some [("n", .alt "NumericConstant"), ("line_number", .int), ("col_offset", .int), ("filename", .str)] := by decide +kernel
  have h1 : convert .v37 "a.py" true (.node "Num" [("n", .const (.int n))] (some (l, o))) = some (.alt "Expr" "Num" [("n", numeric (.int n)),
      ("line_number", .int l), ("col_offset", .int o), ("filename", .str "a.py")]) := by
    simp [convert, hc, convertFields, Maker.run, lineArgs, without, List.lookup_cons, construct, hm, fill, fits, numeric, Alg.isA, wrap_small hl, wrap_small ho]
  simp only [trip, h1]
  rw [back, if_neg (by decide), if_pos ⟨rfl, rfl⟩]
  simp only [numBack, numeric, List.lookup_cons, beq_self_eq_true, String.reduceEq, if_false, constant, old_minor]
  exact congrArg some (make_old (a := ("n", _)) num_class (by simp [isLine]))
/-- `0xFFFFFFFFFFFFFFFF` comes back as `-1`. -/
example : wrap 0xFFFFFFFFFFFFFFFF = -1 ∧ wrap (2 ^ 64 + 5) = 5 := by decide +kernel
/-- In Python 3.8 it is kept. -/
example : (num .v38 0xFFFFFFFFFFFFFFFF 0).plain = true ∧ (num .v38 0xFFFFFFFFFFFFFFFF 0).wf .v38 (.one .expr) = true := by decide +kernel

/-- In Python 3.7 the place of `...` is lost: it comes back at line 0. -/
theorem ellipsis_place (l o : Int) :
    trip .v37 (.node "Ellipsis" [] (some (l, o))) = some (.node "Constant" [("value", .const .ellipsis)] (some (0, 0))) := by
  obtain ⟨a, q, h⟩ := ellipsis_good (file := "a.py") (keep := true) (l := l) (o := o)
  simp only [trip, h.convert, h.back, h.exact trivial]
  simp [Py.clean]

end Verif.Ast.Wrong
