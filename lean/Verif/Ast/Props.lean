import Verif.Ast.Clean
/-
C115: a program converted to a typed tree and back is the same program; without places, two programs have the same typed tree just when
they differ in nothing but places and comments for type checkers.
-/
namespace Verif.Ast

/-- A program that is as Python's grammar says and has none of the forms of `plainNode` is converted, and converting back gives the same
program, node by node, with every place: whatever its size and depth, in each version of Python.  Part of C115: for other forms see
`Wrong`. -/
theorem round_trip_partial (v : Version) (file : String) (p : Py) (s : Sort_) (hs : s ≠ .slice) (hw : p.wf v (.one s) = true) (hp : p.plain = true) :
    ∃ a, convert v file true p = some a ∧ back v a = some (p.clean true) := by
  obtain ⟨a, q, h⟩ := value_good v file true p (.one s) (by simp) (by simp) hw hp
  exact ⟨a, h.convert, by rw [h.back, h.exact (exact_one hs)]⟩

/-- Where no comment for a type checker and no `...` of Python 3.7 occurs, what comes back is the program itself. -/
theorem same_program_partial (v : Version) (file : String) (p : Py) (s : Sort_) (hs : s ≠ .slice) (hw : p.wf v (.one s) = true) (hp : p.plain = true)
    (hc : p.clean true = p) : ∃ a, convert v file true p = some a ∧ back v a = some p := by
  obtain ⟨a, h1, h2⟩ := round_trip_partial v file p s hs hw hp
  exact ⟨a, h1, by rw [h2, hc]⟩

/-- What comes back is again as the grammar says, so `compile` takes it. -/
theorem comes_back_well_formed_partial (v : Version) (file : String) (p : Py) (s : Sort_) (hs : s ≠ .slice) (hw : p.wf v (.one s) = true)
    (hp : p.plain = true) : ∃ a q, convert v file true p = some a ∧ back v a = some q ∧ q.wf v (.one s) = true := by
  obtain ⟨a, h1, h2⟩ := round_trip_partial v file p s hs hw hp
  exact ⟨a, _, h1, h2, clean_wf v true p _ hw⟩

/-- A second conversion gives the same again. -/
theorem settles_partial (v : Version) (file : String) (p : Py) (s : Sort_) (hs : s ≠ .slice) (hw : p.wf v (.one s) = true) (hp : p.plain = true) :
    ∃ a q b, convert v file true p = some a ∧ back v a = some q ∧ convert v file true q = some b ∧ back v b = some q := by
  obtain ⟨a, h1, h2⟩ := round_trip_partial v file p s hs hw hp
  obtain ⟨b, h3, h4⟩ := round_trip_partial v file (p.clean true) s hs (clean_wf v true p _ hw) (clean_plain true p hp)
  exact ⟨a, _, b, h1, h2, h3, by rw [h4, clean_clean]⟩

/-- Without places: the tree is there, and converting it back gives the program with every place at line 0, column 0. -/
theorem stripped_back_partial (v : Version) (file : String) (p : Py) (s : Sort_) (hs : s ≠ .slice) (hw : p.wf v (.one s) = true) (hp : p.plain = true) :
    ∃ b, stripped v file p = some b ∧ back v b = some (p.clean false) := by
  obtain ⟨a, h1, h2⟩ := round_trip_partial v file p s hs hw hp
  obtain ⟨b, q, h⟩ := value_good v "" false (p.clean true) (.one s) (by simp) (by simp) (clean_wf v true p _ hw) (clean_plain true p hp)
  refine ⟨b, by simp [stripped, h1, h2, h.convert], ?_⟩
  rw [h.back, h.exact (exact_one hs), clean_clean]

/-- Two programs, in files of any name, have the same tree without places just when they differ in nothing but places (and comments for
type checkers).  So functions that are moved around keep their identity, and functions that differ have different ones. -/
theorem same_stripped_partial (v : Version) (file file' : String) (p p' : Py) (s s' : Sort_) (hs : s ≠ .slice) (hs' : s' ≠ .slice)
    (hw : p.wf v (.one s) = true) (hw' : p'.wf v (.one s') = true) (hp : p.plain = true) (hp' : p'.plain = true) :
    stripped v file p = stripped v file' p' ↔ p.clean false = p'.clean false := by
  constructor
  · intro h
    obtain ⟨b, h1, h2⟩ := stripped_back_partial v file p s hs hw hp
    obtain ⟨b', h3, h4⟩ := stripped_back_partial v file' p' s' hs' hw' hp'
    rw [h1, h3] at h
    obtain rfl := Option.some.inj h
    rw [h2] at h4
    exact Option.some.inj h4
  · intro h
    have key : ∀ {file : String} {p : Py} {s : Sort_}, s ≠ .slice → p.wf v (.one s) = true → p.plain = true →
        stripped v file p = convert v "" false (p.clean false) := by
      intro file p s hs hw hp
      obtain ⟨a, h1, h2⟩ := round_trip_partial v file p s hs hw hp
      simp only [stripped, h1, h2]
      rw [← convert_clean v "" "" (p.clean true) (.one s) (clean_wf v true p _ hw), clean_clean]
    rw [key hs hw hp, key hs' hw' hp', h]

/-! ### Cases -/

/-- Names. -/
def name (n : String) (l o : Int) : Py := .node "Name" [("id", .str n), ("ctx", .node "Load" [] .none)] (some (l, o))

/-- `f(x, [1][a:b], ...)` in Python 3.7, at two places. -/
def call37 (l : Int) : Py := .node "Call" [("func", name "f" l 0), ("args", .list [name "x" l 2,
    .node "Subscript" [("value", .node "List" [("elts", .list [.node "Num" [("n", .const (.int 1))] (some (l, 6))]), ("ctx", .node "Load" [] .none)] (some (l, 5))),
      ("slice", .node "Slice" [("lower", name "a" l 9), ("upper", name "b" l 11), ("step", .none)] .none), ("ctx", .node "Load" [] .none)] (some (l, 5)),
    .node "Ellipsis" [] (some (l, 15))]), ("keywords", .list [])] (some (l, 0))

/-- The hypotheses are met: the program is as the grammar says, and plain. -/
example : (call37 3).wf .v37 (.one .expr) = true ∧ (call37 3).plain = true := by decide +kernel
theorem call37_moved : (call37 3).clean false = (call37 8).clean false := by
  simp [call37, name, Py.clean, Py.cleanAll, Py.cleanFields]
example : (call37 3).clean true ≠ (call37 8).clean true := by
  simp [call37, name, Py.clean, Py.cleanAll, Py.cleanFields]
example : stripped .v37 "a.py" (call37 3) = stripped .v37 "b.py" (call37 8) :=
  (same_stripped_partial .v37 "a.py" "b.py" _ _ .expr .expr (by decide) (by decide) (by decide +kernel) (by decide +kernel) (by decide +kernel)
    (by decide +kernel)).mpr call37_moved

/-- `def g(x, *, k=1): # type: int` with a body `return x[0, k]` in Python 3.9. -/
def def39 : Py := .node "FunctionDef" [("name", .str "g"),
    ("args", .node "arguments" [("posonlyargs", .list []), ("args", .list [.node "arg" [("arg", .str "x"), ("annotation", .none), ("type_comment", .none)] (some (1, 6))]),
      ("vararg", .none), ("kwonlyargs", .list [.node "arg" [("arg", .str "k"), ("annotation", .none), ("type_comment", .none)] (some (1, 12))]),
      ("kw_defaults", .list [.node "Constant" [("value", .const (.int 1)), ("kind", .none)] (some (1, 14))]), ("kwarg", .none), ("defaults", .list [])] .none),
    ("body", .list [.node "Return" [("value", .node "Subscript" [("value", name "x" 2 11),
      ("slice", .node "Tuple" [("elts", .list [.node "Constant" [("value", .const (.int 0)), ("kind", .none)] (some (2, 13)), name "k" 2 16]), ("ctx", .node "Load" [] .none)] (some (2, 13))),
      ("ctx", .node "Load" [] .none)] (some (2, 11)))] (some (2, 4))]),
    ("decorator_list", .list []), ("returns", .none), ("type_comment", .str "int")] (some (1, 0))

example : def39.wf .v39 (.one .stmt) = true ∧ def39.plain = true := by decide +kernel
example : def39.clean true ≠ def39 := by simp [def39, name, Py.clean, Py.cleanAll, Py.cleanFields]
/-- The tree is really there. -/
example : (convert .v39 "a.py" true def39).isSome = true := by decide +kernel
/-- Another program has another tree. -/
example : stripped .v37 "a.py" (call37 3) ≠ stripped .v37 "a.py" (name "f" 3 0) := fun h => by
  have := (same_stripped_partial .v37 "a.py" "a.py" _ _ .expr .expr (by decide) (by decide) (by decide +kernel) (by decide +kernel) (by decide +kernel)
    (by decide +kernel)).mp h
  simp [call37, name, Py.clean] at this

end Verif.Ast
