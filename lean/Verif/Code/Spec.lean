import Verif.Code.Model
/-
What is said about codebases.
-/
namespace Verif.Code

/-- A path of a file without empty, `.` and `..` parts. -/
def Clean (p : Path) : Prop := p ≠ [] ∧ ∀ c ∈ p, c ≠ "" ∧ c ≠ "." ∧ c ≠ ".."

/-- Files of which none is twice, or where another one needs a directory. -/
def Separate (files : Files) : Prop := files.Pairwise fun a b => ¬ a.1 <+: b.1 ∧ ¬ b.1 <+: a.1

/-- Nothing is in the directory, and it can be made. -/
def Fresh (d : Disk) (dir : Path) : Prop := (∀ q, dir <+: q → d q = none) ∧ ∀ q, q <+: dir → ∀ t, d q ≠ some (.file t)

/-- The file with this path is the module with this dotted name: a.b.c is a/b/c.py or a/b/c/__init__.py. -/
def IsModule (p : Path) (n : List String) : Prop :=
  p = n ++ ["__init__.py"] ∨ ∃ as a, n = as ++ [a] ∧ a ≠ "__init__" ∧ p = as ++ [a ++ ".py"]

/-- What the tree has at a path. -/
inductive At : Tree → Path → String → Prop
  | here (t : String) : At (.file t) [] t
  | there {es : List (String × Tree)} {n : String} {c : Tree} {p : Path} {t : String} : (n, c) ∈ es → At c p t → At (.dir es) (n :: p) t

mutual
/-- Names in directories are names, and no two are equal. -/
def Tree.proper : Tree → Prop
  | .file _ => True
  | .dir es => Tree.properAll es ∧ (es.map (·.1)).Nodup
def Tree.properAll : List (String × Tree) → Prop
  | [] => True
  | (n, t) :: es => (n ≠ "" ∧ n ≠ "." ∧ n ≠ "..") ∧ t.proper ∧ Tree.properAll es
end

end Verif.Code
