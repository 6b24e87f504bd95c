import Verif.Source.Props
/-
Programs for the examples and the disagreements of C116, as trees, and a case that meets the hypotheses of `found_partial`.
-/
namespace Verif.Source.Cases
open Verif.Ast (Alg)

/-- The members that all nodes have at the end. -/
def at' (l c : Int) : List (String × Alg) := [("line_number", .int l), ("col_offset", .int c), ("filename", .str "a.py")]
/-- A name. -/
def name (s : String) (l c : Int) : Alg := .alt "Expr" "Name" ([("id", .str s), ("ctx", .alt "ExprContext" "Load" [])] ++ at' l c)
/-- A number. -/
def num (n : Int) (l c : Int) : Alg := .alt "Expr" "Num" ([("n", .alt "NumericConstant" "Int" [("value", .int n)])] ++ at' l c)
/-- No arguments, or default values. -/
def args (defaults : List Alg) : Alg := .alt "Arguments" "Item" [("posonlyargs", .tuple []), ("args", .tuple []), ("vararg", .none), ("kwonlyargs", .tuple []),
  ("kw_defaults", .tuple []), ("kwarg", .none), ("defaults", .tuple defaults)]
/-- `lambda: body`. -/
def lam (body : Alg) (l c : Int) : Alg := .alt "Expr" "Lambda" ([("args", args []), ("body", body)] ++ at' l c)
/-- `def f(...): body`. -/
def fn (defaults : List Alg) (body : List Alg) (l c : Int) : Alg :=
  .alt "Statement" "FunctionDef" ([("name", .str "f"), ("args", args defaults), ("body", .tuple body), ("decorator_list", .tuple []), ("returns", .none)] ++ at' l c)
/-- `return e`. -/
def ret (e : Alg) (l c : Int) : Alg := .alt "Statement" "Return" ([("value", e)] ++ at' l c)
/-- `t = v`. -/
def assign (t v : Alg) (l c : Int) : Alg := .alt "Statement" "Assign" ([("targets", .tuple [t]), ("value", v)] ++ at' l c)
/-- `d[i]`. -/
def sub (d i : Alg) (l c : Int) : Alg := .alt "Expr" "Subscript" ([("value", d), ("slice", i), ("ctx", .alt "ExprContext" "Store" [])] ++ at' l c)
/-- `f(x)`. -/
def call (f : Alg) (xs : List Alg) (l c : Int) : Alg := .alt "Expr" "Call" ([("func", f), ("args", .tuple xs), ("keywords", .tuple [])] ++ at' l c)
/-- `x + y`. -/
def add (x y : Alg) (l c : Int) : Alg := .alt "Expr" "BinOp" ([("left", x), ("op", .alt "BinaryOp" "Add" []), ("right", y)] ++ at' l c)
/-- `for t in i if ...`. -/
def loop (t i : Alg) (ifs : List Alg) : Alg := .alt "Comprehension" "Item" [("target", t), ("iter", i), ("ifs", .tuple ifs), ("is_async", .const (.bool false))]
/-- `[e for ...]`. -/
def listComp (e : Alg) (gs : List Alg) (l c : Int) : Alg := .alt "Expr" "ListComp" ([("elt", e), ("generators", .tuple gs)] ++ at' l c)
/-- `(e for ...)`. -/
def genExp (e : Alg) (gs : List Alg) (l c : Int) : Alg := .alt "Expr" "GeneratorExp" ([("elt", e), ("generators", .tuple gs)] ++ at' l c)

/-! ### A program that is as asked

    def f():
        g = lambda: 1
        return [lambda: x for x in y]
-/

/-- `lambda: 1`. -/
def one : Alg := lam (num 1 2 16) 2 8
/-- `lambda: x`. -/
def two : Alg := lam (name "x" 3 20) 3 12
/-- `[lambda: x for x in y]`. -/
def lst : Alg := listComp two [loop (name "x" 3 26) (name "y" 3 31) []] 3 11
/-- The function. -/
def good : Alg := fn [] [assign (name "g" 2 4) one 2 4, ret lst 3 4] 1 0

/-- Where a node stands. -/
def pos : Alg → Int × Int
  | .alt _ _ ms => match member ms "line_number", member ms "col_offset" with
    | .int l, .int c => (l, c)
    | _, _ => (0, 0)
  | _ => (0, 0)

/-- A compiler that knows the four functions of this program. -/
def py : Python (Int × Int) where
  made := pos
  consts c := if c = (1, 0) then [(2, 8), (3, 11)] else if c = (3, 11) then [(3, 12)] else []
  regular a := a = good ∨ a = one ∨ a = lst ∨ a = two
  law := by
    rintro a _ (rfl | rfl | rfl | rfl) <;> decide +kernel
  deep c := if c = (1, 0) then 2 else if c = (3, 11) then 1 else 0
  deeper := by
    intro c d h
    by_cases h1 : c = (1, 0)
    · subst h1; simp at h; rcases h with rfl | rfl <;> decide
    · by_cases h2 : c = (3, 11)
      · subst h2; simp at h; subst h; decide
      · simp [h1, h2] at h

theorem inner_good : inner good = [one, lst] := by rfl
theorem inner_one : inner one = [] := by rfl
theorem inner_lst : inner lst = [two] := by rfl
theorem inner_two : inner two = [] := by rfl

theorem nested_good {t : Alg} (h : Nested good t) : t = good ∨ t = one ∨ t = lst ∨ t = two := by
  have h2 : ∀ {t}, Nested two t → t = two := by
    intro t h; cases h with
    | self => rfl
    | step hb _ => simp [inner_two] at hb
  have h1 : ∀ {t}, Nested one t → t = one := by
    intro t h; cases h with
    | self => rfl
    | step hb _ => simp [inner_one] at hb
  have h3 : ∀ {t}, Nested lst t → t = lst ∨ t = two := by
    intro t h; cases h with
    | self => exact .inl rfl
    | step hb hn => simp only [inner_lst, List.mem_singleton] at hb; subst hb; exact .inr (h2 hn)
  cases h with
  | self => exact .inl rfl
  | step hb hn =>
    simp only [inner_good, List.mem_cons, List.not_mem_nil, or_false] at hb
    rcases hb with rfl | rfl
    · exact .inr (.inl (h1 hn))
    · exact .inr (.inr (h3 hn))

theorem good_fine : Fine py good := ⟨by decide +kernel, by decide +kernel, fun _ h => nested_good h⟩

theorem good_distinct : Distinct py good := by
  intro t h
  rcases nested_good h with rfl | rfl | rfl | rfl
  · rw [inner_good]; decide +kernel
  · rw [inner_one]; decide
  · rw [inner_lst]; decide +kernel
  · rw [inner_two]; decide

/-- The hypotheses of `found_partial` are met, from an empty memo. -/
example : ∃ n m', (∀ fuel, n ≤ fuel → cacheAst py.consts fuel (fun _ => .none) (py.made good) good = (m', true)) ∧
    ∀ t, Nested good t → ∃ u, py.made u = py.made t ∧ m' (py.made t) = some (presented u) := by
  obtain ⟨n, m', h, _, _, _, h'⟩ := found_partial py (m := fun _ => .none) (s := good) (fun _ _ h => by cases h) (fun _ h => absurd rfl h) good_fine good_distinct
  exact ⟨n, m', h, h'⟩

/-- What comes out: all four, in their places; the iterable of the comprehension has become the variable `.0`. -/
example : let r := cacheAst py.consts 10 (fun _ => .none) (py.made good) good
    r.2 = true ∧ r.1 (2, 8) = some one ∧ r.1 (3, 12) = some two ∧ r.1 (1, 0) = some good ∧
    r.1 (3, 11) = some (listComp two [loop (name "x" 3 26) dotZero []] 3 11) := by
  refine ⟨by decide +kernel, rfl, rfl, rfl, rfl⟩

/-- A decorated function is kept without its decorators. -/
example : presented (.alt "Statement" "FunctionDef" ([("name", .str "f"), ("args", args []), ("body", .tuple []), ("decorator_list", .tuple [name "d" 1 1]),
    ("returns", .none)] ++ at' 1 0)) = fn [] [] 1 0 := by rfl

/-- Constants of a code in the examples of lambdas on a line: numbers. -/
def ltNat (a b : Nat) : Bool := decide (a ≤ b)

/-- `lambda x: x + 1, lambda x: x + 2` on a line: each is found. -/
example : let a : Code Nat := ⟨[1, 2, 3], [], ["x"], [], [], [1]⟩
    let b : Code Nat := ⟨[1, 2, 3], [], ["x"], [], [], [2]⟩
    let ds : List (Def Nat Nat) := [⟨true, 10, some a⟩, ⟨true, 20, some b⟩]
    pick ltNat a ds = some 10 ∧ pick ltNat b ds = some 20 ∧ astFor ltNat true b ds = some 20 ∧ codeKey ltNat a ≠ codeKey ltNat b := by decide +kernel

/-- `def f(g=lambda: 1): ...` on a line: the function is found by not being a lambda, the lambda by being one. -/
example : let a : Code Nat := ⟨[1], [], [], [], [], [1]⟩
    let ds : List (Def Nat Nat) := [⟨false, 10, .none⟩, ⟨true, 20, some a⟩]
    astFor ltNat false a ds = some 10 ∧ astFor ltNat true a ds = some 20 := by decide +kernel

/-- `lambda x: x + 1, lambda x: 1 + x`: the constants and names are the same, the instructions are not; neither is found. -/
example : let a : Code Nat := ⟨[1, 2, 3], [], ["x"], [], [], [1]⟩
    let b : Code Nat := ⟨[2, 1, 3], [], ["x"], [], [], [1]⟩
    pick ltNat a [⟨true, 10, some a⟩, ⟨true, 20, some b⟩] = Option.none (α := Nat) := by decide +kernel

end Verif.Source.Cases
