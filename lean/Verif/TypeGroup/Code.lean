import Verif.TypeGroup.Hash
/-
C92, code objects and functions: what a walk over them reports.
-/
namespace Verif.TypeGroup

open HashOps

variable {O H : Type} [HashOps H]

/-- A code object of Python.  `code` stands for the bytes of `co_code`, and `lnotab` for the line table. -/
structure Code (O : Type) where
  argcount : Nat
  posonlyargcount : Nat
  kwonlyargcount : Nat
  nlocals : Nat
  stacksize : Nat
  flags : Nat
  firstlineno : Nat
  code : String
  consts : List O
  names : List O
  varnames : List O
  freevars : List O
  cellvars : List O
  filename : O
  name : O
  lnotab : O
deriving DecidableEq

/-- `visitTuple` (CompilerVisibleObjectVisitor.hpp:217-227) on a tuple that is not null. -/
def visitTuple (t : List O) : List (Rec O H) := .hash (raw1 t.length) :: t.map .topo

/-- The walk over a code object (CompilerVisibleObjectVisitor.hpp:679-708). -/
def codeWalk (c : Code O) : List (Rec O H) :=
  [.hash (raw1 4), .hash (raw1 c.argcount), .hash (raw1 c.kwonlyargcount), .hash (raw1 c.nlocals),
    .hash (raw1 c.stacksize), .hash (raw1 c.firstlineno), .hash (sha c.code)] ++
  (visitTuple c.consts ++ (visitTuple c.names ++ (visitTuple c.varnames ++ (visitTuple c.freevars ++
    (visitTuple c.cellvars ++ [.topo c.name, .topo c.lnotab])))))

/-- A function of Python; the names of `globals` are those the compiler sees. -/
structure PyFunc (O : Type) where
  closure : Option (List O)
  name : O
  code : O
  annotations : Option (List (String × O))
  defaults : Option (List O)
  kwdefaults : Option (List (String × O))
  globals : List (String × O)

/-- `visitDict` (CompilerVisibleObjectVisitor.hpp:176-215), the names in order. -/
def visitDict (d : Option (List (String × O))) : List (Rec O H) :=
  match d with
  | none => [.hash (raw1 0)]
  | some d => .hash (raw1 d.length) :: d.map (fun p => .named p.1 p.2)

/-- The walk over a function (CompilerVisibleObjectVisitor.hpp:710-753).  The cells of the closure are
cells; annotations and defaults by name are dictionaries. -/
def funcWalk (f : PyFunc O) : List (Rec O H) :=
  .hash (raw1 5) ::
    (visitTuple (f.closure.getD []) ++ ([.topo f.name, .topo f.code] ++
      (visitDict f.annotations ++ (visitTuple (f.defaults.getD []) ++ (visitDict f.kwdefaults ++
        (.hash (raw1 1) :: (f.globals.map (fun p => .named p.1 p.2) ++ [.hash (raw1 0)])))))))

theorem visitTuple_inj (hi : Ideal H) {a b : List O} {l m : List (Rec O H)}
    (h : (visitTuple a : List (Rec O H)) ++ l = visitTuple b ++ m) : a = b ∧ l = m := by
  simp only [visitTuple, List.cons_append, List.cons.injEq, Rec.hash.injEq] at h
  have hl := hi.raw1_inj _ _ h.1
  obtain ⟨h1, h2⟩ := List.append_inj h.2 (by simp [hl])
  exact ⟨List.map_injective_iff.2 (fun x y e => by injection e) h1, h2⟩

/-- Code objects with the same walk are the same, except for what the walk leaves out: the flags, the
number of positional-only arguments and the name of the file. -/
theorem codeWalk_same_partial (hi : Ideal H) {c d : Code O} (h : (codeWalk c : List (Rec O H)) = codeWalk d) :
    c = { d with flags := c.flags, posonlyargcount := c.posonlyargcount, filename := c.filename } := by
  unfold codeWalk at h
  simp only [List.cons_append, List.nil_append, List.cons.injEq, Rec.hash.injEq, true_and] at h
  obtain ⟨h1, h2, h3, h4, h5, h6, h7⟩ := h
  obtain ⟨h7, h8⟩ := visitTuple_inj hi h7
  obtain ⟨h8, h9⟩ := visitTuple_inj hi h8
  obtain ⟨h9, h10⟩ := visitTuple_inj hi h9
  obtain ⟨h10, h11⟩ := visitTuple_inj hi h10
  obtain ⟨h11, h12⟩ := visitTuple_inj hi h11
  simp only [List.cons.injEq, Rec.topo.injEq, and_true] at h12
  have h1 := hi.raw1_inj _ _ h1
  have h2 := hi.raw1_inj _ _ h2
  have h3 := hi.raw1_inj _ _ h3
  have h4 := hi.raw1_inj _ _ h4
  have h5 := hi.raw1_inj _ _ h5
  have h6 := hi.sha_inj _ _ h6
  cases c; cases d
  simp_all

/-- The walk over a code object says nothing about its flags, which tell `*args` and `**kwargs` from each
other, nor about which arguments are positional-only. -/
theorem codeWalk_ignores (c : Code O) (flags posonly : Nat) (filename : O) :
    (codeWalk { c with flags := flags, posonlyargcount := posonly, filename := filename } : List (Rec O H))
      = codeWalk c := rfl

/-- How a call binds one argument without a name and none with a name: what a function with one positional
argument and one of `*y` (flag 4) or `**y` (flag 8) finds in `y`. -/
inductive Rest where
  | tuple
  | dict
  | nothing
deriving DecidableEq

/-- The last argument of a code object, from the flags of CPython (`CO_VARARGS` is 4 and
`CO_VARKEYWORDS` is 8).  This is not code of the repository. -/
def lastArgument (c : Code O) : Rest :=
  if c.flags / 8 % 2 = 1 then .dict else if c.flags / 4 % 2 = 1 then .tuple else .nothing

/-- `def g(x, *y): return y`; objects are the texts of constants. -/
def starCode : Code String where
  argcount := 1
  posonlyargcount := 0
  kwonlyargcount := 0
  nlocals := 2
  stacksize := 1
  flags := 0x47
  firstlineno := 10
  code := "|\x01S\x00"
  consts := ["None"]
  names := []
  varnames := ["x", "y"]
  freevars := []
  cellvars := []
  filename := "m.py"
  name := "g"
  lnotab := "\x00\x01"

/-- `def g(x, **y): return y`. -/
def starStarCode : Code String := { starCode with flags := 0x4b }

/-- The two functions have the same walk and do not do the same. -/
theorem star_and_starstar_same_walk :
    (codeWalk starCode : List (Rec String H)) = codeWalk starStarCode ∧
    lastArgument starCode = .tuple ∧ lastArgument starStarCode = .dict :=
  ⟨rfl, by decide +kernel, by decide +kernel⟩

example : starCode ≠ starStarCode := by decide +kernel

/-- The rest of the walk over a function determines its parts, up to missing and empty ones. -/
theorem visitDict_inj (hi : Ideal H) {a b : Option (List (String × O))} {l m : List (Rec O H)}
    (h : (visitDict a : List (Rec O H)) ++ l = visitDict b ++ m) : a.getD [] = b.getD [] ∧ l = m := by
  have hd : ∀ d : Option (List (String × O)), (visitDict d : List (Rec O H))
      = .hash (raw1 (d.getD []).length) :: (d.getD []).map (fun p => .named p.1 p.2) := by
    intro d; cases d <;> rfl
  rw [hd, hd] at h
  simp only [List.cons_append, List.cons.injEq, Rec.hash.injEq] at h
  have hl := hi.raw1_inj _ _ h.1
  obtain ⟨h1, h2⟩ := List.append_inj h.2 (by simp [hl])
  refine ⟨List.map_injective_iff.2 (fun x y e => ?_) h1, h2⟩
  injection e with e1 e2
  exact Prod.ext e1 e2

/-- Functions with the same walk have the same parts: closure, name, code, annotations, defaults and
globals, where missing ones are like empty ones. -/
theorem funcWalk_same (hi : Ideal H) {f g : PyFunc O} (h : (funcWalk f : List (Rec O H)) = funcWalk g) :
    f.closure.getD [] = g.closure.getD [] ∧ f.name = g.name ∧ f.code = g.code ∧
    f.annotations.getD [] = g.annotations.getD [] ∧ f.defaults.getD [] = g.defaults.getD [] ∧
    f.kwdefaults.getD [] = g.kwdefaults.getD [] ∧ f.globals = g.globals := by
  unfold funcWalk at h
  simp only [List.cons.injEq, true_and] at h
  obtain ⟨h1, h2⟩ := visitTuple_inj hi h
  simp only [List.cons_append, List.nil_append, List.cons.injEq, Rec.topo.injEq] at h2
  obtain ⟨h2, h3, h4⟩ := h2
  obtain ⟨h4, h5⟩ := visitDict_inj hi h4
  obtain ⟨h5, h6⟩ := visitTuple_inj hi h5
  obtain ⟨h6, h7⟩ := visitDict_inj hi h6
  simp only [List.cons.injEq, true_and] at h7
  have h7 := List.append_cancel_right h7
  refine ⟨h1, h2, h3, h4, h5, h6, List.map_injective_iff.2 (fun x y e => ?_) h7⟩
  injection e with e1 e2
  exact Prod.ext e1 e2

end Verif.TypeGroup
