import Verif.Scope.Rename
import Verif.Scope.Once
import Verif.Scope.Defaults
/-
C80 to C83: variables of nested functions in compiled code.
-/
namespace Verif.Scope

/-! ### Which variables a nested function needs -/

/-- `x` is a free variable of the function of a `def` or `lambda`: the code object made for it
lists `x` in `co_freevars` if `x` is one of the variables around it (or is the function itself). -/
def Free : Tree → Name → Prop
  | .funDef _ p _ _ _ _ body _ _, x =>
      x ∉ p.all ∧ ¬ Local body x ∧ (Uses body x ∨ Binds body x)
  | .lam p _ _ body, x => x ∉ p.all ∧ Uses body x
  | _, _ => False

theorem free_captured {d : Tree} {x : Name} (h : Free d x) : Captured d x := by
  cases d
  case lam => exact Or.inr (Or.inr h)
  case funDef =>
    obtain ⟨h1, h2, h3⟩ := h
    refine Or.inr (Or.inr (Or.inr (Or.inr (Or.inr (Or.inr ⟨h1, h2, ?_⟩)))))
    rcases h3 with (h3 | h3) | h3
    · exact Or.inl h3
    · exact Or.inr (Or.inl h3)
    · exact Or.inr (Or.inr h3)
  all_goals exact h.elim

/-- What holds of the functions named in a piece of code. -/
theorem named_inside : ∀ (t : Tree) (nm : Name) (d : Tree), (nm, d) ∈ namedFunctions t →
    (Sane t → Sane d) ∧ (∀ x, x ∈ closureReads d → x ∈ closureReads t) ∧ (∀ x, Defines d x → x = nm)
  | .leaf, _, _, h => by simp [namedFunctions] at h
  | .node a b, nm, d, h => by
      simp only [namedFunctions, List.mem_append] at h
      simp only [closureReads, List.mem_append]
      rcases h with h | h
      · obtain ⟨h1, h2, h3⟩ := named_inside a nm d h
        exact ⟨fun hs => h1 hs.1, fun x hx => Or.inl (h2 x hx), h3⟩
      · obtain ⟨h1, h2, h3⟩ := named_inside b nm d h
        exact ⟨fun hs => h1 hs.2, fun x hx => Or.inr (h2 x hx), h3⟩
  | .name _ _, _, _, h => by simp [namedFunctions] at h
  | .bind y e, nm, d, h => by
      rcases bind_cases y e with ⟨p, ds, k, body, rfl⟩ | ⟨h1, _⟩
      · simp only [namedFunctions, List.mem_singleton, Prod.mk.injEq] at h
        rw [h.2]
        exact ⟨id, fun _ => id, fun _ hx => hx.elim⟩
      · rw [h1] at h
        exact named_inside e nm d h
  | .selfVar _ _, _, _, h => by simp [namedFunctions] at h
  | .hidden t, nm, d, h => named_inside t nm d h
  | .alias _ _, _, _, h => by simp [namedFunctions] at h
  | .handler a _ b, nm, d, h => by
      simp only [namedFunctions, List.mem_append] at h
      simp only [closureReads, List.mem_append]
      rcases h with h | h
      · obtain ⟨h1, h2, h3⟩ := named_inside a nm d h
        exact ⟨fun hs => h1 hs.1, fun x hx => Or.inl (h2 x hx), h3⟩
      · obtain ⟨h1, h2, h3⟩ := named_inside b nm d h
        exact ⟨fun hs => h1 hs.2, fun x hx => Or.inr (h2 x hx), h3⟩
  | .lam _ _ _ _, _, _, h => by simp [namedFunctions] at h
  | .comp _ _ _ _ _, _, _, h => by simp [namedFunctions] at h
  | .funDef _ _ _ _ _ _ _ _ _, nm, d, h => by
      simp only [namedFunctions, List.mem_singleton, Prod.mk.injEq] at h
      rw [h.1, h.2]
      exact ⟨id, fun _ => id, fun _ hx => hx⟩
  | .classDef _ _ _ _ _, _, _, h => by simp [namedFunctions] at h
  | .nonlocal _, _, _, h => by simp [namedFunctions] at h
  | .rejected, _, _, h => by simp [namedFunctions] at h

/-- C80. Every free variable of a function nested in compiled code is one the compiler found, so
that the assertion on them (function_conversion_context.py:965-966) holds and the variable is kept
where the function finds it. Partial: for `Sane` code, and not for a function's own name. -/
theorem closure_variables_found_partial (t : Tree) (hs : Sane t) (nm : Name) (d : Tree)
    (hd : (nm, d) ∈ namedFunctions t) (x : Name) (hx : Free d x) (hn : x ≠ nm) :
    x ∈ closureReads t := by
  obtain ⟨h1, h2, h3⟩ := named_inside t nm d hd
  rcases captured_closureReads d x (h1 hs) (free_captured hx) with r | r
  · exact h2 x r
  · exact absurd (h3 x r) hn

/-- C80. The same for everything that takes variables from around it: nested functions at any
depth, lambdas, comprehensions, generators and classes. -/
theorem captured_found_partial (t : Tree) (hs : Sane t) (x : Name) (hx : Captured t x)
    (hn : ¬ Defines t x) : x ∈ closureReads t :=
  (captured_closureReads t x hs hx).resolve_right hn

/-- C80. Nothing is found that is not looked up in this scope. Partial: for `Tight` code. -/
theorem found_is_used_partial (t : Tree) (ht : Tight t) (x : Name) (hx : x ∈ closureReads t) :
    Uses t x :=
  closureReads_uses t x ht hx

/-- C80. The variables of a function are those Python makes local. Partial: without
`except ... as name`. -/
theorem assigned_are_bound_partial (t : Tree) (hn : NoAs t) (x : Name) :
    x ∈ sites t ↔ Binds t x :=
  ⟨sites_binds t x, binds_sites t x hn⟩

/-- C80. What is counted as assigned is bound. -/
theorem assigned_is_bound (t : Tree) (x : Name) (h : x ∈ sites t) : Binds t x := sites_binds t x h

/-- `def f(n): return f(n - 1)`. -/
def selfRecursive : Tree :=
  .funDef "f" { args := ["n"] } .leaf .leaf .leaf .leaf
    (.node (.name "f" .load) (.name "n" .load)) .leaf .leaf

/-- `k = 3`, `def f(n, *rest): y = n; return [k * z for z in rest if z < y]`, `g = lambda v: f(v)`. -/
def someFunctions : Tree :=
  .node (.bind "k" .leaf)
    (.node
      (.funDef "f" { args := ["n"], vararg := some "rest" } .leaf .leaf .leaf .leaf
        (.node (.bind "y" (.name "n" .load))
          (.comp (.node (.name "k" .load) (.name "z" .load)) (.name "z" .store)
            (.name "rest" .load) (.node (.name "z" .load) (.name "y" .load)) .nil)) .leaf .leaf)
      (.bind "g" (.lam { args := ["v"] } .leaf .leaf (.node (.name "f" .load) (.name "v" .load)))))

example : Sane someFunctions := by
  simp [someFunctions, Sane, SaneG, IsExpr, Binds, Uses, Direct, Captured, Outer]

example : Tight someFunctions := by
  simp [someFunctions, Tight, TightG, NoAs, BindsG]

example : NoAs someFunctions := by simp [someFunctions, NoAs]

example : Captured someFunctions "k" ∧ ¬ Defines someFunctions "k" := by
  simp [someFunctions, Captured, Direct, Defines, Params.all, Local, Binds, BindsG, Outer]

example : closureReads someFunctions = ["k", "f"] := by decide +kernel

example : sites someFunctions = ["k", "f", "g"] := by decide +kernel

/-- The full statement of C80: the assertion on the free variables of nested functions holds. -/
def AllFound (t : Tree) : Prop :=
  ∀ nm d, (nm, d) ∈ namedFunctions t → ∀ x, Free d x → (x ∈ sites t ∨ Defines t x) →
    x ∈ closureReads t

/-- C80 fails for every function that calls itself, unless its name is read by another one: the
variable is free in its code, and the analysis takes it out (python_ast_analysis.py:470-473). -/
theorem self_recursive_not_found (nm : Name) (p : Params) (body : Tree) (hp : nm ∉ p.all)
    (hb : ¬ Binds body nm) (hu : Uses body nm) :
    ¬ AllFound (.funDef nm p .leaf .leaf .leaf .leaf body .leaf .leaf) := by
  intro h
  have h' := h nm (.funDef nm p .leaf .leaf .leaf .leaf body .leaf .leaf)
    (by simp only [namedFunctions, List.mem_singleton]) nm
    ⟨hp, fun hl => hb hl.1, Or.inl hu⟩ (Or.inr rfl)
  simp [closureReads, reads, mem_diff] at h'

example : ¬ AllFound selfRecursive :=
  self_recursive_not_found "f" { args := ["n"] } _ (by decide) (by simp [Binds])
    (by simp [Uses, Direct])

/-- Everything is found if no function calls itself directly. -/
theorem all_found_partial (t : Tree) (hs : Sane t)
    (hn : ∀ nm d, (nm, d) ∈ namedFunctions t → ¬ Free d nm) : AllFound t := by
  intro nm d hd x hx _
  refine closure_variables_found_partial t hs nm d hd x hx fun h => ?_
  subst h
  exact hn x d hd hx

/-- Two functions that call each other are found. -/
def callEachOther : Tree :=
  .node (.funDef "f" { args := ["n"] } .leaf .leaf .leaf .leaf
      (.node (.name "g" .load) (.name "n" .load)) .leaf .leaf)
    (.funDef "g" { args := ["n"] } .leaf .leaf .leaf .leaf
      (.node (.name "f" .load) (.name "n" .load)) .leaf .leaf)

example : AllFound callEachOther := by
  refine all_found_partial _ ?_ ?_
  · simp [callEachOther, Sane, IsExpr, Binds, Uses, Direct, Captured, Outer]
  · intro nm d h
    simp only [callEachOther, namedFunctions, List.mem_append, List.mem_singleton, Prod.mk.injEq] at h
    rcases h with ⟨rfl, rfl⟩ | ⟨rfl, rfl⟩ <;> simp [Free, Uses, Direct, Captured, Binds]

/-- C80 fails for every function that assigns to a variable it declares `nonlocal` and does not
read. `assertValidStatement` means to reject such code, but asks for an alternative `Nonlocal`
(python_ast_analysis.py:510) where python_ast.py:352 has `NonLocal`. -/
theorem nonlocal_not_found (nm x : Name) (hx : x ≠ nm) :
    ¬ AllFound (.node (.bind x .leaf)
        (.funDef nm {} .leaf .leaf .leaf .leaf (.node (.nonlocal [x]) (.bind x .leaf)) .leaf .leaf))
    ∧ sitesRaises (.node (.nonlocal [x]) (.bind x .leaf)) = false := by
  refine ⟨fun h => ?_, rfl⟩
  have h' := h nm (.funDef nm {} .leaf .leaf .leaf .leaf (.node (.nonlocal [x]) (.bind x .leaf)) .leaf .leaf)
    (by simp [namedFunctions]) x
    ⟨by simp [Params.all], fun hl => hl.2 (by simp [Outer]), Or.inr (by simp [Binds])⟩
    (Or.inl (by simp [sites]))
  simp [closureReads, reads, mem_diff] at h'

/-- The full statement of C80: only what a nested scope takes from around it is found. -/
def OnlyUsed (t : Tree) : Prop := ∀ x ∈ closureReads t, Uses t x

/-- It fails for every function with `except ... as name` that uses the name: it is not counted as a
variable of that function (a handler's `name` is a string, python_ast.py:770-780). -/
theorem handler_name_leaks (nm e : Name) (he : e ≠ nm) :
    ¬ OnlyUsed (.funDef nm {} .leaf .leaf .leaf .leaf
        (.hidden (.handler .leaf (some e) (.name e .load))) .leaf .leaf) := by
  intro h
  have := h e (by simp [closureReads, reads, reading, mem_diff, sites, counts, argNames, he])
  simp [Uses, Direct, Captured, Local, Binds, Outer, Params.all] at this

/-- It fails for every function with a keyword-only parameter that uses it: line 361 of
python_ast_analysis.py adds the parameter and not its name. -/
theorem keyword_only_leaks (nm a : Name) (ha : a ≠ nm) :
    ¬ OnlyUsed (.funDef nm { kwonly := [a] } .leaf .leaf .leaf .leaf (.name a .load) .leaf .leaf) := by
  intro h
  have := h a (by simp [closureReads, reads, reading, mem_diff, sites, counts, argNames, ha])
  simp [Uses, Direct, Captured, Local, Binds, Params.all] at this

/-- It fails for every comprehension whose clause uses a name that a later clause binds:
`[... for a in as if b for b in bs]`, where Python raises `UnboundLocalError`. -/
theorem later_target_leaks (a b : Name) (hab : a ≠ b) :
    ¬ OnlyUsed (.comp .leaf (.name a .store) .leaf (.name b .load)
        (.cons (.name b .store) .leaf .leaf .nil)) := by
  intro h
  have := h b (by simp [closureReads, reads, reading, mem_diff, sites, counts, hab.symm])
  simp [Uses, Direct, Captured, BindsG, Binds] at this

/-- The full statement of C80: a function's variables are those Python makes local. It fails for
every `except ... as name`. -/
theorem handler_name_not_assigned (x : Name) (ty : Tree) (hty : x ∉ sites ty) :
    Binds (.handler ty (some x) .leaf) x ∧ x ∉ sites (.handler ty (some x) .leaf) :=
  ⟨Or.inl rfl, by simpa [sites] using hty⟩

/-! ### Variables of generators -/

/-- C81. After the variables `V` of a generator have been renamed in code, no name that the code
looks up is one of them: each is an attribute of the generator's object. Partial: for `Walked`
code. -/
theorem no_variable_left_partial (t : Tree) (V : List Name) (hw : Walked V t) (x : Name)
    (hx : x ∈ V) (hs : x ≠ selfName) : ¬ Uses (rename V [] t) x := by
  intro h
  rcases rename_uses t V [] x hw h with r | r | r
  · exact hs r
  · exact r hx
  · simp at r

/-- C81. Every use of a variable of the generator has become an access to the generator's object.
Partial: for `Walked` code. -/
theorem variable_in_object_partial (t : Tree) (V : List Name) (hw : Walked V t) (x : Name)
    (hx : x ∈ V) (hs : x ≠ selfName) (hu : Uses t x) (hn : ¬ SelfUses t x) :
    SelfUses (rename V [] t) x := by
  rcases uses_self t V [] x hw hx (by simp) hu with r | r | r
  · exact r
  · exact absurd r hn
  · exact absurd r hs

/-- C81. Only variables of the generator that the code looks up or binds in the generator's own
scope have become accesses to the object; parameters and local variables of nested functions have
not. Partial: for `Neat` code. -/
theorem only_variables_in_object_partial (t : Tree) (V : List Name) (hn : Neat V false t) (x : Name)
    (h : SelfUses (rename V [] t) x) (hs : ¬ SelfUses t x) : x ∈ V ∧ (Uses t x ∨ Binds t x) := by
  rcases rename_self t V [] false x hn (fun _ => rfl) h with r | r
  · exact absurd r hs
  · exact ⟨r.1, r.2.2⟩

/-- C81. Names that are not variables of the generator are looked up and bound as before, in any
code. -/
theorem other_names_kept (t : Tree) (V : List Name) (x : Name) (hx : x ∉ V) (hs : x ≠ selfName) :
    (Uses (rename V [] t) x ↔ Uses t x) ∧ (Binds (rename V [] t) x ↔ Binds t x) := by
  refine ⟨?_, rename_binds hx⟩
  simp only [Uses, rename_direct t V [] x hx hs, rename_captured t V [] x hx hs]

/-- `def f(a): i = a; return i + n` and `n + [n * m for m in ms]` in a generator with variables
`n`, `i`, `ms`. -/
def inGenerator : Tree :=
  .node
    (.funDef "f" { args := ["a"] } .leaf .leaf .leaf .leaf
      (.node (.bind "i" (.name "a" .load)) (.node (.name "i" .load) (.name "n" .load))) .leaf .leaf)
    (.node (.bind "n" (.name "n" .load))
      (.comp (.node (.name "n" .load) (.name "m" .load)) (.name "m" .store) (.name "ms" .load) .leaf
        .nil))

example : Walked ["n", "i", "ms"] inGenerator := by
  simp [inGenerator, Walked, WalkedG, Without, Uses, Direct, Captured, Outer, Tight]

example : Neat ["n", "i", "ms"] false inGenerator := by
  simp [inGenerator, Neat, NeatG, IsExpr, Binds, BindsG, NoAs]

example : Uses inGenerator "n" ∧ ¬ SelfUses inGenerator "n" ∧ SelfUses (rename ["n", "i", "ms"] [] inGenerator) "n"
    ∧ ¬ SelfUses (rename ["n", "i", "ms"] [] inGenerator) "i" := by
  simp [inGenerator, Uses, Direct, SelfUses, SelfUsesG, rename, renameGens, boundVars, reads, reading, argNames,
    sites, counts]

/-- The full statement of C81: no variable of the generator is looked up by name any more. It fails
for every variable in a keyword argument, a key of a dict display or a handler of a nested `try`:
these fields are not among those that are walked (generator_codegen.py:212-221). -/
theorem keyword_argument_left (V : List Name) (x : Name) :
    Uses (rename V [] (.hidden (.name x .load))) x := by simp [rename, Uses, Direct]

/-- It fails for every handler that reads a variable. -/
theorem handler_left (V : List Name) (x : Name) (nm : Option Name) :
    Uses (rename V [] (.handler .leaf nm (.name x .load))) x := by simp [rename, Uses, Direct]

/-- The full statement of C81: only variables of the generator are accessed in its object. It fails
for every comprehension with a clause that binds a name which is also a variable of the generator:
`[x for x in xs]` reads the generator's `x`, since line 140 of generator_codegen.py asks for the
variables a target reads, and there are none. -/
theorem comprehension_reads_generator (V : List Name) (x : Name) (hx : x ∈ V) :
    SelfUses (rename V [] (.comp (.name x .load) (.name x .store) .leaf .leaf .nil)) x
      ∧ ¬ Uses (.comp (.name x .load) (.name x .store) .leaf .leaf .nil) x
      ∧ ¬ Binds (.comp (.name x .load) (.name x .store) .leaf .leaf .nil) x := by
  simp [rename, reads, reading, boundVars, hx, SelfUses, Uses, Direct, Captured, Binds]

/-- It fails for the default values of functions nested in nested functions, where a variable of the
outer one is taken for one of the generator with the same name (generator_codegen.py:195-198). -/
theorem nested_default_reads_generator (V : List Name) (x : Name) (hx : x ∈ V) :
    let inner := Tree.funDef "g" { args := ["a"] } .leaf .leaf (.name x .load) .leaf .leaf .leaf .leaf
    let outer := Tree.funDef "f" { args := [x] } .leaf .leaf .leaf .leaf inner .leaf .leaf
    SelfUses (rename V [] outer) x ∧ ¬ Uses outer x ∧ (x ≠ "f" → ¬ Binds outer x) := by
  simp [rename, hx, SelfUses, Uses, Direct, Captured, Binds, Params.all]

/-! ### Functions defined once -/

/-- C82. Whatever a call has executed, a variable that has a value in Python has the same value in
compiled code. Partial: variables that are defined once as a function are neither parameters nor
names of handlers. -/
theorem lookups_agree_partial (t : Tree) (params : Name → Option Val) (tr : Trace)
    (ht : Executes t tr) (x : Name) (hp : (onceFor t x).isSome → params x = none)
    (hc : (onceFor t x).isSome → ¬ Catches t x) (v : Val) (hv : python params tr x = some v) :
    compiled t params tr x = some v := by
  simp only [compiled]
  cases h : onceFor t x with
  | none => exact hv
  | some d =>
      have hm := onceFor_mem h
      rcases python_event hv with he | he
      · have := event_once t x d (some v) hm.2 hm.1 (hc (by simp [h])) (ht (x, some v) he)
        exact this.symm
      · rw [hp (by simp [h])] at he
        cases he

/-- C82. Variables that are not defined once as a function are always looked up as in Python. -/
theorem other_lookups_agree (t : Tree) (params : Name → Option Val) (tr : Trace) (x : Name)
    (h : onceFor t x = none) : compiled t params tr x = python params tr x := by
  simp only [compiled, h]

/-- C82. Without handlers' names among them, the functions defined once do not meet the assertion
of `assignToLocalVariable`. -/
theorem no_assertion (t : Tree) (h : ∀ x, (onceFor t x).isSome → ¬ Catches t x) :
    assertionFails t t = false := by
  suffices ∀ s : Tree, (∀ x, Catches s x → Catches t x) → assertionFails t s = false from
    this t fun _ => id
  intro s
  induction s using assertionFails.induct with
  | case1 a b iha ihb =>
      intro hs
      simp only [assertionFails, iha fun x hx => hs x (Or.inl hx), ihb fun x hx => hs x (Or.inr hx),
        Bool.or_self]
  | case2 a ih => intro hs; exact ih hs
  | case3 ty nm body ih =>
      intro hs
      simp only [assertionFails, ih fun x hx => hs x (Or.inr (Or.inr hx)), Bool.or_false]
      cases nm with
      | none => rfl
      | some x =>
          cases hx : onceFor t x with
          | none => simp [hx]
          | some d => exact absurd (hs x (Or.inl rfl)) (h x (by simp [hx]))
  | case4 s h1 h2 h3 =>
      intro _
      cases s <;> simp_all [assertionFails]

/-- `f` and `g` of `someFunctions` are defined once. -/
example : (onceFor someFunctions "f").isSome ∧ (onceFor someFunctions "g").isSome
    ∧ ¬ Catches someFunctions "f" := by
  refine ⟨by rfl, by rfl, by simp [someFunctions, Catches]⟩

example : Executes someFunctions [("k", some (.other 3))] := by
  intro e he
  simp only [List.mem_singleton] at he
  subst he
  exact Or.inl (Or.inl ⟨rfl, by simp⟩)

/-- The full statement of C82: compiled code and Python find the same. It fails where a function is
looked up before its definition was executed (Python raises `UnboundLocalError`): compiled code
finds it. A comment at function_conversion_context.py:2152-2157 says so. -/
theorem not_yet_defined (nm : Name) (p : Params) (body : Tree) :
    let d := Tree.funDef nm p .leaf .leaf .leaf .leaf body .leaf .leaf
    python (fun _ => none) [] nm = none ∧ compiled d (fun _ => none) [] nm = some (.fn d) := by
  simp [python, compiled, onceFor, definedOnce, namedFunctions, assignedOnce, sites]

/-- It fails for every parameter that is also defined once as a function, in a branch that is not
taken: compiled code calls the function, whatever was passed. -/
theorem parameter_ignored (nm : Name) (p : Params) (body : Tree) (v : Nat) :
    let d := Tree.funDef nm p .leaf .leaf .leaf .leaf body .leaf .leaf
    let params := fun x => if x = nm then some (Val.other v) else none
    python params [] nm = some (.other v) ∧ compiled d params [] nm = some (.fn d) := by
  simp [python, compiled, onceFor, definedOnce, namedFunctions, assignedOnce, sites]

/-- It fails for every handler whose name is also the name of a function: the compilation ends with
an `AssertionError`. -/
theorem handler_named_like_function (nm : Name) (p : Params) (body : Tree) :
    let t := Tree.node (.funDef nm p .leaf .leaf .leaf .leaf body .leaf .leaf)
      (.hidden (.handler .leaf (some nm) .leaf))
    assertionFails t t = true := by
  simp [assertionFails, onceFor, definedOnce, namedFunctions, assignedOnce, sites]

/-! ### Default values -/

/-- C83. A default value of a nested function is the value Python computes. Partial: if it mentions
no local variable of the enclosing function and globals keep their values. -/
theorem default_right_partial {V : Type} (noneValue : V) (locals : List Name)
    (frame globals : Name → Option V) (d : Default V) (h : ∀ x ∈ d.names, x ∉ locals) :
    d.compiled noneValue locals globals = d.python locals frame globals := by
  refine d.eval_congr fun x hx => ?_
  simp only [h x hx, if_false]

example : (Default.op (fun a b => some (a + b)) (.name "k") (.const 2)).compiled 0 ["n"]
    (fun x => if x = "k" then some 40 else none) = some 42 := by decide +kernel

/-- The full statement fails for every default value that is a local variable: `def f(x=y)` gives
`None`, whatever `y` is. -/
theorem default_of_local {V : Type} (noneValue v : V) (hv : v ≠ noneValue) (locals : List Name)
    (y : Name) (hy : y ∈ locals) (globals : Name → Option V) :
    (Default.name y : Default V).compiled noneValue locals globals = some noneValue
      ∧ (Default.name y : Default V).python locals (fun _ => some v) globals
          ≠ (Default.name y : Default V).compiled noneValue locals globals := by
  simp [Default.compiled, Default.python, Default.eval, hy, hv]

/-- It fails for every default value that is a global variable which changes between the
compilation and the definition. -/
theorem default_of_changed_global {V : Type} (noneValue v w : V) (hv : v ≠ w) (locals : List Name)
    (y : Name) (hy : y ∉ locals) (frame : Name → Option V) :
    (Default.name y : Default V).compiled noneValue locals (fun _ => some v)
      ≠ (Default.name y : Default V).python locals frame (fun _ => some w) := by
  simp [Default.compiled, Default.python, Default.eval, hy, hv]

end Verif.Scope
