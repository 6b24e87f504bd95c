import Verif.Ast.Round
/-
The conversion of a whole program and back, by induction over its tree.
-/
namespace Verif.Ast

/-! ### Facts about the tables -/

theorem no_slices {v : Version} {c : String} {k : Class} (h : (grammar v).lookup c = some k) :
    ∀ f ∈ k.fields, f.2 ≠ .opt .slice ∧ f.2 ≠ .manyOpt .slice := by
  have h1 : ∀ v, (grammar v).all (fun e => e.2.fields.all fun f => f.2 != .opt .slice && f.2 != .manyOpt .slice) = true := by
    intro v; cases v <;> decide +kernel
  intro f hf
  have := List.all_eq_true.mp (List.all_eq_true.mp (h1 v) (c, k) (lookup_mem h)) f hf
  simpa using this

theorem slice_only_in {v : Version} {c : String} {k : Class} (h : (grammar v).lookup c = some k) (hs : special c = false) (hc : c ≠ "Subscript") :
    ∀ f ∈ k.fields, f.2 ≠ .one .slice ∧ f.2 ≠ .many .slice := by
  have h1 : ∀ v, (grammar v).all (fun e => special e.1 || e.1 == "Subscript" || e.2.fields.all fun f => f.2 != .one .slice && f.2 != .many .slice) = true := by
    intro v; cases v <;> decide +kernel
  intro f hf
  have := List.all_eq_true.mp (h1 v) (c, k) (lookup_mem h)
  simp only [hs, Bool.or_eq_true, Bool.false_eq_true, beq_iff_eq, hc, false_or] at this
  simpa using List.all_eq_true.mp this f hf

theorem subscript_fields {v : Version} {k : Class} (h : (grammar v).lookup "Subscript" = some k) :
    ∀ f ∈ k.fields, f.2 ≠ .many .slice ∧ (f.1 ≠ "slice" → f.2 ≠ .one .slice) ∧ (f.1 = "slice" → f.2 ≠ .one .slice → ∀ a q, asSlice v a q = q) := by
  have h1 : ∀ v, (grammar v).all (fun e => e.1 != "Subscript" || e.2.fields.all fun f => f.2 != .many .slice && (f.1 == "slice" || f.2 != .one .slice) &&
      (f.1 != "slice" || f.2 == .one .slice || decide (9 ≤ v.minor))) = true := by
    intro v; cases v <;> decide +kernel
  intro f hf
  have := List.all_eq_true.mp (h1 v) _ (lookup_mem h)
  simp only [bne_self_eq_false, Bool.false_or] at this
  have := List.all_eq_true.mp this f hf
  simp only [Bool.and_eq_true, bne_iff_ne, ne_eq, Bool.or_eq_true, beq_iff_eq, decide_eq_true_eq] at this
  obtain ⟨⟨h2, h3⟩, h4⟩ := this
  refine ⟨h2, fun hn => ?_, fun hn hs a q => ?_⟩
  · rcases h3 with h | h
    · exact absurd h hn
    · exact h
  · rcases h4 with (h | h) | h
    · exact absurd hn h
    · exact absurd h hs
    · simp [asSlice, h]

/-- Up to 3.8 neither a slice nor several of them is an expression. -/
theorem not_expr {v : Version} (hv : v.minor < 9) {p : Py} (hw : p.wf v (.one .expr) = true) : p.isNode "Slice" = false ∧ p.isNode "ExtSlice" = false := by
  have h1 : ∀ v : Version, v.minor < 9 → ((grammar v).lookup "Slice").all (fun k => k.sort == .slice) = true ∧ ((grammar v).lookup "ExtSlice").all (fun k => k.sort == .slice) = true := by
    intro v; cases v <;> decide +kernel
  obtain ⟨h2, h3⟩ := h1 v hv
  cases p with
  | node c fs pos =>
    simp only [Py.wf] at hw
    split at hw
    case h_2 => simp at hw
    rename_i k hk
    simp only [Bool.and_eq_true, Bool.or_eq_true, beq_iff_eq] at hw
    obtain ⟨⟨h4, _⟩, _⟩ := hw
    have h5 : k.sort = .expr := by
      rcases h4 with h | h
      · simp only [Field.one.injEq] at h; exact h.symm
      · cases h
    simp only [Py.isNode, beq_eq_false_iff_ne, ne_eq]
    constructor
    · rintro rfl
      simp [hk, h5] at h2
    · rintro rfl
      simp [hk, h5] at h3
  | _ => simp [Py.isNode]

/-! ### The special classes -/

section old

variable {file : String} {keep : Bool}

/-- The place that is kept. -/
def at_ (keep : Bool) (l : Int) : Int := if keep then l else 0

/-- The file that is kept. -/
def from_ (keep : Bool) (file : String) : String := if keep then file else ""

theorem lines_some {l o : Int} : lineArgs file keep (some (l, o)) =
    [("line_number", .int (at_ keep l)), ("col_offset", .int (at_ keep o)), ("filename", .str (from_ keep file))] := by
  cases keep <;> rfl

theorem at_small {l : Int} (h : small l = true) : small (at_ keep l) = true := by
  cases keep
  · show small 0 = true
    decide +kernel
  · exact h

theorem num_made {d : String} {gs : List (String × Alg)} {l o : Int} (hl : small l = true) (ho : small o = true) :
    construct .v37 "Expr" "Num" (("n", .alt "NumericConstant" d gs) :: [("line_number", .int l), ("col_offset", .int o), ("filename", .str file)]) =
      some (.alt "Expr" "Num" [("n", .alt "NumericConstant" d gs), ("line_number", .int l), ("col_offset", .int o), ("filename", .str file)]) := by
  have hm : membersOf .v37 "Expr" "Num" = some [("n", .alt "NumericConstant"), ("line_number", .int), ("col_offset", .int), ("filename", .str)] := by decide +kernel
  simp [construct, hm, fill, fits, Alg.isA, List.lookup_cons, wrap_small hl, wrap_small ho]

theorem str_made {s : String} {l o : Int} (hl : small l = true) (ho : small o = true) :
    construct .v37 "Expr" "Str" (("s", .str s) :: [("line_number", .int l), ("col_offset", .int o), ("filename", .str file)]) =
      some (.alt "Expr" "Str" [("s", .str s), ("line_number", .int l), ("col_offset", .int o), ("filename", .str file)]) := by
  have hm : membersOf .v37 "Expr" "Str" = some [("s", .str), ("line_number", .int), ("col_offset", .int), ("filename", .str)] := by decide +kernel
  simp [construct, hm, fill, fits, List.lookup_cons, wrap_small hl, wrap_small ho]

theorem make_old {c n : String} {f : Field} {x : Py} {l o : Int} {a : String × Alg} (h : (grammar .v37).lookup c = some ⟨.expr, true, [(n, f)]⟩) (ha : isLine a.1 = false) :
    make .v37 c [(n, x)] (a :: [("line_number", .int l), ("col_offset", .int o), ("filename", .str file)]) = .node c [(n, x)] (some (l, o)) := by
  obtain ⟨m, a⟩ := a
  have h1 : ("line_number" == m) = false := beq_eq_false_iff_ne.mpr (by rintro rfl; exact absurd ha (by simp [isLine]))
  have h2 : ("col_offset" == m) = false := beq_eq_false_iff_ne.mpr (by rintro rfl; exact absurd ha (by simp [isLine]))
  simp [make, h, number, List.lookup_cons, h1, h2]

theorem old_minor {α : Type} (a b : α) : (if 8 ≤ Version.v37.minor then a else b) = b := rfl

theorem num_class : (grammar .v37).lookup "Num" = some ⟨.expr, true, [("n", .number)]⟩ := by decide +kernel
theorem str_class : (grammar .v37).lookup "Str" = some ⟨.expr, true, [("s", .text)]⟩ := by decide +kernel
theorem name_class : (grammar .v37).lookup "NameConstant" = some ⟨.expr, true, [("value", .nameConst)]⟩ := by decide +kernel

theorem one_field {v : Version} {n : String} {f : Field} {fs : List (String × Py)} (h : Py.wfFields v fs [(n, f)] = true) :
    ∃ p, fs = [(n, p)] ∧ p.wf v f = true := by
  match fs with
  | [] => simp [Py.wfFields] at h
  | [(m, p)] =>
    simp only [Py.wfFields, Bool.and_true, Bool.and_eq_true, beq_iff_eq] at h
    exact ⟨p, by rw [h.1], h.2⟩
  | _ :: (_, _) :: _ => simp [Py.wfFields] at h

theorem num_good {p : Py} {l o : Int} (hw : p.wf .v37 .number = true) (hpl : plainNode "Num" [("n", p)] = true) (hl : small l = true) (ho : small o = true) :
    ∃ a q, Good .v37 file keep (.node "Num" [("n", p)] (some (l, o))) (.one .expr) a q := by
  have hc : converters.lookup "Num" = some .num := by decide +kernel
  have fin : ∀ {x : Const} {d : String} {gs : List (String × Alg)}, numeric x = .alt "NumericConstant" d gs →
      numBack .v37 [("n", .alt "NumericConstant" d gs), ("line_number", .int (at_ keep l)), ("col_offset", .int (at_ keep o)), ("filename", .str (from_ keep file))] =
        some (.node "Num" [("n", .const x)] (some (at_ keep l, at_ keep o))) →
      ∃ a q, Good .v37 file keep (.node "Num" [("n", .const x)] (some (l, o))) (.one .expr) a q := by
    intro x d gs hx hb
    refine ⟨.alt "Expr" "Num" [("n", .alt "NumericConstant" d gs), ("line_number", .int (at_ keep l)), ("col_offset", .int (at_ keep o)), ("filename", .str (from_ keep file))],
      .node "Num" [("n", .const x)] (some (at_ keep l, at_ keep o)), ⟨?_, ?_, ?_, ?_, ?_, ?_, ?_⟩⟩
    rotate_left
    · rw [back, if_neg (by decide), if_pos ⟨rfl, rfl⟩]; exact hb
    · simp [Shape, Alg.isA, typeName]
    · intro _
      cases keep <;> simp [Py.clean, Py.cleanFields, at_]
    · intro h; cases h
    · intro t c gs' e
      simp only [Alg.alt.injEq] at e
      obtain ⟨rfl, rfl, _⟩ := e
      exact ⟨by simp, by simp⟩
    · intro h; cases h
    · simp [convert, hc, convertFields, Maker.run, lines_some, without, hx, List.lookup_cons, num_made (at_small hl) (at_small ho)]
  cases p with
  | const x =>
    cases x with
    | int n =>
      have hn : small n = true := by simpa [plainNode] using hpl
      refine fin (x := .int n) rfl ?_
      simp only [numBack, List.lookup_cons, beq_self_eq_true, String.reduceEq, if_false, wrap_small hn, constant, old_minor]
      exact congrArg some (make_old (a := ("n", _)) num_class (by simp [isLine]))
    | float x =>
      refine fin (x := .float x) rfl ?_
      simp only [numBack, List.lookup_cons, beq_self_eq_true, String.reduceEq, if_false, constant, old_minor]
      exact congrArg some (make_old (a := ("n", _)) num_class (by simp [isLine]))
    | complex x y =>
      refine fin (x := .complex x y) rfl ?_
      have : ("imag" == "real") = false := by decide +kernel
      simp only [numBack, List.lookup_cons, beq_self_eq_true, String.reduceEq, if_false, if_true, this, constant, old_minor]
      exact congrArg some (make_old (a := ("n", _)) num_class (by simp [isLine]))
    | _ => simp [Py.wf] at hw
  | node c fs pos =>
    simp only [Py.wf] at hw
    split at hw
    · rename_i k _
      simp at hw
    · simp at hw
  | _ => simp [Py.wf] at hw

theorem name_good {p : Py} {l o : Int} (hw : p.wf .v37 .nameConst = true) (hl : small l = true) (ho : small o = true) :
    ∃ a q, Good .v37 file keep (.node "NameConstant" [("value", p)] (some (l, o))) (.one .expr) a q := by
  have hc : converters.lookup "NameConstant" = some .nameConstant := by decide +kernel
  have fin : ∀ {x : Const} {d : String} {gs : List (String × Alg)}, numeric x = .alt "NumericConstant" d gs →
      numBack .v37 [("n", .alt "NumericConstant" d gs), ("line_number", .int (at_ keep l)), ("col_offset", .int (at_ keep o)), ("filename", .str (from_ keep file))] =
        some (.node "NameConstant" [("value", .const x)] (some (at_ keep l, at_ keep o))) →
      ∃ a q, Good .v37 file keep (.node "NameConstant" [("value", .const x)] (some (l, o))) (.one .expr) a q := by
    intro x d gs hx hb
    refine ⟨.alt "Expr" "Num" [("n", .alt "NumericConstant" d gs), ("line_number", .int (at_ keep l)), ("col_offset", .int (at_ keep o)), ("filename", .str (from_ keep file))],
      .node "NameConstant" [("value", .const x)] (some (at_ keep l, at_ keep o)), ⟨?_, ?_, ?_, ?_, ?_, ?_, ?_⟩⟩
    rotate_left
    · rw [back, if_neg (by decide), if_pos ⟨rfl, rfl⟩]; exact hb
    · simp [Shape, Alg.isA, typeName]
    · intro _
      cases keep <;> simp [Py.clean, Py.cleanFields, at_]
    · intro h; cases h
    · intro t c gs' e
      simp only [Alg.alt.injEq] at e
      obtain ⟨rfl, rfl, _⟩ := e
      exact ⟨by simp, by simp⟩
    · intro h; cases h
    · simp [convert, hc, convertFields, Maker.run, lines_some, without, hx, List.lookup_cons, num_made (at_small hl) (at_small ho)]
  cases p with
  | const x =>
    cases x with
    | none =>
      refine fin (x := .none) rfl ?_
      simp only [numBack, List.lookup_cons, beq_self_eq_true, String.reduceEq, if_false, if_true, constant, old_minor]
      exact congrArg some (make_old (a := ("n", _)) name_class (by simp [isLine]))
    | bool b =>
      refine fin (x := .bool b) rfl ?_
      have : ((if b then 1 else 0 : Int) != 0) = b := by cases b <;> rfl
      simp only [numBack, List.lookup_cons, beq_self_eq_true, if_true, constant, old_minor, this]
      exact congrArg some (make_old (a := ("n", _)) name_class (by simp [isLine]))
    | _ => simp [Py.wf] at hw
  | node c fs pos =>
    simp only [Py.wf] at hw
    split at hw
    · simp at hw
    · simp at hw
  | _ => simp [Py.wf] at hw

theorem str_good {p : Py} {l o : Int} (hw : p.wf .v37 .text = true) (hl : small l = true) (ho : small o = true) :
    ∃ a q, Good .v37 file keep (.node "Str" [("s", p)] (some (l, o))) (.one .expr) a q := by
  have hc : converters.lookup "Str" = some .str := by decide +kernel
  cases p with
  | const x =>
    cases x with
    | str s =>
      refine ⟨.alt "Expr" "Str" [("s", .str s), ("line_number", .int (at_ keep l)), ("col_offset", .int (at_ keep o)), ("filename", .str (from_ keep file))],
        .node "Str" [("s", .const (.str s))] (some (at_ keep l, at_ keep o)), ⟨?_, ?_, ?_, ?_, ?_, ?_, ?_⟩⟩
      · simp [convert, hc, convertFields, Maker.run, lines_some, without, List.lookup_cons, str_made (at_small hl) (at_small ho)]
      · rw [back, if_pos ⟨rfl, rfl⟩]
        simp only [List.lookup_cons, beq_self_eq_true, constant, old_minor]
        exact congrArg some (make_old (a := ("s", _)) str_class (by simp [isLine]))
      · simp [Shape, Alg.isA, typeName]
      · intro _
        cases keep <;> simp [Py.clean, Py.cleanFields, at_]
      · intro h; cases h
      · intro t c gs' e
        simp only [Alg.alt.injEq] at e
        obtain ⟨rfl, rfl, _⟩ := e
        exact ⟨by simp, by simp⟩
      · intro h; cases h
    | _ => simp [Py.wf] at hw
  | node c fs pos =>
    simp only [Py.wf] at hw
    split at hw
    · simp at hw
    · simp at hw
  | _ => simp [Py.wf] at hw

theorem ellipsis_good {l o : Int} : ∃ a q, Good .v37 file keep (.node "Ellipsis" [] (some (l, o))) (.one .expr) a q := by
  have hc : converters.lookup "Ellipsis" = some .ellipsis := by decide +kernel
  have hm : construct .v37 "Expr" "Constant" [("value", .const .ellipsis)] =
      some (.alt "Expr" "Constant" [("value", .const .ellipsis), ("line_number", .int 0), ("col_offset", .int 0), ("filename", .str "")]) := by
    have : membersOf .v37 "Expr" "Constant" = some [("value", .obj), ("line_number", .int), ("col_offset", .int), ("filename", .str)] := by decide +kernel
    simp [construct, this, fill, fits, initial, List.lookup_cons]
  have hk : (grammar .v37).lookup "Constant" = some ⟨.expr, true, [("value", .const)]⟩ := by decide +kernel
  have hr : reverse "Expr" "Constant" = some "Constant" := by decide +kernel
  refine ⟨.alt "Expr" "Constant" [("value", .const .ellipsis), ("line_number", .int 0), ("col_offset", .int 0), ("filename", .str "")], .node "Constant" [("value", .const .ellipsis)] (some (0, 0)), ⟨?_, ?_, ?_, ?_, ?_, ?_, ?_⟩⟩
  rotate_left
  · rw [back, if_neg (by decide), if_neg (by decide), hr]
    simp only [backFields, back]
    simp [make, hk, number, List.lookup_cons]
  · simp [Shape, Alg.isA, typeName]
  · intro _; simp [Py.clean]
  · intro h; cases h
  · intro t c gs' e
    simp only [Alg.alt.injEq] at e
    obtain ⟨rfl, rfl, _⟩ := e
    exact ⟨by simp, by simp⟩
  · intro h; cases h
  · simp [convert, hc, convertFields, Maker.run, lines_some, hm]

end old

theorem isA_alt {a : Alg} {t : String} (h : a.isA t = true) : ∃ c gs, a = .alt t c gs := by
  cases a <;> simp_all [Alg.isA]

theorem index_good {v : Version} {file : String} {keep : Bool} (hv : v.minor < 9) {p : Py} {a : Alg} {q : Py} (hw : p.wf v (.one .expr) = true)
    (hpl : plainNode "Index" [("value", p)] = true) (hg : Good v file keep p (.one .expr) a q) :
    Good v file keep (.node "Index" [("value", p)] .none) (.one .slice) a q := by
  have hc : converters.lookup "Index" = some .index := by decide +kernel
  have hk : (grammar v).lookup "Index" = some ⟨.slice, false, [("value", .one .expr)]⟩ := by
    cases v <;> first | decide +kernel | simp [Version.minor] at hv
  obtain ⟨d, gs, rfl⟩ := isA_alt hg.shape
  obtain ⟨h1, h2⟩ := hg.ctor _ _ _ rfl
  obtain ⟨h3, h4⟩ := not_expr hv hw
  have h5 : p.isNode "Tuple" = false := by simpa [plainNode] using hpl
  have hnt : d ≠ "Tuple" := fun e => by rcases h1 e with h | h <;> simp_all
  have hns : d ≠ "Slice" := fun e => by simp_all
  have hq := hg.exact trivial
  refine ⟨?_, hg.back, hg.shape, fun h => by simp [Exact, Py.isNode] at h, fun _ => ?_, ?_, fun h => by cases h⟩
  · cases keep
    · simp [convert, hc, convertFields, hg.convert, Maker.run, lineArgs]
    · simp [convert, hc, convertFields, hg.convert, Maker.run, lineArgs]
  · have : ¬ 9 ≤ v.minor := by omega
    simp [asSlice, this, hns, hnt, make, hk, Py.clean, Py.cleanFields, hq]
  · intro t c gs' e
    simp only [Alg.alt.injEq] at e
    obtain ⟨_, rfl, _⟩ := e
    exact ⟨fun h => absurd h hnt, fun h => absurd h hns⟩

theorem ext_good {v : Version} {file : String} {keep : Bool} (hv : v.minor < 9) {p : Py} {a : Alg} {q : Py}
    (hpl : plainNode "ExtSlice" [("dims", p)] = true) (hg : Good v file keep p (.many .slice) a q) :
    ∃ a q, Good v file keep (.node "ExtSlice" [("dims", p)] .none) (.one .slice) a q := by
  have hc : converters.lookup "ExtSlice" = some .extSlice := by decide +kernel
  have hk : (grammar v).lookup "ExtSlice" = some ⟨.slice, false, [("dims", .many .slice)]⟩ := by
    cases v <;> first | decide +kernel | simp [Version.minor] at hv
  have hkt : (grammar v).lookup "Tuple" = some ⟨.expr, true, [("elts", .many .expr), ("ctx", .one .exprContext)]⟩ := by cases v <;> decide +kernel
  have hkl : (grammar v).lookup "Load" = some ⟨.exprContext, false, []⟩ := by cases v <;> decide +kernel
  obtain ⟨xs, rfl, hxs⟩ := hg.shape
  have hq : q = p.clean keep := hg.exact (by
    intro ys hy
    subst hy
    simpa [plainNode] using hpl)
  have hm : construct v "Expr" "Tuple" [("elts", .tuple xs)] = some (.alt "Expr" "Tuple" [("elts", .tuple xs), ("ctx", .alt "ExprContext" "Load" []),
      ("line_number", .int 0), ("col_offset", .int 0), ("filename", .str "")]) := by
    have : membersOf v "Expr" "Tuple" = some [("elts", .alts "Expr"), ("ctx", .alt "ExprContext"), ("line_number", .int), ("col_offset", .int), ("filename", .str)] := by
      cases v <;> decide +kernel
    have h1 : fits (.alts "Expr") (.tuple xs) = some (.tuple xs) := by
      simp only [fits]
      exact if_pos (List.all_eq_true.mpr hxs)
    simp [construct, this, fill, h1, initial, List.lookup_cons]
  have hr : reverse "Expr" "Tuple" = some "Tuple" := by decide +kernel
  have hr' : reverse "ExprContext" "Load" = some "Load" := by decide +kernel
  have hv9 : ¬ 9 ≤ v.minor := by omega
  refine ⟨.alt "Expr" "Tuple" [("elts", .tuple xs), ("ctx", .alt "ExprContext" "Load" []), ("line_number", .int 0), ("col_offset", .int 0),
    ("filename", .str "")], .node "Tuple" [("elts", q), ("ctx", .node "Load" [] .none)] (some (0, 0)), ⟨?_, ?_, ?_, ?_, ?_, ?_, ?_⟩⟩
  rotate_left
  · rw [back, if_neg (by decide), if_neg (by decide), hr]
    have hload : back v (.alt "ExprContext" "Load" []) = some (.node "Load" [] .none) := by
      rw [back, if_neg (by decide), if_neg (by decide), hr']
      simp [backFields, make, hkl]
    have h1 : ∀ n, back v (.int n) = some (.int n) := fun n => by rw [back]
    have h2 : ∀ n, back v (.str n) = some (.str n) := fun n => by rw [back]
    simp only [backFields, hg.back, hload, h1, h2]
    simp [make, hkt, number, List.lookup_cons]
  · simp [Shape, Alg.isA, typeName]
  · intro h; simp [Exact, Py.isNode] at h
  · intro _
    simp [asSlice, hv9, make, hk, Py.clean, Py.cleanFields, hq, List.lookup_cons]
  · intro t c gs' e
    simp only [Alg.alt.injEq] at e
    obtain ⟨rfl, rfl, _⟩ := e
    exact ⟨fun _ => Or.inr (by simp [Py.isNode]), by simp⟩
  · intro h; cases h
  · cases keep
    · simp [convert, hc, convertFields, hg.convert, Maker.run, lineArgs, hm]
    · simp [convert, hc, convertFields, hg.convert, Maker.run, lineArgs, hm]

/-- One node, whose attributes have been dealt with. -/
theorem any_node_good {v : Version} {file : String} {keep : Bool} {c : String} {k : Class} {fs : List (String × Py)} {pos : Option (Int × Int)}
    {args : List (String × Alg)} (hk : (grammar v).lookup c = some k) (hw : Py.wfFields v fs k.fields = true) (hp : pos.isSome = k.pos)
    (hpl : plainNode c fs = true) (hsm : ∀ l o, pos = some (l, o) → small l = true ∧ small o = true) (hg : GoodFields v file keep fs k.fields args) :
    ∃ a q, Good v file keep (.node c fs pos) (.one k.sort) a q := by
  have old : ∀ {c}, (c = "Num" ∨ c = "Str" ∨ c = "NameConstant" ∨ c = "Ellipsis") → (grammar v).lookup c = some k → v = .v37 := by
    intro c hc h
    cases v with
    | v37 => rfl
    | _ => rcases hc with rfl | rfl | rfl | rfl <;> exact absurd h (by rw [show List.lookup _ (grammar _) = .none from by decide +kernel]; simp)
  have older : ∀ {c}, (c = "Index" ∨ c = "ExtSlice") → (grammar v).lookup c = some k → v.minor < 9 := by
    intro c hc h
    cases v with
    | v37 => decide
    | v38 => decide
    | _ => rcases hc with rfl | rfl <;> exact absurd h (by rw [show List.lookup _ (grammar _) = .none from by decide +kernel]; simp)
  cases hs : special c with
  | false =>
    obtain ⟨a, q, h, _⟩ := node_good hk hs hw hp hpl hsm hg (slice_only_in hk hs) (fun e => by subst e; exact subscript_fields hk)
    exact ⟨a, q, h⟩
  | true =>
    have place : k.pos = true → ∃ l o, pos = some (l, o) ∧ small l = true ∧ small o = true := by
      intro h
      rw [h] at hp
      obtain ⟨⟨l, o⟩, rfl⟩ := Option.isSome_iff_exists.mp hp
      exact ⟨l, o, rfl, hsm l o rfl⟩
    simp only [special, List.contains_iff_mem, List.mem_cons, List.not_mem_nil, or_false] at hs
    rcases hs with rfl | rfl | rfl | rfl | rfl | rfl | rfl
    · simp [plainNode] at hpl
    · obtain rfl := old (by simp) hk
      rw [num_class] at hk
      obtain rfl := Option.some.inj hk
      obtain ⟨l, o, rfl, hl, ho⟩ := place rfl
      obtain ⟨p, rfl, hp'⟩ := one_field hw
      exact num_good hp' hpl hl ho
    · obtain rfl := old (by simp) hk
      rw [str_class] at hk
      obtain rfl := Option.some.inj hk
      obtain ⟨l, o, rfl, hl, ho⟩ := place rfl
      obtain ⟨p, rfl, hp'⟩ := one_field hw
      exact str_good hp' hl ho
    · obtain rfl := old (by simp) hk
      rw [name_class] at hk
      obtain rfl := Option.some.inj hk
      obtain ⟨l, o, rfl, hl, ho⟩ := place rfl
      obtain ⟨p, rfl, hp'⟩ := one_field hw
      exact name_good hp' hl ho
    · obtain rfl := old (by simp) hk
      rw [show (grammar .v37).lookup "Ellipsis" = some ⟨.expr, true, []⟩ from by decide +kernel] at hk
      obtain rfl := Option.some.inj hk
      obtain ⟨l, o, rfl, hl, ho⟩ := place rfl
      cases fs with
      | nil => exact ellipsis_good
      | cons x fs => simp [Py.wfFields] at hw
    · have hv := older (by simp) hk
      rw [show (grammar v).lookup "Index" = some ⟨.slice, false, [("value", .one .expr)]⟩ from by
        cases v <;> first | decide +kernel | simp [Version.minor] at hv] at hk
      obtain rfl := Option.some.inj hk
      obtain ⟨p, rfl, hp'⟩ := one_field hw
      have : pos = .none := by cases pos <;> simp_all
      subst this
      obtain ⟨p', a, q, h1, h2, h3⟩ := hg.each "value" (.one .expr) (by simp) (by decide)
      simp only [List.lookup_cons, beq_self_eq_true, Option.some.injEq] at h1
      subst h1
      exact ⟨a, q, index_good hv hp' hpl h3⟩
    · have hv := older (by simp) hk
      rw [show (grammar v).lookup "ExtSlice" = some ⟨.slice, false, [("dims", .many .slice)]⟩ from by
        cases v <;> first | decide +kernel | simp [Version.minor] at hv] at hk
      obtain rfl := Option.some.inj hk
      obtain ⟨p, rfl, hp'⟩ := one_field hw
      have : pos = .none := by cases pos <;> simp_all
      subst this
      obtain ⟨p', a, q, h1, h2, h3⟩ := hg.each "dims" (.many .slice) (by simp) (by decide)
      simp only [List.lookup_cons, beq_self_eq_true, Option.some.injEq] at h1
      subst h1
      exact ext_good hv hpl h3

theorem exact_one {s : Sort_} {p : Py} (hs : s ≠ .slice) : Exact (.one s) p := by
  unfold Exact
  split
  · rename_i heq
    simp only [Field.one.injEq] at heq
    exact absurd heq hs
  · trivial
  · trivial

theorem good_opt {v : Version} {file : String} {keep : Bool} {p : Py} {s : Sort_} {a : Alg} {q : Py} (hs : s ≠ .slice)
    (h : Good v file keep p (.one s) a q) : Good v file keep p (.opt s) a q := by
  have he : Exact (.one s) p := exact_one hs
  exact ⟨h.convert, h.back, Or.inr h.shape, fun _ => h.exact he, (fun e => by cases e), h.ctor, h.none⟩

mutual
/-- The conversion of an attribute and back. -/
theorem value_good (v : Version) (file : String) (keep : Bool) : ∀ (p : Py) (f : Field), f ≠ .opt .slice → f ≠ .manyOpt .slice →
    p.wf v f = true → p.plain = true → ∃ a q, Good v file keep p f a q
  | .node c fs pos, f, hf, hf', hw, hp => by
    simp only [Py.wf] at hw
    split at hw
    case h_2 => simp at hw
    rename_i k hk
    simp only [Bool.and_eq_true, Bool.or_eq_true, beq_iff_eq] at hw
    obtain ⟨⟨h1, h2⟩, h3⟩ := hw
    simp only [Py.plain, Bool.and_eq_true] at hp
    obtain ⟨⟨h4, h5⟩, h6⟩ := hp
    obtain ⟨args, hg⟩ := fields_good v file keep fs k.fields (fun f hf => (no_slices hk f hf).1) (fun f hf => (no_slices hk f hf).2) h3 h6
    obtain ⟨a, q, h7⟩ := any_node_good hk h3 h2 h4 (fun l o e => by subst e; simpa using h5) hg
    rcases h1 with rfl | rfl
    · exact ⟨a, q, h7⟩
    · exact ⟨a, q, good_opt (fun e => hf (by rw [e])) h7⟩
  | .list xs, f, hf, hf', hw, hp => by
    simp only [Py.plain] at hp
    cases f <;> simp only [Py.wf, Bool.false_eq_true] at hw
    case many s =>
      obtain ⟨as, qs, h1, h2, h3, h4⟩ := all_good v file keep xs (.one s) (by simp) (by simp) hw hp
      refine ⟨.tuple as, .list qs, ⟨by simp [convert, h1], by simp [back, h2], ⟨as, rfl, h3⟩, fun he => ?_, (fun e => by cases e), (fun _ _ _ e => by cases e), (fun e => by cases e)⟩⟩
      simp only [Py.clean, Py.list.injEq]
      refine h4 fun x hx => ?_
      by_cases hs : s = .slice
      · subst hs
        exact he xs rfl x hx
      · exact exact_one hs
    case manyOpt s =>
      obtain ⟨as, qs, h1, h2, h3, h4⟩ := all_good v file keep xs (.opt s) (fun e => hf' (by simp only [Field.opt.injEq] at e; rw [e])) (by simp) hw hp
      refine ⟨.tuple as, .list qs, ⟨by simp [convert, h1], by simp [back, h2], ⟨as, rfl, h3⟩, fun he => ?_, (fun e => by cases e), (fun _ _ _ e => by cases e), (fun e => by cases e)⟩⟩
      simp only [Py.clean, Py.list.injEq]
      exact h4 fun x hx => trivial
    case idents =>
      obtain ⟨as, qs, h1, h2, h3, h4⟩ := all_good v file keep xs .ident (by simp) (by simp) hw hp
      refine ⟨.tuple as, .list qs, ⟨by simp [convert, h1], by simp [back, h2], ⟨as, rfl, h3⟩, fun he => ?_, (fun e => by cases e), (fun _ _ _ e => by cases e), (fun e => by cases e)⟩⟩
      simp only [Py.clean, Py.list.injEq]
      exact h4 fun x hx => trivial
  | .none, f, hf, hf', hw, hp => by
    refine ⟨.none, .none, ⟨rfl, rfl, ?_, fun _ => rfl, ?_, (fun _ _ _ e => by cases e), fun _ => rfl⟩⟩
    · cases f <;> simp [Py.wf] at hw <;> simp [Shape]
    · rintro rfl; simp [Py.wf] at hw
  | .int n, f, hf, hf', hw, hp => by
    simp only [Py.plain] at hp
    refine ⟨.int n, .int n, ⟨rfl, rfl, ?_, fun _ => rfl, ?_, (fun _ _ _ e => by cases e), (fun e => by cases e)⟩⟩
    · cases f <;> simp [Py.wf] at hw <;> simp [Shape, hp, hw]
    · rintro rfl; simp [Py.wf] at hw
  | .str s, f, hf, hf', hw, hp => by
    refine ⟨.str s, .str s, ⟨rfl, rfl, ?_, fun _ => rfl, ?_, (fun _ _ _ e => by cases e), (fun e => by cases e)⟩⟩
    · cases f <;> simp [Py.wf] at hw <;> simp [Shape]
    · rintro rfl; simp [Py.wf] at hw
  | .const x, f, hf, hf', hw, hp => by
    refine ⟨.const x, .const x, ⟨rfl, rfl, ?_, fun _ => rfl, ?_, (fun _ _ _ e => by cases e), (fun e => by cases e)⟩⟩
    · cases f <;> cases x <;> simp [Py.wf] at hw <;> simp [Shape]
    · rintro rfl; cases x <;> simp [Py.wf] at hw
termination_by structural p => p
/-- All of a list. -/
theorem all_good (v : Version) (file : String) (keep : Bool) : ∀ (xs : List Py) (f : Field), f ≠ .opt .slice → f ≠ .manyOpt .slice →
    Py.wfAll v xs f = true → Py.plainAll xs = true → ∃ as qs, convertAll v file keep xs = some as ∧ backAll v as = some qs ∧
      (∀ a ∈ as, Shape f a) ∧ ((∀ x ∈ xs, Exact f x) → qs = Py.cleanAll keep xs)
  | [], f, hf, hf', hw, hp => ⟨[], [], rfl, rfl, by simp, fun _ => rfl⟩
  | x :: xs, f, hf, hf', hw, hp => by
    simp only [Py.wfAll, Bool.and_eq_true] at hw
    simp only [Py.plainAll, Bool.and_eq_true] at hp
    obtain ⟨a, q, h1⟩ := value_good v file keep x f hf hf' hw.1 hp.1
    obtain ⟨as, qs, h2, h3, h4, h5⟩ := all_good v file keep xs f hf hf' hw.2 hp.2
    refine ⟨a :: as, q :: qs, by simp [convertAll, h1.convert, h2], by simp [backAll, h1.back, h3], ?_, fun he => ?_⟩
    · intro b hb
      rcases List.mem_cons.mp hb with rfl | hb
      · exact h1.shape
      · exact h4 b hb
    · rw [Py.cleanAll, h1.exact (he x (by simp)), h5 fun y hy => he y (List.mem_cons_of_mem _ hy)]
termination_by structural xs => xs
/-- All attributes. -/
theorem fields_good (v : Version) (file : String) (keep : Bool) : ∀ (fs : List (String × Py)) (F : List (String × Field)),
    (∀ f ∈ F, f.2 ≠ .opt .slice) → (∀ f ∈ F, f.2 ≠ .manyOpt .slice) → Py.wfFields v fs F = true → Py.plainFields fs = true →
    ∃ args, GoodFields v file keep fs F args
  | [], [], _, _, hw, hp => ⟨[], ⟨rfl, fun n f h => by simp at h, by simp⟩⟩
  | [], _ :: _, _, _, hw, hp => by simp [Py.wfFields] at hw
  | (_, _) :: _, [], _, _, hw, hp => by simp [Py.wfFields] at hw
  | (n, p) :: fs, (m, f) :: F, hF, hF', hw, hp => by
    simp only [Py.wfFields, Bool.and_eq_true, beq_iff_eq] at hw
    obtain ⟨⟨rfl, h1⟩, h2⟩ := hw
    simp only [Py.plainFields, Bool.and_eq_true] at hp
    obtain ⟨args, hg⟩ := fields_good v file keep fs F (fun f hf => hF f (List.mem_cons_of_mem _ hf)) (fun f hf => hF' f (List.mem_cons_of_mem _ hf)) h2 hp.2
    obtain ⟨a, q, h3⟩ := value_good v file keep p f (hF (n, f) (by simp)) (hF' (n, f) (by simp)) h1 hp.1
    by_cases hn : n = "type_comment"
    · refine ⟨args, ⟨by simp [convertFields, hn, hg.convert], fun n' f' hl hn' => ?_, fun x hx => ?_⟩⟩
      · have hb : (n' == n) = false := beq_eq_false_iff_ne.mpr fun e => hn' (e.trans hn)
        rw [List.lookup_cons, hb] at hl
        obtain ⟨p', a', q', h4, h5, h6⟩ := hg.each n' f' hl hn'
        exact ⟨p', a', q', by rw [List.lookup_cons, hb]; exact h4, h5, h6⟩
      · obtain ⟨h4, f', h5, h6⟩ := hg.names x hx
        exact ⟨h4, f', List.mem_cons_of_mem _ h5, h6⟩
    · refine ⟨(n, a) :: args, ⟨by simp [convertFields, hn, hg.convert, h3.convert], fun n' f' hl hn' => ?_, fun x hx => ?_⟩⟩
      · rw [List.lookup_cons] at hl
        cases hb : n' == n
        · rw [hb] at hl
          obtain ⟨p', a', q', h4, h5, h6⟩ := hg.each n' f' hl hn'
          exact ⟨p', a', q', by rw [List.lookup_cons, hb]; exact h4, by rw [List.lookup_cons, hb]; exact h5, h6⟩
        · rw [hb] at hl
          simp only [Option.some.injEq] at hl
          subst hl
          exact ⟨p, a, q, by rw [List.lookup_cons, hb], by rw [List.lookup_cons, hb], h3⟩
      · rcases List.mem_cons.mp hx with rfl | hx
        · exact ⟨hn, (n, f), by simp, rfl⟩
        · obtain ⟨h4, f', h5, h6⟩ := hg.names x hx
          exact ⟨h4, f', List.mem_cons_of_mem _ h5, h6⟩
termination_by structural fs => fs
end

end Verif.Ast
