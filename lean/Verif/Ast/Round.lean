import Verif.Ast.Align
/-
The conversion of one node and back, given that of its attributes.
-/
namespace Verif.Ast

theorem wrap_small {n : Int} (h : small n = true) : wrap n = n := by
  simp only [small, Bool.and_eq_true, decide_eq_true_eq] at h
  unfold wrap
  rw [Int.bmod_eq_of_le (by omega) (by omega)]

/-- What the conversion of an attribute gives. -/
def Shape : Field → Alg → Prop
  | .one s, a => a.isA (typeName s) = true
  | .opt s, a => a = .none ∨ a.isA (typeName s) = true
  | .many s, a => ∃ xs, a = .tuple xs ∧ ∀ x ∈ xs, x.isA (typeName s) = true
  | .manyOpt s, a => ∃ xs, a = .tuple xs ∧ ∀ x ∈ xs, x = .none ∨ x.isA (typeName s) = true
  | .ident, a => ∃ s, a = .str s
  | .identOpt, a => a = .none ∨ ∃ s, a = .str s
  | .idents, a => ∃ xs, a = .tuple xs ∧ ∀ x ∈ xs, ∃ s, x = .str s
  | .int, a => ∃ n, a = .int n ∧ small n = true
  | .intOpt, a => a = .none ∨ ∃ n, a = .int n ∧ small n = true
  | .flag, a => a = .int 0 ∨ a = .int 1
  | .const, a => ∃ c, a = .const c
  | .number, a => ∃ c, a = .const c
  | .text, a => ∃ s, a = .const (.str s)
  | .bytes, a => ∃ s, a = .const (.bytes s)
  | .nameConst, a => ∃ c, a = .const c
  | .stringOpt, a => a = .none ∨ ∃ s, a = .str s

theorem not_none_of_isA {a : Alg} {t : String} (h : a.isA t = true) : a ≠ .none := by rintro rfl; simp [Alg.isA] at h

theorem fits_ok {c n : String} {t : FT} {f : Field} {a : Alg} (h : accepts c n t f = true) (hs : Shape f a)
    (hn : c = "ImportFrom" → n = "module" → a ≠ .none) : fits t a = some a := by
  cases t <;> cases f <;> simp only [accepts, Bool.false_eq_true, beq_iff_eq, Bool.and_eq_true] at h
  case alt.one t s => subst h; simp only [Shape] at hs; simp [fits, hs]
  case altOpt.opt t s =>
    subst h
    rcases hs with rfl | hs
    · rfl
    · have := not_none_of_isA hs
      cases a <;> simp_all [fits]
  case alts.many t s =>
    subst h
    obtain ⟨xs, rfl, hs⟩ := hs
    simp only [fits]
    rw [if_pos (List.all_eq_true.mpr hs)]
  case altOpts.manyOpt t s =>
    subst h
    obtain ⟨xs, rfl, hs⟩ := hs
    simp only [fits]
    rw [if_pos]
    refine List.all_eq_true.mpr fun x hx => ?_
    rcases hs x hx with rfl | h
    · rfl
    · cases x <;> simp_all
  case altOrAlts.many t s =>
    subst h
    obtain ⟨xs, rfl, hs⟩ := hs
    simp only [fits]
    rw [if_pos (List.all_eq_true.mpr hs)]
  case int.int => obtain ⟨n, rfl, hs⟩ := hs; simp [fits, wrap_small hs]
  case intOpt.intOpt =>
    rcases hs with rfl | ⟨n, rfl, hs⟩
    · rfl
    · simp [fits, wrap_small hs]
  case str.ident => obtain ⟨s, rfl⟩ := hs; rfl
  case strOpt.identOpt => rcases hs with rfl | ⟨s, rfl⟩ <;> rfl
  case strOpt.stringOpt => rcases hs with rfl | ⟨s, rfl⟩ <;> rfl
  case strs.idents =>
    obtain ⟨xs, rfl, hs⟩ := hs
    simp only [fits]
    rw [if_pos]
    refine List.all_eq_true.mpr fun x hx => ?_
    obtain ⟨s, rfl⟩ := hs x hx
    rfl
  case strOrStrs.identOpt =>
    rcases hs with rfl | ⟨s, rfl⟩
    · exact absurd rfl (hn h.1 h.2)
    · rfl
  case bool.flag => rcases hs with rfl | rfl <;> rfl
  case bytes.bytes => obtain ⟨s, rfl⟩ := hs; rfl
  case obj.const => obtain ⟨c, rfl⟩ := hs; rfl

/-! ### Making an alternative -/

/-- What a member gets. -/
def val (args : List (String × Alg)) (m : String × FT) : Alg := match args.lookup m.1 with
  | some a => a
  | .none => (initial m.2).getD .none

theorem fill_ok {args : List (String × Alg)} : ∀ {ms : List (String × FT)},
    (∀ m ∈ ms, (∃ a, args.lookup m.1 = some a ∧ fits m.2 a = some a) ∨ (args.lookup m.1 = .none ∧ ∃ a, initial m.2 = some a)) →
    fill args ms = some (ms.map fun m => (m.1, val args m))
  | [], _ => rfl
  | (n, t) :: ms, h => by
    have ih := fill_ok (args := args) (ms := ms) (fun m hm => h m (List.mem_cons_of_mem _ hm))
    rcases h (n, t) (by simp) with ⟨a, h1, h2⟩ | ⟨h1, a, h2⟩
    · simp only at h1 h2
      simp [fill, ih, h1, h2, val]
    · simp only at h1 h2
      simp [fill, ih, h1, h2, val]

theorem construct_ok {v : Version} {t c : String} {args : List (String × Alg)} {ms : List (String × FT)} (hm : membersOf v t c = some ms)
    (hn : ∀ a ∈ args, ∃ m ∈ ms, m.1 = a.1)
    (h : ∀ m ∈ ms, (∃ a, args.lookup m.1 = some a ∧ fits m.2 a = some a) ∨ (args.lookup m.1 = .none ∧ ∃ a, initial m.2 = some a)) :
    construct v t c args = some (.alt t c (ms.map fun m => (m.1, val args m))) := by
  have : args.all (fun a => ms.any fun f => f.1 == a.1) = true := by
    refine List.all_eq_true.mpr fun a ha => ?_
    obtain ⟨m, h1, h2⟩ := hn a ha
    exact List.any_eq_true.mpr ⟨m, h1, by simp [h2]⟩
  simp [construct, hm, this, fill_ok h]

theorem construct_unknown {v : Version} {t c n : String} {args : List (String × Alg)} {ms : List (String × FT)} (hm : membersOf v t c = some ms)
    (ha : ∃ a ∈ args, a.1 = n) (hn : ∀ m ∈ ms, m.1 ≠ n) : construct v t c args = .none := by
  have : ¬ args.all (fun a => ms.any fun f => f.1 == a.1) = true := by
    intro h
    obtain ⟨a, h1, h2⟩ := ha
    obtain ⟨m, h3, h4⟩ := List.any_eq_true.mp (List.all_eq_true.mp h a h1)
    exact hn m h3 (by rw [← h2]; exact eq_of_beq h4)
  simp [construct, hm, this]

/-! ### Back -/

theorem lookup_map {R : String × FT → β} : ∀ {ms : List (String × FT)} {n : String},
    ((ms.map fun m => (m.1, R m)).lookup n = .none ∧ ∀ m ∈ ms, m.1 ≠ n) ∨ ∃ m ∈ ms, m.1 = n ∧ (ms.map fun m => (m.1, R m)).lookup n = some (R m)
  | [], n => Or.inl ⟨rfl, by simp⟩
  | (k, t) :: ms, n => by
    simp only [List.map_cons, List.lookup_cons]
    by_cases h : n = k
    · subst h
      exact Or.inr ⟨(n, t), by simp, rfl, by simp⟩
    · have : (n == k) = false := by simp [h]
      simp only [this]
      rcases lookup_map (R := R) (ms := ms) (n := n) with ⟨h1, h2⟩ | ⟨m, h1, h2, h3⟩
      · exact Or.inl ⟨h1, fun m hm => by
          rcases List.mem_cons.mp hm with rfl | hm
          · exact fun e => h e.symm
          · exact h2 m hm⟩
      · exact Or.inr ⟨m, List.mem_cons_of_mem _ h1, h2, h3⟩

theorem backFields_ok {v : Version} {sub : Bool} {V : String × FT → Alg} {Q : String × FT → Py} : ∀ {ms : List (String × FT)},
    (∀ m ∈ ms, back v (V m) = some (Q m)) →
    backFields v sub (ms.map fun m => (m.1, V m)) = some (ms.map fun m => (m.1, if sub && m.1 == "slice" then asSlice v (V m) (Q m) else Q m))
  | [], _ => rfl
  | m :: ms, h => by
    have ih := backFields_ok (sub := sub) (V := V) (Q := Q) (ms := ms) (fun m hm => h m (List.mem_cons_of_mem _ hm))
    have h1 := h m (by simp)
    simp only [List.map_cons, backFields, ih, h1]

theorem fields_eq {v : Version} {keep : Bool} {g : String → Py} : ∀ {fs : List (String × Py)} {F : List (String × Field)},
    Py.wfFields v fs F = true → (F.map (·.1)).Nodup →
    (∀ n p, fs.lookup n = some p → g n = if n = "type_comment" then .none else p.clean keep) →
    F.map (fun f => (f.1, g f.1)) = Py.cleanFields keep fs
  | [], [], _, _, _ => rfl
  | [], _ :: _, h, _, _ => by simp [Py.wfFields] at h
  | _ :: _, [], h, _, _ => by simp [Py.wfFields] at h
  | (n, p) :: fs, (m, f) :: F, h, hn, hg => by
    simp only [Py.wfFields, Bool.and_eq_true, beq_iff_eq] at h
    obtain ⟨⟨rfl, h1⟩, h2⟩ := h
    simp only [List.map_cons, List.nodup_cons] at hn
    simp only [List.map_cons, Py.cleanFields]
    rw [hg n p (by simp)]
    congr 1
    refine fields_eq h2 hn.2 fun n' p' hl => hg n' p' ?_
    have : n' ≠ n := by
      rintro rfl
      have := lookup_mem hl
      exact hn.1 (wf_names h2 this)
    have hb : (n' == n) = false := by simpa using this
    rw [List.lookup_cons, hb]
    exact hl
where
  wf_names {fs : List (String × Py)} {F : List (String × Field)} (h : Py.wfFields v fs F = true) {n : String} {p : Py} (hm : (n, p) ∈ fs) :
      n ∈ F.map (·.1) := by
    induction fs generalizing F with
    | nil => simp at hm
    | cons x fs ih =>
      obtain ⟨a, b⟩ := x
      cases F with
      | nil => simp [Py.wfFields] at h
      | cons y F =>
        obtain ⟨c, d⟩ := y
        simp only [Py.wfFields, Bool.and_eq_true, beq_iff_eq] at h
        rcases List.mem_cons.mp hm with e | hm
        · simp only [Prod.mk.injEq] at e
          simp [e.1, h.1.1]
        · exact List.mem_cons_of_mem _ (ih h.2 hm)

/-- When an attribute comes back as it was. -/
def Exact : Field → Py → Prop
  | .one .slice, p => p.isNode "Slice" = true
  | .many .slice, p => ∀ xs, p = .list xs → ∀ x ∈ xs, x.isNode "Slice" = true
  | _, _ => True

/-- The conversion of an attribute and back. -/
structure Good (v : Version) (file : String) (keep : Bool) (p : Py) (f : Field) (a : Alg) (q : Py) : Prop where
  convert : convert v file keep p = some a
  back : back v a = some q
  shape : Shape f a
  exact : Exact f p → q = p.clean keep
  slice : f = .one .slice → asSlice v a q = p.clean keep
  ctor : ∀ t c gs, a = .alt t c gs → (c = "Tuple" → p.isNode "Tuple" = true ∨ p.isNode "ExtSlice" = true) ∧ (c = "Slice" → p.isNode "Slice" = true)
  none : a = .none → p = .none

/-- The conversion of all attributes and back. -/
structure GoodFields (v : Version) (file : String) (keep : Bool) (fs : List (String × Py)) (F : List (String × Field)) (args : List (String × Alg)) : Prop where
  convert : convertFields v file keep fs = some args
  each : ∀ n f, F.lookup n = some f → n ≠ "type_comment" → ∃ p a q, fs.lookup n = some p ∧ args.lookup n = some a ∧ Good v file keep p f a q
  names : ∀ x ∈ args, x.1 ≠ "type_comment" ∧ ∃ f ∈ F, f.1 = x.1

theorem lookup_append {l l' : List (String × α)} {n : String} : (l ++ l').lookup n = (l.lookup n).or (l'.lookup n) := by
  induction l with
  | nil => simp
  | cons x l ih =>
    obtain ⟨a, b⟩ := x
    simp only [List.cons_append, List.lookup_cons]
    cases h : n == a
    · exact ih
    · rfl

theorem lookup_none {l : List (String × α)} {n : String} (h : ∀ x ∈ l, x.1 ≠ n) : l.lookup n = .none := by
  induction l with
  | nil => rfl
  | cons x l ih =>
    obtain ⟨a, b⟩ := x
    have h1 : a ≠ n := h (a, b) (by simp)
    have : (n == a) = false := beq_eq_false_iff_ne.mpr fun e => h1 e.symm
    rw [List.lookup_cons, this]
    exact ih fun x hx => h x (List.mem_cons_of_mem _ hx)

theorem kept_lookup {k : Class} {n : String} {f : Field} (h : (kept k).lookup n = some f) : k.fields.lookup n = some f ∧ n ≠ "type_comment" := by
  unfold kept at h
  generalize k.fields = l at h ⊢
  induction l with
  | nil => simp at h
  | cons x l ih =>
    obtain ⟨a, b⟩ := x
    simp only [List.filter_cons] at h
    by_cases ha : a = "type_comment"
    · have hx : ((a, b).1 != "type_comment") = false := by simp [ha]
      rw [hx] at h
      simp only [Bool.false_eq_true, if_false] at h
      obtain ⟨h1, h2⟩ := ih h
      have : (n == a) = false := beq_eq_false_iff_ne.mpr fun e => h2 (e.trans ha)
      exact ⟨by rw [List.lookup_cons, this]; exact h1, h2⟩
    · have hx : ((a, b).1 != "type_comment") = true := by simp [ha]
      rw [hx] at h
      simp only [if_true] at h
      rw [List.lookup_cons] at h ⊢
      cases hn : n == a
      · rw [hn] at h
        exact ih h
      · rw [hn] at h
        have := eq_of_beq hn
        exact ⟨h, by rw [this]; exact ha⟩

theorem lookup_lines {file : String} {keep : Bool} {pos : Option (Int × Int)} {n : String} (h : isLine n = false) :
    (lineArgs file keep pos).lookup n = .none := by
  refine lookup_none fun x hx e => ?_
  subst e
  have : x.1 = "line_number" ∨ x.1 = "col_offset" ∨ x.1 = "filename" := by
    unfold lineArgs at hx
    split at hx
    · split at hx
      · simp only [List.mem_cons, List.not_mem_nil, or_false] at hx
        rcases hx with rfl | rfl | rfl <;> simp
      · simp at hx
    · simp only [List.mem_cons, List.not_mem_nil, or_false] at hx
      rcases hx with rfl | rfl | rfl <;> simp
  rcases this with e | e | e <;> rw [e] at h <;> revert h <;> decide +kernel

/-- One node of a class that is not special, whose attributes have been dealt with. -/
theorem node_good {v : Version} {file : String} {keep : Bool} {c : String} {k : Class} {fs : List (String × Py)} {pos : Option (Int × Int)}
    {args : List (String × Alg)} (hk : (grammar v).lookup c = some k) (hs : special c = false) (hw : Py.wfFields v fs k.fields = true)
    (hp : pos.isSome = k.pos) (hpl : plainNode c fs = true) (hsm : ∀ l o, pos = some (l, o) → small l = true ∧ small o = true)
    (hg : GoodFields v file keep fs k.fields args) (hsub : c ≠ "Subscript" → ∀ f ∈ k.fields, f.2 ≠ .one .slice ∧ f.2 ≠ .many .slice)
    (hsub' : c = "Subscript" → ∀ f ∈ k.fields, f.2 ≠ .many .slice ∧ (f.1 ≠ "slice" → f.2 ≠ .one .slice) ∧
      (f.1 = "slice" → f.2 ≠ .one .slice → ∀ a q, asSlice v a q = q)) :
    ∃ a q, Good v file keep (.node c fs pos) (.one k.sort) a q ∧ q = (Py.node c fs pos).clean keep := by
  have hal := aligned_of hk hs
  have hell : c ≠ "Ellipsis" := by rintro rfl; revert hs; decide +kernel
  unfold aligned at hal
  split at hal
  case h_2 => simp at hal
  rename_i t d hconv
  simp only [Bool.and_eq_true, Bool.not_eq_true', Bool.and_eq_false_iff, beq_iff_eq, Bool.or_eq_true, bne_iff_ne, ne_eq] at hal
  obtain ⟨⟨⟨⟨⟨⟨⟨ht, hrev⟩, hstr⟩, hnum⟩, htup⟩, hsl⟩, hsb⟩, hal⟩ := hal
  split at hal
  case h_2 => simp at hal
  rename_i ms hms
  simp only [alignedWith, Bool.and_eq_true, beq_iff_eq, Bool.or_eq_true, Bool.not_eq_true', decide_eq_true_eq, List.all_eq_true] at hal
  obtain ⟨⟨⟨⟨⟨hsplit, hpos⟩, hown⟩, hkept⟩, hnodup⟩, hline⟩ := hal
  -- the members for the attributes
  have hmem : ∀ m ∈ own ms, ∃ f p a q, (kept k).lookup m.1 = some f ∧ fs.lookup m.1 = some p ∧ args.lookup m.1 = some a ∧
      Good v file keep p f a q ∧ fits m.2 a = some a ∧ isLine m.1 = false := by
    intro m hm
    have h1 := hown m hm
    split at h1
    case h_2 => simp at h1
    rename_i f hf
    obtain ⟨h2, h3⟩ := kept_lookup hf
    obtain ⟨p, a, q, h4, h5, h6⟩ := hg.each _ _ h2 h3
    refine ⟨f, p, a, q, hf, h4, h5, h6, fits_ok h1 h6.shape ?_, by simpa using hline _ (lookup_mem hf)⟩
    intro hc hn hnone
    subst hc
    have hp := h6.none hnone
    rw [hn] at h4
    simp [plainNode, h4, hp] at hpl
  have hargs : ∀ a ∈ args, isLine a.1 = false ∧ ∃ m ∈ ms, m.1 = a.1 := by
    intro a ha
    obtain ⟨h1, f, h2, h3⟩ := hg.names a ha
    have h4 : f ∈ kept k := by simp [kept, h2, h3, h1]
    have h5 := hline f h4
    have h6 := hkept f h4
    simp only [List.any_eq_true, beq_iff_eq] at h6
    obtain ⟨m, h7, h8⟩ := h6
    exact ⟨by rw [← h3]; simpa using h5, m, h7, h8.trans h3⟩
  have hownline : ∀ m ∈ own ms, isLine m.1 = false := fun m hm => by obtain ⟨_, _, _, _, _, _, _, _, _, h⟩ := hmem m hm; exact h
  -- what is given to the constructor
  obtain ⟨L, hL, hLv⟩ : ∃ L, convert v file keep (.node c fs pos) = some (.alt t d (ms.map fun m => (m.1, val (args ++ L) m))) ∧
      (∀ n, isLine n = false → L.lookup n = .none) ∧ (hasLine ms = true → L = lineArgs file keep pos) := by
    have noline : ∀ n, isLine n = true → args.lookup n = .none := fun n hn => lookup_none fun x hx e => by
      have := (hargs x hx).1
      rw [e, hn] at this
      cases this
    by_cases hh : hasLine ms = true
    · refine ⟨lineArgs file keep pos, ?_, fun n => lookup_lines, fun _ => rfl⟩
      have hlo : lineOf ms = lineFields := by simp [lineOf, hh]
      have : construct v t d (args ++ lineArgs file keep pos) = some (.alt t d (ms.map fun m => (m.1, val (args ++ lineArgs file keep pos) m))) := by
        refine construct_ok hms ?_ ?_
        · intro a ha
          rcases List.mem_append.mp ha with ha | ha
          · exact (hargs a ha).2
          · have hin : ∀ m ∈ lineFields, m ∈ ms := fun m hm => by rw [hsplit, hlo]; exact List.mem_append_right _ hm
            unfold lineArgs at ha
            split at ha
            · split at ha
              · simp only [List.mem_cons, List.not_mem_nil, or_false] at ha
                rcases ha with rfl | rfl | rfl
                · exact ⟨_, hin ("line_number", .int) (by simp [lineFields]), rfl⟩
                · exact ⟨_, hin ("col_offset", .int) (by simp [lineFields]), rfl⟩
                · exact ⟨_, hin ("filename", .str) (by simp [lineFields]), rfl⟩
              · simp at ha
            · simp only [List.mem_cons, List.not_mem_nil, or_false] at ha
              rcases ha with rfl | rfl | rfl
              · exact ⟨_, hin ("line_number", .int) (by simp [lineFields]), rfl⟩
              · exact ⟨_, hin ("col_offset", .int) (by simp [lineFields]), rfl⟩
              · exact ⟨_, hin ("filename", .str) (by simp [lineFields]), rfl⟩
        · intro m hm
          rw [hsplit, hlo] at hm
          rcases List.mem_append.mp hm with hm | hm
          · obtain ⟨f, p, a, q, h1, h2, h3, h4, h5, h6⟩ := hmem m hm
            exact Or.inl ⟨a, by rw [lookup_append, h3]; rfl, h5⟩
          · have hl : isLine m.1 = true := by
              simp only [lineFields, List.mem_cons, List.not_mem_nil, or_false] at hm
              rcases hm with rfl | rfl | rfl <;> decide +kernel
            rw [lookup_append, noline _ hl]
            simp only [Option.none_or]
            unfold lineArgs
            split
            · cases hpo : pos with
              | none =>
                refine Or.inr ⟨rfl, ?_⟩
                simp only [lineFields, List.mem_cons, List.not_mem_nil, or_false] at hm
                rcases hm with rfl | rfl | rfl <;> exact ⟨_, rfl⟩
              | some lo =>
                obtain ⟨l, o⟩ := lo
                obtain ⟨h1, h2⟩ := hsm l o hpo
                refine Or.inl ?_
                simp only [lineFields, List.mem_cons, List.not_mem_nil, or_false] at hm
                rcases hm with rfl | rfl | rfl
                · exact ⟨.int l, rfl, by simp [fits, wrap_small h1]⟩
                · exact ⟨.int o, rfl, by simp [fits, wrap_small h2]⟩
                · exact ⟨.str file, rfl, rfl⟩
            · refine Or.inl ?_
              simp only [lineFields, List.mem_cons, List.not_mem_nil, or_false] at hm
              rcases hm with rfl | rfl | rfl
              · exact ⟨.int 0, rfl, rfl⟩
              · exact ⟨.int 0, rfl, rfl⟩
              · exact ⟨.str "", rfl, rfl⟩
      simp only [convert, hconv, hg.convert, Maker.run, this]
    · have hh' : hasLine ms = false := by simpa using hh
      have hlo : lineOf ms = [] := by simp [lineOf, hh']
      have hms' : ms = own ms := by rw [hlo, List.append_nil] at hsplit; exact hsplit
      refine ⟨[], ?_, fun _ _ => rfl, fun h => absurd h hh⟩
      have hok : construct v t d args = some (.alt t d (ms.map fun m => (m.1, val args m))) := by
        refine construct_ok hms (fun a ha => (hargs a ha).2) fun m hm => ?_
        rw [hms'] at hm
        obtain ⟨f, p, a, q, h1, h2, h3, h4, h5, h6⟩ := hmem m hm
        exact Or.inl ⟨a, h3, h5⟩
      have hpn : pos = .none := by
        rcases hpos with h | h
        · rw [h] at hp
          cases pos with
          | none => rfl
          | some _ => cases hp
        · exact absurd h hh
      subst hpn
      simp only [convert, hconv, hg.convert, Maker.run, List.append_nil]
      cases keep with
      | true => simp [lineArgs, hok]
      | false =>
        have : construct v t d (args ++ lineArgs file false .none) = .none := by
          refine construct_unknown (n := "line_number") hms ⟨("line_number", .int 0), by simp [lineArgs], rfl⟩ fun m hm e => ?_
          rw [hms'] at hm
          have := hownline m hm
          rw [e] at this
          revert this; decide +kernel
        simp [this, hok]
  obtain ⟨hLn, hLl⟩ := hLv
  -- what comes back
  have hval : ∀ m ∈ own ms, ∀ a, args.lookup m.1 = some a → val (args ++ L) m = a := by
    intro m hm a h
    simp [val, lookup_append, h]
  have hback : ∀ m ∈ ms, back v (val (args ++ L) m) = some ((back v (val (args ++ L) m)).getD .none) := by
    intro m hm
    rw [hsplit] at hm
    rcases List.mem_append.mp hm with hm | hm
    · obtain ⟨f, p, a, q, h1, h2, h3, h4, h5, h6⟩ := hmem m hm
      rw [hval m hm a h3, h4.back]; rfl
    · have : ∃ x, val (args ++ L) m = .int x ∨ ∃ s, val (args ++ L) m = .str s := by
        unfold lineOf at hm
        split at hm
        case isFalse => simp at hm
        rename_i hh
        rw [hLl hh]
        have noline : ∀ n, isLine n = true → args.lookup n = .none := fun n hn => lookup_none fun x hx e => by
          have := (hargs x hx).1
          rw [e, hn] at this
          cases this
        have hl : isLine m.1 = true := by
          simp only [lineFields, List.mem_cons, List.not_mem_nil, or_false] at hm
          rcases hm with rfl | rfl | rfl <;> decide +kernel
        unfold val
        rw [lookup_append, noline _ hl]
        simp only [Option.none_or]
        unfold lineArgs
        simp only [lineFields, List.mem_cons, List.not_mem_nil, or_false] at hm
        cases keep with
        | true =>
          cases pos with
          | none => rcases hm with rfl | rfl | rfl <;> simp [initial]
          | some lo =>
            rcases hm with rfl | rfl | rfl
            · exact ⟨lo.1, Or.inl rfl⟩
            · exact ⟨lo.2, Or.inl rfl⟩
            · exact ⟨0, Or.inr ⟨file, rfl⟩⟩
        | false =>
          rcases hm with rfl | rfl | rfl
          · exact ⟨0, Or.inl rfl⟩
          · exact ⟨0, Or.inl rfl⟩
          · exact ⟨0, Or.inr ⟨"", rfl⟩⟩
      obtain ⟨x, h | ⟨s, h⟩⟩ := this
      · rw [h]; rfl
      · rw [h]; rfl
  have hbf := backFields_ok (v := v) (sub := (t == "Expr" && d == "Subscript")) hback
  have hns : ¬ (t = "Expr" ∧ d = "Str") := by rintro ⟨rfl, rfl⟩; simp at hstr
  have hnn : ¬ (t = "Expr" ∧ d = "Num") := by rintro ⟨rfl, rfl⟩; simp at hnum
  refine ⟨_, (Py.node c fs pos).clean keep, ⟨hL, ?_, ?_, fun _ => rfl, ?_, ?_, fun h => by cases h⟩, rfl⟩
  · rw [back, if_neg hns, if_neg hnn, hrev]
    simp only [hbf]
    simp only [make, hk, Py.clean, if_neg hell, Option.some.injEq, Py.node.injEq, true_and]
    constructor
    · refine fields_eq (v := v) (g := fun n => ((ms.map fun m => (m.1, if (t == "Expr" && d == "Subscript") && m.1 == "slice" then
          asSlice v (val (args ++ L) m) ((back v (val (args ++ L) m)).getD .none) else (back v (val (args ++ L) m)).getD .none)).lookup n).getD .none) hw hnodup ?_
      intro n p hnp
      have hmv : ∀ m ∈ ms, m.1 = n → n ≠ "type_comment" ∧ (if (t == "Expr" && d == "Subscript") && m.1 == "slice" then
          asSlice v (val (args ++ L) m) ((back v (val (args ++ L) m)).getD .none) else (back v (val (args ++ L) m)).getD .none) = p.clean keep := by
        intro m hm hmn
        rw [hsplit] at hm
        rcases List.mem_append.mp hm with hm | hm
        · obtain ⟨f, p', a, q, h1, h2, h3, h4, h5, h6⟩ := hmem m hm
          have hf := kept_lookup h1
          rw [hmn] at h2 hf
          rw [hnp] at h2
          simp only [Option.some.injEq] at h2
          subst h2
          refine ⟨hf.2, ?_⟩
          rw [hval m hm a h3, h4.back]
          simp only [Option.getD_some]
          have hfm := lookup_mem hf.1
          by_cases hcs : c = "Subscript"
          · obtain ⟨h7, h8, h9⟩ := hsub' hcs _ hfm
            simp only at h7 h8 h9
            by_cases hn : n = "slice"
            · have hex : f ≠ .one .slice → q = p.clean keep := fun hfn => h4.exact (by
                unfold Exact
                split
                · exact absurd rfl hfn
                · exact absurd rfl h7
                · trivial)
              by_cases hfs : f = .one .slice
              · have htd : (t == "Expr" && d == "Subscript") = true := by
                  have e : converters.lookup "Subscript" = some (.alt "Expr" "Subscript") := by decide +kernel
                  rw [hcs, e] at hconv
                  simp only [Option.some.injEq, Maker.alt.injEq] at hconv
                  simp [← hconv.1, ← hconv.2]
                rw [htd, hmn, hn]
                simpa using h4.slice hfs
              · split
                · rw [h9 hn hfs]; exact hex hfs
                · exact hex hfs
            · have : (m.1 == "slice") = false := by simp [hmn, hn]
              rw [this]
              simp only [Bool.and_false, Bool.false_eq_true, if_false]
              exact h4.exact (by
                unfold Exact
                split
                · exact absurd rfl (h8 hn)
                · exact absurd rfl h7
                · trivial)
          · have htd : (t == "Expr" && d == "Subscript") = false := by
              rcases hsb with h | h
              · rcases h with h | h <;> simp [h]
              · exact absurd h hcs
            rw [htd]
            simp only [Bool.false_and, Bool.false_eq_true, if_false]
            obtain ⟨h7, h8⟩ := hsub hcs _ hfm
            exact h4.exact (by
              unfold Exact
              split
              · exact absurd rfl h7
              · exact absurd rfl h8
              · trivial)
        · exfalso
          have hl : isLine m.1 = true := by
            unfold lineOf at hm
            split at hm
            · simp only [lineFields, List.mem_cons, List.not_mem_nil, or_false] at hm
              rcases hm with rfl | rfl | rfl <;> decide +kernel
            · simp at hm
          have hin := fields_eq.wf_names hw (lookup_mem hnp)
          simp only [List.mem_map] at hin
          obtain ⟨f, hf1, hf2⟩ := hin
          have hntc : f.1 ≠ "type_comment" := by
            intro e
            rw [hmn, ← hf2, e] at hl
            revert hl; decide +kernel
          have := hline f (by simp [kept, hf1, hntc])
          rw [hf2, ← hmn, hl] at this
          cases this
      rcases lookup_map (ms := ms) (n := n) (R := fun m => if (t == "Expr" && d == "Subscript") && m.1 == "slice" then
          asSlice v (val (args ++ L) m) ((back v (val (args ++ L) m)).getD .none) else (back v (val (args ++ L) m)).getD .none) with ⟨h1, h2⟩ | ⟨m, h1, h2, h3⟩
      · rw [h1]
        split
        · rfl
        · rename_i hnt
          exfalso
          have hin := fields_eq.wf_names hw (lookup_mem hnp)
          simp only [List.mem_map] at hin
          obtain ⟨f, hf1, hf2⟩ := hin
          have := hkept f (by simp [kept, hf1, hf2, hnt])
          simp only [List.any_eq_true, beq_iff_eq] at this
          obtain ⟨m, hm, hm'⟩ := this
          exact h2 m hm (hm'.trans hf2)
      · obtain ⟨h4, h5⟩ := hmv m h1 h2
        rw [h3, if_neg h4]
        exact h5
    · cases hkp : k.pos with
      | false =>
        rw [hkp] at hp
        cases pos with
        | none => simp
        | some _ => cases hp
      | true =>
        have hh : hasLine ms = true := by
          rcases hpos with h | h
          · rw [hkp] at h; cases h
          · exact h
        have hLL := hLl hh
        have hlo : lineOf ms = lineFields := by simp [lineOf, hh]
        rw [hkp] at hp
        obtain ⟨lo, rfl⟩ := Option.isSome_iff_exists.mp hp
        have get : ∀ n x, isLine n = true → ("" ++ n, FT.int) ∈ lineFields → (lineArgs file keep (some lo)).lookup n = some (.int x) →
            number (ms.map fun m => (m.1, val (args ++ L) m)) n = some x := by
          intro n x hn hmn hx
          have noline : args.lookup n = .none := lookup_none fun y hy e => by
            have := (hargs y hy).1
            rw [e, hn] at this
            cases this
          rcases lookup_map (ms := ms) (n := n) (R := fun m => val (args ++ L) m) with ⟨h1, h2⟩ | ⟨m, h1, h2, h3⟩
          · exfalso
            refine h2 (n, .int) ?_ rfl
            rw [hsplit, hlo]
            exact List.mem_append_right _ (by simpa using hmn)
          · have hv : val (args ++ L) m = .int x := by simp only [val, h2, lookup_append, noline, hLL, hx, Option.none_or]
            simp only [number, h3, hv]
        cases keep with
        | true =>
          obtain ⟨l, o⟩ := lo
          rw [get "line_number" l (by decide +kernel) (by simp [lineFields]) rfl, get "col_offset" o (by decide +kernel) (by simp [lineFields]) rfl]
          simp
        | false =>
          rw [get "line_number" 0 (by decide +kernel) (by simp [lineFields]) rfl, get "col_offset" 0 (by decide +kernel) (by simp [lineFields]) rfl]
          simp
  · simp [Shape, Alg.isA, ht]
  · intro hf
    simp only [Field.one.injEq] at hf
    -- only a Slice is of this sort
    have hcs : c = "Slice" := slice_only hk hf hs
    subst hcs
    have : converters.lookup "Slice" = some (.alt "Expr" "Slice") := by decide +kernel
    rw [this] at hconv
    simp only [Option.some.injEq, Maker.alt.injEq] at hconv
    simp [asSlice, ← hconv.2]
  · intro t' c' gs e
    simp only [Alg.alt.injEq] at e
    obtain ⟨rfl, rfl, _⟩ := e
    refine ⟨fun h => Or.inl ?_, fun h => ?_⟩
    · rcases htup with h' | h'
      · exact absurd h h'
      · simp [Py.isNode, h']
    · rcases hsl with h' | h'
      · exact absurd h h'
      · simp [Py.isNode, h']
where
  slice_only {v : Version} {c : String} {k : Class} (hk : (grammar v).lookup c = some k) (hf : k.sort = .slice) (hs : special c = false) :
      c = "Slice" := by
    have h : ∀ v, (grammar v).all (fun e => e.2.sort != .slice || special e.1 || e.1 == "Slice") = true := by
      intro v; cases v <;> decide +kernel
    have := List.all_eq_true.mp (h v) (c, k) (lookup_mem hk)
    simpa [hf, hs] using this

end Verif.Ast
