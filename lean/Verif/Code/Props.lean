import Verif.Code.Spec
/-
C122: codebases.
-/
namespace Verif.Code

/-! ### Writing files -/

theorem resolve_clean {root p : Path} (h : ∀ c ∈ p, c ≠ "" ∧ c ≠ "." ∧ c ≠ "..") : resolve root p = root ++ p := by
  have aux : ∀ (p : Path), (∀ c ∈ p, c ≠ "" ∧ c ≠ "." ∧ c ≠ "..") → ∀ r : Path,
      p.foldl (fun q c => if c = "" ∨ c = "." then q else if c = ".." then q.dropLast else q ++ [c]) r = r ++ p := by
    intro p
    induction p with
    | nil => intro _ r; simp
    | cons c p ih =>
      intro h r
      obtain ⟨h1, h2, h3⟩ := h c (.head _)
      simp only [List.foldl_cons, h1, h2, h3, or_self, if_false]
      rw [ih (fun c hc => h c (.tail _ hc))]
      simp
  unfold resolve
  rw [if_neg, aux p h]
  intro e
  cases p with
  | nil => cases e
  | cons c p => simp at e; exact (h c (.head _)).1 e

theorem getLastD_of_ne {p : Path} (h : p ≠ []) : p.dropLast ++ [p.getLastD ""] = p := by
  rw [List.getLastD_eq_getLast?, List.getLast?_eq_getLast_of_ne_nil h]
  exact List.dropLast_append_getLast h

/-- The state of the disk after some files. -/
structure Wrote (d0 : Disk) (dir : Path) (done : Files) (d : Disk) : Prop where
  reads : ∀ f ∈ done, d (dir ++ f.1) = some (.file f.2)
  files : ∀ q t, d q = some (.file t) → d0 q = some (.file t) ∨ ∃ p, (p, t) ∈ done ∧ q = dir ++ p
  outside : ∀ q, ¬ dir <+: q → d q = d0 q ∨ q <+: dir ∧ d q = some .dir
  dirs : ∀ q, d q = some .dir → d0 q = some .dir ∨ q <+: dir ∨ ∃ f ∈ done, q <+: dir ++ f.1 ∧ q ≠ dir ++ f.1

theorem makeDirs_spec {d : Disk} {p : Path} (h : ∀ q, q <+: p → ∀ t, d q ≠ some (.file t)) :
    ∃ d1, makeDirs d p = some d1 ∧ d1 p = some .dir ∧ ∀ q, d1 q = d q ∨ d q ≠ some .dir ∧ q <+: p ∧ d1 q = some .dir := by
  unfold makeDirs
  split
  · next hs =>
    obtain ⟨e, he⟩ := Option.isSome_iff_exists.mp hs
    cases e with
    | dir => exact ⟨d, rfl, he, fun q => .inl rfl⟩
    | file t => exact absurd he (h p (List.prefix_refl _) t)
  · split
    · next ha =>
      obtain ⟨q, hq, hf⟩ := List.any_eq_true.mp ha
      obtain ⟨t, ht⟩ : ∃ t, d q = some (.file t) := by
        cases hd : d q with
        | none => rw [hd] at hf; cases hf
        | some e => cases e with
          | dir => rw [hd] at hf; cases hf
          | file t => exact ⟨t, rfl⟩
      exact absurd ht (h q ((List.mem_inits q p).mp hq) t)
    · refine ⟨_, rfl, by simp, fun q => ?_⟩
      by_cases hq : q <+: p
      · by_cases hd : d q = some .dir
        · left; simp [hq, hd]
        · right; exact ⟨hd, hq, by simp [hq]⟩
      · left; simp [hq]

theorem write_one {d0 d : Disk} {dir : Path} {done : Files} {p : Path} {text : String} (hf : Fresh d0 dir) (hw : Wrote d0 dir done d) (hc : Clean p)
    (hs : ∀ f ∈ done, ¬ f.1 <+: p ∧ ¬ p <+: f.1) :
    ∃ d1 d2, makeDirs d (resolve dir p.dropLast) = some d1 ∧ writeText d1 (resolve dir p.dropLast) (p.getLastD "") text = some d2 ∧
      Wrote d0 dir (done ++ [(p, text)]) d2 := by
  have hlast := getLastD_of_ne hc.1
  have hr : resolve dir p.dropLast = dir ++ p.dropLast := resolve_clean fun c h => hc.2 c ((List.dropLast_subset p) h)
  have hP : dir ++ p.dropLast ++ [p.getLastD ""] = dir ++ p := by rw [List.append_assoc, hlast]
  have hpre : p.dropLast <+: p := List.dropLast_prefix p
  have hnofile : ∀ q, q <+: dir ++ p.dropLast → ∀ t, d q ≠ some (.file t) := by
    intro q hq t ht
    rcases hw.files q t ht with h0 | ⟨p', hp', rfl⟩
    · rcases List.prefix_or_prefix_of_prefix hq (List.prefix_append dir p.dropLast) with h | h
      · exact hf.2 q h t h0
      · rw [hf.1 q h] at h0; cases h0
    · exact (hs _ hp').1 (((List.prefix_append_right_inj dir).mp hq).trans hpre)
  rw [hr]
  obtain ⟨d1, h1, h1d, h1q⟩ := makeDirs_spec hnofile
  have hlen : ∀ q, q <+: dir ++ p.dropLast → q ≠ dir ++ p := by
    rintro q hq rfl
    have := hq.length_le
    rw [← hP] at this
    simp at this
    omega
  have hnd : d1 (dir ++ p) ≠ some .dir := by
    intro h
    rcases h1q (dir ++ p) with he | ⟨_, hp, _⟩
    · rw [he] at h
      rcases hw.dirs _ h with h0 | h0 | ⟨f, hf', hq, _⟩
      · rw [hf.1 _ (List.prefix_append _ _)] at h0; cases h0
      · have := h0.length_le
        simp only [List.length_append] at this
        have : p.length = 0 := by omega
        exact hc.1 (List.eq_nil_of_length_eq_zero this)
      · exact (hs f hf').2 ((List.prefix_append_right_inj dir).mp hq)
    · exact hlen _ hp rfl
  have hname := hc.2 (p.getLastD "") (by rw [← hlast]; simp)
  refine ⟨d1, fun q => if q = dir ++ p then some (.file text) else d1 q, h1, ?_, ?_⟩
  · unfold writeText
    rw [if_neg (by simp only [not_or]; exact hname), hP, if_neg (by simp only [not_or, not_not]; exact ⟨h1d, hnd⟩)]
  have hfile : ∀ q t, d1 q = some (.file t) → d q = some (.file t) := by
    intro q t h
    rcases h1q q with he | ⟨_, _, he⟩
    · rw [← he]; exact h
    · rw [he] at h; cases h
  constructor
  · intro f hm
    rcases List.mem_append.mp hm with hm | hm
    · have hne : dir ++ f.1 ≠ dir ++ p := fun e => (hs f hm).1 (by rw [List.append_cancel_left e]; try exact List.prefix_refl _)
      simp only [hne, if_false]
      rcases h1q (dir ++ f.1) with he | ⟨_, hq, _⟩
      · rw [he]; exact hw.reads f hm
      · exact absurd (((List.prefix_append_right_inj dir).mp hq).trans hpre) (hs f hm).1
    · simp only [List.mem_singleton] at hm
      subst hm
      simp
  · intro q t h
    split at h
    · next e => cases h; exact .inr ⟨p, by simp, e⟩
    · rcases hw.files q t (hfile q t h) with h0 | ⟨p', hm, e⟩
      · exact .inl h0
      · exact .inr ⟨p', List.mem_append_left _ hm, e⟩
  · intro q hq
    have hne : q ≠ dir ++ p := by rintro rfl; exact hq (List.prefix_append _ _)
    simp only [hne, if_false]
    rcases h1q q with he | ⟨_, hp, he⟩
    · rw [he]; exact hw.outside q hq
    · refine .inr ⟨?_, he⟩
      rcases List.prefix_or_prefix_of_prefix hp (List.prefix_append dir p.dropLast) with h | h
      · exact h
      · exact absurd h hq
  · intro q h
    split at h
    · cases h
    · rcases h1q q with he | ⟨_, hp, _⟩
      · rw [he] at h
        rcases hw.dirs q h with h0 | h0 | ⟨f, hm, hx⟩
        · exact .inl h0
        · exact .inr (.inl h0)
        · exact .inr (.inr ⟨f, List.mem_append_left _ hm, hx⟩)
      · refine .inr (.inr ⟨(p, text), by simp, ?_, hlen q hp⟩)
        exact hp.trans ((List.prefix_append_right_inj dir).mpr hpre)

theorem writeAll_wrote {d0 : Disk} {dir : Path} (hf : Fresh d0 dir) : ∀ (todo done : Files) (d : Disk), Wrote d0 dir done d →
    (∀ f ∈ todo, Clean f.1) → Separate (done ++ todo) → ∃ d', writeAll d dir todo = (d', true) ∧ Wrote d0 dir (done ++ todo) d'
  | [], done, d, hw, _, _ => ⟨d, rfl, by simpa using hw⟩
  | (p, text) :: rest, done, d, hw, hc, hs => by
    have hs' : ∀ f ∈ done, ¬ f.1 <+: p ∧ ¬ p <+: f.1 := fun f hm => (List.pairwise_append.mp hs).2.2 f hm (p, text) (.head _)
    obtain ⟨d1, d2, h1, h2, h3⟩ := write_one hf hw (hc (p, text) (.head _)) hs' (text := text)
    obtain ⟨d', h4, h5⟩ := writeAll_wrote hf rest (done ++ [(p, text)]) d2 h3 (fun f hm => hc f (.tail _ hm)) (by simpa using hs)
    refine ⟨d', ?_, by simpa using h5⟩
    simp only [writeAll, h1, h2, h4]

theorem writeAll_spec {d0 : Disk} {dir : Path} {files : Files} (hf : Fresh d0 dir) (hc : ∀ f ∈ files, Clean f.1) (hs : Separate files) :
    ∃ d', writeAll d0 dir files = (d', true) ∧ Wrote d0 dir files d' := by
  have := writeAll_wrote hf files [] d0 ⟨by simp, fun _ _ h => .inl h, fun _ _ => .inl rfl, fun _ h => .inl h⟩ hc (by simpa using hs)
  simpa using this

/-- C122: instantiating a codebase in an empty directory writes its files: each has its contents, there are no others, nothing outside
changes but that directories leading there are made, and modules are looked for there first. -/
theorem instantiate_writes (hash : Files → Nat) (s : State) (i : Nat) (files : Files) (dir : Path) (hf : Fresh s.disk dir)
    (hc : ∀ f ∈ files, Clean f.1) (hs : Separate files) (hn : s.installed.lookup (hash files) = none)
    (hr : ∀ r ∈ (fromFileMap files).roots, s.roots.lookup r = none) :
    ∃ s', instantiate hash s i (fromFileMap files) dir = (s', true) ∧
      (∀ p t, (p, t) ∈ files ↔ s'.disk (dir ++ p) = some (.file t)) ∧
      (∀ q, ¬ dir <+: q → s'.disk q = s.disk q ∨ q <+: dir ∧ s'.disk q = some .dir) ∧ s'.sysPath = dir :: s.sysPath := by
  obtain ⟨d', hw, hd⟩ := writeAll_spec hf hc hs
  have h1 : isInstantiated hash s (fromFileMap files) = false := by simp [isInstantiated, fromFileMap, hn]
  have h2 : ((fromFileMap files).roots.any fun r => (s.roots.lookup r).isSome) = false := by
    rw [List.any_eq_false]
    intro r hm
    simp [hr r hm]
  refine ⟨⟨d', dir :: s.sysPath, s.codebases.set i { fromFileMap files with root := some dir }, (hash files, i) :: s.installed,
    (fromFileMap files).roots.map (·, i) ++ s.roots⟩, ?_, fun p t => ⟨fun h => ?_, fun h => ?_⟩, ?_, rfl⟩
  · unfold instantiate
    rw [if_neg (by simp [h1]), if_neg (by simp [fromFileMap]), if_neg (by simp [fromFileMap, hn]), if_neg (by rw [h2]; simp),
      show (fromFileMap files).files = files from rfl, hw]
    rfl
  · exact hd.reads (p, t) h
  · rcases hd.files _ _ h with h0 | ⟨p', hm, e⟩
    · rw [hf.1 _ (List.prefix_append _ _)] at h0; cases h0
    · rw [List.append_cancel_left e]; exact hm
  · exact hd.outside

/-- C122: instantiating the same files again changes nothing. -/
theorem instantiate_again (hash : Files → Nat) (s : State) (i j : Nat) (files : Files) (dir : Path) (hn : s.installed.lookup (hash files) = some j) :
    instantiate hash s i (fromFileMap files) dir = (s, true) := by
  simp [instantiate, isInstantiated, fromFileMap, hn]

/-- C122: another codebase with a root module of the same name is refused, and nothing is written. -/
theorem instantiate_refused (hash : Files → Nat) (s : State) (i : Nat) (files : Files) (dir : Path) (r : Name) (hn : s.installed.lookup (hash files) = none)
    (hr : r ∈ (fromFileMap files).roots) (hi : s.roots.lookup r ≠ none) : instantiate hash s i (fromFileMap files) dir = (s, false) := by
  have h2 : ((fromFileMap files).roots.any fun r => (s.roots.lookup r).isSome) = true :=
    List.any_eq_true.mpr ⟨r, hr, by simpa [Option.isSome_iff_ne_none] using hi⟩
  unfold instantiate
  rw [if_neg (by simp [isInstantiated, fromFileMap, hn]), if_neg (by simp [fromFileMap]), if_neg (by simp [fromFileMap, hn]), if_pos h2]

/-! ### Different codebases have different root modules -/

/-- All root modules of installed codebases are registered for them. -/
def Registered (s : State) : Prop := ∀ h i, (h, i) ∈ s.installed → ∃ c, s.codebases[i]? = some c ∧ ∀ r ∈ c.roots, s.roots.lookup r = some i

theorem lookup_map_append {rs : List Name} {i : Nat} {l : List (Name × Nat)} (r : Name) :
    (rs.map (·, i) ++ l).lookup r = if r ∈ rs then some i else l.lookup r := by
  induction rs with
  | nil => simp
  | cons a rs ih =>
    simp only [List.map_cons, List.cons_append, List.lookup_cons]
    by_cases e : r = a
    · simp [e]
    · simp [beq_false_of_ne e, ih, e]

theorem instantiate_registered {hash : Files → Nat} {s : State} {i : Nat} {c : Codebase} {dir : Path} (hi : s.codebases[i]? = some c) (h : Registered s) :
    Registered (instantiate hash s i c dir).1 := by
  unfold instantiate
  split
  · exact h
  · split
    · exact h
    · split
      · exact h
      · split
        · exact h
        · next hr =>
          split
          · exact h
          · have hlt : i < s.codebases.length := by
              rw [List.getElem?_eq_some_iff] at hi; exact hi.1
            intro k j hm
            rcases List.mem_cons.mp hm with e | hm
            · cases e
              refine ⟨{ c with root := some dir }, by simp [hlt], fun r hr => ?_⟩
              show (c.roots.map (·, i) ++ s.roots).lookup r = _
              rw [lookup_map_append, if_pos hr]
            · obtain ⟨c', hc', hcr⟩ := h k j hm
              by_cases e : j = i
              · subst e
                rw [hi] at hc'; cases hc'
                refine ⟨{ c with root := some dir }, by simp [hlt], fun r hr => ?_⟩
                show (c.roots.map (·, j) ++ s.roots).lookup r = _
                rw [lookup_map_append, if_pos hr]
              · refine ⟨c', by show (s.codebases.set i _)[j]? = _; rw [List.getElem?_set_ne (fun x => e x.symm)]; exact hc', fun r hr' => ?_⟩
                show (c.roots.map (·, i) ++ s.roots).lookup r = _
                rw [lookup_map_append, if_neg, hcr r hr']
                intro hm'
                apply hr
                exact List.any_eq_true.mpr ⟨r, hm', by simp [hcr r hr']⟩

theorem step_registered {hash : Files → Nat} {s : State} {op : Op} (hn : ∀ i, op ≠ .native i) (h : Registered s) : Registered (step hash s op) := by
  cases op with
  | make c =>
    intro k i hm
    obtain ⟨c', hc, hr⟩ := h k i hm
    refine ⟨c', ?_, hr⟩
    show (s.codebases ++ [c])[i]? = _
    rw [List.getElem?_append_left (List.getElem?_eq_some_iff.mp hc).1, hc]
  | native i => exact absurd rfl (hn i)
  | instantiate i dir =>
    simp only [step]
    split
    · next c hc => exact instantiate_registered hc h
    · exact h

theorem run_registered {hash : Files → Nat} : ∀ (ops : List Op) (s : State), (∀ op ∈ ops, ∀ i, op ≠ .native i) → Registered s → Registered (run hash s ops)
  | [], _, _, h => h
  | op :: ops, _, hn, h => run_registered ops _ (fun o ho => hn o (.tail _ ho)) (step_registered (hn op (.head _)) h)

/-- C122: whatever codebases are made and instantiated in whatever order, two that are installed have no root module in common, unless they are
one. (Codebases that are marked as native are left out; see `native_overwrites`.) -/
theorem roots_disjoint_partial (hash : Files → Nat) (disk : Disk) (sysPath : List Path) (ops : List Op) (hn : ∀ op ∈ ops, ∀ i, op ≠ .native i)
    (h k i j : Nat) (c c' : Codebase) (hi : (h, i) ∈ (run hash ⟨disk, sysPath, [], [], []⟩ ops).installed)
    (hj : (k, j) ∈ (run hash ⟨disk, sysPath, [], [], []⟩ ops).installed) (hc : (run hash ⟨disk, sysPath, [], [], []⟩ ops).codebases[i]? = some c)
    (hc' : (run hash ⟨disk, sysPath, [], [], []⟩ ops).codebases[j]? = some c') (r : Name) (hr : r ∈ c.roots) (hr' : r ∈ c'.roots) : i = j := by
  have hreg := run_registered (hash := hash) ops ⟨disk, sysPath, [], [], []⟩ hn (fun _ _ h => by cases h)
  obtain ⟨d, hd, hdr⟩ := hreg h i hi
  obtain ⟨d', hd', hdr'⟩ := hreg k j hj
  rw [hc] at hd; cases hd
  rw [hc'] at hd'; cases hd'
  have := hdr r hr
  rw [hdr' r hr'] at this
  simpa using this.symm

/-! ### Importing -/

theorem rootOf_dotted {a : Name} {rest : List Name} (h : '.' ∉ a) : rootOf (dotted (a :: rest)) = a := by
  have ha : ∀ c ∈ a, (c ≠ '.') := fun c hc e => h (e ▸ hc)
  cases rest with
  | nil =>
    simp only [dotted, rootOf]
    simpa using List.takeWhile_append_of_pos (l₂ := []) (p := fun c => decide (c ≠ '.')) fun c hc => by simpa using ha c hc
  | cons b rest =>
    simp only [dotted, rootOf]
    rw [List.takeWhile_append_of_pos fun c hc => by simpa using ha c hc]
    simp

theorem endsPy_append (a : String) : endsPy (a ++ ".py") = true := by
  simp only [endsPy, String.toList_append]
  rw [List.isSuffixOf_iff_suffix]
  exact List.suffix_append _ _

theorem stem_append (a : String) : stem (a ++ ".py") = a.toList := by
  simp [stem, String.toList_append]

theorem init_py : "__init__.py" = "__init__" ++ ".py" := by decide +kernel

theorem append_py_inj {a b : String} (h : a ++ ".py" = b ++ ".py") : a = b := by
  have := congrArg String.toList h
  simp only [String.toList_append] at this
  exact String.toList_inj.mp (List.append_cancel_right this)

/-- The parts of a module's name are its name. -/
theorem parts_of_module {p n : List String} (h : IsModule p n) : endsPy (p.getLastD "") = true ∧ parts p = n.map String.toList := by
  rcases h with rfl | ⟨as, a, rfl, ha, rfl⟩
  · constructor
    · rw [show (n ++ ["__init__.py"]).getLastD "" = "__init__.py" by simp [List.getLastD_eq_getLast?]]
      decide +kernel
    · simp [parts]
  · constructor
    · rw [show (as ++ [a ++ ".py"]).getLastD "" = a ++ ".py" by simp [List.getLastD_eq_getLast?]]
      exact endsPy_append a
    · have hne : (as ++ [a ++ ".py"]).getLast? ≠ some "__init__.py" := by
        simp only [List.getLast?_append, List.getLast?_singleton, Option.some_or, ne_eq, Option.some.injEq]
        rw [init_py]
        exact fun e => ha (append_py_inj e)
      simp [parts, List.getLastD_eq_getLast?, stem_append, if_neg hne]
      intro e
      rw [init_py] at e
      exact absurd (append_py_inj e) ha

theorem dotted_inj : ∀ {as bs : List Name}, as ≠ [] → bs ≠ [] → (∀ a ∈ as, '.' ∉ a) → (∀ b ∈ bs, '.' ∉ b) → dotted as = dotted bs → as = bs
  | a :: as, b :: bs, _, _, ha, hb, h => by
    have h1 : a = b := by
      rw [← rootOf_dotted (rest := as) (ha a (.head _)), h, rootOf_dotted (hb b (.head _))]
    subst h1
    cases as with
    | nil =>
      cases bs with
      | nil => rfl
      | cons b bs =>
        simp only [dotted] at h
        have := congrArg List.length h
        simp at this
    | cons a' as =>
      cases bs with
      | nil =>
        simp only [dotted] at h
        have := congrArg List.length h
        simp at this
      | cons b bs =>
        simp only [dotted] at h
        have h := List.append_cancel_left h
        simp only [List.cons.injEq, true_and] at h
        rw [dotted_inj (by simp) (by simp) (fun x hx => ha x (.tail _ hx)) (fun x hx => hb x (.tail _ hx)) h]

/-- A python file of which no directory has a dot in its name is a module. -/
theorem module_of_file {p : Path} (hp : endsPy (p.getLastD "") = true) : ∃ n, IsModule p n := by
  have hne : p ≠ [] := by rintro rfl; revert hp; decide +kernel
  have hl := getLastD_of_ne hne
  by_cases h : p.getLastD "" = "__init__.py"
  · exact ⟨p.dropLast, .inl (by rw [← h]; exact hl.symm)⟩
  · have hs : ['.', 'p', 'y'] <:+ (p.getLastD "").toList := List.isSuffixOf_iff_suffix.mp hp
    obtain ⟨a, ha⟩ := hs
    have he : p.getLastD "" = String.ofList a ++ ".py" := by
      apply String.toList_inj.mp
      rw [String.toList_append, String.toList_ofList, ← ha]
      rfl
    refine ⟨p.dropLast ++ [String.ofList a], .inr ⟨_, _, rfl, ?_, ?_⟩⟩
    · intro e
      apply h
      rw [he, e, init_py]
    · rw [← he]; exact hl.symm

/-- C122: the modules of a codebase are those of its files: a.b.c is one exactly if a/b/c.py or a/b/c/__init__.py is there, where no name has
a dot in it. -/
theorem names_right (files : List Path) (n : List String) (hn : n ≠ []) (hd : ∀ a ∈ n, '.' ∉ a.toList)
    (hf : ∀ p ∈ files, ∀ m, IsModule p m → m ≠ [] ∧ ∀ a ∈ m, '.' ∉ a.toList) :
    dotted (n.map String.toList) ∈ moduleNames files none ↔ ∃ p ∈ files, IsModule p n := by
  simp only [moduleNames, List.mem_map, List.mem_filter, Option.toList_none, List.nil_append]
  constructor
  · rintro ⟨p, ⟨hp, hpy⟩, he⟩
    obtain ⟨m, hm⟩ := module_of_file hpy
    obtain ⟨h1, h2⟩ := hf p hp m hm
    rw [(parts_of_module hm).2] at he
    have := dotted_inj (by simpa using h1) (by simpa using hn) (by simpa using h2) (by simpa using hd) he
    rw [List.map_inj_right (fun _ _ => String.toList_inj.mp)] at this
    exact ⟨p, hp, this ▸ hm⟩
  · rintro ⟨p, hp, hm⟩
    exact ⟨p, ⟨hp, (parts_of_module hm).1⟩, by rw [(parts_of_module hm).2]⟩

/-- The hypothesis of `names_right` can be checked. -/
theorem dotless {files : List Path} (h : ∀ p ∈ files, parts p ≠ [] ∧ ∀ a ∈ parts p, '.' ∉ a) :
    ∀ p ∈ files, ∀ m, IsModule p m → m ≠ [] ∧ ∀ a ∈ m, '.' ∉ a.toList := by
  intro p hp m hm
  obtain ⟨h1, h2⟩ := h p hp
  rw [(parts_of_module hm).2] at h1 h2
  exact ⟨by simpa using h1, by simpa using h2⟩

example : dotted (["pack", "x"].map String.toList) ∈ moduleNames [["pack", "__init__.py"], ["pack", "x.py"]] none ↔
    ∃ p ∈ [["pack", "__init__.py"], ["pack", "x.py"]], IsModule p ["pack", "x"] :=
  names_right _ _ (by simp) (by decide +kernel) (dotless (by decide +kernel))

/-- The root module of a package or of a file. -/
theorem root_mem {files : Files} {x : String} (hx : '.' ∉ x.toList) (hi : x ≠ "__init__")
    (h : ∃ t, ([x, "__init__.py"], t) ∈ files ∨ ([x ++ ".py"], t) ∈ files) : x.toList ∈ (fromFileMap files).roots := by
  have aux : ∀ p : Path, IsModule p [x] → p ∈ files.map (·.1) → x.toList ∈ (fromFileMap files).roots := by
    intro p hm hp
    simp only [fromFileMap, rootNames, List.mem_map]
    refine ⟨dotted ([x].map String.toList), ?_, rootOf_dotted hx⟩
    simp only [moduleNames, List.mem_map, List.mem_filter, Option.toList_none, List.nil_append]
    exact ⟨p, ⟨List.mem_map.mp hp, (parts_of_module hm).1⟩, by rw [(parts_of_module hm).2]⟩
  obtain ⟨t, h | h⟩ := h
  · exact aux _ (.inl rfl) (List.mem_map_of_mem (f := (·.1)) h)
  · exact aux _ (.inr ⟨[], x, rfl, hi, rfl⟩) (List.mem_map_of_mem (f := (·.1)) h)

/-- The directory has the module. -/
def Has (d : Disk) (p : Path) (x : String) : Prop := ∃ t, d (p ++ [x, "__init__.py"]) = some (.file t) ∨ d (p ++ [x ++ ".py"]) = some (.file t)

theorem isFile_some {o : Option Entry} (h : isFile o = true) : ∃ t, o = some (.file t) := by
  cases o with
  | none => cases h
  | some e => cases e with
    | dir => cases h
    | file t => exact ⟨t, rfl⟩

theorem finds_eq {s : State} {x : String} {dir : Path} {before after : List Path} (hs : s.sysPath = before ++ dir :: after) (h : Has s.disk dir x)
    (hb : ∀ p ∈ before, ¬ Has s.disk p x) : finds s x = some dir := by
  have hb' : ∀ p ∈ before, ¬ (isFile (s.disk (p ++ [x, "__init__.py"])) || isFile (s.disk (p ++ [x ++ ".py"]))) = true := by
    intro p hp ht
    rcases Bool.or_eq_true _ _ |>.mp ht with h | h
    · obtain ⟨t, ht⟩ := isFile_some h; exact hb p hp ⟨t, .inl ht⟩
    · obtain ⟨t, ht⟩ := isFile_some h; exact hb p hp ⟨t, .inr ht⟩
  unfold finds
  rw [hs, List.find?_append, List.find?_eq_none.mpr hb', Option.none_or]
  obtain ⟨t, h | h⟩ := h <;> simp [List.find?_cons, h, isFile]

/-- Codebases that are instantiated one after the other, each in an empty directory neither inside nor around one where modules are looked for. -/
def Later (hash : Files → Nat) : State → List (Nat × Files × Path) → Prop
  | _, [] => True
  | s, (i, files, dir) :: rest => Fresh s.disk dir ∧ (∀ p ∈ s.sysPath, ¬ p <+: dir ∧ ¬ dir <+: p) ∧ (∀ f ∈ files, Clean f.1) ∧ Separate files ∧
      Later hash (instantiate hash s i (fromFileMap files) dir).1 rest

def later (hash : Files → Nat) (s : State) (l : List (Nat × Files × Path)) : State :=
  l.foldl (fun s x => (instantiate hash s x.1 (fromFileMap x.2.1) x.2.2).1) s

/-- What one more codebase does. -/
theorem instantiate_cases (hash : Files → Nat) (s : State) (i : Nat) (files : Files) (dir : Path) (hf : Fresh s.disk dir)
    (hc : ∀ f ∈ files, Clean f.1) (hs : Separate files) :
    (instantiate hash s i (fromFileMap files) dir).1 = s ∨
      (∀ r ∈ (fromFileMap files).roots, s.roots.lookup r = none) ∧ Wrote s.disk dir files (instantiate hash s i (fromFileMap files) dir).1.disk ∧
      (instantiate hash s i (fromFileMap files) dir).1.sysPath = dir :: s.sysPath ∧
      (instantiate hash s i (fromFileMap files) dir).1.roots = (fromFileMap files).roots.map (·, i) ++ s.roots := by
  obtain ⟨d', hw, hd⟩ := writeAll_spec hf hc hs
  unfold instantiate
  split
  · exact .inl rfl
  · split
    · exact .inl rfl
    · split
      · exact .inl rfl
      · split
        · exact .inl rfl
        · next hr =>
          right
          simp only [show (fromFileMap files).files = files from rfl, hw]
          refine ⟨fun r hm => ?_, hd, trivial, trivial⟩
          by_contra hne
          exact hr (List.any_eq_true.mpr ⟨r, hm, by simpa [Option.isSome_iff_ne_none] using hne⟩)

theorem later_finds (hash : Files → Nat) (x : String) (hx : '.' ∉ x.toList) (hi : x ≠ "__init__") (dir : Path) : ∀ (l : List (Nat × Files × Path)) (s : State),
    Later hash s l → Has s.disk dir x → s.roots.lookup x.toList ≠ none →
    (∃ before after, s.sysPath = before ++ dir :: after ∧ ∀ p ∈ before, ¬ Has s.disk p x) → finds (later hash s l) x = some dir
  | [], s, _, hh, _, ⟨b, a, hs, hb⟩ => finds_eq hs hh hb
  | (i, files, e) :: l, s, hl, hh, hr, ⟨b, a, hs, hb⟩ => by
    obtain ⟨h1, h2, h3, h4, h5⟩ := hl
    show finds (later hash (instantiate hash s i (fromFileMap files) e).1 l) x = some dir
    refine later_finds hash x hx hi dir l (instantiate hash s i (fromFileMap files) e).1 h5 ?_ ?_ ?_
    all_goals
      rcases instantiate_cases hash s i files e h1 h3 h4 with h | ⟨hro, hw, hp, hrs⟩
    · rw [h]; exact hh
    · have keep : ∀ q t, s.disk q = some (.file t) → (instantiate hash s i (fromFileMap files) e).1.disk q = some (.file t) := by
        intro q t hq
        have hne : ¬ e <+: q := fun hp => by rw [h1.1 q hp] at hq; cases hq
        rcases hw.outside q hne with he | ⟨hpre, _⟩
        · rw [he]; exact hq
        · exact absurd hq (h1.2 q hpre t)
      obtain ⟨t, ht⟩ := hh
      exact ⟨t, ht.imp (keep _ _) (keep _ _)⟩
    · rw [h]; exact hr
    · rw [hrs, lookup_map_append]
      split
      · simp
      · exact hr
    · rw [h]; exact ⟨b, a, hs, hb⟩
    · refine ⟨e :: b, a, by rw [hp, hs]; rfl, fun p hm => ?_⟩
      rcases List.mem_cons.mp hm with rfl | hm
      · rintro ⟨t, ht⟩
        apply hr
        apply hro
        apply root_mem hx hi
        refine ⟨t, ht.imp (fun ht => ?_) (fun ht => ?_)⟩
        all_goals
          rcases hw.files _ _ ht with h0 | ⟨p', hm', e'⟩
          · rw [h1.1 _ (List.prefix_append _ _)] at h0; cases h0
          · rw [List.append_cancel_left e']; exact hm'
      · have hpe := h2 p (by rw [hs]; exact List.mem_append_left _ hm)
        have inside : ∀ q t, p <+: q → (instantiate hash s i (fromFileMap files) e).1.disk q = some (.file t) → s.disk q = some (.file t) := by
          intro q t hpq hq
          have hne : ¬ e <+: q := fun hq' => (List.prefix_or_prefix_of_prefix hq' hpq).elim hpe.2 hpe.1
          rcases hw.outside q hne with he | ⟨_, hd⟩
          · rw [← he]; exact hq
          · rw [hd] at hq; cases hq
        rintro ⟨t, ht⟩
        exact hb p hm ⟨t, ht.imp (inside _ _ (List.prefix_append _ _)) (inside _ _ (List.prefix_append _ _))⟩

/-- C122: a root module of a codebase is found in the directory of this codebase from then on, whatever other codebases are instantiated later. -/
theorem import_right (hash : Files → Nat) (s : State) (i : Nat) (files : Files) (dir : Path) (x : String) (l : List (Nat × Files × Path))
    (hx : '.' ∉ x.toList) (hi : x ≠ "__init__") (hn : s.installed.lookup (hash files) = none)
    (hr : ∀ r ∈ (fromFileMap files).roots, s.roots.lookup r = none)
    (hm : ∃ t, ([x, "__init__.py"], t) ∈ files ∨ ([x ++ ".py"], t) ∈ files) (hl : Later hash s ((i, files, dir) :: l)) :
    finds (later hash s ((i, files, dir) :: l)) x = some dir := by
  obtain ⟨hf, h2, hc, hs, h5⟩ := hl
  obtain ⟨s', h1, hd, _, hp⟩ := instantiate_writes hash s i files dir hf hc hs hn hr
  have hroots : s'.roots.lookup x.toList ≠ none := by
    have hro : s'.roots = (fromFileMap files).roots.map (·, i) ++ s.roots := by
      rcases instantiate_cases hash s i files dir hf hc hs with h | ⟨_, _, _, h⟩
      · rw [h1] at h
        have : s.sysPath = dir :: s.sysPath := by rw [← hp, show s' = s from h]
        have := congrArg List.length this
        simp at this
      · rw [h1] at h; exact h
    rw [hro, lookup_map_append, if_pos (root_mem hx hi hm)]
    simp
  rw [h1] at h5
  show finds (later hash (instantiate hash s i (fromFileMap files) dir).1 l) x = some dir
  rw [h1]
  refine later_finds hash x hx hi dir l s' h5 ?_ hroots ⟨[], s.sysPath, hp, by simp⟩
  obtain ⟨t, ht⟩ := hm
  exact ⟨t, ht.imp (hd _ _).mp (hd _ _).mp⟩

/-! ### Reading a directory -/

mutual
theorem walk_prefix (suppress : Path → Bool) : ∀ (t : Tree) (soFar : Path), ∀ f ∈ walk suppress soFar t, soFar <+: f.1
  | .file _, soFar, f, h => by
    simp only [walk] at h
    split at h
    · simp only [List.mem_singleton] at h; subst h; exact List.prefix_refl _
    · cases h
  | .dir es, soFar, f, h => by
    simp only [walk] at h
    split at h
    · cases h
    · obtain ⟨n, _, hn⟩ := walkAll_prefix suppress es soFar f h
      exact (List.prefix_append _ _).trans hn
theorem walkAll_prefix (suppress : Path → Bool) : ∀ (es : List (String × Tree)) (soFar : Path), ∀ f ∈ walkAll suppress soFar es,
    ∃ n ∈ es.map (·.1), soFar ++ [n] <+: f.1
  | [], _, f, h => by simp [walkAll] at h
  | (n, t) :: es, soFar, f, h => by
    simp only [walkAll, List.mem_append] at h
    rcases h with h | h
    · exact ⟨n, by simp, walk_prefix suppress t _ f h⟩
    · obtain ⟨m, hm, hp⟩ := walkAll_prefix suppress es soFar f h
      exact ⟨m, List.mem_cons_of_mem _ hm, hp⟩
end

mutual
theorem walk_clean (suppress : Path → Bool) : ∀ (t : Tree) (soFar : Path), t.proper → Clean soFar → ∀ f ∈ walk suppress soFar t, Clean f.1
  | .file _, soFar, _, hc, f, h => by
    simp only [walk] at h
    split at h
    · simp only [List.mem_singleton] at h; subst h; exact hc
    · cases h
  | .dir es, soFar, hp, hc, f, h => by
    simp only [walk] at h
    simp only [Tree.proper] at hp
    split at h
    · cases h
    · exact walkAll_clean suppress es soFar hp.1 (fun c hm => hc.2 c hm) f h
theorem walkAll_clean (suppress : Path → Bool) : ∀ (es : List (String × Tree)) (soFar : Path), Tree.properAll es →
    (∀ c ∈ soFar, c ≠ "" ∧ c ≠ "." ∧ c ≠ "..") → ∀ f ∈ walkAll suppress soFar es, Clean f.1
  | [], _, _, _, f, h => by simp [walkAll] at h
  | (n, t) :: es, soFar, hp, hc, f, h => by
    simp only [walkAll, List.mem_append] at h
    simp only [Tree.properAll] at hp
    rcases h with h | h
    · refine walk_clean suppress t (soFar ++ [n]) hp.2.1 ⟨by simp, fun c hm => ?_⟩ f h
      rcases List.mem_append.mp hm with hm | hm
      · exact hc c hm
      · simp only [List.mem_singleton] at hm; subst hm; exact hp.1
    · exact walkAll_clean suppress es soFar hp.2.2 hc f h
end

theorem not_prefix_of_ne {soFar p q : Path} {n m : String} (hn : n ≠ m) (hp : soFar ++ [n] <+: p) (hq : soFar ++ [m] <+: q) : ¬ p <+: q := by
  intro h
  have h1 := hp.trans h
  have h2 : soFar ++ [n] = soFar ++ [m] := by
    rcases List.prefix_or_prefix_of_prefix h1 hq with h | h
    · exact h.eq_of_length (by simp)
    · exact (h.eq_of_length (by simp)).symm
  have := List.append_cancel_left h2
  simp at this
  exact hn this

mutual
theorem walk_separate (suppress : Path → Bool) : ∀ (t : Tree) (soFar : Path), t.proper → Separate (walk suppress soFar t)
  | .file _, soFar, _ => by
    simp only [walk]
    split
    · exact List.pairwise_singleton _ _
    · exact List.Pairwise.nil
  | .dir es, soFar, hp => by
    simp only [walk]
    simp only [Tree.proper] at hp
    split
    · exact List.Pairwise.nil
    · exact walkAll_separate suppress es soFar hp.1 hp.2
theorem walkAll_separate (suppress : Path → Bool) : ∀ (es : List (String × Tree)) (soFar : Path), Tree.properAll es → (es.map (·.1)).Nodup →
    Separate (walkAll suppress soFar es)
  | [], _, _, _ => by simp only [walkAll]; exact List.Pairwise.nil
  | (n, t) :: es, soFar, hp, hd => by
    simp only [walkAll]
    simp only [Tree.properAll] at hp
    simp only [List.map_cons, List.nodup_cons] at hd
    refine List.pairwise_append.mpr ⟨walk_separate suppress t _ hp.2.1, walkAll_separate suppress es soFar hp.2.2 hd.2, fun a ha b hb => ?_⟩
    have h1 := walk_prefix suppress t _ a ha
    obtain ⟨m, hm, h2⟩ := walkAll_prefix suppress es soFar b hb
    have hne : n ≠ m := fun e => hd.1 (e ▸ hm)
    exact ⟨not_prefix_of_ne hne h1 h2, not_prefix_of_ne hne.symm h2 h1⟩
end

mutual
/-- What is read is there. -/
theorem walk_sound (suppress : Path → Bool) : ∀ (t : Tree) (soFar : Path), ∀ f ∈ walk suppress soFar t, isPy (f.1.getLastD "") = true ∧
    ∃ p, f.1 = soFar ++ p ∧ At t p f.2
  | .file text, soFar, f, h => by
    simp only [walk] at h
    split at h
    · next hp => simp only [List.mem_singleton] at h; subst h; exact ⟨hp, [], by simp, .here _⟩
    · cases h
  | .dir es, soFar, f, h => by
    simp only [walk] at h
    split at h
    · cases h
    · obtain ⟨h1, n, c, p, hm, he, ha⟩ := walkAll_sound suppress es soFar f h
      exact ⟨h1, n :: p, he, .there hm ha⟩
theorem walkAll_sound (suppress : Path → Bool) : ∀ (es : List (String × Tree)) (soFar : Path), ∀ f ∈ walkAll suppress soFar es,
    isPy (f.1.getLastD "") = true ∧ ∃ n c p, (n, c) ∈ es ∧ f.1 = soFar ++ n :: p ∧ At c p f.2
  | [], _, f, h => by simp [walkAll] at h
  | (n, t) :: es, soFar, f, h => by
    simp only [walkAll, List.mem_append] at h
    rcases h with h | h
    · obtain ⟨h1, p, he, ha⟩ := walk_sound suppress t _ f h
      exact ⟨h1, n, t, p, .head _, by simpa using he, ha⟩
    · obtain ⟨h1, m, c, p, hm, he, ha⟩ := walkAll_sound suppress es soFar f h
      exact ⟨h1, m, c, p, .tail _ hm, he, ha⟩
end

theorem walkAll_mem {suppress : Path → Bool} {soFar : Path} {n : String} {c : Tree} {f : Path × String} :
    ∀ {es : List (String × Tree)}, (n, c) ∈ es → f ∈ walk suppress (soFar ++ [n]) c → f ∈ walkAll suppress soFar es
  | (m, t) :: es, hm, hf => by
    simp only [walkAll, List.mem_append]
    rcases List.mem_cons.mp hm with e | hm
    · cases e; exact .inl hf
    · exact .inr (walkAll_mem hm hf)

/-- What is there is read, if no directory on the way is left out. -/
theorem walk_complete {suppress : Path → Bool} {t : Tree} {p : Path} {text : String} (h : At t p text) : ∀ (soFar : Path),
    (∀ q, q <+: p → q ≠ p → hidden (soFar ++ q) = false ∧ suppress (soFar ++ q) = false) → isPy ((soFar ++ p).getLastD "") = true →
    (soFar ++ p, text) ∈ walk suppress soFar t := by
  induction h with
  | here t => intro soFar _ hp; simp only [List.append_nil] at hp; simp only [walk, hp, if_true, List.append_nil, List.mem_singleton]
  | @there es n c p t hm ha ih =>
    intro soFar hq hp
    have h0 := hq [] (List.nil_prefix) (by simp)
    simp only [List.append_nil] at h0
    simp only [walk, h0.1, h0.2, Bool.or_self, Bool.false_eq_true, if_false]
    have := ih (soFar ++ [n]) (fun q hq' hne => by
      have := hq (n :: q) (List.cons_prefix_cons.mpr ⟨rfl, hq'⟩) (by simpa using hne)
      simpa using this) (by simpa using hp)
    exact walkAll_mem hm (by simpa using this)

/-- C122: a codebase made from a directory `m` has exactly the Python files in it, if it does not begin with a dot and none are suppressed. -/
theorem read_right (tree : Tree) (m : String) (text : String) (p : Path) (hm : m.toList.head? ≠ some '.') :
    ((m :: p, text) ∈ walk (fun _ => false) [m] tree) ↔ At tree p text ∧ isPy ((m :: p).getLastD "") = true := by
  constructor
  · intro h
    obtain ⟨h1, q, he, ha⟩ := walk_sound _ tree [m] _ h
    simp at he
    subst he
    exact ⟨ha, h1⟩
  · rintro ⟨ha, hp⟩
    refine walk_complete ha [m] (fun q _ _ => ⟨?_, rfl⟩) hp
    simp [hidden, hm]

/-- C122: a codebase made from a directory and instantiated elsewhere gives the same Python files. -/
theorem round_trip (hash : Files → Nat) (s : State) (i : Nat) (tree : Tree) (m : String) (dir : Path) (hm : m ≠ "" ∧ m ≠ "." ∧ m ≠ "..")
    (hh : m.toList.head? ≠ some '.') (ht : tree.proper) (hf : Fresh s.disk dir)
    (hn : s.installed.lookup (hash (walk (fun _ => false) [m] tree)) = none)
    (hr : ∀ r ∈ (fromFileMap (walk (fun _ => false) [m] tree)).roots, s.roots.lookup r = none) :
    ∃ s', instantiate hash s i (fromFileMap (walk (fun _ => false) [m] tree)) dir = (s', true) ∧
      ∀ p t, s'.disk (dir ++ m :: p) = some (.file t) ↔ At tree p t ∧ isPy ((m :: p).getLastD "") = true := by
  obtain ⟨s', h1, h2, _⟩ := instantiate_writes hash s i _ dir hf
    (walk_clean _ tree [m] ht ⟨by simp, by simpa using hm⟩) (walk_separate _ tree [m] ht) hn hr
  exact ⟨s', h1, fun p t => (h2 _ _).symm.trans (read_right tree m t p hh)⟩

/-- C122: made with the name of the module, a codebase has this one root module; without it, the directory's name, which is the same. -/
theorem root_of_directory (tree : Tree) (m : String) (hd : '.' ∉ m.toList) (pre : Option Name) (hp : pre = none ∨ pre = some m.toList) :
    ∀ r ∈ rootNames ((walk (fun _ => false) [m] tree).map (·.1)) pre, (∃ es, tree = .dir es) → r = m.toList := by
  intro r hr ⟨es, he⟩
  subst he
  simp only [rootNames, moduleNames, List.mem_map, List.mem_filter] at hr
  obtain ⟨x, ⟨p, ⟨⟨f, hf, rfl⟩, _⟩, rfl⟩, rfl⟩ := hr
  rcases hp with rfl | rfl
  · obtain ⟨_, q, hq, ha⟩ := walk_sound _ _ [m] f hf
    cases ha with
    | @there _ n c p t hm ha =>
      have : ∃ rest, parts f.1 = m.toList :: rest := by
        rw [hq]
        unfold parts
        have hdl : ([m] ++ n :: p).dropLast = m :: (n :: p).dropLast := by simp
        rw [hdl]
        split
        · exact ⟨_, rfl⟩
        · exact ⟨_, rfl⟩
      obtain ⟨rest, hrest⟩ := this
      simp only [Option.toList_none, List.nil_append, hrest]
      exact rootOf_dotted hd
  · simp only [Option.toList_some, List.singleton_append]
    exact rootOf_dotted hd

/-! ### Cases -/

/-- A disk with one local module. -/
def local_ : Disk := fun q => if q = ["usr", "json.py"] then some (.file "1") else if q <+: ["usr"] then some .dir else none

def nothing : State := ⟨local_, [["usr"]], [], [], []⟩

/-- A package and a file. -/
def some_ : Files := [(["pack", "__init__.py"], "import pack.x"), (["pack", "x.py"], "y = 1"), (["other.py"], "z = 2"), (["pack", "data.txt"], "")]

def others : Files := [(["third", "__init__.py"], "")]

/-- A stand-in for the hash. -/
def size (f : Files) : Nat := f.length

theorem local_fresh (dir : Path) (h : dir.head? = some "tmp") : Fresh local_ dir := by
  cases dir with
  | nil => cases h
  | cons a dir =>
    simp at h
    subst h
    constructor
    · intro q hq
      obtain ⟨r, rfl⟩ := hq
      simp [local_, List.cons_prefix_cons]
    · intro q hq t
      cases q with
      | nil => simp [local_]
      | cons b q =>
        have := (List.cons_prefix_cons.mp hq).1
        subst this
        simp [local_, List.cons_prefix_cons]

theorem some_clean : ∀ f ∈ some_, Clean f.1 := by
  intro f hf
  simp only [some_, List.mem_cons, List.not_mem_nil, or_false] at hf
  rcases hf with rfl | rfl | rfl | rfl <;> simp [Clean]

theorem some_separate : Separate some_ := by
  simp only [Separate, some_, List.pairwise_cons]
  simp [List.cons_prefix_cons]

/-- The hypotheses of `instantiate_writes` are met. -/
example : ∃ s', instantiate size nothing 0 (fromFileMap some_) ["tmp", "d"] = (s', true) ∧
    (∀ p t, (p, t) ∈ some_ ↔ s'.disk (["tmp", "d"] ++ p) = some (.file t)) ∧
    (∀ q, ¬ ["tmp", "d"] <+: q → s'.disk q = nothing.disk q ∨ q <+: ["tmp", "d"] ∧ s'.disk q = some .dir) ∧
    s'.sysPath = ["tmp", "d"] :: nothing.sysPath :=
  instantiate_writes size nothing 0 some_ ["tmp", "d"] (local_fresh _ rfl) some_clean some_separate rfl (fun _ _ => rfl)

/-- So are those of `import_right`. -/
example : finds (later size nothing [(0, some_, ["tmp", "d"])]) "pack" = some ["tmp", "d"] :=
  import_right size nothing 0 some_ ["tmp", "d"] "pack" [] (by decide +kernel) (by decide +kernel) rfl (fun _ _ => rfl)
    ⟨_, .inl (.head _)⟩ ⟨local_fresh _ rfl, by simp [nothing, List.cons_prefix_cons], some_clean, some_separate, trivial⟩

example : finds (later size nothing [(0, some_, ["tmp", "d"]), (1, others, ["tmp", "e"])]) "pack" = some ["tmp", "d"] := by decide +kernel
example : finds (later size nothing [(0, some_, ["tmp", "d"]), (1, others, ["tmp", "e"])]) "third" = some ["tmp", "e"] := by decide +kernel
example : finds (later size nothing [(0, some_, ["tmp", "d"]), (1, others, ["tmp", "e"])]) "json" = some ["usr"] := by decide +kernel
example : moduleNames (some_.map (·.1)) none = ["pack".toList, "pack.x".toList, "other".toList] := by decide +kernel
example : (fromFileMap some_).roots = ["pack".toList, "pack".toList, "other".toList] := by decide +kernel

/-- A codebase that is read from a directory has files that are there, each with the name of the directory before its path in it, and its root
directory is the one that has the directory. -/
theorem from_path_right (suppress : Path → Bool) (max : Nat) (pre : Option Name) (dir : Path) (m : String) (t : Tree) (c : Codebase) (hm : m ≠ "")
    (h : fromPath suppress max pre (dir ++ [m]) t = some c) :
    c.root = some (dir.filter (· ≠ "")) ∧ ∀ f ∈ c.files, ∃ q, f.1 = m :: q ∧ At t q f.2 := by
  have hl : (dir ++ [m]).getLastD "" = m := by simp
  simp only [fromPath, hl, hm, if_false] at h
  split at h
  · cases h
  · cases h
    refine ⟨by simp, fun f hf => ?_⟩
    obtain ⟨_, q, hq, ht⟩ := walk_sound suppress t [m] f hf
    exact ⟨q, hq, ht⟩

/-- A directory. -/
def tree : Tree := .dir [("__init__.py", .file ""), ("sub", .dir [("x.py", .file "1"), ("y.txt", .file "2"), (".py", .file "3")]), ("empty", .dir [])]

example : walk (fun _ => false) ["pack"] tree = [(["pack", "__init__.py"], ""), (["pack", "sub", "x.py"], "1")] := by decide +kernel
example : walk (fun p => p = ["pack", "sub"]) ["pack"] tree = [(["pack", "__init__.py"], "")] := by decide +kernel
example : walk (fun _ => false) [".pack"] tree = [] := by decide +kernel
example : tree.proper := by simp [tree, Tree.proper, Tree.properAll]
example : ((fromPath (fun _ => false) 1 (some "pack".toList) ["", "home", "pack"] tree).map fun c => (c.root, c.roots)) =
    some (some ["home"], ["pack".toList, "pack".toList]) := by decide +kernel
example : (fromPath (fun _ => false) 0 none ["", "home", "pack"] tree).isNone = true := by decide +kernel
/-- The hypotheses of `roots_disjoint_partial`: two codebases are installed. -/
example : (run size ⟨local_, [["usr"]], [], [], []⟩ [.make (fromFileMap some_), .make (fromFileMap others), .instantiate 0 ["tmp", "d"],
    .instantiate 1 ["tmp", "e"]]).installed = [(1, 1), (4, 0)] := by decide +kernel
example : ((run size ⟨local_, [["usr"]], [], [], []⟩ [.make (fromFileMap some_), .make (fromFileMap others), .instantiate 0 ["tmp", "d"],
    .instantiate 1 ["tmp", "e"]]).codebases.map (·.root)) = [some ["tmp", "d"], some ["tmp", "e"]] := by decide +kernel

end Verif.Code
