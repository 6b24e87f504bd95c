import Verif.ArgMapping.Coerce
/-
C43: argument binding matches Python's calling convention. C53: overload choice.
-/
namespace Verif.ArgMapping.Props
open Spec
variable {V T : Type}

theorem final_ok {s : PySig V T} (wf : WellFormed s) (hpo : s.posOnly = 0) {args : List (Param V T)}
    (hm : makeArgs s = .ok args) (self : Option V) (pos : List V) (kws : List (String × V))
    (hk : (kws.map (·.1)).Nodup) (ha : Accepts s (self.toList ++ pos) kws) :
    ∃ vals : List V, vals.length = s.args.length ∧
      (∀ (i : Nat) (n : String), s.args[i]? = some n → vals[i]? = valueOf s (self.toList ++ pos) kws i n) ∧
      pushArguments (St.init args) self pos kws = ⟨args, vals.map some
        ++ List.replicate ((starOf s).toList.length + (kwOf s).toList.length) none,
        (self.toList ++ pos).drop s.args.length, kws.filter fun e => !s.args.contains e.1, true,
        min (self.toList ++ pos).length s.args.length⟩ := by
  have sh := makeArgs_shape hm
  have hnames := normalArgs_names s s.args 0
  have hok := (ok3_iff wf hpo (self.toList ++ pos) kws).2 ha
  have hfin := (final_state sh (by rw [hnames]; exact wf.nodup) self pos kws hk).1 hok
  obtain ⟨vals, hv⟩ := all_some hok.2.2
  have hlen : vals.length = s.args.length := by
    have := congrArg List.length hv
    rw [finalSlots_len, normalArgs_len] at this
    simpa using this.symm
  refine ⟨vals, hlen, ?_, ?_⟩
  · intro i n hi
    have := finalSlots_value hpo (self.toList ++ pos) kws i n hi
    rw [hv, List.getElem?_map] at this
    have hil := (List.getElem?_eq_some_iff.1 hi).1
    rw [← hlen] at hil
    rw [List.getElem?_eq_getElem hil] at this ⊢
    simpa using this
  · rw [hfin, hv, hnames, normalArgs_len]

theorem final_bad {s : PySig V T} (wf : WellFormed s) (hpo : s.posOnly = 0) {args : List (Param V T)}
    (hm : makeArgs s = .ok args) (self : Option V) (pos : List V) (kws : List (String × V))
    (hk : (kws.map (·.1)).Nodup) (ha : ¬ Accepts s (self.toList ++ pos) kws) :
    (pushArguments (St.init args) self pos kws).valid = false := by
  have sh := makeArgs_shape hm
  have hnames := normalArgs_names s s.args 0
  exact (final_state sh (by rw [hnames]; exact wf.nodup) self pos kws hk).2
    (fun h => ha ((ok3_iff wf hpo (self.toList ++ pos) kws).1 h))

/-- **C43 (partial)**: for every signature without positional-only and keyword-only parameters, a call is accepted
exactly when Python accepts it, and then every parameter receives exactly what Python passes (a method's `self` is the
first positional argument). Missing: positional-only and keyword-only parameters, where the code disagrees with Python
(`positional_only_ignored`, `keyword_only_unsupported`). -/
theorem binds_like_python_partial {s : PySig V T} (wf : WellFormed s) (hpo : s.posOnly = 0) {args : List (Param V T)}
    (hm : makeArgs s = .ok args) (self : Option V) (pos : List V) (kws : List (String × V))
    (hk : (kws.map (·.1)).Nodup) :
    (Accepts s (self.toList ++ pos) kws →
      ∃ b, bindCall args self pos kws = .ok (some b) ∧ Receives s (self.toList ++ pos) kws b) ∧
    (¬ Accepts s (self.toList ++ pos) kws → bindCall args self pos kws = .ok none) := by
  have sh := makeArgs_shape hm
  constructor
  · intro ha
    obtain ⟨vals, hlen, hvals, hst⟩ := final_ok wf hpo hm self pos kws hk ha
    unfold bindCall
    rw [hst]
    simp only [Bool.not_true, Bool.false_eq_true, ↓reduceIte]
    have := extract_phase (starOf s) (kwOf s) sh.star sh.kw ⟨args, vals.map some
        ++ List.replicate ((starOf s).toList.length + (kwOf s).toList.length) none,
        (self.toList ++ pos).drop s.args.length, kws.filter fun e => !s.args.contains e.1, true,
        min (self.toList ++ pos).length s.args.length⟩ (normalArgs s 0 s.args) [] vals
        (List.replicate ((starOf s).toList.length + (kwOf s).toList.length) none) sh.normal (by simp)
        (by rw [hlen, normalArgs_len])
    rw [← sh.eq] at this
    simp only [List.length_nil] at this
    rw [this]
    refine ⟨_, rfl, vals, hlen, hvals, ?_⟩
    rw [hpo]
    simp [starOf, kwOf]
  · intro ha
    simp [bindCall, final_bad wf hpo hm self pos kws hk ha]

/-- **C43, what the body is called with**: `buildPositionalArgTuple`/`buildKeywordArgTuple` produce the declared
parameters' values followed by the surplus positional arguments, and the surplus keywords. -/
theorem flattened_call {s : PySig V T} (wf : WellFormed s) (hpo : s.posOnly = 0) {args : List (Param V T)}
    (hm : makeArgs s = .ok args) (self : Option V) (pos : List V) (kws : List (String × V))
    (hk : (kws.map (·.1)).Nodup) (ha : Accepts s (self.toList ++ pos) kws) :
    ∃ vals : List V, vals.length = s.args.length ∧
      (∀ (i : Nat) (n : String), s.args[i]? = some n → vals[i]? = valueOf s (self.toList ++ pos) kws i n) ∧
      buildPositional (pushArguments (St.init args) self pos kws) args 0
        = .ok (vals ++ (self.toList ++ pos).drop s.args.length) ∧
      buildKeyword (pushArguments (St.init args) self pos kws) args
        = if s.varkw.isSome then some (kws.filter fun e => !s.args.contains e.1) else none := by
  have sh := makeArgs_shape hm
  obtain ⟨vals, hlen, hvals, hst⟩ := final_ok wf hpo hm self pos kws hk ha
  refine ⟨vals, hlen, hvals, ?_, ?_⟩
  · rw [hst]
    have := buildPositional_phase (starOf s) (kwOf s) sh.star sh.kw ⟨args, vals.map some
        ++ List.replicate ((starOf s).toList.length + (kwOf s).toList.length) none,
        (self.toList ++ pos).drop s.args.length, kws.filter fun e => !s.args.contains e.1, true,
        min (self.toList ++ pos).length s.args.length⟩ (normalArgs s 0 s.args) [] vals
        (List.replicate ((starOf s).toList.length + (kwOf s).toList.length) none) sh.normal (by simp)
        (by rw [hlen, normalArgs_len])
    rw [← sh.eq] at this
    simp only [List.length_nil] at this
    rw [this]
    rcases ha.positional with h | h
    · have : (self.toList ++ pos).drop s.args.length = [] := List.drop_eq_nil_of_le h
      rw [this]
      simp
    · simp [starOf, h]
  · rw [hst, buildKeyword_phase sh]
    simp [kwOf]

/-- A signature for the examples: `def f(a, b=10, *args, **kw)`. -/
def sigF : PySig Int Unit := ⟨["a", "b"], fun _ => none, [10], some "args", [], some "kw", 0⟩

theorem sigF_wf : WellFormed sigF := ⟨by decide, by decide, by decide⟩

example : (makeArgs sigF).bind (fun a => bindCall a none [1] [("z", 5)])
    = .ok (some [.one 1, .one 10, .star [], .kw [("z", 5)]]) := by decide +kernel
example : (makeArgs sigF).bind (fun a => bindCall a (some 7) [1, 2, 3] [])
    = .ok (some [.one 7, .one 1, .star [2, 3], .kw []]) := by decide +kernel
example : (makeArgs sigF).bind (fun a => bindCall a none [1, 2] [("a", 5)]) = .ok none := by decide +kernel
example : (makeArgs sigF).bind (fun a => bindCall a none [] [("b", 5)]) = .ok none := by decide +kernel
example : ∃ b, bindCall (V := Int) (T := Unit) [⟨"a", none, none, false, false⟩, ⟨"b", none, some 10, false, false⟩,
      ⟨"args", none, none, true, false⟩, ⟨"kw", none, none, false, true⟩] none [1] [("z", 5)] = .ok (some b) ∧
    Receives sigF [1] [("z", 5)] b := by
  refine (binds_like_python_partial sigF_wf rfl (show makeArgs sigF = .ok _ from rfl) none [1] [("z", 5)]
    (by decide)).1 ⟨Or.inl (by decide), ?_, ?_, ?_⟩
  · intro i n hi _ hlt e he
    have : i = 0 := by simp at hlt; omega
    subst this
    simp [sigF] at hi he
    subst hi he
    decide
  · intro e _; exact Or.inr rfl
  · intro i n hi hle
    right
    simp at hle
    have : i = 1 := by
      have := (List.getElem?_eq_some_iff.1 hi).1
      simp [sigF] at this
      omega
    subst this
    rfl

/-- `def g(a, /)`. -/
def sigG : PySig Int Unit := ⟨["a"], fun _ => none, [], none, [], none, 1⟩
/-- `def h(a, /, **kw)`. -/
def sigH : PySig Int Unit := ⟨["a"], fun _ => none, [], none, [], some "kw", 1⟩

/-- **C43 refuted for positional-only parameters**: `g(a=1)` is accepted though Python rejects it, and `h(1, a=2)` is
rejected though Python accepts it. -/
theorem positional_only_ignored :
    ((makeArgs sigG).bind (fun a => bindCall a none [] [("a", 1)]) = .ok (some [.one 1]) ∧
      ¬ Accepts sigG [] [("a", 1)]) ∧
    ((makeArgs sigH).bind (fun a => bindCall a none [1] [("a", 2)]) = .ok none ∧ Accepts sigH [1] [("a", 2)]) := by
  refine ⟨⟨by decide +kernel, ?_⟩, by decide +kernel, ?_⟩
  · intro h
    rcases h.complete 0 "a" rfl (by simp) with ⟨h1, _⟩ | h1
    · simp [sigG] at h1
    · simp [defaultOf, sigG] at h1
  · refine ⟨Or.inl (by decide), ?_, ?_, ?_⟩
    · intro i n hi h1 h2
      simp [sigH] at h1 h2
      omega
    · intro e _; exact Or.inr rfl
    · intro i n hi hle
      have := (List.getElem?_eq_some_iff.1 hi).1
      simp [sigH] at this hle
      omega

/-- **C43 refuted for keyword-only parameters**: a function that has any cannot be made into a typed Function. -/
theorem keyword_only_unsupported (s : PySig V T) (h : s.kwonly ≠ []) : makeArgs s = .error .kwOnlyUnsupported := by
  simp [makeArgs, h]

example : makeArgs (⟨["a"], fun _ => none, [], none, ["k"], none, 0⟩ : PySig Int Unit) = .error .kwOnlyUnsupported :=
  keyword_only_unsupported _ (by decide)

/-! ### Overloads -/

section
variable {coerce : T → Level → V → Option V} {couldBe : T → Level → V → Bool}

theorem annotations_eq (s : PySig V T) : annotations s = (normalArgs s 0 s.args).map (·.filter)
    ++ (starOf s).toList.map (·.filter) ++ (kwOf s).toList.map (·.filter) := by
  have : ∀ (l : List String) (i : Nat), (normalArgs s i l).map (·.filter) = l.map s.anns := by
    intro l
    induction l with
    | nil => intro i; rfl
    | cons n l ih => intro i; simp [normalArgs, ih]
  unfold annotations starOf kwOf
  rw [this]
  cases s.varargs <;> cases s.varkw <;> rfl

/-- **C53, one overload**: an overload takes a call at a conversion level exactly when Python's binding succeeds and every
bound value (defaults, `*args` and `**kwargs` included) converts to its annotation; the body receives the converted
values. No internal error can occur. `couldBe` (the quick pre-check) only has to be complete. -/
theorem tryOverload_spec (l : Level) (hcb : ∀ t v w, coerce t l v = some w → couldBe t l v = true)
    {s : PySig V T} (wf : WellFormed s) (hpo : s.posOnly = 0) {args : List (Param V T)}
    (hm : makeArgs s = .ok args) (self : Option V) (pos : List V) (kws : List (String × V))
    (hk : (kws.map (·.1)).Nodup) :
    ∃ r, tryOverload coerce couldBe l args self pos kws = .ok r ∧
      (∀ b, r = some b ↔ Matches coerce l s (self.toList ++ pos) kws b) := by
  have sh := makeArgs_shape hm
  by_cases ha : Accepts s (self.toList ++ pos) kws
  · obtain ⟨vals, hlen, hvals, hst⟩ := final_ok wf hpo hm self pos kws hk ha
    have hlenN : vals.length = (normalArgs s 0 s.args).length := by rw [hlen, normalArgs_len]
    -- Python's binding is unique
    have huniq : ∀ b0, Receives s (self.toList ++ pos) kws b0 → b0 = vals.map .one
        ++ (if (starOf s).isSome then [Arg.star ((self.toList ++ pos).drop s.args.length)] else [])
        ++ (if (kwOf s).isSome then [Arg.kw (kws.filter fun e => !s.args.contains e.1)] else []) := by
      rintro b0 ⟨vals', hl', hv', rfl⟩
      have : vals' = vals := by
        apply List.ext_getElem?
        intro i
        rcases Nat.lt_or_ge i s.args.length with hi | hi
        · rw [hv' i _ (List.getElem?_eq_getElem hi), hvals i _ (List.getElem?_eq_getElem hi)]
        · rw [List.getElem?_eq_none (by omega), List.getElem?_eq_none (by omega)]
      rw [this, hpo]
      simp [starOf, kwOf]
    have hrec : Receives s (self.toList ++ pos) kws (vals.map .one
        ++ (if (starOf s).isSome then [Arg.star ((self.toList ++ pos).drop s.args.length)] else [])
        ++ (if (kwOf s).isSome then [Arg.kw (kws.filter fun e => !s.args.contains e.1)] else [])) := by
      refine ⟨vals, hlen, hvals, ?_⟩
      rw [hpo]
      simp [starOf, kwOf]
    have hmatch : ∀ b, Matches coerce l s (self.toList ++ pos) kws b ↔
        convOut (starOf s) (kwOf s) (convN coerce l (normalArgs s 0 s.args) vals) (convTail coerce l (starOf s) (kwOf s)
            ((self.toList ++ pos).drop s.args.length) (kws.filter fun e => !s.args.contains e.1)) = some b := by
      intro b
      rw [← convert_spec l (starOf s) (kwOf s) _ _ (normalArgs s 0 s.args) vals hlenN, ← annotations_eq]
      constructor
      · rintro ⟨_, b0, h1, h2⟩
        rw [huniq b0 h1] at h2
        exact h2
      · intro h
        exact ⟨ha, _, hrec, h⟩
    unfold tryOverload
    rw [hst]
    simp only [Bool.not_true, Bool.false_eq_true, ↓reduceIte]
    have hdd := definitelyDoesnt_spec (coerce := coerce) (couldBe := couldBe) l hcb (starOf s) (kwOf s) sh.star sh.kw
      ⟨args, vals.map some
        ++ List.replicate ((starOf s).toList.length + (kwOf s).toList.length) none,
        (self.toList ++ pos).drop s.args.length, kws.filter fun e => !s.args.contains e.1, true,
        min (self.toList ++ pos).length s.args.length⟩ (normalArgs s 0 s.args) [] vals
        (List.replicate ((starOf s).toList.length + (kwOf s).toList.length) none) sh.normal (by simp) hlenN
    rw [← sh.eq] at hdd
    simp only [List.length_nil] at hdd
    rcases hdd with hdd | ⟨hdd, hno⟩
    · rw [hdd]
      simp only [Except.bind, Bool.false_eq_true, ↓reduceIte]
      have hac := applyCoercion_spec (coerce := coerce) l (starOf s) (kwOf s) sh.star sh.kw (normalArgs s 0 s.args) [] vals
        (List.replicate ((starOf s).toList.length + (kwOf s).toList.length) none)
        ⟨args, vals.map some
          ++ List.replicate ((starOf s).toList.length + (kwOf s).toList.length) none,
          (self.toList ++ pos).drop s.args.length, kws.filter fun e => !s.args.contains e.1, true,
          min (self.toList ++ pos).length s.args.length⟩ rfl sh.normal (by simp) hlenN
      rw [← sh.eq] at hac
      simp only [List.length_nil] at hac
      cases hr : convN coerce l (normalArgs s 0 s.args) vals with
      | none =>
        rw [hr] at hac
        simp only at hac
        rw [hac]
        refine ⟨none, rfl, ?_⟩
        intro b
        rw [hmatch b, hr]; simp [convOut]
      | some ws =>
        cases hc : convTail coerce l (starOf s) (kwOf s) ((self.toList ++ pos).drop s.args.length)
            (kws.filter fun e => !s.args.contains e.1) with
        | none =>
          rw [hr, hc] at hac
          simp only at hac
          rw [hac]
          refine ⟨none, rfl, ?_⟩
          intro b
          rw [hmatch b, hr, hc]; simp [convOut]
        | some ab =>
          rw [hr, hc] at hac
          simp only at hac
          rw [hac]
          simp only [Bool.not_true, Bool.false_eq_true, ↓reduceIte]
          have hex := extract_phase (starOf s) (kwOf s) sh.star sh.kw
            ⟨args, [] ++ ws.map some
              ++ List.replicate ((starOf s).toList.length + (kwOf s).toList.length) none,
              ab.1, ab.2, true, min (self.toList ++ pos).length s.args.length⟩ (normalArgs s 0 s.args) [] ws
            (List.replicate ((starOf s).toList.length + (kwOf s).toList.length) none) sh.normal rfl
            (convN_len l _ _ _ hlenN hr)
          rw [← sh.eq] at hex
          simp only [List.length_nil] at hex
          rw [hex]
          refine ⟨_, rfl, ?_⟩
          intro b
          rw [hmatch b, hr, hc]; simp [convOut]
    · rw [hdd]
      refine ⟨none, rfl, ?_⟩
      intro b
      rw [hmatch b, hno]; simp [convOut]
  · refine ⟨none, ?_, ?_⟩
    · simp [tryOverload, final_bad wf hpo hm self pos kws hk ha]
    · intro b
      refine ⟨fun h => by simp at h, fun h => absurd h.1 ha⟩

/-- **C53**: a call picks the lowest conversion level at which some overload accepts it and, at that level, the first
overload in declaration order; it raises TypeError exactly when no overload accepts it at any level. -/
theorem dispatch_spec (hcb : ∀ t l v w, coerce t l v = some w → couldBe t l v = true)
    (sigs : List (PySig V T)) (hs : ∀ s ∈ sigs, WellFormed s ∧ s.posOnly = 0) (argss : List (List (Param V T)))
    (hm : List.Forall₂ (fun s args => makeArgs s = .ok args) sigs argss)
    (self : Option V) (pos : List V) (kws : List (String × V)) (hk : (kws.map (·.1)).Nodup) :
    (∃ l ix b, dispatch coerce couldBe argss self pos kws levels = .ok (some (l, ix, b)) ∧
      Chosen coerce sigs (self.toList ++ pos) kws l ix b) ∨
    (dispatch coerce couldBe argss self pos kws levels = .ok none ∧
      ∀ l ∈ levels, ∀ s ∈ sigs, ∀ b, ¬ Matches coerce l s (self.toList ++ pos) kws b) := by
  -- one level
  have level : ∀ (l : Level) (sigs : List (PySig V T)) (argss : List (List (Param V T))) (k : Nat),
      (∀ s ∈ sigs, WellFormed s ∧ s.posOnly = 0) →
      List.Forall₂ (fun s args => makeArgs s = .ok args) sigs argss →
      (∃ ix b s, tryOverloads coerce couldBe l self pos kws argss k = .ok (some (k + ix, b)) ∧
        sigs[ix]? = some s ∧ Matches coerce l s (self.toList ++ pos) kws b ∧
        ∀ (j : Nat) (s : PySig V T), j < ix → sigs[j]? = some s → ∀ b', ¬ Matches coerce l s (self.toList ++ pos) kws b') ∨
      (tryOverloads coerce couldBe l self pos kws argss k = .ok none ∧
        ∀ s ∈ sigs, ∀ b, ¬ Matches coerce l s (self.toList ++ pos) kws b) := by
    intro l sigs
    induction sigs with
    | nil =>
      intro argss k _ hm
      cases hm
      exact Or.inr ⟨rfl, by simp⟩
    | cons s sigs ih =>
      intro argss k hs hm
      cases hm with
      | @cons _ args _ argss hm1 hm2 =>
        obtain ⟨r, hr1, hr2⟩ := tryOverload_spec (coerce := coerce) (couldBe := couldBe) l (fun t v w => hcb t l v w)
          (hs s (by simp)).1 (hs s (by simp)).2 hm1 self pos kws hk
        unfold tryOverloads
        rw [hr1]
        simp only [Except.bind]
        cases r with
        | some b =>
          left
          exact ⟨0, b, s, rfl, rfl, (hr2 b).1 rfl, by intro j s h; omega⟩
        | none =>
          simp only
          have hnot : ∀ b', ¬ Matches coerce l s (self.toList ++ pos) kws b' := by
            intro b' hb'
            have := (hr2 b').2 hb'
            simp at this
          rcases ih argss (k + 1) (fun s' h => hs s' (by simp [h])) hm2 with ⟨ix, b, s', h1, h2, h3, h4⟩ | ⟨h1, h2⟩
          · left
            refine ⟨ix + 1, b, s', ?_, by simpa using h2, h3, ?_⟩
            · rw [h1]
              have : k + 1 + ix = k + (ix + 1) := by omega
              rw [this]
            · intro j s'' hj hjs
              cases j with
              | zero =>
                have : s = s'' := by simpa using hjs
                subst this
                exact hnot
              | succ j => exact h4 j s'' (by omega) (by simpa using hjs)
          · right
            refine ⟨h1, ?_⟩
            intro s' hs'
            rcases List.mem_cons.1 hs' with rfl | hs'
            · exact hnot
            · exact h2 s' hs'
  have go : ∀ (ls before : List Level), levels = before ++ ls →
      (∀ l' ∈ before, ∀ s ∈ sigs, ∀ b', ¬ Matches coerce l' s (self.toList ++ pos) kws b') →
      (∃ l ix b, dispatch coerce couldBe argss self pos kws ls = .ok (some (l, ix, b)) ∧
        Chosen coerce sigs (self.toList ++ pos) kws l ix b) ∨
      (dispatch coerce couldBe argss self pos kws ls = .ok none ∧
        ∀ l ∈ levels, ∀ s ∈ sigs, ∀ b, ¬ Matches coerce l s (self.toList ++ pos) kws b) := by
    intro ls
    induction ls with
    | nil =>
      intro before he hb
      right
      refine ⟨rfl, ?_⟩
      rw [he, List.append_nil]
      exact hb
    | cons l ls ih =>
      intro before he hb
      unfold dispatch
      rcases level l sigs argss 0 hs hm with ⟨ix, b, s, h1, h2, h3, h4⟩ | ⟨h1, h2⟩
      · left
        rw [h1]
        simp only [Except.bind, Nat.zero_add]
        exact ⟨l, ix, b, rfl, ⟨s, h2, h3⟩, h4, before, ls, he, hb⟩
      · rw [h1]
        simp only [Except.bind]
        apply ih (before ++ [l]) (by simp [he])
        intro l' hl'
        rcases List.mem_append.1 hl' with h | h
        · exact hb l' h
        · rw [List.mem_singleton.1 h]; exact h2
  exact go levels [] rfl (by simp)

end

/-- A toy conversion: annotation 0 takes only the number 0..9 at signature level, annotation 1 takes anything from
`upcast` on. -/
def toyCoerce : Nat → Level → Int → Option Int
  | 0, _, v => if 0 ≤ v ∧ v < 10 then some v else none
  | _, .signature, _ => none
  | _, _, v => some (v + 1000)

def sigOne (t : Nat) : PySig Int Nat := ⟨["x"], fun _ => some t, [], none, [], none, 0⟩
def argsOne (t : Nat) : List (Param Int Nat) := [⟨"x", some t, none, false, false⟩]

-- the second overload is chosen at the stricter level although the first would accept later
example : dispatch toyCoerce (fun t l v => (toyCoerce t l v).isSome) [argsOne 1, argsOne 0] none [5] [] levels
    = .ok (some (.signature, 1, [.one 5])) := by decide +kernel
example : dispatch toyCoerce (fun t l v => (toyCoerce t l v).isSome) [argsOne 1, argsOne 0] none [50] [] levels
    = .ok (some (.upcast, 0, [.one 1050])) := by decide +kernel
example : (∃ l ix b, dispatch toyCoerce (fun t l v => (toyCoerce t l v).isSome) [argsOne 1, argsOne 0] none [50] []
      levels = .ok (some (l, ix, b)) ∧ Chosen toyCoerce [sigOne 1, sigOne 0] [50] [] l ix b) ∨
    (dispatch toyCoerce (fun t l v => (toyCoerce t l v).isSome) [argsOne 1, argsOne 0] none [50] [] levels = .ok none ∧
      ∀ l ∈ levels, ∀ s ∈ [sigOne 1, sigOne 0], ∀ b, ¬ Matches toyCoerce l s [50] [] b) :=
  dispatch_spec (by intro t l v w h; simp [h]) [sigOne 1, sigOne 0]
    (by
      intro s hs
      simp at hs
      rcases hs with rfl | rfl <;> exact ⟨⟨by simp [sigOne], by simp [sigOne], by simp [sigOne]⟩, rfl⟩)
    [argsOne 1, argsOne 0] (.cons rfl (.cons rfl .nil)) none [50] [] (by decide)

end Verif.ArgMapping.Props
