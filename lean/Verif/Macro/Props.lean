import Verif.Macro.Spec
/-
Proofs for C124.
-/
namespace Verif.Macro

/-! ### Names of files -/

/-- A digit. -/
def IsDigit (c : Char) : Prop := c ∈ ['0', '1', '2', '3', '4', '5', '6', '7', '8', '9']

theorem digit_isDigit : ∀ n : Nat, n < 10 → IsDigit (Char.ofNat (48 + n)) := by
  unfold IsDigit; decide +kernel

theorem digit_inj : ∀ m : Nat, m < 10 → ∀ n : Nat, n < 10 → Char.ofNat (48 + m) = Char.ofNat (48 + n) → m = n := by decide +kernel

theorem decimal_digits (n : Nat) : ∀ c ∈ decimal n, IsDigit c := by
  induction n using Nat.strongRecOn with
  | _ n ih =>
    intro c hc
    unfold decimal at hc
    split at hc
    · next h => simp at hc; subst hc; exact digit_isDigit n h
    · next h =>
      rcases List.mem_append.mp hc with hc | hc
      · exact ih (n / 10) (by omega) c hc
      · simp at hc; subst hc; exact digit_isDigit (n % 10) (by omega)

theorem decimal_ne_nil (n : Nat) : decimal n ≠ [] := by
  unfold decimal
  split <;> simp

theorem decimal_inj (m : Nat) : ∀ n, decimal m = decimal n → m = n := by
  induction m using Nat.strongRecOn with
  | _ m ih =>
    intro n h
    rw [decimal.eq_1 m, decimal.eq_1 n] at h
    split at h
    · next hm =>
      split at h
      · next hn => simp only [List.cons.injEq, and_true] at h; exact digit_inj m hm n hn h
      · have hl := congrArg List.length h
        have := List.length_pos_iff.mpr (decimal_ne_nil (n / 10))
        simp only [List.length_append, List.length_cons, List.length_nil] at hl
        omega
    · next hm =>
      split at h
      · have hl := congrArg List.length h
        have := List.length_pos_iff.mpr (decimal_ne_nil (m / 10))
        simp only [List.length_append, List.length_cons, List.length_nil] at hl
        omega
      · obtain ⟨h1, h2⟩ := List.append_inj' h rfl
        simp only [List.cons.injEq, and_true] at h2
        have e1 := ih (m / 10) (by omega) _ h1
        have e2 := digit_inj _ (by omega) _ (by omega) h2
        omega

/-- Texts that end with a separator and digits are the same only if both parts are. -/
theorem split_first {c : Char} : ∀ {d d' x x' : Text}, c ∉ d → c ∉ d' → d ++ c :: x = d' ++ c :: x' → d = d' ∧ x = x'
  | [], [], x, x', _, _, h => by simp at h; exact ⟨rfl, h⟩
  | [], b :: d', x, x', _, h', h => by simp at h; exact absurd (by simp [h.1]) h'
  | a :: d, [], x, x', h1, _, h => by simp at h; exact absurd (by simp [h.1]) h1
  | a :: d, b :: d', x, x', h1, h2, h => by
    simp only [List.cons_append, List.cons.injEq] at h
    have := split_first (d := d) (d' := d') (fun hm => h1 (.tail _ hm)) (fun hm => h2 (.tail _ hm)) h.2
    exact ⟨by rw [h.1, this.1], this.2⟩

theorem split_last {c : Char} {d d' x x' : Text} (h1 : c ∉ d) (h2 : c ∉ d') (h : x ++ c :: d = x' ++ c :: d') : x = x' ∧ d = d' := by
  have h := congrArg List.reverse h
  simp only [List.reverse_append, List.reverse_cons, List.append_assoc, List.singleton_append] at h
  obtain ⟨e1, e2⟩ := split_first (by simpa using h1) (by simpa using h2) h
  exact ⟨List.reverse_inj.mp e2, List.reverse_inj.mp e1⟩

theorem space_notMem (n : Nat) : ' ' ∉ decimal n := fun h => by
  have := decimal_digits n ' ' h
  revert this
  unfold IsDigit
  decide +kernel

/-- C124: two calls have the same file name only if they are the same call of macros at the same place. -/
theorem fileName_inj {f f' : Text} {l l' c c' : Nat} (h : fileName f l c = fileName f' l' c') : f = f' ∧ l = l' ∧ c = c' := by
  have e1 : ", unique call number ".toList = ", unique call number".toList ++ [' '] := by decide +kernel
  have e2 : ", line ".toList = ", line".toList ++ [' '] := by decide +kernel
  unfold fileName at h
  rw [e1, e2] at h
  have h0 := List.append_cancel_left h
  have h1 : (f ++ (", line".toList ++ [' '] ++ (decimal l ++ ", unique call number".toList))) ++ ' ' :: decimal c =
      (f' ++ (", line".toList ++ [' '] ++ (decimal l' ++ ", unique call number".toList))) ++ ' ' :: decimal c' := by
    simpa only [List.append_assoc, List.singleton_append, List.cons_append, List.nil_append] using h0
  obtain ⟨h2, h3⟩ := split_last (space_notMem c) (space_notMem c') h1
  have h4 : ((f ++ ", line".toList) ++ ' ' :: decimal l) ++ ", unique call number".toList =
      ((f' ++ ", line".toList) ++ ' ' :: decimal l') ++ ", unique call number".toList := by
    simpa only [List.append_assoc, List.singleton_append, List.cons_append, List.nil_append] using h2
  obtain ⟨h5, h6⟩ := split_last (space_notMem l) (space_notMem l') (List.append_cancel_right h4)
  exact ⟨List.append_cancel_right h5, decimal_inj _ _ h6, decimal_inj _ _ h3⟩

/-! ### The format -/

theorem texts_eq : ∀ {ls : List Line} {lines : List Text}, texts ls = some lines ↔ ls = lines.map Line.text
  | [], lines => by cases lines <;> simp [texts]
  | .text s :: ls, lines => by
    cases lines with
    | nil => simp [texts]
    | cons a lines =>
      simp only [texts, Option.map_eq_some_iff, List.cons.injEq, List.map_cons, Line.text.injEq]
      constructor
      · rintro ⟨x, hx, rfl, rfl⟩; exact ⟨rfl, texts_eq.mp hx⟩
      · rintro ⟨rfl, h⟩; exact ⟨lines, texts_eq.mpr h, rfl, rfl⟩
  | .slice :: ls, lines => by cases lines <;> simp [texts]
  | .other :: ls, lines => by cases lines <;> simp [texts]

theorem names_eq {valid : Text → Bool} : ∀ {items : List (Option Text × Val)} {ns : List (Text × Val)},
    names valid items = some ns ↔ items = ns.map (fun x => (some x.1, x.2)) ∧ ∀ x ∈ ns, valid x.1 = true
  | [], ns => by cases ns <;> simp [names]
  | (some k, v) :: rest, ns => by
    by_cases hk : valid k = true
    · cases ns with
      | nil => simp [names, hk]
      | cons a ns =>
        obtain ⟨a1, a2⟩ := a
        simp only [names, hk, if_true, Option.map_eq_some_iff, List.cons.injEq, List.map_cons, Prod.mk.injEq, Option.some.injEq, List.forall_mem_cons]
        constructor
        · rintro ⟨x, hx, ⟨rfl, rfl⟩, rfl⟩; exact ⟨⟨⟨rfl, rfl⟩, (names_eq.mp hx).1⟩, hk, (names_eq.mp hx).2⟩
        · rintro ⟨⟨⟨rfl, rfl⟩, h⟩, _, h'⟩; exact ⟨ns, names_eq.mpr ⟨h, h'⟩, ⟨rfl, rfl⟩, rfl⟩
    · cases ns with
      | nil => simp [names, hk]
      | cons a ns =>
        obtain ⟨a1, a2⟩ := a
        simp only [names, hk, if_false, List.cons.injEq, List.map_cons, Prod.mk.injEq, Option.some.injEq, List.forall_mem_cons]
        constructor
        · intro h; simp at h
        · rintro ⟨⟨⟨rfl, rfl⟩, h⟩, h', _⟩; exact absurd h' hk
  | (none, v) :: rest, ns => by cases ns <;> simp [names]

/-- What passes the check is what is proper. -/
theorem check_proper {valid : Text → Bool} {r : Returned} {lines : List Text} {ns : List (Text × Val)} :
    checkFormat valid r = .ok (lines, ns) ↔ ∃ body ret, Proper valid r body ret ns ∧ lines = body ++ ["return ".toList ++ ret] := by
  constructor
  · intro h
    unfold checkFormat at h
    split at h
    · cases h
    · cases h
    · cases h
    · next source locals more =>
      split at h
      · cases h
      next hm =>
      split at h
      · cases h
      next ls =>
      split at h
      · cases h
      · cases h
      · cases h
      next last hl =>
      split at h
      · cases h
      next h7 =>
      split at h
      · cases h
      next lines' ht =>
      split at h
      · cases h
      next items =>
      split at h
      · cases h
      next ns' hn =>
      cases h
      have ht := texts_eq.mp ht
      obtain ⟨hn, hv⟩ := names_eq.mp hn
      have h7 : last.take 7 = returnText := Classical.not_not.mp h7
      have hm : more = 0 := Classical.not_not.mp hm
      subst hm ht hn
      rw [List.getLast?_map] at hl
      obtain ⟨last', hl, e⟩ := Option.map_eq_some_iff.mp hl
      cases e
      have hlines : lines = lines.dropLast ++ ["return ".toList ++ last.drop 7] := by
        have e1 : "return ".toList ++ last.drop 7 = last := by
          rw [show "return ".toList = last.take 7 from h7.symm]
          exact List.take_append_drop 7 last
        rw [e1]
        obtain ⟨init, hi⟩ := List.getLast?_eq_some_iff.mp hl
        rw [hi]; simp
      exact ⟨lines.dropLast, last.drop 7, ⟨by rw [← hlines], hv⟩, hlines⟩
  · rintro ⟨body, ret, ⟨rfl, hv⟩, rfl⟩
    have h1 : texts ((body ++ ["return ".toList ++ ret]).map Line.text) = some (body ++ ["return ".toList ++ ret]) := texts_eq.mpr rfl
    have h2 : names valid (ns.map fun x => (some x.1, x.2)) = some ns := names_eq.mpr ⟨rfl, hv⟩
    have h3 : ((body ++ ["return ".toList ++ ret]).map Line.text).getLast? = some (.text ("return ".toList ++ ret)) := by
      rw [List.getLast?_map]; simp
    have h4 : ("return ".toList ++ ret).take 7 = returnText := by
      rw [List.take_append_of_le_length (by decide +kernel)]
      decide +kernel
    simp only [checkFormat, ne_eq, not_true, if_false, h1, h2, h3, h4]

theorem getSourceText_proper (body : List Text) (l : Text) : (getSourceText (body ++ [l])).flatten = program body := by
  simp [getSourceText, program]

theorem getReturnName_proper (body : List Text) (ret : Text) : getReturnName (body ++ ["return ".toList ++ ret]) = ret := by
  unfold getReturnName
  rw [List.getLastD_eq_getLast?]
  simp only [List.getLast?_append, List.getLast?_singleton, Option.some_or, Option.getD_some]
  exact List.drop_left' (by decide +kernel)

theorem sees_iff {globals env : Env} {ns : List (Text × Val)} : Sees globals ns env ↔ env = fakeGlobals globals ns := by
  constructor
  · intro h
    funext n
    unfold fakeGlobals
    cases hl : ns.lookup n with
    | none => exact (h n).2 hl
    | some v => exact (h n).1 v hl
  · rintro rfl n
    unfold fakeGlobals
    exact ⟨fun v hv => by rw [hv], fun hv => by rw [hv]⟩

/-! ### One call -/

/-- C124: a call of a macro gives a value if and only if the function has returned what it should, its lines are a program, the name of its file is
not used yet, and executing the program in the globals of the function, hidden by the returned namespace, defines the returned name with that
value. -/
theorem call_right {valid compiles : Text → Bool} {exec : Text → Env → Outcome} {globals : Env} {s : State} {i : Nat} {m : Macro}
    (hm : s.macros[i]? = some m) (r : Returned) (v : Val) :
    (call valid compiles exec globals s i r).2 = .ok v ↔
      ∃ body ret ns env env', Proper valid r body ret ns ∧ compiles (program body) = true ∧ s.lines.lookup (fileName m.file m.line m.count) = none ∧
        Sees globals ns env ∧ exec (program body) env = .done env' ∧ env' ret = some v := by
  constructor
  · intro h
    simp only [call, hm] at h
    cases hc : checkFormat valid r with
    | error e => rw [hc] at h; cases h
    | ok x =>
      obtain ⟨lines, ns⟩ := x
      obtain ⟨body, ret, hp, rfl⟩ := check_proper.mp hc
      simp only [hc, begin, getSourceText_proper, getReturnName_proper] at h
      cases hcomp : compiles (program body) with
      | false => simp [hcomp] at h
      | true =>
        cases hl : s.lines.lookup (fileName m.file m.line m.count) with
        | some x => simp [hcomp, hl] at h
        | none =>
          simp only [hcomp, hl, Bool.not_true, Option.isSome_none, Bool.false_eq_true, if_false] at h
          cases ho : exec (program body) (fakeGlobals globals ns) with
          | raised e => rw [ho] at h; cases h
          | nameError msg => rw [ho] at h; simp only [finish] at h; split at h <;> cases h
          | done env' =>
            rw [ho] at h
            simp only [finish] at h
            cases hv : env' ret with
            | none => rw [hv] at h; cases h
            | some v' =>
              rw [hv] at h
              cases h
              exact ⟨body, ret, ns, _, env', hp, hcomp, rfl, sees_iff.mpr rfl, ho, hv⟩
  · rintro ⟨body, ret, ns, env, env', hp, hcomp, hl, hs, ho, hv⟩
    obtain rfl := sees_iff.mp hs
    have hc := check_proper.mpr ⟨body, ret, hp, rfl⟩
    simp only [call, hm, hc, begin, getSourceText_proper, getReturnName_proper, hcomp, hl, Bool.not_true, Option.isSome_none, Bool.false_eq_true,
      if_false, ho, finish, hv]

/-- A call changes the lines only by adding those of its own file, where there were none. -/
theorem call_lines (valid compiles : Text → Bool) (exec : Text → Env → Outcome) (globals : Env) (s : State) (i : Nat) (r : Returned) :
    (call valid compiles exec globals s i r).1.lines = s.lines ∨ ∃ m ls, s.macros[i]? = some m ∧
      s.lines.lookup (fileName m.file m.line m.count) = none ∧
      (call valid compiles exec globals s i r).1 = { s with macros := s.macros.set i { m with count := m.count + 1 }, lines := (fileName m.file m.line m.count, ls) :: s.lines } := by
  unfold call
  split
  · exact .inl rfl
  next m hm =>
  split
  · exact .inl rfl
  next lines ns _ =>
  unfold begin
  split
  · next s' e h =>
    left
    simp only at h
    split at h
    · cases h; rfl
    split at h
    · cases h; rfl
    · cases h
  · next s' name h =>
    right
    simp only at h
    split at h
    · cases h
    split at h
    · cases h
    next hl =>
    cases h
    refine ⟨m, getSourceText lines, hm, ?_, rfl⟩
    exact Option.not_isSome_iff_eq_none.mp hl

/-- A call does not change where the macros are. -/
theorem call_macros (valid compiles : Text → Bool) (exec : Text → Env → Outcome) (globals : Env) (s : State) (i : Nat) (r : Returned) :
    (call valid compiles exec globals s i r).1.macros = s.macros ∨ ∃ m, s.macros[i]? = some m ∧
      (call valid compiles exec globals s i r).1.macros = s.macros.set i { m with count := m.count + 1 } := by
  unfold call
  split
  · exact .inl rfl
  next m hm =>
  split
  · exact .inl rfl
  right
  refine ⟨m, hm, ?_⟩
  unfold begin
  split
  · next s' e h =>
    simp only at h
    split at h
    · cases h; rfl
    split at h <;> cases h
    rfl
  · next s' name h =>
    simp only at h
    split at h
    · cases h
    split at h <;> cases h
    rfl

theorem lookup_cons_ne {n name : Text} {x : List Text} {l : List (Text × List Text)} (h : n ≠ name) : ((name, x) :: l).lookup n = l.lookup n := by
  rw [List.lookup_cons, beq_false_of_ne h]

/-! ### Histories -/

/-- What `getLines` does to the lines. -/
theorem getLines_lines (disk : Text → Option (List Text)) (s : State) (path : Text) :
    (getLines disk s path).1.macros = s.macros ∧ ((getLines disk s path).1.lines = s.lines ∨
      ∃ ls, s.lines.lookup path = none ∧ disk path = some ls ∧ (getLines disk s path).1.lines = (path, ls) :: s.lines) := by
  unfold getLines
  cases hl : s.lines.lookup path with
  | some ls => exact ⟨rfl, .inl rfl⟩
  | none =>
    cases he : s.exist.lookup path with
    | some b =>
      cases b with
      | false => exact ⟨rfl, .inl rfl⟩
      | true =>
        cases hd : disk path with
        | none => exact ⟨rfl, .inl rfl⟩
        | some ls => exact ⟨rfl, .inr ⟨ls, rfl, rfl, rfl⟩⟩
    | none =>
      cases hd : disk path with
      | none => exact ⟨rfl, .inl rfl⟩
      | some ls => exact ⟨rfl, .inr ⟨ls, rfl, rfl, rfl⟩⟩

theorem step_keeps {valid compiles : Text → Bool} {exec : Text → Env → Outcome} {s : State} {op : Op} (hop : op ≠ .clear) {n : Text} {ls : List Text}
    (h : s.lines.lookup n = some ls) : (step valid compiles exec s op).lines.lookup n = some ls := by
  cases op with
  | make file line => exact h
  | clear => exact absurd rfl hop
  | call i g r =>
    rcases call_lines valid compiles exec g s i r with h' | ⟨m, x, _, hn, h'⟩
    · simp only [step, h', h]
    · simp only [step, h']
      rw [lookup_cons_ne (fun e => by rw [e, hn] at h; cases h), h]
  | read disk path =>
    rcases (getLines_lines disk s path).2 with h' | ⟨x, hn, _, h'⟩
    · simp only [step, h', h]
    · simp only [step, h']
      rw [lookup_cons_ne (fun e => by rw [e, hn] at h; cases h), h]

theorem run_keeps {valid compiles : Text → Bool} {exec : Text → Env → Outcome} {ops : List Op} (hops : NoClear ops) :
    ∀ {s : State} {n : Text} {ls : List Text}, s.lines.lookup n = some ls → (run valid compiles exec s ops).lines.lookup n = some ls := by
  induction ops with
  | nil => exact fun h => h
  | cons op ops ih =>
    intro s n ls h
    exact ih (fun o ho => hops o (.tail _ ho)) (step_keeps (hops op (.head _)) h)

/-- C124: whatever happens after a call, except that the caches are cleared, the compiler finds for its file the lines that were executed. -/
theorem source_kept {valid compiles : Text → Bool} {exec : Text → Env → Outcome} {globals : Env} {s : State} {i : Nat} {m : Macro}
    (hm : s.macros[i]? = some m) {r : Returned} {v : Val} (h : (call valid compiles exec globals s i r).2 = .ok v) {ops : List Op} (hops : NoClear ops)
    (disk : Text → Option (List Text)) :
    ∃ body ret ns ls, Proper valid r body ret ns ∧ ls.flatten = program body ∧
      (getLines disk (run valid compiles exec (call valid compiles exec globals s i r).1 ops) (fileName m.file m.line m.count)).2 = some ls := by
  obtain ⟨body, ret, ns, env, env', hp, hcomp, hl, hs, ho, hv⟩ := (call_right hm r v).mp h
  refine ⟨body, ret, ns, getSourceText (body ++ ["return ".toList ++ ret]), hp, getSourceText_proper _ _, ?_⟩
  have hc := check_proper.mpr ⟨body, ret, hp, rfl⟩
  have h1 : (call valid compiles exec globals s i r).1.lines.lookup (fileName m.file m.line m.count) =
      some (getSourceText (body ++ ["return ".toList ++ ret])) := by
    simp only [call, hm, hc, begin, getSourceText_proper, hcomp, hl, Bool.not_true, Option.isSome_none, Bool.false_eq_true, if_false]
    simp [List.lookup_cons]
  unfold getLines
  rw [run_keeps hops h1]

/-- What holds after every history in which macros are at different places. -/
structure Inv (s : State) : Prop where
  used : ∀ f l c, (s.lines.lookup (fileName f l c)).isSome → ∃ m ∈ s.macros, m.file = f ∧ m.line = l ∧ c < m.count
  places : (s.macros.map fun m => (m.file, m.line)).Nodup

theorem set_mem {ms : List Macro} {i : Nat} {m m' : Macro} (hm : ms[i]? = some m) (hx : m' ∈ ms) :
    ∃ m'' ∈ ms.set i { m with count := m.count + 1 }, m''.file = m'.file ∧ m''.line = m'.line ∧ m'.count ≤ m''.count := by
  obtain ⟨j, hj⟩ := List.mem_iff_getElem?.mp hx
  by_cases e : i = j
  · subst e
    rw [hm] at hj; cases hj
    refine ⟨{ m with count := m.count + 1 }, ?_, rfl, rfl, Nat.le_succ _⟩
    obtain ⟨hlt, _⟩ := List.getElem?_eq_some_iff.mp hm
    exact List.mem_iff_getElem?.mpr ⟨i, by rw [List.getElem?_set_self hlt]⟩
  · exact ⟨m', List.mem_iff_getElem?.mpr ⟨j, by rw [List.getElem?_set_ne e, hj]⟩, rfl, rfl, Nat.le_refl _⟩

theorem set_places {ms : List Macro} {i : Nat} {m : Macro} (hm : ms[i]? = some m) :
    (ms.set i { m with count := m.count + 1 }).map (fun m => (m.file, m.line)) = ms.map fun m => (m.file, m.line) := by
  apply List.ext_getElem?
  intro j
  rw [List.getElem?_map, List.getElem?_map, List.getElem?_set]
  split
  · next e =>
    subst e
    split
    · rw [hm]; rfl
    · next h => exact absurd (List.getElem?_eq_some_iff.mp hm).1 h
  · rfl

theorem step_inv {valid compiles : Text → Bool} {exec : Text → Env → Outcome} {s : State} {op : Op} (hs : Inv s)
    (hmake : ∀ f l, op = .make f l → (f, l) ∉ s.macros.map fun m => (m.file, m.line))
    (hdisk : ∀ disk path, op = .read disk path → ∀ f l c, disk (fileName f l c) = none) : Inv (step valid compiles exec s op) := by
  cases op with
  | make file line =>
    refine ⟨fun f l c h => ?_, ?_⟩
    · obtain ⟨m, hm, h⟩ := hs.used f l c h
      exact ⟨m, List.mem_append_left _ hm, h⟩
    · have := hmake file line rfl
      simp only [step, List.map_append, List.map_cons, List.map_nil]
      rw [List.nodup_append]
      exact ⟨hs.places, by simp, fun a ha b hb => by simp at hb; subst hb; rintro rfl; exact this ha⟩
  | clear => exact ⟨fun f l c h => by simp [step, clear] at h, hs.places⟩
  | call i g r =>
    have hmac := call_macros valid compiles exec g s i r
    have hplaces : ((call valid compiles exec g s i r).1.macros.map fun m => (m.file, m.line)).Nodup := by
      rcases hmac with h | ⟨m, hm, h⟩
      · rw [h]; exact hs.places
      · rw [h, set_places hm]; exact hs.places
    have hold : ∀ f l c, (s.lines.lookup (fileName f l c)).isSome →
        ∃ m ∈ (call valid compiles exec g s i r).1.macros, m.file = f ∧ m.line = l ∧ c < m.count := by
      intro f l c h
      obtain ⟨m', hm', h1, h2, h3⟩ := hs.used f l c h
      rcases hmac with h | ⟨m, hm, h⟩
      · rw [h]; exact ⟨m', hm', h1, h2, h3⟩
      · rw [h]
        obtain ⟨m'', hm'', e1, e2, e3⟩ := set_mem hm hm'
        exact ⟨m'', hm'', e1.trans h1, e2.trans h2, Nat.lt_of_lt_of_le h3 e3⟩
    refine ⟨fun f l c h => ?_, hplaces⟩
    rcases call_lines valid compiles exec g s i r with h' | ⟨m, x, hm, hn, h'⟩
    · simp only [step, h'] at h
      exact hold f l c h
    · by_cases e : fileName f l c = fileName m.file m.line m.count
      · obtain ⟨rfl, rfl, rfl⟩ := fileName_inj e
        refine ⟨{ m with count := m.count + 1 }, ?_, rfl, rfl, Nat.lt_succ_self _⟩
        simp only [step, h']
        obtain ⟨hlt, _⟩ := List.getElem?_eq_some_iff.mp hm
        exact List.mem_iff_getElem?.mpr ⟨i, by rw [List.getElem?_set_self hlt]⟩
      · simp only [step, h'] at h
        rw [lookup_cons_ne e] at h
        exact hold f l c h
  | read disk path =>
    obtain ⟨h1, h2⟩ := getLines_lines disk s path
    refine ⟨fun f l c h => ?_, by simp only [step, h1]; exact hs.places⟩
    simp only [step, h1]
    apply hs.used f l c
    rcases h2 with h' | ⟨x, hn, hd, h'⟩
    · simpa only [step, h'] using h
    · simp only [step, h'] at h
      rwa [lookup_cons_ne (fun e => by rw [← e, hdisk disk path rfl f l c] at hd; cases hd)] at h

theorem run_inv {valid compiles : Text → Bool} {exec : Text → Env → Outcome} {ops : List Op} (ha : Apart ops) (hd : NoStash ops) :
    ∀ {s : State}, Inv s → (∀ f l, .make f l ∈ ops → (f, l) ∉ s.macros.map fun m => (m.file, m.line)) → Inv (run valid compiles exec s ops) := by
  induction ops with
  | nil => exact fun h _ => h
  | cons op ops ih =>
    intro s hs hnew
    have hrest : Apart ops := by
      cases op <;> first | exact ha.2 | exact ha
    refine ih hrest (fun o ho => hd o (.tail _ ho)) (step_inv hs (fun f l e => hnew f l (by rw [e]; exact .head _)) (hd op (.head _))) ?_
    intro f l hmem
    have hold := hnew f l (.tail _ hmem)
    cases op with
    | make file line =>
      simp only [step, List.map_append, List.map_cons, List.map_nil, List.mem_append, List.mem_singleton, not_or]
      refine ⟨hold, fun e => ?_⟩
      cases e
      exact ha.1 _ hmem rfl
    | clear => exact hold
    | call i g r =>
      rcases call_macros valid compiles exec g s i r with h | ⟨m, hm, h⟩
      · simp only [step, h]; exact hold
      · simp only [step, h, set_places hm]; exact hold
    | read disk path => simp only [step, (getLines_lines disk s path).1]; exact hold

/-- C124: if every macro is made from a function at another place, no call ever fails because its file name is used. -/
theorem no_collision_partial {valid compiles : Text → Bool} {exec : Text → Env → Outcome} {ops : List Op} (ha : Apart ops) (hd : NoStash ops)
    (globals : Env) (i : Nat) (r : Returned) :
    (call valid compiles exec globals (run valid compiles exec ⟨[], [], []⟩ ops) i r).2 ≠ .error .collision := by
  have hs : Inv (run valid compiles exec ⟨[], [], []⟩ ops) :=
    run_inv ha hd ⟨fun f l c h => by simp at h, by simp⟩ (fun _ _ _ => by simp)
  generalize run valid compiles exec ⟨[], [], []⟩ ops = s at hs
  intro h
  unfold call at h
  split at h
  · cases h
  next m hm =>
  split at h
  · next e he =>
    cases h
    unfold checkFormat at he
    repeat' split at he
    all_goals cases he
  next lines ns _ =>
  unfold begin at h
  split at h
  · next s' e he =>
    cases h
    simp only at he
    split at he
    · cases he
    split at he
    · next hl =>
      obtain ⟨m', hm', e1, e2, e3⟩ := hs.used _ _ _ hl
      obtain ⟨j, hj⟩ := List.mem_iff_getElem?.mp hm'
      have hij : i = j := by
        have h1 : (s.macros.map fun m => (m.file, m.line))[i]? = some (m.file, m.line) := by rw [List.getElem?_map, hm]; rfl
        have h2 : (s.macros.map fun m => (m.file, m.line))[j]? = some (m.file, m.line) := by rw [List.getElem?_map, hj, ← e1, ← e2]; rfl
        obtain ⟨hi, _⟩ := List.getElem?_eq_some_iff.mp h1
        exact (List.getElem?_inj hi hs.places).mp (h1.trans h2.symm)
      subst hij
      rw [hm] at hj
      cases hj
      exact Nat.lt_irrefl _ e3
    · cases he
  · next s' name he =>
    simp only at h
    revert h
    generalize exec _ _ = o
    intro h
    cases o with
    | raised e => simp [finish] at h
    | nameError msg => simp only [finish] at h; split at h <;> cases h
    | done env => simp only [finish] at h; split at h <;> cases h

/-! ### Names that are missing -/

theorem splitSpaces_word : ∀ {w : Text} (rest : Text), ' ' ∉ w → splitSpaces (w ++ ' ' :: rest) = w :: splitSpaces rest
  | [], rest, _ => by simp [splitSpaces]
  | c :: w, rest, h => by
    have hc : c ≠ ' ' := fun e => h (by simp [e])
    rw [List.cons_append, splitSpaces, if_neg hc, splitSpaces_word rest (fun hm => h (.tail _ hm))]

/-- C124: the error for a name that the program does not find has that name. -/
theorem missing_right {env : Env} {ret x : Text} (hx : ' ' ∉ x) (he : env x = none) :
    finish env ret (.nameError ("name '".toList ++ x ++ "' is not defined".toList)) = .error (.missing x) := by
  have hn : nameIn ("name '".toList ++ x ++ "' is not defined".toList) = x := by
    have e : "name '".toList ++ x ++ "' is not defined".toList = "name".toList ++ ' ' :: (('\'' :: (x ++ ['\''])) ++ ' ' :: "is not defined".toList) := by
      have e1 : "name '".toList = "name".toList ++ [' ', '\''] := by decide +kernel
      have e2 : "' is not defined".toList = '\'' :: ' ' :: "is not defined".toList := by decide +kernel
      rw [e1, e2]
      simp
    unfold nameIn
    rw [e, splitSpaces_word _ (by decide +kernel), splitSpaces_word _ (by simpa using hx)]
    simp
  simp only [finish, hn, he, Option.isSome_none, Bool.false_eq_true, if_false]

end Verif.Macro
