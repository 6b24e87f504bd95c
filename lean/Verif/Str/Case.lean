import Verif.Str.Split
/-
Model and proofs for the case mapping of compiled strings (C27) and the predicates `isalpha`, `islower`, ... (C58).
/repo/typed_python/StringType.cpp.

The four templates `unicode_generic`, `capitalize_generic`, `swapcase_generic` and `title_generic` are the same loop with
another way to choose the mapping of a character; they are modelled as one loop that takes that choice. The Unicode database
is a parameter. The `int32_t` counters are modelled as natural numbers: strings of more than 2^31 characters are not covered.
-/
namespace Verif.Str

open Spec (Unicode)

/-! ### model: case mapping -/

/-- The result under construction, StringType.cpp:106-116: `allocated_points`, `new_pointcount`, `increment`, and the points
written so far (`k` is their number). -/
structure Buffer where
  allocated : Nat
  count : Nat
  increment : Nat
  data : List Nat
  deriving DecidableEq, Repr

/-- StringType.cpp:133-135: writes the points, cut to the width of the string. Writing past the allocation is an error. -/
def writePoints (w : Nat) (b : Buffer) : List Nat → Except Err Buffer
  | [] => .ok b
  | p :: t => if b.data.length < b.allocated then writePoints w { b with data := b.data ++ [p % 256 ^ w] } t else .error .oob

/-- StringType.cpp:120-132: makes room for the `n` points one character maps to. -/
def grow (b : Buffer) (n : Nat) : Buffer :=
  if n > 1 then
    if b.count + (n - 1) > b.allocated then
      { b with count := b.count + (n - 1), allocated := b.allocated + b.increment, increment := b.increment * 3 / 2 }
    else { b with count := b.count + (n - 1) }
  else b

/-- StringType.cpp:118-136 (and 215-230, 287-308, 374-412): the loop over the characters. `choose` gives the points the
character maps to, or none if it is copied, and the next state. -/
def mapLoop {σ : Type} (w : Nat) (choose : σ → Nat → σ × Option (List Nat)) : σ → Buffer → List Nat → Except Err Buffer
  | _, b, [] => .ok b
  | st, b, c :: t =>
    match (choose st c).2 with
    | none =>
      match writePoints w b [c] with
      | .error e => .error e
      | .ok b => mapLoop w choose (choose st c).1 b t
    | some ps =>
      match writePoints w (grow b ps.length) ps with
      | .error e => .error e
      | .ok b => mapLoop w choose (choose st c).1 b t

/-- StringType.cpp:103-146 `unicode_generic` (and the three others): the result has `new_pointcount` points; one that was not
written is an error. -/
def mapString {σ : Type} (choose : σ → Nat → σ × Option (List Nat)) (st : σ) (l : Layout) : Except Err Str :=
  match mapLoop l.width choose st ⟨l.points.length, l.points.length, 8, []⟩ l.points with
  | .error e => .error e
  | .ok b => if b.data.length < b.count then .error .oob else .ok (some ⟨l.width, b.data.take b.count⟩)

/-- The dispatch on the width, StringType.cpp:148-163 and the like. -/
def mapStr {σ : Type} (choose : σ → Nat → σ × Option (List Nat)) (st : σ) : Str → Except Err Str
  | none => .ok none
  | some l => if l.width = 1 ∨ l.width = 2 ∨ l.width = 4 then mapString choose st l else .ok none

/-- StringType.cpp:148-163 `upper`. -/
def upper (u : Unicode) (s : Str) : Except Err Str := mapStr (fun (_ : Unit) c => ((), some (u.upper c))) () s

/-- StringType.cpp:165-180 `lower`. -/
def lower (u : Unicode) (s : Str) : Except Err Str := mapStr (fun (_ : Unit) c => ((), some (u.lower c))) () s

/-- StringType.cpp:182-197 `casefold`. -/
def casefold (u : Unicode) (s : Str) : Except Err Str := mapStr (fun (_ : Unit) c => ((), some (u.folded c))) () s

/-- StringType.cpp:213-216: the first character and the others. -/
def chooseCapitalize (u : Unicode) (first : Bool) (c : Nat) : Bool × Option (List Nat) :=
  (false, some (if first then u.upper c else u.lower c))

/-- StringType.cpp:199-256 `capitalize`. -/
def capitalize (u : Unicode) (s : Str) : Except Err Str := mapStr (chooseCapitalize u) true s

/-- StringType.cpp:286-294. -/
def chooseSwap (u : Unicode) (_ : Unit) (c : Nat) : Unit × Option (List Nat) :=
  let makeUpper := u.isLower c
  let justCopy := !makeUpper && !u.isUpper c
  if justCopy then ((), none) else ((), some (if makeUpper then u.upper c else u.lower c))

/-- StringType.cpp:271-334 `swapcase`. -/
def swapcase (u : Unicode) (s : Str) : Except Err Str := mapStr (chooseSwap u) () s

/-- StringType.cpp:374-398: `word` says that the last character was a letter. -/
def chooseTitle (u : Unicode) (word : Bool) (c : Nat) : Bool × Option (List Nat) :=
  let makeLower := word && u.isAlpha c
  let makeTitle := !word && u.isAlpha c
  if !makeLower && !makeTitle then (false, none) else (true, some (if makeTitle then u.title c else u.lower c))

/-- StringType.cpp:359-438 `title`. -/
def title (u : Unicode) (s : Str) : Except Err Str := mapStr (chooseTitle u) false s

/-! ### model: predicates -/

/-- The flags `uprops` has for every code point. -/
structure Flags where
  alpha : Bool
  numeric : Bool
  decimal : Bool
  digit : Bool
  lower : Bool
  upper : Bool
  title : Bool
  printable : Bool
  space : Bool
  deriving DecidableEq, Repr

/-- The loop of StringType.cpp:812-815 and the like. -/
def every (q : Flags → Bool) (props : Nat → Flags) : List Nat → Bool
  | [] => true
  | c :: t => if !q (props c) then false else every q props t

/-- StringType.cpp:810-811, the null and the empty string. -/
def everyStr (q : Flags → Bool) (props : Nat → Flags) (s : Str) : Bool :=
  match s with
  | none => false
  | some l => if l.points.length = 0 then false else every q props l.points

/-- StringType.cpp:809-816. -/
def isalpha (props : Nat → Flags) (s : Str) : Bool := everyStr (fun f => f.alpha) props s
/-- StringType.cpp:818-830. -/
def isalnum (props : Nat → Flags) (s : Str) : Bool :=
  everyStr (fun f => !(!f.alpha && !f.numeric && !f.decimal && !f.digit)) props s
/-- StringType.cpp:832-839. -/
def isdecimal (props : Nat → Flags) (s : Str) : Bool := everyStr (fun f => f.decimal) props s
/-- StringType.cpp:841-851. -/
def isdigit (props : Nat → Flags) (s : Str) : Bool := everyStr (fun f => !(!f.decimal && !f.digit)) props s
/-- StringType.cpp:869-880. -/
def isnumeric (props : Nat → Flags) (s : Str) : Bool := everyStr (fun f => !(!f.decimal && !f.digit && !f.numeric)) props s
/-- StringType.cpp:891-898. -/
def isspace (props : Nat → Flags) (s : Str) : Bool := everyStr (fun f => f.space) props s

/-- StringType.cpp:882-889 `isprintable`. -/
def isprintable (props : Nat → Flags) (s : Str) : Bool :=
  match s with
  | none => true
  | some l => if l.points.length = 0 then true else every (fun f => f.printable) props l.points

/-- The loop of StringType.cpp:856-866: `bad` stops it, `good` sets `found_one`. -/
def caseLoop (bad good : Flags → Bool) (props : Nat → Flags) : Bool → List Nat → Bool
  | found, [] => found
  | found, c :: t => if bad (props c) then false else caseLoop bad good props (if good (props c) then true else found) t

/-- StringType.cpp:854-855. -/
def caseStr (bad good : Flags → Bool) (props : Nat → Flags) (s : Str) : Bool :=
  match s with
  | none => false
  | some l => if l.points.length = 0 then false else caseLoop bad good props false l.points

/-- StringType.cpp:853-867 `islower`. -/
def islower (props : Nat → Flags) (s : Str) : Bool := caseStr (fun f => f.upper || f.title) (fun f => f.lower) props s
/-- StringType.cpp:924-938 `isupper`. -/
def isupper (props : Nat → Flags) (s : Str) : Bool := caseStr (fun f => f.lower || f.title) (fun f => f.upper) props s

/-- StringType.cpp:905-921. -/
def titleLoop (props : Nat → Flags) : Bool → Bool → List Nat → Bool
  | _, found, [] => found
  | lastCased, found, c :: t =>
    let f := props c
    if f.upper && lastCased then false
    else if f.lower && !lastCased then false
    else if f.title && lastCased then false
    else
      let cased := f.upper || f.lower || f.title
      titleLoop props cased (if cased then true else found) t

/-- StringType.cpp:900-922 `istitle`. -/
def istitle (props : Nat → Flags) (s : Str) : Bool :=
  match s with
  | none => false
  | some l => if l.points.length = 0 then false else titleLoop props false false l.points

/-! ### proofs: case mapping -/

/-- The points the choices give, one character after the other. -/
def chosen {σ : Type} (choose : σ → Nat → σ × Option (List Nat)) : σ → List Nat → List Nat
  | _, [] => []
  | st, c :: t => ((choose st c).2.getD [c]) ++ chosen choose (choose st c).1 t

theorem writePoints_spec (w : Nat) : ∀ (ps : List Nat) (b : Buffer), b.data.length + ps.length ≤ b.allocated →
    writePoints w b ps = .ok { b with data := b.data ++ ps.map (· % 256 ^ w) }
  | [], b, _ => by simp [writePoints]
  | p :: t, b, h => by
    rw [List.length_cons] at h
    rw [writePoints, if_pos (by omega), writePoints_spec w t _ (by simp; omega)]
    simp

/-- The bookkeeping is right: there is room for what is written and for one point of each character still to come. -/
structure BufferOk (b : Buffer) (left : Nat) : Prop where
  count : b.count = b.data.length + left
  room : b.count ≤ b.allocated
  step : 8 ≤ b.increment

theorem mapLoop_spec {σ : Type} (w : Nat) (choose : σ → Nat → σ × Option (List Nat)) :
    ∀ (s : List Nat) (st : σ) (b : Buffer), BufferOk b s.length →
    (∀ st, ∀ c ∈ s, ∀ ps, (choose st c).2 = some ps → 1 ≤ ps.length ∧ ps.length ≤ 3) →
    ∃ b', mapLoop w choose st b s = .ok b' ∧ b'.data = b.data ++ (chosen choose st s).map (· % 256 ^ w) ∧ b'.count = b'.data.length
  | [], st, b, h, _ => ⟨b, rfl, by simp [chosen], by simpa using h.count⟩
  | c :: t, st, b, h, hn => by
    have h1 := h.count
    have h2 := h.room
    have h3 := h.step
    rw [List.length_cons] at h1
    rw [mapLoop]
    cases hc : (choose st c).2 with
    | none =>
      simp only
      rw [writePoints_spec w [c] b (by simp; omega)]
      simp only
      obtain ⟨b', e, hd, hk⟩ := mapLoop_spec w choose t (choose st c).1 { b with data := b.data ++ [c].map (· % 256 ^ w) }
        ⟨by simp; omega, h2, h3⟩ (fun st' c' hc' => hn st' c' (List.mem_cons_of_mem _ hc'))
      refine ⟨b', e, ?_, hk⟩
      rw [hd, chosen, hc]
      simp
    | some ps =>
      simp only
      obtain ⟨hp1, hp3⟩ := hn st c (List.mem_cons_self ..) ps hc
      have hg : (grow b ps.length).data = b.data ∧ (grow b ps.length).count = b.count + (ps.length - 1) ∧
          (grow b ps.length).count ≤ (grow b ps.length).allocated ∧ 8 ≤ (grow b ps.length).increment := by
        unfold grow
        by_cases ha : ps.length > 1
        · rw [if_pos ha]
          by_cases hb : b.count + (ps.length - 1) > b.allocated
          · rw [if_pos hb]
            refine ⟨rfl, rfl, ?_, ?_⟩ <;> simp only <;> omega
          · rw [if_neg hb]
            refine ⟨rfl, rfl, ?_, h3⟩
            simp only
            omega
        · rw [if_neg ha]
          exact ⟨rfl, by omega, h2, h3⟩
      generalize grow b ps.length = g at hg ⊢
      obtain ⟨g1, g2, g3, g4⟩ := hg
      rw [writePoints_spec w ps g (by rw [g1]; omega)]
      simp only
      obtain ⟨b', e, hd, hk⟩ := mapLoop_spec w choose t (choose st c).1 { g with data := g.data ++ ps.map (· % 256 ^ w) }
        ⟨by simp only [List.length_append, List.length_map, g1]; omega, g3, g4⟩ (fun st' c' hc' => hn st' c' (List.mem_cons_of_mem _ hc'))
      refine ⟨b', e, ?_, hk⟩
      rw [hd, chosen, hc, g1]
      simp

theorem mapStr_spec {σ : Type} (choose : σ → Nat → σ × Option (List Nat)) (st : σ) (s : Str) (hs : Valid s)
    (hn : ∀ st, ∀ c, ∀ ps, (choose st c).2 = some ps → 1 ≤ ps.length ∧ ps.length ≤ 3) :
    ∃ r, mapStr choose st s = .ok r ∧ width r = width s ∧ text r = (chosen choose st (text s)).map (· % 256 ^ width s) := by
  cases s with
  | none => exact ⟨none, rfl, rfl, rfl⟩
  | some l =>
    unfold mapStr
    simp only
    rw [if_pos hs.width]
    unfold mapString
    obtain ⟨b, e, h1, h2⟩ := mapLoop_spec l.width choose l.points st ⟨l.points.length, l.points.length, 8, []⟩
      ⟨by simp, Nat.le_refl _, Nat.le_refl _⟩ (fun st c _ => hn st c)
    rw [e]
    simp only
    rw [if_neg (by omega)]
    refine ⟨_, rfl, rfl, ?_⟩
    change b.data.take b.count = _
    rw [h2, List.take_length, h1]
    rfl

theorem map_mod_self (w : Nat) (ps : List Nat) (h : ∀ p ∈ ps, p < 256 ^ w) : ps.map (· % 256 ^ w) = ps := by
  conv_rhs => rw [← List.map_id ps]
  exact List.map_congr_left (fun p hp => Nat.mod_eq_of_lt (h p hp))

theorem chosen_flatMap (f : Nat → List Nat) : ∀ s, chosen (fun (_ : Unit) c => ((), some (f c))) () s = s.flatMap f
  | [] => rfl
  | c :: t => by
    rw [chosen, chosen_flatMap f t]
    rfl

theorem lower_no_sigma (u : Unicode) : ∀ (s before : List Nat), (∀ c ∈ s, c ≠ 0x3A3) → Spec.lower u before s = s.flatMap u.lower
  | [], _, _ => rfl
  | c :: t, before, h => by
    rw [Spec.lower, lower_no_sigma u t _ (fun c hc => h c (List.mem_cons_of_mem _ hc)), Spec.lowerAt,
      if_neg (h c (List.mem_cons_self ..)), List.flatMap_cons]

/-- C27: `upper`, `lower` and `casefold` never write outside the result they allocate, whatever the string; the result is
the concatenation of the mappings of the characters, each cut to the storage width of the string. -/
theorem case_map (u : Unicode) (hu : u.Sane) (s : Str) (hs : Valid s) :
    (∃ r, upper u s = .ok r ∧ text r = ((text s).flatMap u.upper).map (· % 256 ^ width s)) ∧
    (∃ r, lower u s = .ok r ∧ text r = ((text s).flatMap u.lower).map (· % 256 ^ width s)) ∧
    (∃ r, casefold u s = .ok r ∧ text r = ((text s).flatMap u.folded).map (· % 256 ^ width s)) := by
  have hh : ∀ f : Nat → List Nat, (∀ c, 1 ≤ (f c).length ∧ (f c).length ≤ 3) →
      ∃ r, mapStr (fun (_ : Unit) c => ((), some (f c))) () s = .ok r ∧ text r = ((text s).flatMap f).map (· % 256 ^ width s) := by
    intro f hf
    obtain ⟨r, e, _, ht⟩ := mapStr_spec (fun (_ : Unit) c => ((), some (f c))) () s hs (fun _ c ps h => by
      injection h with h
      rw [← h]
      exact hf c)
    exact ⟨r, e, by rw [ht, chosen_flatMap]⟩
  exact ⟨hh _ hu.upper, hh _ hu.lower, hh _ hu.folded⟩

/-- C27 for the interpreter's results: if every mapped character fits the storage width, `upper`, `lower` and `casefold` are
Python's. Missing: characters whose mapping is wider (`upper_truncates`), and a Greek sigma for `lower`
(`lower_ignores_final_sigma`). -/
theorem case_map_partial (u : Unicode) (hu : u.Sane) (s : Str) (hs : Valid s) :
    ((∀ c ∈ text s, ∀ p ∈ u.upper c, p < 256 ^ width s) → ∃ r, upper u s = .ok r ∧ text r = (text s).flatMap u.upper) ∧
    ((∀ c ∈ text s, ∀ p ∈ u.folded c, p < 256 ^ width s) → ∃ r, casefold u s = .ok r ∧ text r = (text s).flatMap u.folded) ∧
    ((∀ c ∈ text s, c ≠ 0x3A3 ∧ ∀ p ∈ u.lower c, p < 256 ^ width s) →
      ∃ r, lower u s = .ok r ∧ text r = Spec.lower u [] (text s)) := by
  obtain ⟨⟨a, ea, ha⟩, ⟨b, eb, hb⟩, ⟨c, ec, hc⟩⟩ := case_map u hu s hs
  have hfit : ∀ f : Nat → List Nat, (∀ c ∈ text s, ∀ p ∈ f c, p < 256 ^ width s) → ∀ p ∈ (text s).flatMap f, p < 256 ^ width s := by
    intro f h p hp
    obtain ⟨c, hc, hp⟩ := List.mem_flatMap.1 hp
    exact h c hc p hp
  refine ⟨fun h => ⟨a, ea, ?_⟩, fun h => ⟨c, ec, ?_⟩, fun h => ⟨b, eb, ?_⟩⟩
  · rw [ha, map_mod_self _ _ (hfit _ h)]
  · rw [hc, map_mod_self _ _ (hfit _ h)]
  · rw [hb, map_mod_self _ _ (hfit _ (fun c hc => (h c hc).2)), lower_no_sigma _ _ _ (fun c hc => (h c hc).1)]

theorem chosen_capitalize (u : Unicode) : ∀ s, chosen (chooseCapitalize u) false s = s.flatMap u.lower
  | [] => rfl
  | c :: t => by
    rw [chosen, List.flatMap_cons, ← chosen_capitalize u t]
    rfl

/-- C27: `capitalize` writes only into its result: the upper case of the first character and the lower case of the others, cut
to the width of the string. -/
theorem capitalize_map (u : Unicode) (hu : u.Sane) (s : Str) (hs : Valid s) : ∃ r, capitalize u s = .ok r ∧
    text r = ((match text s with | [] => [] | c :: t => u.upper c ++ t.flatMap u.lower) : List Nat).map (· % 256 ^ width s) := by
  obtain ⟨r, e, _, ht⟩ := mapStr_spec (chooseCapitalize u) true s hs (fun st c ps h => by
    unfold chooseCapitalize at h
    injection h with h
    rw [← h]
    split
    · exact hu.upper c
    · exact hu.lower c)
  refine ⟨r, e, ?_⟩
  rw [ht]
  cases text s with
  | nil => rfl
  | cons c t =>
    rw [chosen]
    change List.map _ (u.upper c ++ chosen (chooseCapitalize u) false t) = _
    rw [chosen_capitalize]

/-- C27: `capitalize` is Python's if the mapped characters fit, there is no Greek sigma after the first character, and the
title case of the first character is its upper case. -/
theorem capitalize_partial (u : Unicode) (hu : u.Sane) (s : Str) (hs : Valid s) (c : Nat) (t : List Nat) (hc : text s = c :: t)
    (ht : u.title c = u.upper c) (hsig : ∀ d ∈ t, d ≠ 0x3A3) (hfu : ∀ p ∈ u.upper c, p < 256 ^ width s)
    (hfl : ∀ d ∈ t, ∀ p ∈ u.lower d, p < 256 ^ width s) :
    ∃ r, capitalize u s = .ok r ∧ text r = Spec.capitalize u (text s) := by
  obtain ⟨r, e, h⟩ := capitalize_map u hu s hs
  refine ⟨r, e, ?_⟩
  rw [h, hc]
  simp only
  rw [map_mod_self, Spec.capitalize, ht, lower_no_sigma _ _ _ hsig]
  intro p hp
  rcases List.mem_append.1 hp with hp | hp
  · exact hfu p hp
  · obtain ⟨d, hd, hp⟩ := List.mem_flatMap.1 hp
    exact hfl d hd p hp

theorem chosen_swap (u : Unicode) (hu : u.Sane) : ∀ (s before : List Nat), (∀ c ∈ s, c ≠ 0x3A3) →
    chosen (chooseSwap u) () s = Spec.swapcase u before s
  | [], _, _ => rfl
  | c :: t, before, h => by
    rw [chosen, Spec.swapcase]
    have e := chosen_swap u hu t (c :: before) (fun c hc => h c (List.mem_cons_of_mem _ hc))
    have hd := hu.disjoint c
    rw [Spec.lowerAt, if_neg (h c (List.mem_cons_self ..)), ← e]
    unfold chooseSwap
    cases h1 : u.isUpper c <;> cases h2 : u.isLower c <;> simp_all

/-- C27: `swapcase` writes only into its result, and is Python's if the mapped characters fit and there is no Greek sigma. -/
theorem swapcase_partial (u : Unicode) (hu : u.Sane) (s : Str) (hs : Valid s) (hsig : ∀ c ∈ text s, c ≠ 0x3A3) :
    ∃ r, swapcase u s = .ok r ∧ text r = (Spec.swapcase u [] (text s)).map (· % 256 ^ width s) := by
  obtain ⟨r, e, _, ht⟩ := mapStr_spec (chooseSwap u) () s hs (fun st c ps h => by
    unfold chooseSwap at h
    simp only at h
    split at h
    · simp at h
    · injection h with h
      rw [← h]
      split
      · exact hu.upper c
      · exact hu.lower c)
  exact ⟨r, e, by rw [ht, chosen_swap u hu _ [] hsig]⟩

theorem chosen_title (u : Unicode) : ∀ (s before : List Nat) (word : Bool), word = before.head?.any u.isCased →
    (∀ c ∈ s, c ≠ 0x3A3) → (∀ c ∈ s, u.isCased c = u.isAlpha c ∧ (u.isAlpha c = false → u.title c = [c] ∧ u.lower c = [c])) →
    chosen (chooseTitle u) word s = Spec.title u before s
  | [], _, _, _, _, _ => rfl
  | c :: t, before, word, hw, h, hc => by
    obtain ⟨h1, h2⟩ := hc c (List.mem_cons_self ..)
    rw [chosen, Spec.title, Spec.lowerAt, if_neg (h c (List.mem_cons_self ..)), ← hw,
      ← chosen_title u t (c :: before) (u.isCased c) rfl (fun c hc => h c (List.mem_cons_of_mem _ hc))
        (fun d hd => hc d (List.mem_cons_of_mem _ hd)), h1]
    unfold chooseTitle
    cases word <;> cases h3 : u.isAlpha c <;> simp_all

/-- C27: `title` writes only into its result, and is Python's if the mapped characters fit, there is no Greek sigma, and the
letters of the string are its cased characters. -/
theorem title_partial (u : Unicode) (hu : u.Sane) (s : Str) (hs : Valid s) (hsig : ∀ c ∈ text s, c ≠ 0x3A3)
    (hc : ∀ c ∈ text s, u.isCased c = u.isAlpha c ∧ (u.isAlpha c = false → u.title c = [c] ∧ u.lower c = [c])) :
    ∃ r, title u s = .ok r ∧ text r = (Spec.title u [] (text s)).map (· % 256 ^ width s) := by
  obtain ⟨r, e, _, ht⟩ := mapStr_spec (chooseTitle u) false s hs (fun st c ps h => by
    unfold chooseTitle at h
    simp only at h
    split at h
    · simp at h
    · injection h with h
      rw [← h]
      split
      · exact hu.title c
      · exact hu.lower c)
  exact ⟨r, e, by rw [ht, chosen_title u _ [] false rfl hsig hc]⟩

/-- No result of the case mappings is left unwritten or written outside its memory, whatever the string: `swapcase` and
`title` too. -/
theorem case_safe (u : Unicode) (hu : u.Sane) (s : Str) (hs : Valid s) :
    ∃ a b, swapcase u s = .ok a ∧ title u s = .ok b := by
  obtain ⟨a, e, _, _⟩ := mapStr_spec (chooseSwap u) () s hs (fun st c ps h => by
    unfold chooseSwap at h
    simp only at h
    split at h
    · simp at h
    · injection h with h
      rw [← h]
      split
      · exact hu.upper c
      · exact hu.lower c)
  obtain ⟨b, e', _, _⟩ := mapStr_spec (chooseTitle u) false s hs (fun st c ps h => by
    unfold chooseTitle at h
    simp only at h
    split at h
    · simp at h
    · injection h with h
      rw [← h]
      split
      · exact hu.title c
      · exact hu.lower c)
  exact ⟨a, b, e, e'⟩

/-- A part of the database: a-z, A-Z, ß, ŉ and the Greek sigma. -/
def sampleDb : Unicode where
  upper c := if c = 0xDF then [83, 83] else if c = 0x149 then [0x2BC, 78] else if 97 ≤ c ∧ c ≤ 122 then [c - 32] else [c]
  lower c := if c = 0x3A3 then [0x3C3] else if 65 ≤ c ∧ c ≤ 90 then [c + 32] else [c]
  folded c := if c = 0xDF then [115, 115] else if 65 ≤ c ∧ c ≤ 90 then [c + 32] else [c]
  title c := if c = 0xDF then [83, 115] else if 97 ≤ c ∧ c ≤ 122 then [c - 32] else [c]
  isUpper c := decide (65 ≤ c ∧ c ≤ 90) || c == 0x3A3
  isLower c := decide (97 ≤ c ∧ c ≤ 122) || c == 0xDF
  isTitle _ := false
  isAlpha c := decide (97 ≤ c ∧ c ≤ 122) || decide (65 ≤ c ∧ c ≤ 90) || c == 0xDF || c == 0x3A3
  isCased c := decide (97 ≤ c ∧ c ≤ 122) || decide (65 ≤ c ∧ c ≤ 90) || c == 0xDF || c == 0x3A3
  isIgnorable c := c == 39

theorem sampleDb_sane : sampleDb.Sane := by
  constructor
  · intro c; unfold sampleDb; simp only; split <;> [skip; (split <;> [skip; split])] <;> simp
  · intro c; unfold sampleDb; simp only; split <;> [skip; split] <;> simp
  · intro c; unfold sampleDb; simp only; split <;> [skip; split] <;> simp
  · intro c; unfold sampleDb; simp only; split <;> [skip; split] <;> simp
  · intro c
    unfold sampleDb
    simp
    omega

/-- "straße".upper() grows past the first allocation and meets the hypotheses. -/
example : upper sampleDb (some ⟨1, [115, 116, 114, 97, 0xDF, 101]⟩) = .ok (some ⟨1, [83, 84, 82, 65, 83, 83, 69]⟩) ∧
    title sampleDb (some ⟨1, [104, 73, 32, 0xDF, 39, 115]⟩) = .ok (some ⟨1, [72, 105, 32, 83, 115, 39, 83]⟩) ∧
    swapcase sampleDb (some ⟨1, [104, 73, 32, 0xDF]⟩) = .ok (some ⟨1, [72, 105, 32, 83, 83]⟩) ∧
    capitalize sampleDb (some ⟨1, [104, 73, 32, 73]⟩) = .ok (some ⟨1, [72, 105, 32, 105]⟩) ∧
    Valid (some ⟨1, [115, 116, 114, 97, 0xDF, 101]⟩) ∧
    (∀ c ∈ text (some ⟨1, [115, 116, 114, 97, 0xDF, 101]⟩), ∀ p ∈ sampleDb.upper c, p < 256 ^ width (some ⟨1, []⟩)) ∧
    (∀ c ∈ [104, 73, 32, 0xDF, 39, 115], sampleDb.isCased c = sampleDb.isAlpha c ∧
      (sampleDb.isAlpha c = false → sampleDb.title c = [c] ∧ sampleDb.lower c = [c])) :=
  ⟨by decide, by decide, by decide, by decide, ⟨by simp, by decide, by decide⟩, by decide, by decide⟩

/-- The code violates C27: where the upper case of ÿ (U+00FF) is Ÿ (U+0178), as it is in Unicode, compiled `"ÿ".upper()` is "x".
-/
theorem upper_truncates (u : Unicode) (h : u.upper 0xFF = [0x178]) :
    upper u (some ⟨1, [0xFF]⟩) = .ok (some ⟨1, [120]⟩) := by
  unfold upper mapStr mapString
  simp [mapLoop, h, grow, writePoints]

/-- The code differs from Python: compiled `"AΣ".lower()` ends in σ, in the interpreter in ς. -/
theorem lower_ignores_final_sigma : lower sampleDb (some ⟨2, [65, 0x3A3]⟩) = .ok (some ⟨2, [97, 0x3C3]⟩) ∧
    Spec.lower sampleDb [] [65, 0x3A3] = [97, 0x3C2] := by decide

/-- The code differs from Python: a letter that has no case, as the Hebrew א, begins a word, so that compiled `"אa".title()` leaves
the "a"; the interpreter makes it "A". -/
theorem title_after_uncased (u : Unicode) (h1 : u.isAlpha 0x5D0 = true) (h2 : u.isCased 0x5D0 = false) (h3 : u.title 0x5D0 = [0x5D0])
    (h4 : u.isAlpha 97 = true) (h5 : u.lower 97 = [97]) (h6 : u.title 97 = [65]) :
    title u (some ⟨2, [0x5D0, 97]⟩) = .ok (some ⟨2, [0x5D0, 97]⟩) ∧ Spec.title u [] [0x5D0, 97] = [0x5D0, 65] := by
  constructor
  · unfold title mapStr mapString
    simp [mapLoop, chooseTitle, h1, h3, h4, h5, grow, writePoints]
  · simp [Spec.title, h2, h3, h6]

/-- The code differs from Python 3.8 on: `capitalize` uses the upper case of the first character and not its title case, as for
ǆ (U+01C6). -/
theorem capitalize_not_title (u : Unicode) (h1 : u.upper 0x1C6 = [0x1C4]) (h2 : u.title 0x1C6 = [0x1C5]) :
    capitalize u (some ⟨2, [0x1C6]⟩) = .ok (some ⟨2, [0x1C4]⟩) ∧ Spec.capitalize u [0x1C6] = [0x1C5] := by
  constructor
  · unfold capitalize mapStr mapString
    simp [mapLoop, chooseCapitalize, h1, grow, writePoints]
  · simp [Spec.capitalize, Spec.lower, h2]

/-- The code violates C21: the lower case of the Kelvin sign (U+212A) is "k" stored with two bytes, which is `==` "k" and has
another hash. -/
theorem kelvin (u : Unicode) (h : u.lower 0x212A = [107]) : lower u (some ⟨2, [0x212A]⟩) = .ok (some ⟨2, [107]⟩) ∧
    cmp .eq (some ⟨2, [107]⟩) (some ⟨1, [107]⟩) = .ok true ∧ hash (some ⟨2, [107]⟩) ≠ hash (some ⟨1, [107]⟩) := by
  refine ⟨?_, by decide +kernel, by decide +kernel⟩
  unfold lower mapStr mapString
  simp [mapLoop, h, grow, writePoints]

/-! ### proofs: predicates -/

theorem every_spec (q : Flags → Bool) (props : Nat → Flags) : ∀ s, every q props s = true ↔ ∀ c ∈ s, q (props c) = true
  | [] => by simp [every]
  | c :: t => by
    rw [every, List.forall_mem_cons, ← every_spec q props t]
    cases q (props c) <;> simp

theorem everyStr_spec (q : Flags → Bool) (props : Nat → Flags) (s : Str) :
    everyStr q props s = true ↔ Spec.AllAre (fun c => q (props c) = true) (text s) := by
  unfold everyStr Spec.AllAre
  cases s with
  | none => simp [text]
  | some l =>
    simp only
    change _ ↔ l.points ≠ [] ∧ ∀ c ∈ l.points, _
    by_cases h : l.points.length = 0
    · rw [if_pos h]
      simp [List.length_eq_zero_iff.1 h]
    · rw [if_neg h, every_spec]
      have : l.points ≠ [] := fun e => h (by rw [e]; rfl)
      simp [this]

/-- C58: the predicates that ask every character. -/
theorem predicates_as_python (props : Nat → Flags) (s : Str) :
    (isalpha props s = true ↔ Spec.AllAre (fun c => (props c).alpha = true) (text s)) ∧
    (isalnum props s = true ↔ Spec.AllAre (fun c => (props c).alpha = true ∨ (props c).decimal = true ∨ (props c).digit = true ∨
      (props c).numeric = true) (text s)) ∧
    (isdecimal props s = true ↔ Spec.AllAre (fun c => (props c).decimal = true) (text s)) ∧
    (isdigit props s = true ↔ Spec.AllAre (fun c => (props c).decimal = true ∨ (props c).digit = true) (text s)) ∧
    (isnumeric props s = true ↔ Spec.AllAre (fun c => (props c).decimal = true ∨ (props c).digit = true ∨
      (props c).numeric = true) (text s)) ∧
    (isspace props s = true ↔ Spec.AllAre (fun c => (props c).space = true) (text s)) ∧
    (isprintable props s = true ↔ ∀ c ∈ text s, (props c).printable = true) := by
  have hcongr : ∀ p q : Nat → Prop, (∀ c, p c ↔ q c) → (Spec.AllAre p (text s) ↔ Spec.AllAre q (text s)) := by
    intro p q h
    unfold Spec.AllAre
    simp only [h]
  refine ⟨everyStr_spec _ _ _, ?_, everyStr_spec _ _ _, ?_, ?_, everyStr_spec _ _ _, ?_⟩
  · rw [isalnum, everyStr_spec]
    refine hcongr _ _ (fun c => ?_)
    cases (props c).alpha <;> cases (props c).decimal <;> cases (props c).digit <;> cases (props c).numeric <;> simp
  · rw [isdigit, everyStr_spec]
    refine hcongr _ _ (fun c => ?_)
    cases (props c).decimal <;> cases (props c).digit <;> simp
  · rw [isnumeric, everyStr_spec]
    refine hcongr _ _ (fun c => ?_)
    cases (props c).decimal <;> cases (props c).digit <;> cases (props c).numeric <;> simp
  · unfold isprintable
    cases s with
    | none => simp [text]
    | some l =>
      simp only
      change _ ↔ ∀ c ∈ l.points, _
      by_cases h : l.points.length = 0
      · rw [if_pos h]
        simp [List.length_eq_zero_iff.1 h]
      · rw [if_neg h, every_spec]

theorem caseLoop_spec (bad good : Flags → Bool) (props : Nat → Flags) : ∀ (s : List Nat) (found : Bool),
    caseLoop bad good props found s = true ↔ (found = true ∨ ∃ c ∈ s, good (props c) = true) ∧ ∀ c ∈ s, bad (props c) = false
  | [], found => by simp [caseLoop]
  | c :: t, found => by
    rw [caseLoop]
    cases hb : bad (props c) with
    | true => simp [hb]
    | false =>
      simp only [Bool.false_eq_true, if_false]
      rw [caseLoop_spec bad good props t]
      cases hg : good (props c) <;> simp [hb, hg]

theorem caseStr_spec (bad good : Flags → Bool) (props : Nat → Flags) (s : Str) :
    caseStr bad good props s = true ↔ (∃ c ∈ text s, good (props c) = true) ∧ ∀ c ∈ text s, bad (props c) = false := by
  unfold caseStr
  cases s with
  | none => simp [text]
  | some l =>
    simp only
    change _ ↔ (∃ c ∈ l.points, _) ∧ ∀ c ∈ l.points, _
    by_cases h : l.points.length = 0
    · rw [if_pos h]
      simp [List.length_eq_zero_iff.1 h]
    · rw [if_neg h, caseLoop_spec]
      simp

/-- C58: `islower` and `isupper`. -/
theorem case_predicates_as_python (props : Nat → Flags) (s : Str) :
    (islower props s = true ↔
      Spec.OfCase (fun c => (props c).lower) (fun c => (props c).upper) (fun c => (props c).title) (text s)) ∧
    (isupper props s = true ↔
      Spec.OfCase (fun c => (props c).upper) (fun c => (props c).lower) (fun c => (props c).title) (text s)) := by
  unfold islower isupper Spec.OfCase
  rw [caseStr_spec, caseStr_spec]
  simp

/-- The flags of a cased letter. -/
def cased (f : Flags) : Bool := f.upper || f.lower || f.title

/-- A character is in its place after a cased letter (`last`), or not. -/
def placed (last : Bool) (f : Flags) : Bool := !(f.upper && last) && !(f.lower && !last) && !(f.title && last)

theorem titleLoop_cons (props : Nat → Flags) (last found : Bool) (c : Nat) (t : List Nat) :
    titleLoop props last found (c :: t) =
      if placed last (props c) then titleLoop props (cased (props c)) (if cased (props c) then true else found) t else false := by
  rw [titleLoop]
  unfold placed cased
  cases h1 : (props c).upper <;> cases h2 : (props c).lower <;> cases h3 : (props c).title <;> cases last <;> simp

theorem titleLoop_spec (props : Nat → Flags) : ∀ (s : List Nat) (last found : Bool),
    titleLoop props last found s = true ↔ (found = true ∨ ∃ c ∈ s, cased (props c) = true) ∧
      ∀ a b c, s = a ++ c :: b → placed ((a.getLast?.map (fun d => cased (props d))).getD last) (props c) = true
  | [], last, found => by simp [titleLoop]
  | c :: t, last, found => by
    rw [titleLoop_cons]
    have hall : (∀ a b d, c :: t = a ++ d :: b → placed ((a.getLast?.map (fun e => cased (props e))).getD last) (props d) = true) ↔
        placed last (props c) = true ∧
        ∀ a b d, t = a ++ d :: b → placed ((a.getLast?.map (fun e => cased (props e))).getD (cased (props c))) (props d) = true := by
      constructor
      · intro h
        refine ⟨h [] t c rfl, fun a b d e => ?_⟩
        have h1 := h (c :: a) b d (by rw [e]; rfl)
        cases a with
        | nil => exact h1
        | cons x a =>
          rw [List.getLast?_cons_cons] at h1
          cases hl : (x :: a).getLast? with
          | none => simp at hl
          | some y => rw [hl] at h1; exact h1
      · rintro ⟨h1, h2⟩ a b d e
        cases a with
        | nil =>
          rw [List.nil_append] at e
          injection e with e1 e2
          rw [← e1]
          exact h1
        | cons x a =>
          rw [List.cons_append] at e
          injection e with e1 e2
          have h3 := h2 a b d e2
          cases a with
          | nil => rw [← e1]; exact h3
          | cons y a =>
            rw [List.getLast?_cons_cons]
            cases hl : (y :: a).getLast? with
            | none => simp at hl
            | some z => rw [hl] at h3; exact h3
    rw [hall]
    cases hp : placed last (props c) with
    | false => simp
    | true =>
      rw [if_pos rfl, titleLoop_spec props t]
      cases hc : cased (props c) <;> simp [hc]

/-- C58: `istitle`. -/
theorem istitle_as_python (props : Nat → Flags) (s : Str) :
    istitle props s = true ↔
      Spec.Titled (fun c => (props c).upper) (fun c => (props c).lower) (fun c => (props c).title) (text s) := by
  have hcore : ∀ l : List Nat, titleLoop props false false l = true ↔
      Spec.Titled (fun c => (props c).upper) (fun c => (props c).lower) (fun c => (props c).title) l := by
    intro l
    rw [titleLoop_spec]
    unfold Spec.Titled
    have hcas : ∀ d, cased (props d) = true ↔ ((props d).upper = true ∨ (props d).lower = true ∨ (props d).title = true) := by
      intro d
      unfold cased
      cases (props d).upper <;> cases (props d).lower <;> cases (props d).title <;> simp
    have hncas : ∀ d, cased (props d) = false ↔ ((props d).upper = false ∧ (props d).lower = false ∧ (props d).title = false) := by
      intro d
      unfold cased
      cases (props d).upper <;> cases (props d).lower <;> cases (props d).title <;> simp
    have hplace : ∀ (a : List Nat) (c : Nat), placed ((a.getLast?.map (fun d => cased (props d))).getD false) (props c) = true ↔
        ((props c).upper = true ∨ (props c).title = true → ∀ d, a.getLast? = some d → cased (props d) = false) ∧
        ((props c).lower = true → ∃ d, a.getLast? = some d ∧ cased (props d) = true) := by
      intro a c
      cases a.getLast? with
      | none =>
        unfold placed
        cases (props c).upper <;> cases (props c).lower <;> cases (props c).title <;> simp
      | some d =>
        unfold placed
        cases (props c).upper <;> cases (props c).lower <;> cases (props c).title <;> cases cased (props d) <;> simp
    simp only [hplace, ← hcas, ← hncas]
    constructor
    · rintro ⟨h1, h2⟩
      refine ⟨by simpa using h1, fun a b c e => (h2 a b c e).1, fun a b c e => (h2 a b c e).2⟩
    · rintro ⟨h1, h2, h3⟩
      exact ⟨Or.inr h1, fun a b c e => ⟨h2 a b c e, h3 a b c e⟩⟩
  unfold istitle
  cases s with
  | none =>
    simp only
    rw [← show titleLoop props false false [] = false from rfl, hcore]
    rfl
  | some l =>
    simp only
    by_cases h : l.points.length = 0
    · rw [if_pos h, ← show titleLoop props false false [] = false from rfl, hcore, ← List.length_eq_zero_iff.1 h]
      rfl
    · rw [if_neg h, hcore]
      rfl

/-- Flags for ASCII letters, digits and spaces. -/
def ascii (c : Nat) : Flags :=
  let up := decide (65 ≤ c ∧ c ≤ 90)
  let low := decide (97 ≤ c ∧ c ≤ 122)
  let dig := decide (48 ≤ c ∧ c ≤ 57)
  ⟨up || low, dig, dig, dig, low, up, false, decide (32 ≤ c ∧ c < 127), c == 32 || decide (9 ≤ c ∧ c ≤ 13)⟩

/-- "Ab Cd" is titled, "aB" is not; "a1" is lower case; "" is printable and not alphabetic. -/
example : istitle ascii (some ⟨1, [65, 98, 32, 67, 100]⟩) = true ∧ istitle ascii (some ⟨1, [97, 66]⟩) = false ∧
    islower ascii (some ⟨1, [97, 49]⟩) = true ∧ isupper ascii (some ⟨1, [49]⟩) = false ∧ isprintable ascii none = true ∧
    isalpha ascii none = false ∧ isalnum ascii (some ⟨1, [97, 49]⟩) = true := by decide

end Verif.Str
