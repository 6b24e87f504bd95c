import Verif.ListOf.CompiledRefine
/-
C47: ListOf behaves as a Python list.
-/
namespace Verif.ListOf
open Spec

variable {α : Type}

/-- What can be observed of a list object: its length, its capacity, and the element at each index. -/
def Shows (s : L α) (xs : List α) : Prop :=
  s.count = xs.length ∧ s.count ≤ s.reserved ∧ ∀ (i : Nat) (h : i < xs.length), read s.cells i = .ok xs[i]

/-- An object that represents `xs` shows it. -/
theorem rep_shows {s : L α} {xs : List α} (h : Rep s xs) : Shows s xs :=
  ⟨h.count, by rw [h.count]; exact h.room, fun i hi => rep_read h i hi⟩

/-- An object shows at most one sequence. -/
theorem shows_unique {s : L α} {xs ys : List α} (h : Shows s xs) (h' : Shows s ys) : xs = ys := by
  apply List.ext_getElem
  · rw [← h.1, h'.1]
  · intro i h1 h2
    have a := h.2.2 i h1
    rw [h'.2.2 i h2] at a
    exact (Except.ok.inj a).symm

/-- Each call of the history stays within the sizes and indices the representation has room for. -/
def WithinAll (d : α) : List α → List (Op α) → Prop
  | _, [] => True
  | xs, op :: ops => Within d xs op ∧ WithinAll d (step d xs op).1 ops

theorem run_ok (d : α) (ops : List (Op α)) : ∀ {s : L α} {xs : List α} (_ : Rep s xs) (_ : xs.length < 2 ^ 30) (_ : WithinAll d xs ops),
    ∃ s', run d ops s = .ok s' ∧ Rep s' (ops.foldl (fun xs op => (step d xs op).1) xs) := by
  induction ops with
  | nil =>
    intro s xs h _ _
    exact ⟨s, rfl, h⟩
  | cons op ops ih =>
    intro s xs h hx hw
    obtain ⟨s1, r, e, h1, _⟩ := apply_ok d h op hw.1 hx
    obtain ⟨s2, e2, h2⟩ := ih h1 hw.1.1 hw.2
    exact ⟨s2, by simp only [run, e, e2], h2⟩

/-- C47: after any history of calls a ListOf holds exactly what a Python list would hold, no call reads or writes outside the
live elements, and the capacity is at least the length. -/
theorem history_as_python_list (d : α) (ops : List (Op α)) (h : WithinAll d [] ops) :
    ∃ s, run d ops empty = .ok s ∧ Shows s (contents d ops) := by
  obtain ⟨s, e, hr⟩ := run_ok d ops (rep_empty (α := α)) (by simp) h
  exact ⟨s, e, rep_shows hr⟩

theorem withinAll_snoc (d : α) (ops : List (Op α)) (op : Op α) : ∀ xs, WithinAll d xs (ops ++ [op]) →
    WithinAll d xs ops ∧ Within d (ops.foldl (fun xs op => (step d xs op).1) xs) op := by
  induction ops with
  | nil =>
    intro xs h
    exact ⟨trivial, h.1⟩
  | cons o ops ih =>
    intro xs h
    obtain ⟨a, b⟩ := ih _ h.2
    exact ⟨⟨h.1, a⟩, b⟩

theorem contents_short (d : α) (ops : List (Op α)) : ∀ xs : List α, xs.length < 2 ^ 30 → WithinAll d xs ops →
    (ops.foldl (fun xs op => (step d xs op).1) xs).length < 2 ^ 30 := by
  induction ops with
  | nil =>
    intro xs h _
    exact h
  | cons o ops ih =>
    intro xs _ hw
    exact ih _ hw.1.1 hw.2

/-- C47: the last call of any history returns what it returns on a Python list - the same value, the same exception, or a new
list with the same elements. -/
theorem call_as_on_python_list (d : α) (ops : List (Op α)) (op : Op α) (h : WithinAll d [] (ops ++ [op])) :
    ∃ s s' r, run d ops empty = .ok s ∧ apply d s op = .ok (s', r) ∧ Shows s' (contents d (ops ++ [op])) ∧
      ResRel r (step d (contents d ops) op).2 := by
  obtain ⟨h1, h2⟩ := withinAll_snoc d ops op [] h
  obtain ⟨s, e, hr⟩ := run_ok d ops (rep_empty (α := α)) (by simp) h1
  obtain ⟨s', r, e2, hr2, hs⟩ := apply_ok d hr op h2 (contents_short d ops [] (by simp) h1)
  refine ⟨s, s', r, e, e2, ?_, hs⟩
  have : contents d (ops ++ [op]) = (step d (contents d ops) op).1 := by simp [contents]
  rw [this]
  exact rep_shows hr2

/-- The lists used as examples. -/
def sampleOps : List (Op Nat) :=
  [.append (some 1), .extend [2, 3, 4], .extendSelf, .pop (-1), .set 0 (some 9), .append none, .resize 9, .slice none none (some (-2)), .pop 100]

example : WithinAll 0 [] sampleOps := by
  refine ⟨⟨?_, ?_⟩, ⟨?_, ?_⟩, ⟨?_, ?_⟩, ⟨?_, ?_⟩, ⟨?_, ?_⟩, ⟨?_, ?_⟩, ⟨?_, ?_⟩, ⟨?_, ?_⟩, ⟨?_, ?_⟩, trivial⟩ <;>
    first | trivial | decide | (constructor <;> decide)

example : contents 0 sampleOps = [9, 2, 3, 4, 1, 2, 3, 0, 0] := by decide
example : (step 0 [9, 2, 3, 4, 1, 2, 3, 0, 0] (.slice none none (some (-2)))).2 = .ok (.new [0, 3, 1, 3, 9]) := by rfl
example : slice [0, 1, 2, 3, 4, 5] (some (-100)) (some 5) (some 2) = .ok [0, 2, 4] := by rfl
example : slice [0, 1, 2, 3, 4, 5] (some 4) (some (-100)) (some (-3)) = .ok [4, 1] := by rfl
example : (apply 0 (ofList [1, 2, 3]) (.slice (some 1) none none)).toOption.map (fun r => r.2.toOption.isSome) = some true := by decide

/-! ### reverse -/

theorem reverseLoop_ok (xs : List α) (r : Nat) (hr : xs.length ≤ r) : ∀ (n k : Nat) (ys : List α), k + n = xs.length / 2 → ys.length = xs.length →
    (∀ i, i < xs.length → ys[i]? = if i < k ∨ xs.length - k ≤ i then xs[xs.length - 1 - i]? else xs[i]?) →
    reverseLoop xs.length n k (store ys r) = .ok (store xs.reverse r) := by
  intro n
  induction n with
  | zero =>
    intro k ys hk hl hy
    simp only [reverseLoop]
    have : ys = xs.reverse := by
      apply List.ext_getElem?
      intro i
      by_cases hi : i < xs.length
      · rw [hy i hi, List.getElem?_reverse hi]
        split
        · rfl
        · rename_i h
          have : xs.length - 1 - i = i := by omega
          rw [this]
      · rw [List.getElem?_eq_none (by omega), List.getElem?_eq_none (by simp; omega)]
    rw [this]
  | succ n ih =>
    intro k ys hk hl hy
    have h1 : k < ys.length := by omega
    have h2 : xs.length - 1 - k < ys.length := by omega
    simp only [reverseLoop, store_lt ys r k h1, store_lt ys r _ h2]
    have hset : ((store ys r).set k (some ys[xs.length - 1 - k])).set (xs.length - 1 - k) (some ys[k]) =
        store ((ys.set k ys[xs.length - 1 - k]).set (xs.length - 1 - k) ys[k]) r := by
      unfold store
      rw [List.set_append_left _ _ (by simp; omega), List.set_append_left _ _ (by simp; omega)]
      simp [List.map_set]
    rw [hset]
    apply ih (k + 1)
    · omega
    · simpa using hl
    · intro i hi
      have a := hy k (by omega)
      have b := hy (xs.length - 1 - k) (by omega)
      rw [if_neg (by omega)] at a b
      have a' : ys[k] = xs[k] := by
        rw [List.getElem?_eq_getElem h1, List.getElem?_eq_getElem (by omega)] at a
        exact Option.some.inj a
      have b' : ys[xs.length - 1 - k] = xs[xs.length - 1 - k] := by
        rw [List.getElem?_eq_getElem h2, List.getElem?_eq_getElem (by omega)] at b
        exact Option.some.inj b
      by_cases e1 : i = xs.length - 1 - k
      · subst e1
        rw [List.getElem?_set_self (by simp; omega), if_pos (by omega), a', List.getElem?_eq_getElem (by omega)]
        congr 2
        omega
      · rw [List.getElem?_set_ne (by omega)]
        by_cases e2 : i = k
        · subst e2
          rw [List.getElem?_set_self (by omega), if_pos (by omega), b', List.getElem?_eq_getElem (by omega)]
        · rw [List.getElem?_set_ne (by omega), hy i hi]
          by_cases h3 : i < k ∨ xs.length - k ≤ i
          · rw [if_pos h3, if_pos (by omega)]
          · rw [if_neg h3, if_neg (by omega)]

/-- C47: `reverse` (used by `rsplit`) reverses the elements in place. -/
theorem reverse_reverses {s : L α} {xs : List α} (h : Rep s xs) : ∃ s', reverse s = .ok s' ∧ Shows s' xs.reverse := by
  unfold reverse
  rw [h.count]
  by_cases h1 : xs.length ≤ 1
  · rw [if_pos h1]
    have : xs.reverse = xs := by
      match xs, h1 with
      | [], _ => rfl
      | [_], _ => rfl
    rw [this]
    exact ⟨s, rfl, rep_shows h⟩
  · rw [if_neg h1, h.cells, reverseLoop_ok xs _ h.room (xs.length / 2) 0 xs (by omega) rfl (by
      intro i hi
      rw [if_neg (by omega)])]
    exact ⟨_, rfl, rep_shows ⟨by simp, by simpa using h.room, h.limit, rfl⟩⟩

example : Rep (ofList [1, 2, 3, 4, 5]) [1, 2, 3, 4, 5] := rep_ofList _ (by simp)
example : (reverse (ofList [1, 2, 3, 4, 5])).toOption.map (·.cells) = some [some 5, some 4, some 3, some 2, some 1] := by decide

/-! ### construction from an iterable -/

theorem unboundedLoop_ok (vs : List (Option α)) : ∀ {s : L α} {xs : List α} (_ : Rep s xs) (_ : xs.length < s.reserved)
    (_ : xs.length + vs.length < 2 ^ 30),
    ∃ s', unboundedLoop vs s = .ok (s', !(convertible vs).2) ∧ Rep s' (xs ++ (convertible vs).1) := by
  induction vs with
  | nil =>
    intro s xs h _ _
    exact ⟨s, rfl, by simpa [convertible] using h⟩
  | cons v vs ih =>
    intro s xs h hr hl
    simp only [List.length_cons] at hl
    cases v with
    | none => exact ⟨s, rfl, by simpa [convertible] using h⟩
    | some v =>
      have h1 : Rep (⟨xs.length + 1, s.reserved, store (xs ++ [v]) s.reserved⟩ : L α) (xs ++ [v]) :=
        ⟨by simp, by simp; omega, h.limit, rfl⟩
      simp only [unboundedLoop]
      rw [h.count, h.cells, construct_store xs _ v hr]
      simp only
      by_cases hge : xs.length + 1 ≥ s.reserved
      · rw [if_pos hge]
        have e0 : reserve (⟨xs.length + 1, s.reserved, store (xs ++ [v]) s.reserved⟩ : L α) ((5 * s.reserved + 4) / 4) =
            .ok ⟨xs.length + 1, (5 * s.reserved + 4) / 4, store (xs ++ [v]) ((5 * s.reserved + 4) / 4)⟩ := by
          unfold reserve
          simp only
          rw [if_neg (by omega), realloc_store (xs ++ [v]) _ _ (by simp; omega) (by simp; omega) (by omega)]
        rw [e0]
        simp only
        obtain ⟨s', e, hr'⟩ := ih (s := ⟨xs.length + 1, (5 * s.reserved + 4) / 4, store (xs ++ [v]) ((5 * s.reserved + 4) / 4)⟩)
          ⟨by simp, by simp; omega, by simp only; omega, rfl⟩ (by simp; omega) (by simp; omega)
        exact ⟨s', by simpa [convertible] using e, by simpa [convertible] using hr'⟩
      · rw [if_neg hge]
        obtain ⟨s', e, hr'⟩ := ih h1 (by simp; omega) (by simp; omega)
        exact ⟨s', by simpa [convertible] using e, by simpa [convertible] using hr'⟩

/-- C47: `ListOf(T)(iterable)` has the elements of the iterable, or raises if one of them cannot be converted; either way every
element that was constructed is destroyed once. -/
theorem from_iterable (vs : List (Option α)) (hl : vs.length < 2 ^ 30) :
    if (convertible vs).2 then ∃ s, constructorUnbounded vs = .ok (some s) ∧ Shows s (convertible vs).1
    else constructorUnbounded vs = .ok none := by
  obtain ⟨s, e, hr⟩ := unboundedLoop_ok vs (s := ⟨0, 1, [none]⟩) (rep_empty (α := α)) (by simp) (by simpa using hl)
  have hm : (malloc 1 : Except Fault (Mem α)) = .ok [none] := by simp [malloc, List.replicate]
  unfold constructorUnbounded
  rw [hm]
  simp only [e]
  cases hc : (convertible vs).2 with
  | true =>
    simp only [if_true, Bool.not_true]
    exact ⟨s, rfl, rep_shows (by simpa using hr)⟩
  | false =>
    have hd := destroyLoop_store (convertible vs).1 s.reserved 0 (by omega) (by simpa using hr.room)
    simp only [Nat.sub_zero] at hd
    have hcount : s.count = (convertible vs).1.length := by simpa using hr.count
    have hcells : s.cells = store (convertible vs).1 s.reserved := by simpa using hr.cells
    simp only [Bool.false_eq_true, if_false, Bool.not_false]
    rw [hcount, hcells, hd]

example : (constructorUnbounded [some 1, some 2, some 3, some 4]).toOption.map (·.map (·.count)) = some (some 4) := by decide
example : (constructorUnbounded [some 1, none, some 3]).toOption.map (·.isSome) = some false := by decide

/-! ### iterators -/

/-- C47: an iterator never reads outside the list, whatever happened to the list since it was made, and while the offset is inside
it returns the element there. -/
theorem iterator_step {s : L α} {xs : List α} (h : Rep s xs) (offset : Nat) :
    iterNext s offset = .ok (match xs[offset]? with
      | none => (offset, none)
      | some v => (offset + 1, some v)) := by
  unfold iterNext
  rw [h.count]
  by_cases ho : offset < xs.length
  · rw [if_neg (by omega), rep_read h offset ho, List.getElem?_eq_getElem ho]
  · rw [if_pos (by omega), List.getElem?_eq_none (by omega)]

/-- The results of `n` calls of `next` while the list does not change. -/
def drain (s : L α) : Nat → Nat → Except Fault (List (Option α))
  | 0, _ => .ok []
  | n + 1, offset =>
    match iterNext s offset with
    | .error f => .error f
    | .ok (o, v) =>
      match drain s n o with
      | .error f => .error f
      | .ok vs => .ok (v :: vs)

theorem drain_from {s : L α} {xs : List α} (h : Rep s xs) : ∀ (n k : Nat), k ≤ xs.length → n + k ≤ xs.length + 1 →
    drain s n k = .ok (((xs.drop k).map some ++ [none]).take n) := by
  intro n
  induction n with
  | zero =>
    intro k _ _
    simp [drain]
  | succ n ih =>
    intro k hk hn
    simp only [drain, iterator_step h k]
    by_cases hlt : k < xs.length
    · rw [List.getElem?_eq_getElem hlt]
      simp only
      rw [ih (k + 1) hlt (by omega)]
      rw [List.drop_eq_getElem_cons hlt, List.map_cons, List.cons_append, List.take_succ_cons]
    · rw [List.getElem?_eq_none (by omega)]
      have : n = 0 := by omega
      subst this
      have : k = xs.length := by omega
      subst this
      simp [drain]

/-- C47: iterating over a list that does not change gives its elements in order and then stops. -/
theorem iteration_gives_elements {s : L α} {xs : List α} (h : Rep s xs) : drain s (xs.length + 1) 0 = .ok (xs.map some ++ [none]) := by
  rw [drain_from h (xs.length + 1) 0 (by omega) (by omega), List.drop_zero, List.take_of_length_le (by simp)]

/-- As Python's iterators until one is exhausted; after that a Python iterator stays exhausted, this one goes on if the list has
grown. -/
theorem iterator_as_python_partial {s : L α} {xs : List α} (h : Rep s xs) (offset : Nat) :
    ∃ o, iterNext s offset = .ok (o, (Spec.iterNext xs (some offset)).2) ∧
      ((Spec.iterNext xs (some offset)).2 ≠ none → (Spec.iterNext xs (some offset)).1 = some o) := by
  rw [iterator_step h offset]
  simp only [Spec.iterNext]
  cases xs[offset]? with
  | none => exact ⟨offset, rfl, fun hh => absurd rfl hh⟩
  | some v => exact ⟨offset + 1, rfl, fun _ => rfl⟩

/-- The disagreement: exhaust an iterator of `[1]`, append 2, ask again. -/
theorem exhausted_iterator_revives :
    iterNext (ofList [1]) 1 = .ok (1, none) ∧
    (append (ofList [1]) 2).toOption.map (fun s => (iterNext s 1).toOption) = some (some (2, some 2)) ∧
    Spec.iterNext [1] (some 1) = (none, none) ∧ Spec.iterNext [1, 2] (none : Option Nat) = (none, none) := by
  decide

/-! ### where the interpreter's calls are not those of a list -/

/-- `resize` and `reserve` of a negative size ask for nearly 2^64 elements. -/
theorem negative_sizes_fault : apply 0 (ofList [1, 2]) (.resize (-1)) = .error .tooBig ∧ apply 0 (ofList [1, 2]) (.reserve (-1)) = .error .tooBig := by
  constructor <;> rfl

/-- An index that does not fit in 64 bits reaches the last element although the call raises (SystemError, not IndexError):
`pop(2**64)` has removed it, `l[2**64] = x` has replaced it. -/
theorem huge_index_reaches_last_element :
    (apply 0 (ofList [1, 2, 3]) (.pop (2 ^ 64))).toOption.map (fun r => (r.1.count, r.2.toOption.isSome)) = some (2, false) ∧
    (apply 0 (ofList [1, 2, 3]) (.set (2 ^ 64) (some 9))).toOption.map (fun r => (r.1.cells, r.2.toOption.isSome)) =
      some ([some 1, some 2, some 9], false) ∧
    step 0 [1, 2, 3] (.pop (2 ^ 64)) = ([1, 2, 3], .error .indexError) := by
  refine ⟨rfl, rfl, rfl⟩

/-! ### the compiled calls -/

/-- Slice arguments small enough for 64-bit arithmetic. -/
def ModestOp : Op α → Prop
  | .slice a b c => Modest a ∧ Modest b ∧ Modest c
  | _ => True

/-- C47: a compiled call has the effect and the result of the call on a Python list (element arguments passed by value). -/
theorem compiled_call_as_on_python_list (moves : Bool) (d : α) {s : L α} {xs : List α} (h : Rep s xs) (op : Op α) (hw : Within d xs op)
    (hm : ModestOp op) (hx : xs.length < 2 ^ 30) (out : Except Fault (L α × Except PyErr (Ret α (L α))))
    (hc : cApply moves d s op = some out) :
    ∃ s' r, out = .ok (s', r) ∧ Rep s' (step d xs op).1 ∧ ResRel r (step d xs op).2 := by
  obtain ⟨hw1, hw2⟩ := hw
  cases op with
  | append v =>
    cases v with
    | none => cases hc
    | some v =>
      cases hc
      obtain ⟨s', e, hr⟩ := cAppend_ok moves h v hx
      exact ⟨s', .ok .unit, by simp only [done, e], hr, .ok .unit⟩
  | extend vs =>
    cases hc
    simp only [step, List.length_append] at hw1
    obtain ⟨s', e, hr⟩ := cExtend_ok moves vs h hw1
    exact ⟨s', .ok .unit, by simp only [done, e], hr, .ok .unit⟩
  | extendSelf =>
    cases hc
    simp only [step, List.length_append] at hw1
    obtain ⟨s', e, hr⟩ := cExtendSelf_ok moves h hw1
    exact ⟨s', .ok .unit, by simp only [done, e], hr, .ok .unit⟩
  | extendIter vs => cases hc
  | clear =>
    cases hc
    obtain ⟨s', e, hr⟩ := cClear_ok h
    exact ⟨s', .ok .unit, by simp only [done, e], hr, .ok .unit⟩
  | reserve n =>
    cases hc
    obtain ⟨s', e, hr, _⟩ := cReserve_ok h n hw2.2
    exact ⟨s', .ok .unit, by simp only [done, e], hr, .ok .unit⟩
  | resize n =>
    cases hc
    have hn : n < 2 ^ 31 := by
      simp only [step, List.length_append, List.length_take, List.length_replicate] at hw1
      omega
    obtain ⟨s', e, hr⟩ := cResize_ok h n d hw2.1 hn
    exact ⟨s', .ok .unit, by simp only [done, e], hr, .ok .unit⟩
  | resizeWith n v =>
    cases v with
    | none => cases hc
    | some v =>
      cases hc
      have hn : n < 2 ^ 31 := by
        simp only [step, List.length_append, List.length_take, List.length_replicate] at hw1
        omega
      obtain ⟨s', e, hr⟩ := cResize_ok h n v hw2.1 hn
      exact ⟨s', .ok .unit, by simp only [done, e], hr, .ok .unit⟩
  | pop i =>
    cases hc
    exact cPop_ok d h i
  | get i =>
    cases hc
    obtain ⟨r, e, hr, hs⟩ := cGet_ok d h i
    exact ⟨s, r, by simp only [keep, e], by rw [hs]; exact h, hr⟩
  | set i v =>
    cases v with
    | none => cases hc
    | some v =>
      cases hc
      exact cSet_ok d h i v
  | slice a b c =>
    cases hc
    rcases cSlice_ok h a b c hm.1 hm.2.1 hm.2.2 hx with ⟨er, e1, e2⟩ | ⟨ys, l, e1, e2, hr⟩
    · exact ⟨s, .error er, by simp only [keep, e2], by simp only [step, e1]; exact h, by simp only [step, e1]; exact .error _⟩
    · exact ⟨s, .ok (.new l), by simp only [keep, e2], by simp only [step, e1]; exact h, by simp only [step, e1]; exact .ok (.new hr)⟩
  | concat vs =>
    cases hc
    simp only at hw2
    obtain ⟨l, e, hr⟩ := cConcat_ok h (rep_ofList vs (by omega)) (by omega)
    exact ⟨s, .ok (.new l), by simp only [keep, e], h, .ok (.new hr)⟩
  | concatSeq vs rev => cases hc
  | copy =>
    cases hc
    obtain ⟨l, e, hr⟩ := cCopy_ok h
    exact ⟨s, .ok (.new l), by simp only [keep, e], h, .ok (.new hr)⟩

example : (cApply true 0 (ofList [1, 2, 3]) (.append (some 4))).map (fun o => o.toOption.map (·.1.cells)) =
    some (some [some 1, some 2, some 3, some 4]) := by decide
example : (cApply true 0 (ofList [1, 2, 3, 4, 5]) (.pop 1)).map (fun o => o.toOption.map (·.1.cells)) =
    some (some [some 1, some 3, some 4, some 5, none]) := by decide
example : (cSliceCore (ofList [0, 1, 2, 3, 4, 5, 6]) (-1) (-100) (-3)).toOption.map (·.cells) = some [some 6, some 3, some 0] := by decide

/-- Compiled `l.append(l[j])` where elements are passed by reference, on a full list: the reference dangles as soon as the storage
moves. -/
theorem compiled_append_of_own_element_faults :
    ∀ (s : L α) (xs : List α) (j : Nat), Rep s xs → xs.length < 2 ^ 30 → j < xs.length → s.reserved = xs.length →
      cAppend true s (.ref j) = .error .useAfterFree := by
  intro s xs j h hx _ hf
  exact cAppend_ref_stale h j hx hf

/-- With room to spare it appends the element. -/
theorem compiled_append_of_own_element_partial (moves : Bool) {s : L α} {xs : List α} (h : Rep s xs) (j : Nat) (hj : j < xs.length)
    (hroom : xs.length < s.reserved) : ∃ s', cAppend moves s (.ref j) = .ok s' ∧ Shows s' (xs ++ [xs[j]]) := by
  obtain ⟨s', e, hr⟩ := cAppend_ref_ok moves h j hj hroom
  exact ⟨s', e, rep_shows hr⟩

/-- Compiled self-extension of such a list: the same. -/
theorem compiled_self_extension_faults : cExtendSelf true true (ofList ["a", "b"]) = .error .useAfterFree := by rfl

/-- Compiled `resize` of a negative size destroys elements in front of the storage. -/
theorem compiled_negative_resize_faults : cResize (ofList [1, 2]) (-1) 0 = .error .outOfBounds := by rfl

/-- Compiled `l[::2**63-1]`: the length of the result overflows to 0, and the loop writes the first element outside of it. -/
theorem compiled_huge_step_faults : cSlice (ofList [1, 2, 3]) none none (some (2 ^ 63 - 1)) = .error .outOfBounds ∧
    slice [1, 2, 3] none none (some (2 ^ 63 - 1)) = .ok [1] := by
  refine ⟨rfl, by rfl⟩

/-- The body of a compiled for loop over a list that removes an element per step: it goes on with the length the list had, and
reads elements that are gone. -/
theorem compiled_for_over_shrinking_list_faults :
    cFor (fun _ t => match cPop t (-1) with | .error f => .error f | .ok (t', _) => .ok t') (ofList [1, 2, 3]) = .error .notLive := by rfl

end Verif.ListOf
