import Verif.Str.Search
import Verif.Str.Compare
import Verif.Str.Props
/-
Indexing, slicing, stripping, concatenation, repetition, chr and ord of compiled strings (C24): model and proofs.
/repo/typed_python/StringType.cpp 58-101, 940-1193, 1947-1968; _runtime.cpp 701-735; string_wrapper.py 434-447, 561-626.

Simplifications: whether a character is white space is a parameter (the table `uprops`); indices are 64-bit integers; a
repeated string of 2^31 or more code points, whose length does not fit `pointcount`, is not modelled.
-/
namespace Verif.Str

/-! ### model -/

/-- StringType.cpp:995-1029 `getitem`. -/
def getitem (l : Str) (offset : Int) : Except Err Str :=
  match l with
  | none => .ok none
  | some l =>
    if l.points.length = 1 then .ok (some l)
    else
      let offset := if offset < 0 then offset + l.points.length else offset
      if offset < 0 then .error .oob
      else
        match l.points[offset.toNat]? with
        | none => .error .oob
        | some p => .ok (some ⟨l.width, [p]⟩)

/-- string_wrapper.py:600-626 `convert_getitem` for a string that is not a constant; `none` is IndexError. -/
def compiledGetitem (l : Str) (item : Int) : Except Err (Option Str) :=
  if item < -((text l).length : Int) ∨ item ≥ (text l).length then .ok none
  else
    match getitem l item with
    | .error e => .error e
    | .ok s => .ok (some s)

/-- StringType.cpp:1031-1067 `getsubstr`. The `memcpy` reads `datalength` code points from `start`. -/
def getsubstr (l : Str) (start stop : Int) : Except Err Str :=
  match l with
  | none => .ok none
  | some l =>
    let n := l.points.length
    let start := adjust n start
    let stop := adjust n stop
    let bad := stop < start ∨ start > n
    let start := if bad then 0 else start
    let stop := if bad then 0 else stop
    let stop := if stop > n then (n : Int) else stop
    if start ≥ stop then .ok none
    else if start < 0 ∨ stop > n then .error .oob
    else .ok (some ⟨l.width, (l.points.drop start.toNat).take (stop - start).toNat⟩)

/-- What the compiler knows of an expression: its value, if it is a constant. -/
structure Known (α : Type) where
  value : α
  constant : Bool

/-- `constantValue`: `None` unless the expression is a constant. -/
def Known.constantValue {α : Type} (k : Known α) : Option α := if k.constant then some k.value else none

/-- string_wrapper.py:561-598 `convert_getslice` without a step, and what the code it makes does. The result `none` stands
for the code that is no string: for `s[:]` the wrapper itself is returned in place of the expression (566). A constant
string with a constant lower bound is sliced by the interpreter (582-587). -/
def compiledSlice (s : Known Str) (lower upper : Option (Known Int)) : Except Err (Option Str) :=
  match lower, upper with
  | none, none => .ok none
  | lower, upper =>
    let lower := lower.getD ⟨0, true⟩
    let upper := upper.getD ⟨(text s.value).length, s.constant⟩
    if s.constant ∧ lower.constant then
      .ok (some (fromPython (Spec.slice (text s.value) (some lower.value) upper.constantValue)))
    else
      match getsubstr s.value lower.value upper.value with
      | .error e => .error e
      | .ok r => .ok (some r)

/-- StringType.cpp:1073-1075, 1121-1123 and 1147-1158: advance `left` past the characters to be dropped; `n` is
`right - left`. -/
def stripLeft (drop : Nat → Bool) (ps : List Nat) : Nat → Nat → Except Err Nat
  | 0, left => .ok left
  | n + 1, left =>
    match ps[left]? with
    | none => .error .oob
    | some c => if drop c then stripLeft drop ps n (left + 1) else .ok left

/-- StringType.cpp:1079-1081, 1127-1129 and 1161-1172: move `right` back, `n` is `right - left`; the new `right`. -/
def stripRight (drop : Nat → Bool) (ps : List Nat) (left : Nat) : Nat → Except Err Nat
  | 0 => .ok left
  | n + 1 =>
    match ps[left + n]? with
    | none => .error .oob
    | some c => if drop c then stripRight drop ps left n else .ok (left + n + 1)

/-- StringType.cpp:1090-1114 and 1143-1184: the body of both strips. -/
def stripBody (drop : Nat → Bool) (l : Layout) (fromLeft fromRight : Bool) : Except Err Str :=
  match (if fromLeft then stripLeft drop l.points l.points.length 0 else .ok 0) with
  | .error e => .error e
  | .ok left =>
    match (if fromRight then stripRight drop l.points left (l.points.length - left) else .ok l.points.length) with
    | .error e => .error e
    | .ok right =>
      if left = right then .ok none
      else if left = 0 ∧ right = l.points.length then .ok (some l)
      else getsubstr (some l) left right

/-- StringType.cpp:1133-1185 `strip` (with `strip_whitespace`, 1085-1115); `values` is `none` for white space. -/
def strip (space : Nat → Bool) (l : Str) (values : Option Str) (fromLeft fromRight : Bool) : Except Err Str :=
  match values with
  | none =>
    match l with
    | none => .ok none
    | some l => stripBody space l fromLeft fromRight
  | some values =>
    match l with
    | none => .ok none
    | some l =>
      if (text values).length = 0 then .ok (some l)
      else stripBody (fun c => (text values).any (fun v => c == v)) l fromLeft fromRight

/-- StringType.cpp:1963-1965: the loop of `mult`. -/
def multLoop (ps : List Nat) : Nat → List Nat → List Nat
  | 0, acc => acc
  | n + 1, acc => multLoop ps n (acc ++ ps)

/-- StringType.cpp:1947-1968 `mult`. -/
def mult (l : Str) (n : Int) : Str :=
  match l with
  | none => none
  | some l => if n ≤ 0 then none else some ⟨l.width, multLoop l.points n.toNat []⟩

/-- _runtime.cpp:705-717 `chr`; `none` is ValueError. -/
def chr (code : Int) : Option Str := if code < 0 ∨ code > 0x10ffff then none else some (single code.toNat)

/-- StringType.cpp:973-993 `getord`. -/
def getord : Str → Nat
  | none => 0
  | some l =>
    if l.points.length ≠ 1 then 0
    else if l.width = 1 ∨ l.width = 2 ∨ l.width = 4 then l.points.headD 0
    else 0

/-- _runtime.cpp:719-731 `ord`; `none` is TypeError. -/
def ord (l : Str) : Option Nat := if (text l).length ≠ 1 then none else some (getord l)

/-! ### proofs -/

theorem getitem_spec (l : Str) (i : Int) (h1 : -((text l).length : Int) ≤ i) (h2 : i < (text l).length) :
    ∃ p, Spec.index (text l) i = some p ∧ getitem l i = .ok (some ⟨width l, [p]⟩) := by
  cases l with
  | none => simp [text] at h1 h2; omega
  | some l =>
    change -(l.points.length : Int) ≤ i at h1
    change i < (l.points.length : Int) at h2
    change ∃ p, Spec.index l.points i = some p ∧ getitem (some l) i = .ok (some ⟨l.width, [p]⟩)
    have hk : ∃ k : Nat, k < l.points.length ∧ (if i < 0 then i + l.points.length else i) = (k : Int) := by
      refine ⟨(if i < 0 then i + l.points.length else i).toNat, ?_, ?_⟩ <;> split <;> omega
    obtain ⟨k, hk, e⟩ := hk
    have hs : Spec.index l.points i = some l.points[k] := by
      unfold Spec.index
      split
      · rw [if_neg (by omega)]
        rename_i h
        rw [if_pos h] at e
        rw [e, Int.toNat_natCast, List.getElem?_eq_getElem hk]
      · rename_i h
        rw [if_neg h] at e
        rw [e, Int.toNat_natCast, List.getElem?_eq_getElem hk]
    refine ⟨l.points[k], hs, ?_⟩
    unfold getitem
    simp only
    by_cases ho : l.points.length = 1
    · rw [if_pos ho]
      have : l.points = [l.points[k]] := by
        refine List.ext_getElem (by simp [ho]) (fun i a b => ?_)
        have : i = k := by omega
        subst this
        simp
      rw [← this]
    · rw [if_neg ho, e, if_neg (by omega), Int.toNat_natCast, List.getElem?_eq_getElem hk]

theorem getsubstr_spec (l : Str) (a b : Int) :
    getsubstr l a b = .ok (construct (width l) (Spec.slice (text l) (some a) (some b))) := by
  cases l with
  | none => simp [getsubstr, Spec.slice, text, construct]
  | some l =>
    unfold getsubstr
    simp only
    have e1 := adjust_start l.points.length a
    have e2 := adjust_stop l.points.length b
    have hhi : Spec.searchStop l.points.length b ≤ l.points.length := by unfold Spec.searchStop; omega
    change _ = Except.ok (construct l.width ((l.points.take (Spec.searchStop l.points.length b)).drop
      (Spec.searchStart l.points.length a)))
    rw [e1]
    generalize Spec.searchStart l.points.length a = lo at *
    generalize Spec.searchStop l.points.length b = hi at *
    by_cases hbad : adjust l.points.length b < (lo : Int) ∨ (lo : Int) > l.points.length
    · simp only [if_pos hbad]
      rw [if_neg (show ¬ (0 : Int) > l.points.length by omega), if_pos (by omega)]
      unfold construct
      rw [if_pos]
      rw [List.length_drop, List.length_take]
      split at e2 <;> omega
    · simp only [if_neg hbad]
      rw [e2]
      unfold construct
      by_cases hge : (lo : Int) ≥ hi
      · rw [if_pos hge, if_pos]
        rw [List.length_drop, List.length_take]
        omega
      · rw [if_neg hge, if_neg (by omega), if_neg]
        · congr 3
          rw [List.drop_take, Int.toNat_natCast]
          congr 1
          omega
        · rw [List.length_drop, List.length_take]
          omega

theorem stripLeft_spec (drop : Nat → Bool) (ps : List Nat) : ∀ (n left : Nat), left + n = ps.length →
    ∃ k, stripLeft drop ps n left = .ok k ∧ left ≤ k ∧ k ≤ ps.length ∧ (ps.drop left).dropWhile drop = ps.drop k
  | 0, left, h => ⟨left, rfl, Nat.le_refl _, by omega, by
      rw [List.drop_eq_nil_of_le (by omega)]; rfl⟩
  | n + 1, left, h => by
    have hl : left < ps.length := by omega
    rw [stripLeft, List.getElem?_eq_getElem hl, List.drop_eq_getElem_cons hl]
    simp only
    by_cases hd : drop ps[left] = true
    · obtain ⟨k, e, a, b, c⟩ := stripLeft_spec drop ps n (left + 1) (by omega)
      refine ⟨k, by rw [if_pos hd, e], by omega, b, ?_⟩
      rw [List.dropWhile_cons_of_pos hd, c]
    · refine ⟨left, by rw [if_neg hd], Nat.le_refl _, by omega, ?_⟩
      rw [List.dropWhile_cons_of_neg hd, ← List.drop_eq_getElem_cons hl]

theorem stripRight_spec (drop : Nat → Bool) (ps : List Nat) (left : Nat) : ∀ (n : Nat), left + n ≤ ps.length →
    ∃ k, stripRight drop ps left n = .ok k ∧ left ≤ k ∧ k ≤ left + n ∧
      Spec.rstrip drop ((ps.drop left).take n) = (ps.drop left).take (k - left)
  | 0, _ => ⟨left, rfl, Nat.le_refl _, Nat.le_refl _, by rw [Nat.sub_self]; rfl⟩
  | n + 1, h => by
    have hl : left + n < ps.length := by omega
    have ht : (ps.drop left).take (n + 1) = (ps.drop left).take n ++ [ps[left + n]] := by
      rw [← List.take_append_getElem (i := n) (by rw [List.length_drop]; omega)]
      simp
    rw [stripRight, List.getElem?_eq_getElem hl, ht]
    simp only
    unfold Spec.rstrip
    rw [List.reverse_append, List.reverse_singleton, List.singleton_append]
    by_cases hd : drop ps[left + n] = true
    · obtain ⟨k, e, a, b, c⟩ := stripRight_spec drop ps left n (by omega)
      refine ⟨k, by rw [if_pos hd, e], a, by omega, ?_⟩
      rw [List.dropWhile_cons_of_pos hd]
      exact c
    · refine ⟨left + n + 1, by rw [if_neg hd], by omega, Nat.le_refl _, ?_⟩
      rw [List.dropWhile_cons_of_neg hd, List.reverse_cons, List.reverse_reverse, ← ht]
      congr 1
      omega

theorem stripBody_spec (drop : Nat → Bool) (l : Layout) (fromLeft fromRight : Bool) (hne : l.points ≠ []) :
    stripBody drop l fromLeft fromRight = .ok (construct l.width
      ((if fromRight then Spec.rstrip drop else id) ((if fromLeft then Spec.lstrip drop else id) l.points))) := by
  unfold stripBody
  obtain ⟨left, e1, hl, e2⟩ : ∃ left, (if fromLeft = true then stripLeft drop l.points l.points.length 0 else .ok 0) = .ok left ∧
      left ≤ l.points.length ∧ (if fromLeft then Spec.lstrip drop else id) l.points = l.points.drop left := by
    cases fromLeft with
    | false => exact ⟨0, rfl, Nat.zero_le _, rfl⟩
    | true =>
      obtain ⟨k, a, _, c, d⟩ := stripLeft_spec drop l.points l.points.length 0 (Nat.zero_add _)
      exact ⟨k, a, c, d⟩
  rw [e1, e2]
  simp only
  obtain ⟨right, e3, hr, hr', e4⟩ : ∃ right, (if fromRight = true then stripRight drop l.points left (l.points.length - left)
      else .ok l.points.length) = .ok right ∧ left ≤ right ∧ right ≤ l.points.length ∧
      (if fromRight then Spec.rstrip drop else id) (l.points.drop left) = (l.points.drop left).take (right - left) := by
    have hall : (l.points.drop left).take (l.points.length - left) = l.points.drop left := by
      rw [List.take_of_length_le]
      rw [List.length_drop]
    cases fromRight with
    | false => exact ⟨_, rfl, hl, Nat.le_refl _, hall.symm⟩
    | true =>
      obtain ⟨k, a, b, c, d⟩ := stripRight_spec drop l.points left (l.points.length - left) (by omega)
      refine ⟨k, a, b, by omega, ?_⟩
      rw [hall] at d
      exact d
  rw [e3, e4]
  simp only
  by_cases h1 : left = right
  · rw [if_pos h1, h1, Nat.sub_self]
    rfl
  · rw [if_neg h1]
    by_cases h2 : left = 0 ∧ right = l.points.length
    · rw [if_pos h2, h2.1, h2.2, List.drop_zero, Nat.sub_zero, List.take_length]
      unfold construct
      rw [if_neg (by rw [List.length_eq_zero_iff]; exact hne)]
    · rw [if_neg h2, getsubstr_spec]
      unfold Spec.slice
      change Except.ok (construct l.width ((l.points.take (Spec.searchStop l.points.length (right : Int))).drop
        (Spec.searchStart l.points.length (left : Int)))) = _
      have a : Spec.searchStop l.points.length (right : Int) = right := by
        unfold Spec.searchStop
        rw [if_neg (by omega), Int.toNat_natCast]
        omega
      have b : Spec.searchStart l.points.length (left : Int) = left := by
        unfold Spec.searchStart
        rw [if_neg (by omega), Int.toNat_natCast]
      rw [a, b, List.drop_take]

theorem multLoop_spec (ps : List Nat) : ∀ (n : Nat) (acc : List Nat),
    multLoop ps n acc = acc ++ (List.replicate n ps).flatten
  | 0, acc => by simp [multLoop]
  | n + 1, acc => by
    rw [multLoop, multLoop_spec ps n, List.replicate_succ, List.flatten_cons, List.append_assoc]

/-! ### C24 -/

/-- C24: `s[i]` is the character Python gives, IndexError exactly where Python raises it, and nothing outside the string is
read. -/
theorem getitem_as_python (s : Str) (i : Int) :
    ∃ r, compiledGetitem s i = .ok r ∧ r.map text = (Spec.index (text s) i).map (fun c => [c]) := by
  unfold compiledGetitem
  by_cases h : i < -((text s).length : Int) ∨ i ≥ (text s).length
  · refine ⟨none, by rw [if_pos h], ?_⟩
    have : Spec.index (text s) i = none := by
      unfold Spec.index
      split
      · rw [if_pos (by omega)]
      · rw [List.getElem?_eq_none (by omega)]
    rw [this]
    rfl
  · rw [if_neg h]
    obtain ⟨p, e, g⟩ := getitem_spec s i (by omega) (by omega)
    rw [g, e]
    exact ⟨_, rfl, rfl⟩

example : compiledGetitem (some ⟨2, [97, 8364, 98]⟩) (-2) = .ok (some (some ⟨2, [8364]⟩)) ∧
    compiledGetitem (some ⟨2, [97, 8364, 98]⟩) 3 = .ok none ∧ compiledGetitem none 0 = .ok none := by decide

theorem text_construct' (w : Nat) (cs : List Nat) : text (construct w cs) = cs := text_construct w cs

/-- C24: `s[a:b]`, `s[a:]` and `s[:b]` are Python's slices, whatever the compiler knows of the operands. It is missing
`s[:]` (see `full_slice_is_no_string`), and a constant string with a constant lower and a variable upper bound (see
`constant_slice_ignores_bound`). -/
theorem slice_partial (s : Known Str) (a b : Option (Known Int)) (h : a ≠ none ∨ b ≠ none)
    (hfold : ∀ u, b = some u → u.constant = false → s.constant = false ∨ ∃ l, a = some l ∧ l.constant = false) :
    ∃ r, compiledSlice s a b = .ok (some r) ∧
      text r = Spec.slice (text s.value) (a.map (·.value)) (b.map (·.value)) := by
  have main : ∀ (lo hi : Known Int), (hi.constant = false → s.constant = false ∨ lo.constant = false) →
      ∃ r, (if s.constant = true ∧ lo.constant = true then
          (.ok (some (fromPython (Spec.slice (text s.value) (some lo.value) hi.constantValue))) : Except Err (Option Str))
        else
          match getsubstr s.value lo.value hi.value with
          | .error e => .error e
          | .ok r => .ok (some r)) = .ok (some r) ∧
        text r = Spec.slice (text s.value) (some lo.value) (some hi.value) := by
    intro lo hi hc
    by_cases hk : s.constant = true ∧ lo.constant = true
    · rw [if_pos hk]
      refine ⟨_, rfl, ?_⟩
      have : hi.constant = true := by
        cases hh : hi.constant with
        | true => rfl
        | false =>
          rcases hc hh with h' | h'
          · rw [h'] at hk; exact absurd hk.1 (by decide)
          · rw [h'] at hk; exact absurd hk.2 (by decide)
      unfold Known.constantValue fromPython
      rw [if_pos this, text_construct]
    · rw [if_neg hk, getsubstr_spec]
      exact ⟨_, rfl, text_construct _ _⟩
  have hdef : ∀ x : Option Int, Spec.slice (text s.value) x (some ((text s.value).length : Int)) =
      Spec.slice (text s.value) x none := fun x => rfl
  have hdef0 : ∀ x : Option Int, Spec.slice (text s.value) (some 0) x = Spec.slice (text s.value) none x := fun x => rfl
  match a, b with
  | none, none => simp at h
  | some lo, none =>
    obtain ⟨r, e, t⟩ := main lo ⟨(text s.value).length, s.constant⟩ (fun h => Or.inl h)
    exact ⟨r, e, t⟩
  | none, some hi =>
    obtain ⟨r, e, t⟩ := main ⟨0, true⟩ hi (fun h => by
      rcases hfold hi rfl h with h' | ⟨l, h', _⟩
      · exact Or.inl h'
      · exact absurd h' (by simp))
    exact ⟨r, e, t⟩
  | some lo, some hi =>
    obtain ⟨r, e, t⟩ := main lo hi (fun h => by
      rcases hfold hi rfl h with h' | ⟨l, h', h''⟩
      · exact Or.inl h'
      · injection h' with h'
        rw [← h'] at h''
        exact Or.inr h'')
    exact ⟨r, e, t⟩

/-- "hello"[-4:9], a variable string with a constant bound. -/
example : compiledSlice ⟨some ⟨1, [104, 101, 108, 108, 111]⟩, false⟩ (some ⟨-4, true⟩) (some ⟨9, false⟩) =
    .ok (some (some ⟨1, [101, 108, 108, 111]⟩)) := by decide

/-- The code violates C24: in compiled code `"hello"[1:n]` with n = 3 is "ello", because the constant folding takes the
unknown upper bound for a missing one. -/
theorem constant_slice_ignores_bound :
    compiledSlice ⟨some ⟨1, [104, 101, 108, 108, 111]⟩, true⟩ (some ⟨1, true⟩) (some ⟨3, false⟩) =
      .ok (some (some ⟨1, [101, 108, 108, 111]⟩)) ∧
    Spec.slice [104, 101, 108, 108, 111] (some 1) (some 3) = [101, 108] := by decide

/-- The code violates C24: compiling `s[:]` does not give a string expression. -/
theorem full_slice_is_no_string (s : Known Str) : compiledSlice s none none = .ok none := rfl

/-- C24: strip, lstrip and rstrip of white space (`values` is `none`) or of given characters drop the longest run of those
characters at the ends, and nothing else. -/
theorem strip_as_python (space : Nat → Bool) (s : Str) (hs : Normal s) (values : Option Str) (fromLeft fromRight : Bool) :
    ∃ r, strip space s values fromLeft fromRight = .ok r ∧
      text r = (if fromRight then Spec.rstrip ((values.map (fun v c => (text v).contains c)).getD space) else id)
        ((if fromLeft then Spec.lstrip ((values.map (fun v c => (text v).contains c)).getD space) else id) (text s)) := by
  cases s with
  | none =>
    refine ⟨none, ?_, ?_⟩
    · cases values <;> rfl
    · cases fromLeft <;> cases fromRight <;> rfl
  | some l =>
    cases values with
    | none =>
      change ∃ r, stripBody space l fromLeft fromRight = .ok r ∧ _
      rw [stripBody_spec space l fromLeft fromRight hs.2]
      exact ⟨_, rfl, text_construct _ _⟩
    | some v =>
      unfold strip
      simp only
      by_cases hv : (text v).length = 0
      · rw [if_pos hv]
        refine ⟨_, rfl, ?_⟩
        rw [List.length_eq_zero_iff] at hv
        have hn : ∀ xs : List Nat, xs.dropWhile (fun _ => false) = xs := by
          intro xs; cases xs <;> rfl
        have hp : (fun c => (text v).contains c) = fun _ => false := by funext c; rw [hv]; rfl
        change l.points = (if fromRight then Spec.rstrip (fun c => (text v).contains c) else id)
          ((if fromLeft then Spec.lstrip (fun c => (text v).contains c) else id) l.points)
        rw [hp]
        cases fromLeft <;> cases fromRight <;> simp [Spec.lstrip, Spec.rstrip, hn]
      · rw [if_neg hv, stripBody_spec _ l fromLeft fromRight hs.2]
        refine ⟨_, rfl, ?_⟩
        rw [text_construct]
        have : (fun c => (text v).any (fun v => c == v)) = (fun c => (text v).contains c) := by
          funext c
          rw [List.contains_eq_any_beq]
        rw [this]
        rfl

example : strip (· == 32) (some ⟨1, [32, 97, 32, 98, 32, 32]⟩) none true true = .ok (some ⟨1, [97, 32, 98]⟩) ∧
    strip (· == 32) (some ⟨1, [120, 121, 97, 120]⟩) (some (some ⟨2, [121, 120]⟩)) true false = .ok (some ⟨1, [97, 120]⟩) ∧
    strip (· == 32) (some ⟨1, [32, 32]⟩) none true true = .ok none := by decide

/-- C24: `s + t`. -/
theorem concat_as_python (s t : Str) (hs : Valid s) (ht : Valid t) :
    ∃ r, concat s t = .ok r ∧ text r = text s ++ text t := by
  cases s with
  | none =>
    cases t with
    | none => exact ⟨none, rfl, rfl⟩
    | some r => exact ⟨some r, rfl, rfl⟩
  | some l =>
    cases t with
    | none => exact ⟨some l, rfl, (List.append_nil _).symm⟩
    | some r => exact ⟨_, concat_eq l r hs ht, rfl⟩

/-- C24: `s * n`. -/
theorem mult_as_python (s : Str) (n : Int) : text (mult s n) = Spec.times (text s) n := by
  cases s with
  | none =>
    change [] = (List.replicate n.toNat []).flatten
    simp
  | some l =>
    unfold mult Spec.times
    by_cases h : n ≤ 0
    · simp only [h, if_true]
      rw [show n.toNat = 0 by omega]
      rfl
    · simp only [h, if_false]
      rw [multLoop_spec]
      rfl

example : mult (some ⟨1, [97, 98]⟩) 3 = some ⟨1, [97, 98, 97, 98, 97, 98]⟩ := by decide

/-- Slices, items and stripped and repeated strings are well-formed and keep the width. -/
theorem construct_valid (w : Nat) (ps qs : List Nat) (hl : Ok ⟨w, ps⟩) (h : ∀ p ∈ qs, p ∈ ps) : Normal (construct w qs) := by
  unfold construct
  split
  · trivial
  · rename_i hne
    exact ⟨⟨hl.width, fun p hp => hl.fits p (h p hp), fun p hp => hl.points p (h p hp)⟩, fun h' => hne (congrArg List.length h')⟩

theorem getsubstr_normal (s : Str) (hs : Valid s) (a b : Int) : ∃ r, getsubstr s a b = .ok r ∧ Normal r := by
  refine ⟨_, getsubstr_spec s a b, ?_⟩
  cases s with
  | none => simp [construct, Spec.slice, text, Normal]
  | some l =>
    refine construct_valid l.width l.points _ hs (fun p hp => ?_)
    exact List.mem_of_mem_take (List.mem_of_mem_drop hp)

example : Valid sample := normal_valid sample_normal

/-- C24: `ord(chr(c))` is `c`, and `chr` raises ValueError exactly outside the Unicode range. -/
theorem ord_chr (c : Int) :
    (chr c = none ↔ c < 0 ∨ c > 0x10FFFF) ∧
    (∀ s, chr c = some s → Normal s ∧ text s = [c.toNat] ∧ ord s = some c.toNat) := by
  unfold chr
  by_cases h : c < 0 ∨ c > 0x10FFFF
  · rw [if_pos h]
    exact ⟨⟨fun _ => h, fun _ => rfl⟩, fun s hs => by simp at hs⟩
  · rw [if_neg h]
    refine ⟨⟨fun h' => by simp at h', fun h' => absurd h' h⟩, ?_⟩
    intro s hs
    injection hs with hs
    rw [← hs]
    have hc : c.toNat ≤ 0x10FFFF := by omega
    generalize c.toNat = n at hc
    unfold single
    by_cases h1 : n ≤ 0xFF
    · rw [if_pos h1, Nat.mod_eq_of_lt (by omega)]
      refine ⟨⟨⟨by simp, ?_, ?_⟩, by simp⟩, rfl, by simp [ord, text, getord]⟩
      · simp; omega
      · simp [Spec.maxPoint]; omega
    · rw [if_neg h1]
      by_cases h2 : n ≤ 0xFFFF
      · rw [if_pos h2, Nat.mod_eq_of_lt (by omega)]
        refine ⟨⟨⟨by simp, ?_, ?_⟩, by simp⟩, rfl, by simp [ord, text, getord]⟩
        · simp; omega
        · simp [Spec.maxPoint]; omega
      · rw [if_neg h2, Nat.mod_eq_of_lt (by omega)]
        refine ⟨⟨⟨by simp, ?_, ?_⟩, by simp⟩, rfl, by simp [ord, text, getord]⟩
        · simp; omega
        · simp [Spec.maxPoint]; omega

/-- C24: `ord` is the code point of a string of length one, and raises TypeError for every other. -/
theorem ord_as_python (s : Str) (hs : Valid s) :
    (∀ c, ord s = some c ↔ text s = [c]) ∧ (ord s = none ↔ (text s).length ≠ 1) := by
  unfold ord
  by_cases h : (text s).length = 1
  · rw [if_neg (by simpa using h)]
    cases s with
    | none => simp [text] at h
    | some l =>
      change l.points.length = 1 at h
      refine ⟨fun c => ?_, by simp [text, h]⟩
      simp only [getord, h, text, ne_eq, not_true_eq_false, if_false]
      rw [if_pos hs.width]
      match hp : l.points, h with
      | [x], _ => simp
  · rw [if_pos h]
    refine ⟨fun c => ?_, by simp [h]⟩
    simp only [reduceCtorEq, false_iff]
    intro h'
    exact h (by rw [h']; rfl)

example : chr 8364 = some (some ⟨2, [8364]⟩) ∧ ord (some ⟨2, [8364]⟩) = some 8364 := by decide

/-- The code violates C21 also in compiled code alone: "a€"[0] keeps two bytes per code point, and so is equal to "a" but
hashes differently. -/
theorem item_hashes_differently :
    getitem (fromPython [97, 8364]) 0 = .ok (some ⟨2, [97]⟩) ∧
    cmp .eq (some ⟨2, [97]⟩) (fromPython [97]) = .ok true ∧ hash (some ⟨2, [97]⟩) ≠ hash (fromPython [97]) := by
  refine ⟨by decide, by decide +kernel, by decide +kernel⟩

end Verif.Str
