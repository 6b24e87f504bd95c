import Verif.Str.Split
/-
C26: startswith, endswith, replace, center, ljust, rjust, expandtabs and zfill in compiled code.
/repo/typed_python/compiler/type_wrappers/string_wrapper.py 59-230, 253-313.

Simplifications: these are Python functions that the compiler compiles; slices, `find`, `join`, `*`, `+` and `==` in them
are the compiled ones, for strings that are no constants (the arguments of a call are not). The type tests of the elements of
a tuple are left out: all of them are strings.
-/
namespace Verif.Str

open Spec (StandsAt)

/-! ### model -/

/-- `s[a:b] == p`. -/
def sliceEq (s : Str) (a b : Int) (p : Str) : Except Err Bool :=
  match getsubstr s a b with
  | .error e => .error e
  | .ok r => cmp .eq r p

/-- string_wrapper.py:59-62 `strStartswith`. -/
def startswith (s pre : Str) : Except Err Bool :=
  if (text pre).length = 0 then .ok true else sliceEq s 0 (text pre).length pre

/-- string_wrapper.py:68-71, 72-75 and the like: `if i < 0: i += len(s); if i < 0: i = 0`. -/
def fromEnd (s : Str) (i : Int) : Int :=
  if i < 0 then (let i := i + (text s).length; if i < 0 then 0 else i) else i

/-- string_wrapper.py:76-80: what is done once the bounds are adjusted. -/
def rangeStarts (s pre : Str) (start stop : Int) : Except Err Bool :=
  if (text pre).length = 0 then .ok (decide (start ≤ 0) || decide (stop ≥ start))
  else if stop < start + (text pre).length then .ok false
  else sliceEq s start (start + (text pre).length) pre

/-- string_wrapper.py:65-80 `strRangeStartswith`. -/
def rangeStartswith (s pre : Str) (start stop : Int) : Except Err Bool :=
  if start > (text s).length then .ok false
  else rangeStarts s pre (fromEnd s start) (fromEnd s stop)

/-- string_wrapper.py:84-92: the loop of `strStartswithTuple`. -/
def startswithTuple (s : Str) : List Str → Except Err Bool
  | [] => .ok false
  | pre :: rest =>
    if (text pre).length = 0 then .ok true
    else
      match sliceEq s 0 (text pre).length pre with
      | .error e => .error e
      | .ok true => .ok true
      | .ok false => startswithTuple s rest

/-- string_wrapper.py:106-116: the loop of `strRangeStartswithTuple`. -/
def rangeStartsTuple (s : Str) (start stop : Int) : List Str → Except Err Bool
  | [] => .ok false
  | pre :: rest =>
    if (text pre).length = 0 then .ok (decide (start ≤ 0) || decide (stop ≥ start))
    else if stop < start + (text pre).length then rangeStartsTuple s start stop rest
    else
      match sliceEq s start (start + (text pre).length) pre with
      | .error e => .error e
      | .ok true => .ok true
      | .ok false => rangeStartsTuple s start stop rest

/-- string_wrapper.py:95-116 `strRangeStartswithTuple`. -/
def rangeStartswithTuple (s : Str) (pres : List Str) (start stop : Int) : Except Err Bool :=
  if start > (text s).length then .ok false
  else rangeStartsTuple s (fromEnd s start) (fromEnd s stop) pres

/-- string_wrapper.py:119-123 `strEndswith`. -/
def endswith (s suf : Str) : Except Err Bool :=
  if (text suf).length = 0 then .ok true else sliceEq s (-((text suf).length : Int)) (text s).length suf

/-- string_wrapper.py:139-144: what is done once the bounds are adjusted. -/
def rangeEnds (s suf : Str) (start stop : Int) : Except Err Bool :=
  if (text suf).length = 0 then .ok (decide (start ≤ 0) || decide (stop ≥ start))
  else if start > stop - (text suf).length then .ok false
  else sliceEq s (stop - (text suf).length) stop suf

/-- string_wrapper.py:126-144 `strRangeEndswith`. -/
def rangeEndswith (s suf : Str) (start stop : Int) : Except Err Bool :=
  if start > (text s).length then .ok false
  else
    let stop := if stop > (text s).length then ((text s).length : Int) else stop
    rangeEnds s suf (fromEnd s start) (fromEnd s stop)

/-- string_wrapper.py:147-156 `strEndswithTuple`. -/
def endswithTuple (s : Str) : List Str → Except Err Bool
  | [] => .ok false
  | suf :: rest =>
    if (text suf).length = 0 then .ok true
    else
      match sliceEq s (-((text suf).length : Int)) (text s).length suf with
      | .error e => .error e
      | .ok true => .ok true
      | .ok false => endswithTuple s rest

/-- string_wrapper.py:172-185: the loop of `strRangeEndswithTuple`. -/
def rangeEndsTuple (s : Str) (start stop : Int) : List Str → Except Err Bool
  | [] => .ok false
  | suf :: rest =>
    if (text suf).length = 0 then
      if start ≤ 0 ∨ stop ≥ start then .ok true else rangeEndsTuple s start stop rest
    else if start > stop - (text suf).length then rangeEndsTuple s start stop rest
    else
      match sliceEq s (stop - (text suf).length) stop suf with
      | .error e => .error e
      | .ok true => .ok true
      | .ok false => rangeEndsTuple s start stop rest

/-- string_wrapper.py:159-185 `strRangeEndswithTuple`. -/
def rangeEndswithTuple (s : Str) (sufs : List Str) (start stop : Int) : Except Err Bool :=
  if start > (text s).length then .ok false
  else
    let stop := if stop > (text s).length then ((text s).length : Int) else stop
    rangeEndsTuple s (fromEnd s start) (fromEnd s stop) sufs

/-- string_wrapper.py:214-217: where the next occurrence is. -/
def nextLoc (s old : Str) (max : Int) (pos seen : Nat) : Except Err Int :=
  if max ≥ 0 ∧ (seen : Int) ≥ max then .ok (-1) else find s old pos (text s).length

/-- string_wrapper.py:213-230: the loop of `strReplace`; the result is the list that is joined. -/
def replaceLoop (s old : Str) (max : Int) : Nat → Nat → Nat → List Str → Except Err (List Str)
  | 0, _, _, _ => .error .hang
  | fuel + 1, pos, seen, acc =>
    match nextLoc s old max pos seen with
    | .error e => .error e
    | .ok loc =>
      if loc ≥ 0 ∧ loc < (text s).length then
        match getsubstr s pos (loc + if (text old).length = 0 then 1 else 0) with
        | .error e => .error e
        | .ok piece =>
          replaceLoop s old max fuel (if (text old).length = 0 then pos + 1 else loc.toNat + (text old).length) (seen + 1)
            (acc ++ [piece])
      else
        match getsubstr s pos (text s).length with
        | .error e => .error e
        | .ok piece => .ok (acc ++ [piece])

/-- string_wrapper.py:204-230: without the cases at the top. -/
def replaceBody (s old new : Str) (max : Int) : Except Err Str :=
  match replaceLoop s old max ((text s).length + 2) 0 (if (text old).length = 0 then 1 else 0)
      (if (text old).length = 0 then [none] else []) with
  | .error e => .error e
  | .ok acc => join new acc

/-- string_wrapper.py:191-230 `strReplace`; `old38` is IS_38_OR_LOWER. -/
def replace (old38 : Bool) (s old new : Str) (max : Int) : Except Err Str :=
  if old38 then
    if max = 0 ∨ (max ≥ 0 ∧ (text s).length = 0 ∧ (text old).length = 0) then .ok s else replaceBody s old new max
  else if max = 0 then .ok s
  else if max ≥ 0 ∧ (text s).length = 0 ∧ (text old).length = 0 then .ok new
  else replaceBody s old new max

/-- string_wrapper.py:262-266 `strLjust`. -/
def ljust (x : Str) (width : Int) (fill : Str) : Except Err Str :=
  if width ≤ (text x).length then .ok x else concat x (mult fill (width - (text x).length))

/-- string_wrapper.py:269-273 `strRjust`. -/
def rjust (x : Str) (width : Int) (fill : Str) : Except Err Str :=
  if width ≤ (text x).length then .ok x else concat (mult fill (width - (text x).length)) x

/-- string_wrapper.py:253-259 `strCenter`. -/
def center (x : Str) (width : Int) (fill : Str) : Except Err Str :=
  if width ≤ (text x).length then .ok x
  else
    let left := (width - (text x).length) / 2
    let right := width - (text x).length - left
    match concat (mult fill left) x with
    | .error e => .error e
    | .ok y => concat y (mult fill right)

/-- string_wrapper.py:971-992: the fill character is one character (`none` is TypeError). -/
def justify (f : Str → Int → Str → Except Err Str) (x : Str) (width : Int) (fill : Str) : Except Err (Option Str) :=
  if (text fill).length = 1 then
    match f x width fill with
    | .error e => .error e
    | .ok r => .ok (some r)
  else .ok none

/-- string_wrapper.py:297-313 `strZfill`: what is joined. -/
def zfillParts (x : Str) (width : Int) : Except Err (List Str) :=
  let zeros := if width - (text x).length > 0 then [mult (some ⟨1, [48]⟩) (width - (text x).length)] else []
  if (text x).length ≠ 0 then
    match getitem x 0 with
    | .error e => .error e
    | .ok c =>
      match cmp .eq c (some ⟨1, [43]⟩), cmp .eq c (some ⟨1, [45]⟩) with
      | .ok p, .ok m =>
        if p || m then
          match getsubstr x 0 1, getsubstr x 1 (text x).length with
          | .ok sign, .ok rest => .ok ([sign] ++ zeros ++ [rest])
          | .error e, _ => .error e
          | _, .error e => .error e
        else .ok (zeros ++ [x])
      | .error e, _ => .error e
      | _, .error e => .error e
  else .ok (zeros ++ [x])

/-- string_wrapper.py:297-313 `strZfill`. -/
def zfill (x : Str) (width : Int) : Except Err Str :=
  match zfillParts x width with
  | .error e => .error e
  | .ok acc => join none acc

/-- string_wrapper.py:281-294: the loop of `strExpandtabs`, `n` rounds to go at position `i`; what is joined. -/
def tabsLoop (x : Str) (size : Int) : Nat → Nat → Nat → Nat → List Str → Except Err (List Str)
  | 0, _, last, _, acc =>
    match getsubstr x last (text x).length with
    | .error e => .error e
    | .ok r => .ok (acc ++ [r])
  | n + 1, i, last, col, acc =>
    match getitem x i with
    | .error e => .error e
    | .ok c =>
      match cmp .eq c (some ⟨1, [9]⟩), cmp .eq c (some ⟨1, [10]⟩), cmp .eq c (some ⟨1, [13]⟩) with
      | .ok true, _, _ =>
        match getsubstr x last i with
        | .error e => .error e
        | .ok r =>
          tabsLoop x size n (i + 1) (i + 1) 0
            (acc ++ [r, mult (some ⟨1, [32]⟩) (if size > 0 then size - (col : Int) % size else 0)])
      | .ok false, .ok a, .ok b => tabsLoop x size n (i + 1) last (if a || b then 0 else col + 1) acc
      | .error e, _, _ => .error e
      | _, .error e, _ => .error e
      | _, _, .error e => .error e

/-- string_wrapper.py:276-294 `strExpandtabs`. -/
def expandtabs (x : Str) (size : Int) : Except Err Str :=
  match tabsLoop x size (text x).length 0 0 0 [] with
  | .error e => .error e
  | .ok acc => join none acc

/-! ### proofs: startswith and endswith -/

theorem valid_nonempty {s : Str} (h : Valid s) (hne : text s ≠ []) : Normal s := by
  cases s with
  | none => trivial
  | some l => exact ⟨h, hne⟩

theorem sliceEq_spec (s : Str) (hs : Valid s) (a b : Int) (p : Str) (hp : Valid p) (hne : text p ≠ []) :
    sliceEq s a b p = .ok (decide (Spec.slice (text s) (some a) (some b) = text p)) := by
  unfold sliceEq
  obtain ⟨r, e, hr⟩ := getsubstr_normal s hs a b
  have e' := getsubstr_spec s a b
  rw [e] at e' ⊢
  injection e' with e'
  simp only
  rw [compare_partial .eq r p hr (valid_nonempty hp hne)]
  unfold Spec.compare
  rw [e', text_construct]

theorem slice_stands (s p : List Nat) (a : Nat) (h : a ≤ s.length) :
    Spec.slice s (some (a : Int)) (some ((a : Int) + p.length)) = p ↔ StandsAt s p a := by
  unfold Spec.slice StandsAt Spec.searchStop Spec.searchStart
  simp only [Option.getD_some]
  rw [if_neg (by omega), if_neg (by omega), List.drop_take, Int.toNat_natCast]
  have : min s.length ((a : Int) + p.length).toNat - a = min p.length (s.length - a) := by omega
  rw [this]
  have : ((s.drop a).take (min p.length (s.length - a))) = (s.drop a).take p.length := by
    by_cases hm : p.length ≤ s.length - a
    · rw [Nat.min_eq_left hm]
    · rw [Nat.min_eq_right (by omega), List.take_of_length_le (by rw [List.length_drop]), List.take_of_length_le (by rw [List.length_drop]; omega)]
  rw [this]

theorem prefix_stands (s p : List Nat) (lo hi : Nat) (h : lo ≤ hi) (hn : hi ≤ s.length) :
    p <+: (s.take hi).drop lo ↔ lo + p.length ≤ hi ∧ StandsAt s p lo := by
  rw [List.drop_take]
  constructor
  · intro hp
    have hl := hp.length_le
    rw [List.length_take, List.length_drop] at hl
    refine ⟨by omega, ?_⟩
    rw [List.prefix_iff_eq_take, List.take_take, Nat.min_eq_left (by omega)] at hp
    exact hp.symm
  · rintro ⟨h1, h2⟩
    rw [List.prefix_iff_eq_take, List.take_take, Nat.min_eq_left (by omega)]
    exact h2.symm

theorem suffix_stands (s p : List Nat) (lo hi : Nat) (h : lo ≤ hi) (hn : hi ≤ s.length) :
    p <:+ (s.take hi).drop lo ↔ lo + p.length ≤ hi ∧ StandsAt s p (hi - p.length) := by
  constructor
  · intro hp
    have hl := hp.length_le
    rw [List.length_drop, List.length_take] at hl
    refine ⟨by omega, ?_⟩
    rw [List.suffix_iff_eq_drop, List.length_drop, List.length_take, List.drop_drop,
      show lo + (min hi s.length - lo - p.length) = hi - p.length by omega, List.drop_take,
      show hi - (hi - p.length) = p.length by omega] at hp
    exact hp.symm
  · rintro ⟨h1, h2⟩
    rw [List.suffix_iff_eq_drop, List.length_drop, List.length_take, List.drop_drop,
      show lo + (min hi s.length - lo - p.length) = hi - p.length by omega, List.drop_take,
      show hi - (hi - p.length) = p.length by omega]
    exact h2.symm

theorem startsWith_stands (s p : List Nat) (start stop : Int) : Spec.StartsWith s p start stop ↔
    Spec.searchStart s.length start + p.length ≤ Spec.searchStop s.length stop ∧ StandsAt s p (Spec.searchStart s.length start) := by
  unfold Spec.StartsWith Spec.slice
  simp only [Option.getD_some]
  constructor
  · rintro ⟨h1, h2⟩
    exact (prefix_stands _ _ _ _ h1 (Nat.min_le_left _ _)).1 h2
  · rintro ⟨h1, h2⟩
    have h3 : Spec.searchStart s.length start ≤ Spec.searchStop s.length stop := by omega
    exact ⟨h3, (prefix_stands _ _ _ _ h3 (Nat.min_le_left _ _)).2 ⟨h1, h2⟩⟩

theorem endsWith_stands (s p : List Nat) (start stop : Int) : Spec.EndsWith s p start stop ↔
    Spec.searchStart s.length start + p.length ≤ Spec.searchStop s.length stop ∧
      StandsAt s p (Spec.searchStop s.length stop - p.length) := by
  unfold Spec.EndsWith Spec.slice
  simp only [Option.getD_some]
  constructor
  · rintro ⟨h1, h2⟩
    exact (suffix_stands _ _ _ _ h1 (Nat.min_le_left _ _)).1 h2
  · rintro ⟨h1, h2⟩
    have h3 : Spec.searchStart s.length start ≤ Spec.searchStop s.length stop := by omega
    exact ⟨h3, (suffix_stands _ _ _ _ h3 (Nat.min_le_left _ _)).2 ⟨h1, h2⟩⟩

theorem stands_nil (s : List Nat) (i : Nat) : StandsAt s [] i := by
  unfold StandsAt
  rw [List.length_nil, List.take_zero]

theorem fromEnd_start (s : Str) (i : Int) : fromEnd s i = (Spec.searchStart (text s).length i : Int) := by
  unfold fromEnd Spec.searchStart
  by_cases h : i < 0
  · simp only [if_pos h]
    by_cases h2 : i + (text s).length < 0
    · rw [if_pos h2]; omega
    · rw [if_neg h2]; omega
  · rw [if_neg h, if_neg h]; omega

theorem fromEnd_stop (s : Str) (i : Int) : (Spec.searchStop (text s).length i : Int) = min ((text s).length : Int) (fromEnd s i) := by
  rw [fromEnd_start]
  unfold Spec.searchStop Spec.searchStart
  omega

theorem stop_full (n : Nat) : Spec.searchStop n (n : Int) = n := by
  unfold Spec.searchStop
  rw [if_neg (by omega)]
  simp

theorem rangeStarts_spec (s pre : Str) (hs : Valid s) (hp : Valid pre) (start stop : Int) (h : start ≤ (text s).length) :
    rangeStarts s pre (fromEnd s start) (fromEnd s stop) =
      .ok (decide (Spec.StartsWith (text s) (text pre) start stop)) := by
  unfold rangeStarts
  have hlo := fromEnd_start s start
  have hhi := fromEnd_stop s stop
  have hle : Spec.searchStart (text s).length start ≤ (text s).length := by
    unfold Spec.searchStart
    split <;> omega
  have hhi0 : 0 ≤ fromEnd s stop := by rw [fromEnd_start]; omega
  rw [hlo]
  generalize fromEnd s stop = hi at *
  by_cases hn : (text pre).length = 0
  · rw [if_pos hn]
    congr 1
    rw [Bool.eq_iff_iff, decide_eq_true_iff, startsWith_stands, List.length_eq_zero_iff.1 hn, Bool.or_eq_true, decide_eq_true_iff,
      decide_eq_true_iff, List.length_nil]
    constructor
    · intro h
      exact ⟨by omega, stands_nil _ _⟩
    · rintro ⟨h1, _⟩
      omega
  · rw [if_neg hn]
    have hne : text pre ≠ [] := fun h => hn (by rw [h]; rfl)
    by_cases h2 : hi < (Spec.searchStart (text s).length start : Int) + (text pre).length
    · rw [if_pos h2]
      congr 1
      symm
      rw [decide_eq_false_iff_not, startsWith_stands]
      rintro ⟨h3, _⟩
      omega
    · rw [if_neg h2, sliceEq_spec s hs _ _ pre hp hne]
      congr 1
      rw [Bool.eq_iff_iff, decide_eq_true_iff, decide_eq_true_iff, slice_stands _ _ _ hle, startsWith_stands]
      constructor
      · intro h3
        have := stands_fits _ _ _ hne h3
        exact ⟨by omega, h3⟩
      · exact fun h3 => h3.2

theorem rangeEnds_spec (s suf : Str) (hs : Valid s) (hp : Valid suf) (start stop : Int) :
    rangeEnds s suf (fromEnd s start) (Spec.searchStop (text s).length stop) =
      .ok (decide (Spec.EndsWith (text s) (text suf) start stop)) := by
  unfold rangeEnds
  have hlo := fromEnd_start s start
  have hhi : Spec.searchStop (text s).length stop ≤ (text s).length := Nat.min_le_left _ _
  rw [hlo]
  by_cases hn : (text suf).length = 0
  · rw [if_pos hn]
    congr 1
    rw [Bool.eq_iff_iff, decide_eq_true_iff, endsWith_stands, List.length_eq_zero_iff.1 hn, Bool.or_eq_true, decide_eq_true_iff,
      decide_eq_true_iff, List.length_nil]
    constructor
    · intro h
      exact ⟨by omega, stands_nil _ _⟩
    · rintro ⟨h1, _⟩
      omega
  · rw [if_neg hn]
    have hne : text suf ≠ [] := fun h => hn (by rw [h]; rfl)
    by_cases h2 : (Spec.searchStart (text s).length start : Int) > (Spec.searchStop (text s).length stop : Int) - (text suf).length
    · rw [if_pos h2]
      congr 1
      symm
      rw [decide_eq_false_iff_not, endsWith_stands]
      rintro ⟨h3, _⟩
      omega
    · rw [if_neg h2, sliceEq_spec s hs _ _ suf hp hne]
      congr 1
      have e1 : (Spec.searchStop (text s).length stop : Int) - (text suf).length =
          ((Spec.searchStop (text s).length stop - (text suf).length : Nat) : Int) := by omega
      have e2 : (Spec.searchStop (text s).length stop : Int) =
          ((Spec.searchStop (text s).length stop - (text suf).length : Nat) : Int) + (text suf).length := by omega
      rw [Bool.eq_iff_iff, decide_eq_true_iff, decide_eq_true_iff, e1]
      conv_lhs => rw [e2]
      rw [slice_stands _ _ _ (by omega), endsWith_stands]
      constructor
      · intro h3
        exact ⟨by omega, h3⟩
      · exact fun h3 => h3.2

theorem clamp_stop (s : Str) (stop : Int) :
    fromEnd s (if stop > (text s).length then ((text s).length : Int) else stop) = (Spec.searchStop (text s).length stop : Int) := by
  rw [fromEnd_start]
  unfold Spec.searchStart Spec.searchStop
  by_cases h1 : stop > (text s).length
  · rw [if_pos h1, if_neg (by omega), if_neg (by omega)]
    omega
  · rw [if_neg h1]
    split <;> omega

/-- C26: `s.startswith(prefix)` and `s.endswith(suffix)`, with or without a range, for all strings and bounds. -/
theorem affix_as_python (s p : Str) (hs : Valid s) (hp : Valid p) (start stop : Int) :
    startswith s p = .ok (decide (text p <+: text s)) ∧ endswith s p = .ok (decide (text p <:+ text s)) ∧
    rangeStartswith s p start stop = .ok (decide (Spec.StartsWith (text s) (text p) start stop)) ∧
    rangeEndswith s p start stop = .ok (decide (Spec.EndsWith (text s) (text p) start stop)) := by
  have hout : start > (text s).length → ¬ (Spec.searchStart (text s).length start ≤ Spec.searchStop (text s).length stop) := by
    intro h
    unfold Spec.searchStart Spec.searchStop
    rw [if_neg (by omega)]
    omega
  refine ⟨?_, ?_, ?_, ?_⟩
  · unfold startswith
    by_cases hn : (text p).length = 0
    · rw [if_pos hn, List.length_eq_zero_iff.1 hn]
      simp
    · have hne : text p ≠ [] := fun h => hn (by rw [h]; rfl)
      rw [if_neg hn, sliceEq_spec s hs _ _ p hp hne]
      congr 1
      have := slice_stands (text s) (text p) 0 (Nat.zero_le _)
      rw [Bool.eq_iff_iff, decide_eq_true_iff, decide_eq_true_iff, List.prefix_iff_eq_take]
      have h0 : ((0 : Nat) : Int) + ((text p).length : Int) = (text p).length := by omega
      rw [h0] at this
      rw [show (0 : Int) = ((0 : Nat) : Int) from rfl, this]
      unfold StandsAt
      rw [List.drop_zero, eq_comm]
  · unfold endswith
    by_cases hn : (text p).length = 0
    · rw [if_pos hn, List.length_eq_zero_iff.1 hn]
      simp
    · have hne : text p ≠ [] := fun h => hn (by rw [h]; rfl)
      rw [if_neg hn, sliceEq_spec s hs _ _ p hp hne]
      congr 1
      rw [Bool.eq_iff_iff, decide_eq_true_iff, decide_eq_true_iff, List.suffix_iff_eq_drop]
      unfold Spec.slice Spec.searchStart
      simp only [Option.getD_some]
      rw [stop_full, List.take_length, if_pos (by omega), show (-((text p).length : Int) + (text s).length).toNat =
        (text s).length - (text p).length by omega, eq_comm]
  · unfold rangeStartswith
    by_cases h : start > (text s).length
    · rw [if_pos h]
      congr 1
      symm
      rw [decide_eq_false_iff_not]
      exact fun hw => hout h hw.1
    · rw [if_neg h]
      exact rangeStarts_spec s p hs hp start stop (by omega)
  · unfold rangeEndswith
    by_cases h : start > (text s).length
    · rw [if_pos h]
      congr 1
      symm
      rw [decide_eq_false_iff_not]
      exact fun hw => hout h hw.1
    · rw [if_neg h]
      simp only
      rw [clamp_stop]
      exact rangeEnds_spec s p hs hp start stop

theorem startswithTuple_spec (s : Str) (hs : Valid s) : ∀ ps : List Str, (∀ p ∈ ps, Valid p) →
    startswithTuple s ps = .ok (decide (∃ p ∈ ps, text p <+: text s))
  | [], _ => by simp [startswithTuple]
  | p :: ps, h => by
    have ih := startswithTuple_spec s hs ps (fun q hq => h q (List.mem_cons_of_mem _ hq))
    have h1 := (affix_as_python s p hs (h p (List.mem_cons_self ..)) 0 0).1
    unfold startswith at h1
    unfold startswithTuple
    by_cases hn : (text p).length = 0
    · rw [if_pos hn] at h1 ⊢
      simp only [Except.ok.injEq] at h1
      simp [← h1]
    · rw [if_neg hn] at h1 ⊢
      rw [h1]
      by_cases hd : text p <+: text s
      · simp [hd]
      · simp [hd, ih]

theorem endswithTuple_spec (s : Str) (hs : Valid s) : ∀ ps : List Str, (∀ p ∈ ps, Valid p) →
    endswithTuple s ps = .ok (decide (∃ p ∈ ps, text p <:+ text s))
  | [], _ => by simp [endswithTuple]
  | p :: ps, h => by
    have ih := endswithTuple_spec s hs ps (fun q hq => h q (List.mem_cons_of_mem _ hq))
    have h1 := (affix_as_python s p hs (h p (List.mem_cons_self ..)) 0 0).2.1
    unfold endswith at h1
    unfold endswithTuple
    by_cases hn : (text p).length = 0
    · rw [if_pos hn] at h1 ⊢
      simp only [Except.ok.injEq] at h1
      simp
      left
      simpa using h1.symm
    · rw [if_neg hn] at h1 ⊢
      rw [h1]
      by_cases hd : text p <:+ text s
      · simp [hd]
      · simp [hd, ih]

theorem rangeStartsTuple_spec (s : Str) (hs : Valid s) (start stop : Int) (h0 : start ≤ (text s).length) : ∀ ps : List Str,
    (∀ p ∈ ps, Valid p) → rangeStartsTuple s (fromEnd s start) (fromEnd s stop) ps =
      .ok (decide (∃ p ∈ ps, Spec.StartsWith (text s) (text p) start stop))
  | [], _ => by simp [rangeStartsTuple]
  | p :: ps, h => by
    have ih := rangeStartsTuple_spec s hs start stop h0 ps (fun q hq => h q (List.mem_cons_of_mem _ hq))
    have h1 := rangeStarts_spec s p hs (h p (List.mem_cons_self ..)) start stop h0
    unfold rangeStarts at h1
    unfold rangeStartsTuple
    by_cases hn : (text p).length = 0
    · rw [if_pos hn] at h1 ⊢
      rw [h1]
      congr 1
      rw [Bool.eq_iff_iff, decide_eq_true_iff, decide_eq_true_iff]
      constructor
      · exact fun hw => ⟨p, List.mem_cons_self .., hw⟩
      · rintro ⟨q, hq, hw⟩
        refine ⟨hw.1, ?_⟩
        rw [List.length_eq_zero_iff.1 hn]
        exact List.nil_prefix
    · rw [if_neg hn] at h1 ⊢
      by_cases h2 : fromEnd s stop < fromEnd s start + (text p).length
      · rw [if_pos h2] at h1 ⊢
        rw [ih]
        simp only [Except.ok.injEq] at h1
        have hd := decide_eq_false_iff_not.1 h1.symm
        simp [hd]
      · rw [if_neg h2] at h1 ⊢
        rw [h1]
        by_cases hd : Spec.StartsWith (text s) (text p) start stop
        · simp [hd]
        · simp [hd, ih]

theorem rangeEndsTuple_spec (s : Str) (hs : Valid s) (start stop : Int) : ∀ ps : List Str,
    (∀ p ∈ ps, Valid p) → rangeEndsTuple s (fromEnd s start) (Spec.searchStop (text s).length stop) ps =
      .ok (decide (∃ p ∈ ps, Spec.EndsWith (text s) (text p) start stop))
  | [], _ => by simp [rangeEndsTuple]
  | p :: ps, h => by
    have ih := rangeEndsTuple_spec s hs start stop ps (fun q hq => h q (List.mem_cons_of_mem _ hq))
    have h1 := rangeEnds_spec s p hs (h p (List.mem_cons_self ..)) start stop
    unfold rangeEnds at h1
    unfold rangeEndsTuple
    by_cases hn : (text p).length = 0
    · rw [if_pos hn] at h1 ⊢
      by_cases hd : Spec.EndsWith (text s) (text p) start stop
      · rw [if_pos (by simpa [hd] using h1)]
        simp [hd]
      · rw [if_neg (by simpa [hd] using h1), ih]
        simp [hd]
    · rw [if_neg hn] at h1 ⊢
      by_cases h2 : fromEnd s start > (Spec.searchStop (text s).length stop : Int) - (text p).length
      · rw [if_pos h2] at h1 ⊢
        rw [ih]
        simp only [Except.ok.injEq] at h1
        have hd := decide_eq_false_iff_not.1 h1.symm
        simp [hd]
      · rw [if_neg h2] at h1 ⊢
        rw [h1]
        by_cases hd : Spec.EndsWith (text s) (text p) start stop
        · simp [hd]
        · simp [hd, ih]

/-- C26: with a tuple of strings it is enough that one of them is a prefix (suffix). -/
theorem affix_tuple_as_python (s : Str) (ps : List Str) (hs : Valid s) (hp : ∀ p ∈ ps, Valid p) (start stop : Int) :
    startswithTuple s ps = .ok (decide (∃ p ∈ ps, text p <+: text s)) ∧
    endswithTuple s ps = .ok (decide (∃ p ∈ ps, text p <:+ text s)) ∧
    rangeStartswithTuple s ps start stop = .ok (decide (∃ p ∈ ps, Spec.StartsWith (text s) (text p) start stop)) ∧
    rangeEndswithTuple s ps start stop = .ok (decide (∃ p ∈ ps, Spec.EndsWith (text s) (text p) start stop)) := by
  have hout : start > (text s).length → ¬ (Spec.searchStart (text s).length start ≤ Spec.searchStop (text s).length stop) := by
    intro h
    unfold Spec.searchStart Spec.searchStop
    rw [if_neg (by omega)]
    omega
  refine ⟨startswithTuple_spec s hs ps hp, endswithTuple_spec s hs ps hp, ?_, ?_⟩
  · unfold rangeStartswithTuple
    by_cases h : start > (text s).length
    · rw [if_pos h]
      congr 1
      symm
      rw [decide_eq_false_iff_not]
      rintro ⟨_, _, hw⟩
      exact hout h hw.1
    · rw [if_neg h]
      exact rangeStartsTuple_spec s hs start stop (by omega) ps hp
  · unfold rangeEndswithTuple
    by_cases h : start > (text s).length
    · rw [if_pos h]
      congr 1
      symm
      rw [decide_eq_false_iff_not]
      rintro ⟨_, _, hw⟩
      exact hout h hw.1
    · rw [if_neg h]
      simp only
      rw [clamp_stop]
      exact rangeEndsTuple_spec s hs start stop ps hp

/-- "hello".startswith("lo", 3), .startswith("", 5), .startswith("", 6), .endswith("el", -4, 3). -/
example : rangeStartswith (some ⟨1, [104, 101, 108, 108, 111]⟩) (some ⟨1, [108, 111]⟩) 3 5 = .ok true ∧
    rangeStartswith (some ⟨1, [104, 101, 108, 108, 111]⟩) none 5 5 = .ok true ∧
    rangeStartswith (some ⟨1, [104, 101, 108, 108, 111]⟩) none 6 9 = .ok false ∧
    rangeEndswith (some ⟨1, [104, 101, 108, 108, 111]⟩) (some ⟨1, [101, 108]⟩) (-4) 3 = .ok true ∧
    endswithTuple (some ⟨1, [104, 101, 108, 108, 111]⟩) [some ⟨1, [120]⟩, some ⟨1, [108, 111]⟩] = .ok true := by decide +kernel

/-! ### proofs: replace -/

theorem find_from (l sep : Str) (cur : Nat) (hs : text sep ≠ []) :
    ∃ r, find l sep cur (text l).length = .ok r ∧
      ((r = -1 ∧ ∀ i ≥ cur, ¬ StandsAt (text l) (text sep) i) ∨
       (∃ m : Nat, r = m ∧ cur ≤ m ∧ m + (text sep).length ≤ (text l).length ∧ StandsAt (text l) (text sep) m ∧
         ∀ i, cur ≤ i → i < m → ¬ StandsAt (text l) (text sep) i)) := by
  obtain ⟨r, e, h⟩ := find_spec l sep cur (text l).length
  refine ⟨r, e, ?_⟩
  have hlo : Spec.searchStart (text l).length (cur : Int) = cur := by
    unfold Spec.searchStart
    rw [if_neg (by omega), Int.toNat_natCast]
  have hocc : ∀ i, Spec.OccursAt (text l) (text sep) cur (text l).length i ↔ cur ≤ i ∧ StandsAt (text l) (text sep) i := by
    intro i
    unfold Spec.OccursAt
    rw [hlo, stop_full]
    exact ⟨fun h => ⟨h.1, h.2.2⟩, fun h => ⟨h.1, stands_fits _ _ _ hs h.2, h.2⟩⟩
  rcases h with ⟨i, h1, h2, h3⟩ | ⟨h1, h2⟩
  · rw [hocc] at h2
    exact Or.inr ⟨i, h1, h2.1, stands_fits _ _ _ hs h2.2, h2.2, fun j a b hj => h3 j b ((hocc j).2 ⟨a, hj⟩)⟩
  · exact Or.inl ⟨h1, fun i hi hst => h2 i ((hocc i).2 ⟨hi, hst⟩)⟩

theorem find_empty (l sep : Str) (cur : Nat) (hc : cur ≤ (text l).length) (hs : text sep = []) :
    find l sep cur (text l).length = .ok (cur : Int) := by
  have hlo : Spec.searchStart (text l).length (cur : Int) = cur := by
    unfold Spec.searchStart
    rw [if_neg (by omega), Int.toNat_natCast]
  have hocc : ∀ i, Spec.OccursAt (text l) (text sep) cur (text l).length i ↔ cur ≤ i ∧ i ≤ (text l).length := by
    intro i
    unfold Spec.OccursAt
    rw [hlo, stop_full, hs]
    simp
  refine (find_least l sep cur (text l).length cur).2 (Or.inl ⟨cur, rfl, (hocc cur).2 ⟨Nat.le_refl _, hc⟩, fun j hj h => ?_⟩)
  rw [hocc] at h
  omega

theorem piece (s : Str) (a b : Nat) (hb : b ≤ (text s).length) :
    ∃ r, getsubstr s a b = .ok r ∧ text r = ((text s).take b).drop a ∧ (Valid s → Normal r) := by
  refine ⟨_, getsubstr_spec s a b, ?_, fun hs => ?_⟩
  · rw [text_construct, slice_nat _ _ _ hb]
  · obtain ⟨r, e, h⟩ := getsubstr_normal s hs a b
    rw [getsubstr_spec] at e
    injection e with e
    rw [e]
    exact h

theorem replaceLoop_spec (s old : Str) (max : Int) (hs : Valid s) (ho : text old ≠ []) : ∀ (fuel pos seen : Nat) (acc : List Str),
    (text s).length - pos < fuel → pos ≤ (text s).length →
    ∃ ps, replaceLoop s old max fuel pos seen acc = .ok (acc ++ ps) ∧ (∀ p ∈ ps, Valid p) ∧
      Spec.Split (text old) (remaining max seen) ((text s).drop pos) (ps.map text)
  | 0, _, _, _, h, _ => by omega
  | fuel + 1, pos, seen, acc, hf, hc => by
    have hpos := List.length_pos_iff.2 ho
    have hlen : ¬ (text old).length = 0 := by omega
    have hlast : (remaining max seen = some 0 ∨ ∀ i, ¬ StandsAt ((text s).drop pos) (text old) i) →
        ∃ ps, (match getsubstr s pos (text s).length with
          | .error e => .error e
          | .ok piece => .ok (acc ++ [piece])) = Except.ok (acc ++ ps) ∧ (∀ p ∈ ps, Valid p) ∧
          Spec.Split (text old) (remaining max seen) ((text s).drop pos) (ps.map text) := by
      intro h
      obtain ⟨r, e, ht, hv⟩ := piece s pos (text s).length (Nat.le_refl _)
      rw [e]
      refine ⟨[r], rfl, fun p hp => ?_, ?_⟩
      · rw [List.mem_singleton.1 hp]
        exact normal_valid (hv hs)
      · rw [List.map_singleton, ht, List.take_length]
        exact .uncut _ _ h
    rw [replaceLoop]
    unfold nextLoc
    by_cases hmax : max ≥ 0 ∧ (seen : Int) ≥ max
    · rw [if_pos hmax]
      simp only
      rw [if_neg (by omega)]
      exact hlast (Or.inl (by rw [remaining_zero]; omega))
    · rw [if_neg hmax]
      obtain ⟨r, e, h⟩ := find_from s old pos ho
      rw [e]
      simp only
      rcases h with ⟨h1, h2⟩ | ⟨m, h1, h2, h3, h4, h5⟩
      · rw [if_neg (by omega)]
        refine hlast (Or.inr (fun i hi => ?_))
        rw [stands_drop] at hi
        exact h2 _ (by omega) hi
      · rw [if_pos (by omega), if_neg hlen, if_neg hlen]
        obtain ⟨r', e', ht, hv⟩ := piece s pos m (by omega)
        rw [show r + 0 = (m : Int) by omega, e']
        simp only
        rw [show r.toNat = m by omega]
        obtain ⟨ps, ep, hp1, hp2⟩ := replaceLoop_spec s old max hs ho fuel (m + (text old).length) (seen + 1) (acc ++ [r'])
          (by omega) h3
        refine ⟨r' :: ps, by rw [ep, List.append_assoc]; rfl, ?_, ?_⟩
        · intro p hp
          rcases List.mem_cons.1 hp with hp | hp
          · rw [hp]; exact normal_valid (hv hs)
          · exact hp1 p hp
        · have hcut : (text s).drop pos = ((text s).take m).drop pos ++ text old ++ (text s).drop (m + (text old).length) := by
            rw [drop_split (text s) pos m h2 (by omega), List.append_assoc]
            congr 1
            conv_lhs => rw [← List.take_append_drop (text old).length ((text s).drop m)]
            rw [List.drop_drop]
            congr 1
          have hfirst : ∀ i < (((text s).take m).drop pos).length, ¬ StandsAt ((text s).drop pos) (text old) i := by
            intro i hi hst
            rw [List.length_drop, List.length_take] at hi
            rw [stands_drop] at hst
            exact h5 (pos + i) (by omega) (by omega) hst
          rw [List.map_cons, ht]
          rw [hcut] at hfirst ⊢
          refine Spec.Split.cut _ _ _ _ ?_ hfirst ?_
          · rw [Ne, remaining_zero]
            omega
          · rw [remaining_succ]
            exact hp2

theorem interleave_succ (new : List Nat) (lim : Option Nat) (h : lim ≠ some 0) (c : Nat) (s : List Nat) :
    Spec.interleave new lim (c :: s) = new ++ c :: Spec.interleave new (lim.map (· - 1)) s := by
  match lim, h with
  | none, _ => rfl
  | some (n + 1), _ => rfl

theorem interleave_nil (new : List Nat) (lim : Option Nat) (h : lim ≠ some 0) : Spec.interleave new lim [] = new := by
  match lim, h with
  | none, _ => rfl
  | some (n + 1), _ => rfl

theorem interleave_zero (new s : List Nat) : Spec.interleave new (some 0) s = s := by
  unfold Spec.interleave
  rfl

theorem replaceLoop_empty (s old : Str) (new : List Nat) (max : Int) (hs : Valid s) (ho : text old = []) :
    ∀ (fuel pos k : Nat) (acc : List Str), (text s).length - pos < fuel → pos ≤ (text s).length → remaining max k ≠ some 0 →
    ∃ ps, replaceLoop s old max fuel pos (k + 1) acc = .ok (acc ++ ps) ∧ (∀ p ∈ ps, Valid p) ∧ ps ≠ [] ∧
      new ++ Spec.join new (ps.map text) = Spec.interleave new (remaining max k) ((text s).drop pos)
  | 0, _, _, _, h, _, _ => by omega
  | fuel + 1, pos, k, acc, hf, hc, hk => by
    have hlen : (text old).length = 0 := by rw [ho]; rfl
    have hlast : (remaining max (k + 1) = some 0 ∨ pos = (text s).length) →
        ∃ ps, (match getsubstr s pos (text s).length with
          | .error e => .error e
          | .ok piece => .ok (acc ++ [piece])) = Except.ok (acc ++ ps) ∧ (∀ p ∈ ps, Valid p) ∧ ps ≠ [] ∧
          new ++ Spec.join new (ps.map text) = Spec.interleave new (remaining max k) ((text s).drop pos) := by
      intro h
      obtain ⟨r, e, ht, hv⟩ := piece s pos (text s).length (Nat.le_refl _)
      rw [e]
      refine ⟨[r], rfl, fun p hp => ?_, by simp, ?_⟩
      · rw [List.mem_singleton.1 hp]
        exact normal_valid (hv hs)
      · rw [List.map_singleton, ht, List.take_length]
        change new ++ (text s).drop pos = _
        cases hd : (text s).drop pos with
        | nil => rw [interleave_nil _ _ hk, List.append_nil]
        | cons c t =>
          rw [interleave_succ _ _ hk, remaining_succ]
          rcases h with h | h
          · rw [h, interleave_zero]
          · rw [h, List.drop_length] at hd
            simp at hd
    rw [replaceLoop]
    unfold nextLoc
    by_cases hmax : max ≥ 0 ∧ ((k + 1 : Nat) : Int) ≥ max
    · rw [if_pos hmax]
      simp only
      rw [if_neg (by omega)]
      exact hlast (Or.inl (by rw [remaining_zero]; omega))
    · rw [if_neg hmax, find_empty s old pos hc ho]
      simp only
      by_cases hp : pos = (text s).length
      · rw [if_neg (by omega)]
        exact hlast (Or.inr hp)
      · rw [if_pos (by omega), if_pos hlen, if_pos hlen]
        obtain ⟨r', e', ht, hv⟩ := piece s pos (pos + 1) (by omega)
        rw [show ((pos : Int) + 1) = ((pos + 1 : Nat) : Int) by omega, e']
        simp only
        have hk1 : remaining max (k + 1) ≠ some 0 := by
          rw [Ne, remaining_zero]
          omega
        obtain ⟨ps, ep, hp1, hp2, hp3⟩ := replaceLoop_empty s old new max hs ho fuel (pos + 1) (k + 1) (acc ++ [r'])
          (by omega) (by omega) hk1
        refine ⟨r' :: ps, by rw [ep, List.append_assoc]; rfl, ?_, by simp, ?_⟩
        · intro p hp
          rcases List.mem_cons.1 hp with hp | hp
          · rw [hp]; exact normal_valid (hv hs)
          · exact hp1 p hp
        · have hlt : pos < (text s).length := by omega
          have hone : ((text s).take (pos + 1)).drop pos = [(text s)[pos]] := by
            rw [List.drop_take, List.drop_eq_getElem_cons hlt, show pos + 1 - pos = 1 by omega, List.take_succ_cons, List.take_zero]
          rw [List.map_cons, ht, hone, join_cons _ _ (by simpa using hp2), List.drop_eq_getElem_cons hlt, interleave_succ _ _ hk,
            remaining_succ, ← hp3]
          simp

/-- C26: `s.replace(old, new, max)`: the first `max` occurrences (all if negative) are replaced; an empty `old` occurs before
every character and at the end. `old38` only matters for the empty string: Python 3.8 itself gives "" for
`"".replace("", new, n)`. -/
theorem replace_as_python (old38 : Bool) (s old new : Str) (max : Int) (hs : Valid s) (hn : Valid new) :
    ∃ r, replace old38 s old new max = .ok r ∧
      (text old ≠ [] → Spec.Replaced (text old) (text new) (Spec.limit max) (text s) (text r)) ∧
      (text old = [] → text r = if old38 = true ∧ text s = [] ∧ max ≥ 0 then [] else
        Spec.interleave (text new) (Spec.limit max) (text s)) := by
  have hlim0 : max = 0 → Spec.limit max = some 0 := fun h => by rw [h]; rfl
  have hzero : max = 0 → (text old ≠ [] → Spec.Replaced (text old) (text new) (Spec.limit max) (text s) (text s)) ∧
      (text old = [] → text s = if old38 = true ∧ text s = [] ∧ max ≥ 0 then [] else
        Spec.interleave (text new) (Spec.limit max) (text s)) := by
    intro h
    rw [hlim0 h, interleave_zero]
    refine ⟨fun _ => ⟨[text s], .uncut _ _ (Or.inl rfl), rfl⟩, fun _ => ?_⟩
    split
    · rename_i h'; exact h'.2.1
    · rfl
  have hbody : max ≠ 0 → ∃ r, replaceBody s old new max = .ok r ∧
      (text old ≠ [] → Spec.Replaced (text old) (text new) (Spec.limit max) (text s) (text r)) ∧
      (text old = [] → text r = Spec.interleave (text new) (Spec.limit max) (text s)) := by
    intro h
    unfold replaceBody
    by_cases ho : text old = []
    · have hlen : (text old).length = 0 := by rw [ho]; rfl
      rw [if_pos hlen, if_pos hlen]
      obtain ⟨ps, e, h1, h2, h3⟩ := replaceLoop_empty s old (text new) max hs ho ((text s).length + 2) 0 0 [none] (by omega)
        (Nat.zero_le _) (by rw [Ne, remaining_zero]; omega)
      rw [e]
      obtain ⟨r, ej, hj⟩ := join_spec new ([none] ++ ps) hn (fun p hp => by
        rcases List.mem_append.1 hp with hp | hp
        · rw [List.mem_singleton.1 hp]; trivial
        · exact h1 p hp)
      refine ⟨r, ej, fun h' => absurd ho h', fun _ => ?_⟩
      rw [hj, List.singleton_append, List.map_cons, join_cons _ _ (by simpa using h2)]
      change [] ++ text new ++ _ = _
      rw [List.nil_append, h3, remaining0, List.drop_zero]
    · have hlen : ¬ (text old).length = 0 := by rw [List.length_eq_zero_iff]; exact ho
      rw [if_neg hlen, if_neg hlen]
      obtain ⟨ps, e, h1, h2⟩ := replaceLoop_spec s old max hs ho ((text s).length + 2) 0 0 [] (by omega) (Nat.zero_le _)
      rw [e, List.nil_append]
      obtain ⟨r, ej, hj⟩ := join_spec new ps hn h1
      refine ⟨r, ej, fun _ => ⟨_, ?_, hj⟩, fun h' => absurd h' ho⟩
      rw [remaining0, List.drop_zero] at h2
      exact h2
  unfold replace
  cases old38 with
  | true =>
    rw [if_pos rfl]
    by_cases h : max = 0
    · rw [if_pos (Or.inl h)]
      exact ⟨s, rfl, hzero h⟩
    · by_cases h2 : max ≥ 0 ∧ (text s).length = 0 ∧ (text old).length = 0
      · rw [if_pos (Or.inr h2)]
        have e1 := List.length_eq_zero_iff.1 h2.2.1
        have e2 := List.length_eq_zero_iff.1 h2.2.2
        refine ⟨s, rfl, fun h' => absurd e2 h', fun _ => ?_⟩
        rw [if_pos ⟨rfl, e1, h2.1⟩, e1]
      · rw [if_neg (by rintro (h' | h'); exacts [h h', h2 h'])]
        obtain ⟨r, e, h3, h4⟩ := hbody h
        refine ⟨r, e, h3, fun ho => ?_⟩
        rw [if_neg (fun h' => h2 ⟨h'.2.2, by rw [h'.2.1]; rfl, by rw [ho]; rfl⟩)]
        exact h4 ho
  | false =>
    rw [if_neg (by simp)]
    by_cases h : max = 0
    · rw [if_pos h]
      exact ⟨s, rfl, hzero h⟩
    · rw [if_neg h]
      by_cases h2 : max ≥ 0 ∧ (text s).length = 0 ∧ (text old).length = 0
      · rw [if_pos h2]
        have e1 := List.length_eq_zero_iff.1 h2.2.1
        have e2 := List.length_eq_zero_iff.1 h2.2.2
        refine ⟨new, rfl, fun h' => absurd e2 h', fun _ => ?_⟩
        rw [if_neg (by simp), e1, interleave_nil]
        unfold Spec.limit
        rw [if_neg (by omega)]
        simp
        omega
      · rw [if_neg h2]
        obtain ⟨r, e, h3, h4⟩ := hbody h
        refine ⟨r, e, h3, fun ho => ?_⟩
        rw [if_neg (by simp)]
        exact h4 ho

/-- "abcab".replace("ab", "€", 1), .replace("", "-") and .replace("", "-", 2). -/
example : replace false (some ⟨1, [97, 98, 99, 97, 98]⟩) (some ⟨1, [97, 98]⟩) (some ⟨2, [8364]⟩) 1 =
      .ok (some ⟨2, [8364, 99, 97, 98]⟩) ∧
    replace false (some ⟨1, [97, 98]⟩) none (some ⟨1, [45]⟩) (-1) = .ok (some ⟨1, [45, 97, 45, 98, 45]⟩) ∧
    replace false (some ⟨1, [97, 98]⟩) none (some ⟨1, [45]⟩) 1 = .ok (some ⟨1, [45, 97, 98]⟩) ∧
    Valid (some ⟨1, [97, 98, 99, 97, 98]⟩) ∧ Valid (some ⟨2, [8364]⟩) :=
  ⟨by decide, by decide, by decide, ⟨by simp, by decide, by decide⟩, ⟨by simp, by decide, by decide⟩⟩

/-- The code violates C20/C26: a replacement that leaves nothing is not `==` to "": compiled `"a".replace("a", "") == ""` is
False. -/
theorem replaced_by_nothing : replace false (some ⟨1, [97]⟩) (some ⟨1, [97]⟩) none (-1) = .ok (some ⟨1, []⟩) ∧
    cmp .eq (some ⟨1, []⟩) none = .ok false := by decide

/-! ### proofs: padding -/

theorem mult_valid (s : Str) (n : Int) (hs : Valid s) : Valid (mult s n) := by
  cases s with
  | none => trivial
  | some l =>
    have ht := mult_as_python (some l) n
    unfold mult at ht ⊢
    by_cases h : n ≤ 0
    · simp only [if_pos h]; trivial
    · simp only [if_neg h] at ht ⊢
      have hm : ∀ p ∈ multLoop l.points n.toNat [], p ∈ l.points := by
        intro p hp
        change multLoop l.points n.toNat [] = _ at ht
        rw [ht] at hp
        unfold Spec.times at hp
        obtain ⟨q, hq, hp⟩ := List.mem_flatten.1 hp
        rw [List.eq_of_mem_replicate hq] at hp
        exact hp
      exact ⟨hs.width, fun p hp => hs.fits p (hm p hp), fun p hp => hs.points p (hm p hp)⟩

theorem concat_valid (s t : Str) (hs : Valid s) (ht : Valid t) : ∃ r, concat s t = .ok r ∧ text r = text s ++ text t ∧ Valid r := by
  cases s with
  | none =>
    cases t with
    | none => exact ⟨none, rfl, rfl, trivial⟩
    | some r => exact ⟨some r, rfl, rfl, ht⟩
  | some l =>
    cases t with
    | none => exact ⟨some l, rfl, (List.append_nil _).symm, hs⟩
    | some r =>
      refine ⟨_, concat_eq l r hs ht, rfl, ?_⟩
      have hw : max l.width r.width = 1 ∨ max l.width r.width = 2 ∨ max l.width r.width = 4 := by
        have h1 := hs.width
        have h2 := ht.width
        omega
      have h1 := ok_widen hs _ hw (Nat.le_max_left ..)
      have h2 := ok_widen ht _ hw (Nat.le_max_right ..)
      refine ⟨hw, fun p hp => ?_, fun p hp => ?_⟩
      · rcases List.mem_append.1 hp with hp | hp
        · exact h1.fits p hp
        · exact h2.fits p hp
      · rcases List.mem_append.1 hp with hp | hp
        · exact h1.points p hp
        · exact h2.points p hp

theorem times_single (c : Nat) (n : Int) : Spec.times [c] n = Spec.pad c n := by
  unfold Spec.times Spec.pad
  induction n.toNat with
  | zero => rfl
  | succ k ih => rw [List.replicate_succ, List.flatten_cons, ih, List.replicate_succ]; rfl

theorem pad_none (c : Nat) (n : Int) (h : n ≤ 0) : Spec.pad c n = [] := by
  unfold Spec.pad
  rw [show n.toNat = 0 by omega]
  rfl

theorem ljust_spec (x : Str) (width : Int) (fill : Str) (hx : Valid x) (hf : Valid fill) (c : Nat) (hc : text fill = [c]) :
    ∃ r, ljust x width fill = .ok r ∧ text r = Spec.ljust (text x) width c := by
  unfold ljust Spec.ljust
  by_cases h : width ≤ (text x).length
  · rw [if_pos h, pad_none _ _ (by omega), List.append_nil]
    exact ⟨x, rfl, rfl⟩
  · rw [if_neg h]
    obtain ⟨r, e, ht, _⟩ := concat_valid x (mult fill (width - (text x).length)) hx (mult_valid _ _ hf)
    refine ⟨r, e, ?_⟩
    rw [ht, mult_as_python, hc, times_single]

theorem rjust_spec (x : Str) (width : Int) (fill : Str) (hx : Valid x) (hf : Valid fill) (c : Nat) (hc : text fill = [c]) :
    ∃ r, rjust x width fill = .ok r ∧ text r = Spec.rjust (text x) width c := by
  unfold rjust Spec.rjust
  by_cases h : width ≤ (text x).length
  · rw [if_pos h, pad_none _ _ (by omega)]
    exact ⟨x, rfl, rfl⟩
  · rw [if_neg h]
    obtain ⟨r, e, ht, _⟩ := concat_valid (mult fill (width - (text x).length)) x (mult_valid _ _ hf) hx
    refine ⟨r, e, ?_⟩
    rw [ht, mult_as_python, hc, times_single]

theorem center_spec (x : Str) (width : Int) (fill : Str) (hx : Valid x) (hf : Valid fill) (c : Nat) (hc : text fill = [c]) :
    ∃ r, center x width fill = .ok r ∧
      text r = if width ≤ (text x).length then text x else
        Spec.pad c ((width - (text x).length) / 2) ++ text x ++
          Spec.pad c (width - (text x).length - (width - (text x).length) / 2) := by
  unfold center
  by_cases h : width ≤ (text x).length
  · rw [if_pos h, if_pos h]
    exact ⟨x, rfl, rfl⟩
  · rw [if_neg h, if_neg h]
    simp only
    obtain ⟨y, e, ht, hy⟩ := concat_valid (mult fill ((width - (text x).length) / 2)) x (mult_valid _ _ hf) hx
    rw [e]
    obtain ⟨r, e', ht', _⟩ := concat_valid y (mult fill (width - (text x).length - (width - (text x).length) / 2)) hy
      (mult_valid _ _ hf)
    refine ⟨r, e', ?_⟩
    rw [ht', ht, mult_as_python, mult_as_python, hc, times_single, times_single]

theorem single_of_length (s : Str) (h : (text s).length = 1) : ∃ c, text s = [c] := List.length_eq_one_iff.1 h

/-- C26: `s.ljust(width, fill)` and `s.rjust(width, fill)`; TypeError exactly if the fill is not one character. -/
theorem justify_as_python (x : Str) (width : Int) (fill : Str) (hx : Valid x) (hf : Valid fill) :
    (∀ f, (∀ c, text fill = [c] → ∃ r, f x width fill = .ok r) → (justify f x width fill = .ok none ↔ (text fill).length ≠ 1)) ∧
    (∀ c, text fill = [c] → (∃ r, justify ljust x width fill = .ok (some r) ∧ text r = Spec.ljust (text x) width c) ∧
      (∃ r, justify rjust x width fill = .ok (some r) ∧ text r = Spec.rjust (text x) width c)) := by
  constructor
  · intro f hr
    unfold justify
    by_cases h : (text fill).length = 1
    · rw [if_pos h]
      obtain ⟨c, hc⟩ := single_of_length _ h
      obtain ⟨r, e⟩ := hr c hc
      rw [e]
      simp [h]
    · rw [if_neg h]
      simp [h]
  · intro c hc
    unfold justify
    rw [if_pos (by rw [hc]; rfl), if_pos (by rw [hc]; rfl)]
    obtain ⟨r, e, ht⟩ := ljust_spec x width fill hx hf c hc
    obtain ⟨r', e', ht'⟩ := rjust_spec x width fill hx hf c hc
    rw [e, e']
    exact ⟨⟨r, rfl, ht⟩, ⟨r', rfl, ht'⟩⟩

/-- C26: `s.center(width, fill)`. It is missing an odd number of fill characters with an odd width: see
`center_differs`. -/
theorem center_partial (x : Str) (width : Int) (fill : Str) (hx : Valid x) (hf : Valid fill) (c : Nat) (hc : text fill = [c])
    (h : width ≤ (text x).length ∨ width % 2 = 0 ∨ (width - (text x).length) % 2 = 0) :
    ∃ r, justify center x width fill = .ok (some r) ∧ text r = Spec.center (text x) width c := by
  unfold justify
  rw [if_pos (by rw [hc]; rfl)]
  obtain ⟨r, e, ht⟩ := center_spec x width fill hx hf c hc
  rw [e]
  refine ⟨r, rfl, ?_⟩
  rw [ht]
  unfold Spec.center
  by_cases hw : width ≤ (text x).length
  · rw [if_pos hw, if_pos hw]
  · rw [if_neg hw, if_neg hw]
    simp only
    rw [if_neg (by omega), Int.add_zero]

example : justify center (some ⟨1, [97, 98]⟩) 6 (some ⟨2, [8364]⟩) = .ok (some (some ⟨2, [8364, 8364, 97, 98, 8364, 8364]⟩)) ∧
    justify ljust (some ⟨1, [97, 98]⟩) 4 (some ⟨1, [46]⟩) = .ok (some (some ⟨1, [97, 98, 46, 46]⟩)) ∧
    justify rjust (some ⟨1, [97, 98]⟩) 1 (some ⟨1, [46]⟩) = .ok (some (some ⟨1, [97, 98]⟩)) ∧
    justify rjust (some ⟨1, [97, 98]⟩) 1 (some ⟨1, [46, 46]⟩) = .ok none := by decide

/-- The code differs from Python: "ab".center(5) is " ab  " where the interpreter gives "  ab ". -/
theorem center_differs :
    justify center (some ⟨1, [97, 98]⟩) 5 (some ⟨1, [32]⟩) = .ok (some (some ⟨1, [32, 97, 98, 32, 32]⟩)) ∧
    Spec.center [97, 98] 5 32 = [32, 32, 97, 98, 32] := by decide

/-! ### proofs: zfill and expandtabs -/

theorem item (x : Str) (hx : Valid x) (i : Nat) (hi : i < (text x).length) (k : Nat) (hk : k < 256) :
    ∃ r, getitem x i = .ok r ∧ ∀ k < 256, cmp .eq r (some ⟨1, [k]⟩) = .ok (decide ((text x)[i] = k)) := by
  obtain ⟨r, e, hr⟩ : ∃ r, getitem x i = .ok r ∧ (text r = [(text x)[i]] ∧ Normal r) := by
    cases x with
    | none => simp [text] at hi
    | some l =>
      change i < l.points.length at hi
      unfold getitem
      simp only
      by_cases h1 : l.points.length = 1
      · rw [if_pos h1]
        refine ⟨some l, rfl, ?_, hx, List.ne_nil_of_length_pos (by omega)⟩
        obtain ⟨c, hc⟩ := List.length_eq_one_iff.1 h1
        have : i = 0 := by omega
        subst this
        simp [text, hc]
      · rw [if_neg h1, if_neg (show ¬ (i : Int) < 0 by omega), if_neg (show ¬ (i : Int) < 0 by omega), Int.toNat_natCast,
          List.getElem?_eq_getElem hi]
        refine ⟨_, rfl, rfl, ⟨hx.width, fun p hp => ?_, fun p hp => ?_⟩, by simp⟩
        · rw [List.mem_singleton.1 hp]
          exact hx.fits _ (List.getElem_mem hi)
        · rw [List.mem_singleton.1 hp]
          exact hx.points _ (List.getElem_mem hi)
  refine ⟨r, e, fun k hk => ?_⟩
  have hn : Normal (some ⟨1, [k]⟩) := by
    refine ⟨⟨Or.inl rfl, fun p hp => ?_, fun p hp => ?_⟩, by simp⟩
    · rw [List.mem_singleton.1 hp]
      simpa using hk
    · rw [List.mem_singleton.1 hp]
      unfold Spec.maxPoint
      omega
  rw [compare_partial .eq r _ hr.2 hn]
  unfold Spec.compare
  rw [hr.1]
  change _ = Except.ok (decide ((text x)[i] = k))
  generalize (text x)[i] = p
  simp [text]

theorem zero_valid (c : Nat) (h : c < 128) : Valid (some ⟨1, [c]⟩) := by
  refine ⟨Or.inl rfl, fun p hp => ?_, fun p hp => ?_⟩
  · rw [List.mem_singleton.1 hp]
    change c < 256 ^ 1
    omega
  · rw [List.mem_singleton.1 hp]
    unfold Spec.maxPoint
    omega

theorem flatten_zeros (w n : Int) : ((if w - n > 0 then [mult (some ⟨1, [48]⟩) (w - n)] else []).map text).flatten = Spec.pad 48 (w - n) := by
  by_cases h : w - n > 0
  · rw [if_pos h, List.map_singleton, mult_as_python]
    change [Spec.times [48] (w - n)].flatten = _
    rw [times_single, List.flatten_singleton]
  · rw [if_neg h, pad_none _ _ (by omega)]
    rfl

theorem zfill_sign (l : List Nat) (width : Int) (h0 : 0 < l.length) (hs : l[0] = 43 ∨ l[0] = 45) :
    Spec.zfill l width = [l[0]] ++ Spec.pad 48 (width - l.length) ++ l.drop 1 := by
  match l, h0, hs with
  | c :: t, _, hs =>
    change c = 43 ∨ c = 45 at hs
    unfold Spec.zfill
    simp only
    rw [if_pos hs]
    simp

theorem zfill_plain (l : List Nat) (width : Int) (h : ∀ h0 : 0 < l.length, ¬ (l[0] = 43 ∨ l[0] = 45)) :
    Spec.zfill l width = Spec.pad 48 (width - l.length) ++ l := by
  match l, h with
  | [], _ => simp [Spec.zfill]
  | c :: t, h =>
    have hs : ¬ (c = 43 ∨ c = 45) := h (by simp)
    unfold Spec.zfill
    simp only
    rw [if_neg hs]

/-- C26: `s.zfill(width)`. -/
theorem zfill_as_python (x : Str) (width : Int) (hx : Valid x) :
    ∃ r, zfill x width = .ok r ∧ text r = Spec.zfill (text x) width := by
  have hz := flatten_zeros width (text x).length
  have hzv : ∀ p ∈ (if width - (text x).length > 0 then [mult (some ⟨1, [48]⟩) (width - (text x).length)] else []), Valid p := by
    intro p hp
    split at hp
    · rw [List.mem_singleton.1 hp]
      exact mult_valid _ _ (zero_valid 48 (by omega))
    · simp at hp
  unfold zfill zfillParts
  simp only
  generalize (if width - (text x).length > 0 then [mult (some ⟨1, [48]⟩) (width - (text x).length)] else []) = zeros at *
  have hplain : ∃ r, join none (zeros ++ [x]) = .ok r ∧ text r = Spec.pad 48 (width - (text x).length) ++ text x := by
    obtain ⟨r, e, ht⟩ := join_spec none (zeros ++ [x]) trivial (fun p hp => by
      rcases List.mem_append.1 hp with hp | hp
      · exact hzv p hp
      · rw [List.mem_singleton.1 hp]; exact hx)
    refine ⟨r, e, ?_⟩
    rw [ht]
    change Spec.join [] _ = _
    rw [join_nil, List.map_append, List.flatten_append, hz]
    simp
  by_cases hn : (text x).length ≠ 0
  · rw [if_pos hn]
    have h0 : 0 < (text x).length := by omega
    obtain ⟨c, e, hc⟩ := item x hx 0 h0 0 (by omega)
    change getitem x 0 = _ at e
    rw [e]
    simp only
    rw [hc 43 (by omega), hc 45 (by omega)]
    simp only
    have hx0 : text x = (text x)[0] :: (text x).drop 1 := by
      conv_lhs => rw [← List.drop_zero (l := text x), List.drop_eq_getElem_cons h0]
    by_cases hsg : (text x)[0] = 43 ∨ (text x)[0] = 45
    · rw [if_pos (by simpa using hsg)]
      obtain ⟨s1, e1, ht1, hv1⟩ := piece x 0 1 (by omega)
      obtain ⟨s2, e2, ht2, hv2⟩ := piece x 1 (text x).length (Nat.le_refl _)
      change getsubstr x 0 1 = _ at e1
      change getsubstr x 1 _ = _ at e2
      rw [e1, e2]
      simp only
      obtain ⟨r, ej, ht⟩ := join_spec none ([s1] ++ zeros ++ [s2]) trivial (fun p hp => by
        rcases List.mem_append.1 hp with hp | hp
        · rcases List.mem_append.1 hp with hp | hp
          · rw [List.mem_singleton.1 hp]; exact normal_valid (hv1 hx)
          · exact hzv p hp
        · rw [List.mem_singleton.1 hp]; exact normal_valid (hv2 hx))
      refine ⟨r, ej, ?_⟩
      rw [ht]
      change Spec.join [] _ = _
      rw [join_nil, List.map_append, List.map_append, List.flatten_append, List.flatten_append, hz]
      simp only [List.map_singleton, List.flatten_singleton, ht1, ht2]
      have ht : ((text x).take 1).drop 0 = [(text x)[0]] := by
        rw [List.drop_zero]
        conv_lhs => rw [hx0]
        rw [List.take_succ_cons, List.take_zero]
      rw [ht, List.take_length]
      rw [zfill_sign _ _ h0 hsg]
    · rw [if_neg (by simpa using hsg)]
      simp only
      obtain ⟨r, ej, ht⟩ := hplain
      refine ⟨r, ej, ?_⟩
      rw [ht, zfill_plain _ _ (fun _ => hsg)]
  · rw [if_neg hn]
    simp only
    obtain ⟨r, ej, ht⟩ := hplain
    refine ⟨r, ej, ?_⟩
    have hx0 : text x = [] := List.length_eq_zero_iff.1 (by omega)
    rw [ht, zfill_plain _ _ (fun h0 => by omega)]

example : zfill (some ⟨1, [45, 55]⟩) 5 = .ok (some ⟨1, [45, 48, 48, 48, 55]⟩) ∧ zfill (some ⟨1, [55]⟩) 3 = .ok (some ⟨1, [48, 48, 55]⟩) ∧
    zfill none 2 = .ok (some ⟨1, [48, 48]⟩) := by decide +kernel

theorem tabsLoop_spec (x : Str) (size : Int) (hx : Valid x) : ∀ (n i last col real : Nat) (acc : List Str),
    i + n = (text x).length → last ≤ i → (0 < size → (col : Int) % size = (real : Int) % size) →
    ∃ ps, tabsLoop x size n i last col acc = .ok (acc ++ ps) ∧ (∀ p ∈ ps, Valid p) ∧
      (ps.map text).flatten = ((text x).take i).drop last ++ Spec.expandtabs size real ((text x).drop i)
  | 0, i, last, col, real, acc, hi, hl, _ => by
    unfold tabsLoop
    obtain ⟨r, e, ht, hv⟩ := piece x last (text x).length (Nat.le_refl _)
    rw [e]
    refine ⟨[r], rfl, fun p hp => by rw [List.mem_singleton.1 hp]; exact normal_valid (hv hx), ?_⟩
    rw [List.map_singleton, List.flatten_singleton, ht, show i = (text x).length by omega, List.drop_length]
    simp [Spec.expandtabs]
  | n + 1, i, last, col, real, acc, hi, hl, hcol => by
    have hlt : i < (text x).length := by omega
    obtain ⟨c, e, hc⟩ := item x hx i hlt 0 (by omega)
    unfold tabsLoop
    rw [e]
    simp only
    rw [hc 9 (by omega), hc 10 (by omega), hc 13 (by omega), List.drop_eq_getElem_cons hlt]
    by_cases htab : (text x)[i] = 9
    · obtain ⟨r, er, ht, hv⟩ := piece x last i (by omega)
      simp only [htab, decide_true]
      rw [er]
      simp only
      rw [Spec.expandtabs, if_pos rfl]
      by_cases hsz : size > 0
      · obtain ⟨sz, rfl⟩ : ∃ k : Nat, size = k := ⟨size.toNat, by omega⟩
        have hr := hcol hsz
        have hlt' := Nat.mod_lt real (show 0 < sz by omega)
        obtain ⟨ps, ep, hp1, hp2⟩ := tabsLoop_spec x sz hx n (i + 1) (i + 1) 0 (real + (sz - real % sz))
          (acc ++ [r, mult (some ⟨1, [32]⟩) ((sz : Int) - (col : Int) % sz)]) (by omega) (Nat.le_refl _) (fun _ => by
            have : (real + (sz - real % sz)) % sz = 0 := by
              have h1 := Nat.div_add_mod real sz
              have h2 : real + (sz - real % sz) = sz * (real / sz + 1) := by
                rw [Nat.mul_add, Nat.mul_one]
                omega
              rw [h2]
              exact Nat.mul_mod_right _ _
            have h3 : ((real + (sz - real % sz) : Nat) : Int) % (sz : Int) = 0 := by
              exact_mod_cast this
            rw [h3]
            simp)
        rw [if_pos hsz, ep]
        refine ⟨[r, mult (some ⟨1, [32]⟩) ((sz : Int) - (col : Int) % sz)] ++ ps, by rw [List.append_assoc], ?_, ?_⟩
        · intro p hp
          rcases List.mem_append.1 hp with hp | hp
          · rcases List.mem_cons.1 hp with hp | hp
            · rw [hp]; exact normal_valid (hv hx)
            · rw [List.mem_singleton.1 hp]
              exact mult_valid _ _ (zero_valid 32 (by omega))
          · exact hp1 p hp
        · rw [if_neg (by omega), List.map_append, List.flatten_append, hp2, List.map_cons, List.map_singleton, ht, mult_as_python]
          change [_, Spec.times [32] _].flatten ++ _ = _
          rw [times_single, hr]
          have hn : ((sz : Int) - (real : Int) % sz).toNat = sz - real % sz := by omega
          unfold Spec.pad
          rw [hn, Int.toNat_natCast, List.drop_eq_nil_of_le (show ((text x).take (i + 1)).length ≤ i + 1 by rw [List.length_take]; omega)]
          simp
      · obtain ⟨ps, ep, hp1, hp2⟩ := tabsLoop_spec x size hx n (i + 1) (i + 1) 0 real
          (acc ++ [r, mult (some ⟨1, [32]⟩) 0]) (by omega) (Nat.le_refl _) (fun h => absurd h hsz)
        rw [if_neg hsz, ep]
        refine ⟨[r, mult (some ⟨1, [32]⟩) 0] ++ ps, by rw [List.append_assoc], ?_, ?_⟩
        · intro p hp
          rcases List.mem_append.1 hp with hp | hp
          · rcases List.mem_cons.1 hp with hp | hp
            · rw [hp]; exact normal_valid (hv hx)
            · rw [List.mem_singleton.1 hp]; trivial
          · exact hp1 p hp
        · rw [if_pos (by omega), List.map_append, List.flatten_append, hp2, List.map_cons, List.map_singleton, ht]
          change [_, []].flatten ++ _ = _
          rw [List.drop_eq_nil_of_le (show ((text x).take (i + 1)).length ≤ i + 1 by rw [List.length_take]; omega)]
          simp
    · simp only [htab, decide_false]
      have hcol' : 0 < size → (((if (decide ((text x)[i] = 10) || decide ((text x)[i] = 13)) = true then 0 else col + 1 : Nat)) : Int) % size =
          ((if (text x)[i] = 10 ∨ (text x)[i] = 13 then 0 else real + 1 : Nat) : Int) % size := by
        intro hsz
        by_cases h : (text x)[i] = 10 ∨ (text x)[i] = 13
        · rw [if_pos h, if_pos (by simpa using h)]
        · rw [if_neg h, if_neg (by simpa using h)]
          push_cast
          rw [Int.add_emod, hcol hsz, ← Int.add_emod]
      obtain ⟨ps, ep, hp1, hp2⟩ := tabsLoop_spec x size hx n (i + 1) last
        (if (decide ((text x)[i] = 10) || decide ((text x)[i] = 13)) = true then 0 else col + 1)
        (if (text x)[i] = 10 ∨ (text x)[i] = 13 then 0 else real + 1) acc (by omega) (by omega) hcol'
      rw [ep]
      refine ⟨ps, rfl, hp1, ?_⟩
      rw [hp2, Spec.expandtabs, if_neg htab]
      have : ((text x).take (i + 1)).drop last = ((text x).take i).drop last ++ [(text x)[i]] := by
        rw [← List.take_append_getElem hlt, List.drop_append_of_le_length (by rw [List.length_take]; omega)]
      rw [this]
      simp

/-- C26: `s.expandtabs(size)`. -/
theorem expandtabs_as_python (x : Str) (size : Int) (hx : Valid x) :
    ∃ r, expandtabs x size = .ok r ∧ text r = Spec.expandtabs size 0 (text x) := by
  unfold expandtabs
  obtain ⟨ps, e, h1, h2⟩ := tabsLoop_spec x size hx (text x).length 0 0 0 0 [] (by omega) (Nat.le_refl _) (fun _ => rfl)
  rw [e]
  obtain ⟨r, ej, ht⟩ := join_spec none ([] ++ ps) trivial h1
  refine ⟨r, ej, ?_⟩
  rw [ht]
  change Spec.join [] _ = _
  rw [join_nil, List.nil_append, h2]
  simp

example : expandtabs (some ⟨1, [97, 9, 98, 98, 9, 10, 9, 99]⟩) 4 =
    .ok (some ⟨1, [97, 32, 32, 32, 98, 98, 32, 32, 10, 32, 32, 32, 32, 99]⟩) := by decide +kernel

end Verif.Str
