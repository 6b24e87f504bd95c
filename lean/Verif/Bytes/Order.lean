import Verif.Bytes.Replace
import Verif.Bytes.Letters
import Verif.Str.Compare
/-
C104: comparing and hashing bytes.
/repo/typed_python/BytesType.cpp 19-97, Type.cpp 122-138.

A bytes object without bytes is the null pointer if it comes from the interpreter (`none`), but most methods make an object of
length 0 (`some []`).
-/
namespace Verif.Bytes
open Verif.Str (opResult ThreeWay opResult_threeWay)
open Verif.Str.Spec (Op)

/-- Type.cpp:123-127: the loop of `byteCompare` that passes over eight equal bytes at once; at most `fuel` times. -/
def skipEqual : Nat → List Nat → List Nat → Nat → List Nat × List Nat × Nat
  | 0, l, r, n => (l, r, n)
  | fuel + 1, l, r, n => if n ≥ 8 ∧ l.take 8 = r.take 8 then skipEqual fuel (l.drop 8) (r.drop 8) (n - 8) else (l, r, n)

/-- Type.cpp:129-137: the second loop of `byteCompare`; `n` is at most the length of each. -/
def compareLoop : Nat → List Nat → List Nat → Int
  | n + 1, a :: l, b :: r => if a < b then -1 else if a > b then 1 else compareLoop n l r
  | _, _, _ => 0

/-- Type.cpp:122-138 `byteCompare`. -/
def byteCompare (l r : List Nat) (n : Nat) : Int :=
  let s := skipEqual n l r n
  compareLoop s.2.2 s.1 s.2.1

/-- BytesType.cpp:72-97 `cmpStatic`. -/
def cmpStatic : B → B → Int
  | none, none => 0
  | none, some _ => -1
  | some _, none => 1
  | some l, some r =>
    let res := byteCompare l r (min l.length r.length)
    if res ≠ 0 then res else if l.length < r.length then -1 else if l.length > r.length then 1 else 0

/-- bytes_wrapper.py:1071-1107: the operators in compiled code, unless both sides are constants. -/
def compiledCmp (op : Op) (l r : B) : Bool := opResult op (cmpStatic l r)

/-- BytesType.cpp:40-69 `cmp`, between two typed values; 50-52: `same` if both are the same object. -/
def cmp (op : Op) (l r : B) (same : Bool) : Bool :=
  match l, r with
  | none, none => opResult op 0
  | none, some _ => opResult op (-1)
  | some _, none => opResult op 1
  | some l, some r =>
    if same then opResult op 0
    else
      let res := byteCompare l r (min l.length r.length)
      if res ≠ 0 then opResult op res
      else if l.length < r.length then opResult op (-1)
      else if l.length > r.length then opResult op 1
      else opResult op 0

/-- PyBytesInstance.hpp:93-114 `compare_to_python_concrete`: with bytes of the interpreter. -/
def compareToPython (op : Op) (self : B) (other : List Nat) : Bool :=
  if other.length < (text self).length then opResult op (-1)
  else if other.length > (text self).length then opResult op 1
  else opResult op (Str.memcmp other (text self))

/-- BytesType.cpp:19-38 `hash`; the accumulator starts with `catBytes`, which is 11 (Type.hpp:118). -/
def hash : B → Int
  | none => 0x1234
  | some s => if Str.hashBytes 11 s = -1 then -2 else Str.hashBytes 11 s

/-- BytesType.cpp:413-427 `constructor`: bytes from the interpreter. -/
def fromPython (s : List Nat) : B := if s.length = 0 then none else some s

/-- Bytes without bytes are the null pointer. -/
def Normal (x : B) : Prop := x ≠ some []

instance (x : B) : Decidable (Normal x) := inferInstanceAs (Decidable (_ ≠ _))

/-! ### proofs -/

theorem skipEqual_spec : ∀ (fuel : Nat) (l r : List Nat) (n : Nat),
    compareLoop (skipEqual fuel l r n).2.2 (skipEqual fuel l r n).1 (skipEqual fuel l r n).2.1 = compareLoop n l r
  | 0, l, r, n => rfl
  | fuel + 1, l, r, n => by
    rw [skipEqual]
    split
    · rename_i h
      rw [skipEqual_spec fuel]
      have key : ∀ (k n : Nat) (l r : List Nat), k ≤ n → l.take k = r.take k →
          compareLoop (n - k) (l.drop k) (r.drop k) = compareLoop n l r := by
        intro k
        induction k with
        | zero => intro n l r _ _; rfl
        | succ k ih =>
          intro n l r hn he
          obtain ⟨m, rfl⟩ : ∃ m, n = m + 1 := ⟨n - 1, by omega⟩
          cases l with
          | nil =>
            cases r with
            | nil => cases m + 1 - (k + 1) <;> simp [compareLoop]
            | cons b r => simp at he
          | cons a l =>
            cases r with
            | nil => simp at he
            | cons b r =>
              simp only [List.take_succ_cons, List.cons.injEq] at he
              obtain ⟨rfl, he⟩ := he
              rw [compareLoop, if_neg (Nat.lt_irrefl _), if_neg (Nat.lt_irrefl _), List.drop_succ_cons, List.drop_succ_cons,
                show m + 1 - (k + 1) = m - k by omega]
              exact ih m l r (by omega) he
      exact key 8 n l r h.1 h.2
    · rfl

theorem byteCompare_eq (l r : List Nat) (n : Nat) : byteCompare l r n = compareLoop n l r := skipEqual_spec n l r n

theorem threeWay_cons {l r : List Nat} {res : Int} (h : ThreeWay l r res) (a : Nat) : ThreeWay (a :: l) (a :: r) res := by
  rcases h with ⟨h, h1⟩ | ⟨h, h1⟩ | ⟨h, h1⟩
  · exact Or.inl ⟨h, by simpa using h1⟩
  · exact Or.inr (Or.inl ⟨h, by rw [h1]⟩)
  · exact Or.inr (Or.inr ⟨h, by simpa using h1⟩)

theorem compare_some : ∀ l r : List Nat,
    ThreeWay l r (if compareLoop (min l.length r.length) l r ≠ 0 then compareLoop (min l.length r.length) l r
      else if l.length < r.length then -1 else if l.length > r.length then 1 else 0)
  | [], [] => Or.inr (Or.inl ⟨rfl, rfl⟩)
  | [], b :: r => by
    refine Or.inl ⟨?_, by simp⟩
    simp [compareLoop]
  | a :: l, [] => by
    refine Or.inr (Or.inr ⟨?_, by simp⟩)
    simp [compareLoop]
  | a :: l, b :: r => by
    rw [show min (a :: l).length (b :: r).length = min l.length r.length + 1 by simp]
    rw [compareLoop]
    by_cases h1 : a < b
    · rw [if_pos h1]
      exact Or.inl ⟨if_pos (by decide), List.cons_lt_cons_iff.2 (Or.inl h1)⟩
    · rw [if_neg h1]
      by_cases h2 : a > b
      · rw [if_pos h2]
        exact Or.inr (Or.inr ⟨if_pos (by decide), List.cons_lt_cons_iff.2 (Or.inl h2)⟩)
      · rw [if_neg h2]
        have : a = b := by omega
        subst this
        have ih := threeWay_cons (compare_some l r) a
        simpa using ih

theorem compareLoop_self : ∀ (l : List Nat) (n : Nat), compareLoop n l l = 0
  | [], n => by cases n <;> rfl
  | a :: l, 0 => rfl
  | a :: l, n + 1 => by rw [compareLoop, if_neg (Nat.lt_irrefl _), if_neg (Nat.lt_irrefl _), compareLoop_self l n]

theorem cmpStatic_threeWay (l r : B) (h : l = none ∧ r = none ∨ l ≠ r ∧ (text l ≠ [] ∨ text r ≠ []) ∨ l ≠ none ∧ r ≠ none) :
    ThreeWay (text l) (text r) (cmpStatic l r) := by
  cases l with
  | none =>
    cases r with
    | none => exact Or.inr (Or.inl ⟨rfl, rfl⟩)
    | some r =>
      refine Or.inl ⟨rfl, Str.nil_lt_of_ne ?_⟩
      simpa [text] using h
  | some l =>
    cases r with
    | none =>
      refine Or.inr (Or.inr ⟨rfl, Str.nil_lt_of_ne ?_⟩)
      simpa [text] using h
    | some r =>
      simp only [cmpStatic, byteCompare_eq]
      exact compare_some l r

/-- C104: bytes compare as Python compares them, in compiled code and between typed values in the interpreter, unless one is the
null pointer and the other an object of length 0. -/
theorem compare_partial (op : Op) (l r : B) (same : Bool) (hs : same = true → l = r) (h : Normal l ∧ Normal r ∨ l ≠ none ∧ r ≠ none) :
    compiledCmp op l r = Str.Spec.compare op (text l) (text r) ∧ cmp op l r same = Str.Spec.compare op (text l) (text r) := by
  have h3 : ThreeWay (text l) (text r) (cmpStatic l r) := by
    refine cmpStatic_threeWay l r ?_
    rcases h with ⟨h1, h2⟩ | h
    · cases l <;> cases r <;> simp_all [Normal, text]
    · exact Or.inr (Or.inr h)
  have e : cmp op l r same = compiledCmp op l r := by
    unfold cmp compiledCmp
    cases l with
    | none => cases r <;> rfl
    | some l =>
      cases r with
      | none => rfl
      | some r =>
        simp only [cmpStatic]
        cases same with
        | true =>
          have := hs rfl
          cases this
          have : byteCompare l l (min l.length l.length) = 0 := by rw [byteCompare_eq, compareLoop_self]
          rw [this, if_pos rfl, if_neg (by simp), if_neg (Nat.lt_irrefl _), if_neg (Nat.lt_irrefl _)]
        | false =>
          simp only [Bool.false_eq_true, if_false]
          split
          · rfl
          · split
            · rfl
            · split <;> rfl
  exact ⟨opResult_threeWay h3 op, by rw [e]; exact opResult_threeWay h3 op⟩

example : compiledCmp .lt (some [1, 2]) (some [1, 2, 0]) = true ∧ compiledCmp .lt (some [1, 3]) (some [1, 2, 0]) = false ∧
    cmp .eq (some [1, 2, 3, 4, 5, 6, 7, 8, 9]) (some [1, 2, 3, 4, 5, 6, 7, 8, 9]) false = true ∧
    compiledCmp .gt (some [1, 2, 3, 4, 5, 6, 7, 8, 9]) (some [1, 2, 3, 4, 5, 6, 7, 8, 8]) = true ∧ Normal (some [1, 2]) := by decide +kernel

theorem memcmp_zero : ∀ (l r : List Nat), l.length = r.length → (Str.memcmp l r = 0 ↔ l = r)
  | [], [], _ => by simp [Str.memcmp]
  | [], _ :: _, h => by simp at h
  | _ :: _, [], h => by simp at h
  | a :: l, b :: r, h => by
    rw [Str.memcmp]
    by_cases h1 : a < b
    · simp [h1, Nat.ne_of_lt h1]
    · by_cases h2 : a > b
      · simp [h1, h2, Nat.ne_of_gt h2]
      · have : a = b := by omega
        rw [if_neg h1, if_neg h2]
        simp only [List.cons.injEq, this, true_and]
        exact memcmp_zero l r (by simpa using h)

/-- C104: `==` with bytes of the interpreter. -/
theorem equals_python (self : B) (other : List Nat) : compareToPython .eq self other = decide (text self = other) := by
  unfold compareToPython
  by_cases h1 : other.length < (text self).length
  · rw [if_pos h1]
    have : text self ≠ other := by rintro h; rw [h] at h1; omega
    simp [this, opResult]
  · rw [if_neg h1]
    by_cases h2 : other.length > (text self).length
    · rw [if_pos h2]
      have : text self ≠ other := by rintro h; rw [h] at h2; omega
      simp [this, opResult]
    · rw [if_neg h2, opResult]
      have := memcmp_zero other (text self) (by omega)
      by_cases h : text self = other
      · rw [decide_eq_true h, decide_eq_true (this.2 h.symm)]
      · rw [decide_eq_false h, decide_eq_false (fun h' => h (this.1 h').symm)]

example : compareToPython .eq (some [1, 2]) [1, 2] = true ∧ compareToPython .eq (some []) [] = true := by decide +kernel

/-- C104: equal bytes hash equally, unless one is the null pointer and the other an object of length 0; no hash is -1. -/
theorem hash_equal_partial (l r : B) (h : Normal l ∧ Normal r ∨ l ≠ none ∧ r ≠ none) (he : compiledCmp .eq l r = true) :
    hash l = hash r ∧ hash l ≠ -1 := by
  rw [(compare_partial .eq l r false (by simp) h).1] at he
  have ht : text l = text r := by simpa [Str.Spec.compare] using he
  have e : l = r := by
    cases l with
    | none => cases r <;> simp_all [Normal, text]
    | some l => cases r <;> simp_all [Normal, text]
  subst e
  refine ⟨rfl, ?_⟩
  cases l with
  | none => decide
  | some s =>
    rw [hash]
    split
    · decide
    · assumption

example : hash (some [97, 98, 99, 100, 101]) = hash (some [97, 98, 99, 100, 101]) ∧ hash (some [97]) ≠ hash (some [98]) ∧
    hash none ≠ -1 := by decide +kernel

/-- The code violates C104: bytes of length 0 that are not the null pointer are unequal to b"" in compiled code and inside typed
containers, are greater, and hash differently, while the interpreter finds them equal. -/
theorem empty_not_equal : compiledCmp .eq (some []) none = false ∧ compiledCmp .gt (some []) none = true ∧
    cmp .eq (some []) none false = false ∧ hash (some []) ≠ hash none ∧ text (some []) = text none ∧
    compareToPython .eq (some []) [] = true := by decide +kernel

/-- Where both ways of writing no bytes meet: comparing and hashing fail exactly there. -/
theorem compare_iff (l r : B) : (∀ op, compiledCmp op l r = Str.Spec.compare op (text l) (text r)) ↔ ¬ (text l = text r ∧ l ≠ r) := by
  constructor
  · rintro h ⟨h1, h2⟩
    have he := h .eq
    rw [show Str.Spec.compare .eq (text l) (text r) = true by simp [Str.Spec.compare, h1]] at he
    have : cmpStatic l r = 0 := by simpa [compiledCmp, opResult] using he
    cases l with
    | none =>
      cases r with
      | none => exact h2 rfl
      | some r => simp [cmpStatic] at this
    | some l =>
      cases r with
      | none => simp [cmpStatic] at this
      | some r => exact h2 (by simpa [text] using h1)
  · intro h op
    by_cases hn : l ≠ none ∧ r ≠ none
    · exact (compare_partial op l r false (by simp) (Or.inr hn)).1
    · refine (compare_partial op l r false (by simp) (Or.inl ⟨?_, ?_⟩)).1
      · rintro rfl
        have : r = none := by simpa using hn
        exact h ⟨by rw [this]; rfl, by rw [this]; simp⟩
      · rintro rfl
        have : l = none := by simpa using hn
        exact h ⟨by rw [this]; rfl, by rw [this]; simp⟩

/-- C104: bytes from the interpreter, slices, and what is stripped are never objects of length 0; adding, repeating, padding and
changing the case does not make any. -/
theorem normal_results (x y fill : B) (s : List Nat) (i j n : Int) (values : Option B) (a b : Bool) :
    Normal (fromPython s) ∧ Normal (getslice x i j) ∧ Normal (strip x values a b) ∧
    (Normal x → Normal y → Normal (concat x y)) ∧ (Normal x → Normal (mult x n)) ∧
    (Normal x → Normal fill → Normal (ljust x n fill) ∧ Normal (rjust x n fill) ∧ Normal (center x n fill)) ∧
    (Normal x → Normal (lower x) ∧ Normal (upper x) ∧ Normal (capitalize x) ∧ Normal (swapcase x) ∧ Normal (title x)) := by
  have hc : ∀ x y : B, Normal x → Normal y → Normal (concat x y) := by
    intro x y hx hy
    cases x <;> cases y <;> simp_all [Normal, concat]
  have hm : ∀ (x : B) (n : Int), Normal x → Normal (mult x n) := by
    intro x n hx
    cases x with
    | none => simp [Normal, mult]
    | some ps =>
      unfold mult Normal
      simp only
      split
      · simp
      · rename_i h
        obtain ⟨k, hk⟩ : ∃ k, n.toNat = k + 1 := ⟨n.toNat - 1, by omega⟩
        rw [hk, List.replicate_succ, List.flatten_cons]
        intro he
        simp only [Option.some.injEq, List.append_eq_nil_iff] at he
        exact hx (by rw [he.1])
  refine ⟨?_, ?_, ?_, hc x y, hm x n, fun hx hf => ⟨?_, ?_, ?_⟩, fun hx => ?_⟩
  · unfold fromPython Normal
    split
    · simp
    · rename_i h
      intro he
      simp only [Option.some.injEq] at he
      exact h (by rw [he]; rfl)
  · cases x with
    | none => simp [getslice, Normal]
    | some ps =>
      unfold getslice Normal
      simp only
      generalize hS : (if (if (if i < 0 then i + (ps.length : Int) else i) < 0 then 0 else
        (if i < 0 then i + (ps.length : Int) else i)) > ps.length then (ps.length : Int) else
        (if (if i < 0 then i + (ps.length : Int) else i) < 0 then 0 else (if i < 0 then i + (ps.length : Int) else i))) = S
      generalize hE : (if (if (if j < 0 then j + (ps.length : Int) else j) < 0 then 0 else
        (if j < 0 then j + (ps.length : Int) else j)) > ps.length then (ps.length : Int) else
        (if (if j < 0 then j + (ps.length : Int) else j) < 0 then 0 else (if j < 0 then j + (ps.length : Int) else j))) = E
      have ha : 0 ≤ S := by
        rw [← hS]
        split
        · omega
        · split <;> omega
      have hb : E ≤ ps.length := by
        rw [← hE]
        split <;> omega
      split
      · simp
      · intro he
        simp only [Option.some.injEq, List.take_eq_nil_iff, List.drop_eq_nil_iff] at he
        omega
  · cases x with
    | none => simp [strip, Normal]
    | some ps =>
      unfold strip Normal
      simp only
      generalize hL : (if a = true then scanByte (fun c => !matchchar values c) ps else 0) = L
      have hLl : L ≤ ps.length := by
        rw [← hL]
        split
        · exact (scanByte_dropWhile _ ps).2
        · omega
      generalize hR : (if b = true then ps.length - scanByte (fun c => !matchchar values c) (ps.drop L).reverse else ps.length) = R
      have hLR : L ≤ R ∧ R ≤ ps.length := by
        rw [← hR]
        split
        · have h := (scanByte_dropWhile (matchchar values) (ps.drop L).reverse).2
          rw [List.length_reverse, List.length_drop] at h
          omega
        · omega
      split
      · simp
      · split
        · intro he
          simp only [Option.some.injEq] at he
          rw [he] at hLR
          simp at hLR
          omega
        · intro he
          simp only [Option.some.injEq, List.take_eq_nil_iff, List.drop_eq_nil_iff] at he
          omega
  · unfold ljust
    split
    · exact hx
    · exact hc _ _ hx (hm _ _ hf)
  · unfold rjust
    split
    · exact hx
    · exact hc _ _ (hm _ _ hf) hx
  · unfold center
    split
    · exact hx
    · exact hc _ _ (hc _ _ (hm _ _ hf) hx) (hm _ _ hf)
  · cases x with
    | none => simp [Normal, lower, upper, capitalize, swapcase, title]
    | some s =>
      cases s with
      | nil => exact absurd rfl hx
      | cons c t =>
        refine ⟨by simp [Normal, lower], by simp [Normal, upper], by simp [Normal, capitalize], by simp [Normal, swapcase], ?_⟩
        unfold Normal title
        simp only [Option.map_some, Option.some.injEq, ne_eq]
        intro he
        have := congrArg List.length he
        rw [title_length] at this
        simp at this

example : Normal (getslice (some [1, 2]) 1 1) ∧ Normal (strip (some [32]) none true true) ∧ Normal (concat (some [1]) none) := by decide +kernel

theorem splitLoop_some (sep : B) (max : Int) : ∀ (fuel : Nat) (rest : List Nat) (count : Int) (out ps : List B),
    splitLoop sep max fuel rest count out = .ok ps → (∀ p ∈ out, p ≠ none) → ∀ p ∈ ps, p ≠ none
  | 0, _, _, _, _, h, _ => by simp [splitLoop] at h
  | fuel + 1, rest, count, out, ps, h, ho => by
    have hrem : ∀ (r : List Nat) (o : List B), (∀ p ∈ o, p ≠ none) → ∀ p ∈ remainder sep r o, p ≠ none := by
      intro r o ho p hp
      unfold remainder at hp
      split at hp
      · rcases List.mem_append.1 hp with hp | hp
        · exact ho p hp
        · rw [List.mem_singleton.1 hp]; simp
      · exact ho p hp
    have hout : ∀ q, ∀ p ∈ out ++ [some q], p ≠ (none : B) := by
      intro q p hp
      rcases List.mem_append.1 hp with hp | hp
      · exact ho p hp
      · rw [List.mem_singleton.1 hp]; simp
    rw [splitLoop] at h
    split at h
    · cases h
      exact hrem _ _ ho
    · simp only at h
      split at h
      · cases h
        exact hrem _ _ ho
      · split at h
        · split at h
          · cases h
            exact hrem _ _ (hout _)
          · exact splitLoop_some sep max fuel _ _ _ _ h (hout _)
        · exact splitLoop_some sep max fuel _ _ _ _ h ho

/-- Every piece that `split` gives, and everything joined from parts, is an object, so one without bytes is not equal to b"". -/
theorem split_join_not_normal (x sep : B) (max : Int) (ps : List B) :
    (split x sep max = .ok ps → ∀ p ∈ ps, text p = [] → ¬ Normal p ∧ compiledCmp .eq p (fromPython []) = false) ∧
    (∀ r, ps ≠ [] → join sep ps = .ok r → text r = [] → ¬ Normal r ∧ compiledCmp .eq r (fromPython []) = false) := by
  have key : ∀ p : B, p ≠ none → text p = [] → ¬ Normal p ∧ compiledCmp .eq p (fromPython []) = false := by
    intro p hp ht
    cases p with
    | none => exact absurd rfl hp
    | some s =>
      have : s = [] := ht
      subst this
      decide
  constructor
  · intro h p hp ht
    refine key p ?_ ht
    unfold split at h
    split at h
    · cases h
      generalize (if sep = none then (text x).dropWhile isspace else text x) = rest at hp
      split at hp
      · rw [List.mem_singleton.1 hp]; simp
      · simp at hp
    · exact splitLoop_some sep max _ _ _ _ _ h (by simp) p hp
  · intro r hne h ht
    refine key r ?_ ht
    unfold join at h
    rw [if_neg hne] at h
    split at h
    · simp at h
    · cases h
      simp

/-- b"a,,b".split(b",")[1] == b"" is False in compiled code; so is b",".join([b""]) == b"". -/
example : split (some [97, 44, 44, 98]) (some [44]) (-1) = .ok [some [97], some [], some [98]] ∧
    join (some [44]) [none] = .ok (some []) := by decide +kernel

/-- The same for b"".zfill(0), b"".expandtabs(), b"a".replace(b"a", b"") and b"a".translate(None, b"a"). -/
theorem other_not_normal : zfill none 0 = .ok (some []) ∧ expandtabs none 8 = .ok (some []) ∧
    replace false (some [97]) (some [97]) none (-1) = .ok (some []) ∧ translate (some [97]) none (some [97]) = .ok (some []) := by
  decide +kernel

end Verif.Bytes
