import Verif.Str.Model
/-
C25: `int(s)` in compiled code.
/repo/typed_python/StringType.cpp 1754-1812, _runtime.cpp 2625-2635, string_wrapper.py 1050-1058.

Simplifications: whether a character is white space is a parameter (the table `uprops`, which is not read out of bounds for
code points up to 0x10FFFF); arithmetic on int64_t wraps around (in C++ an overflow is undefined).
-/
namespace Verif.Str

/-! ### model -/

/-- StringType.cpp:1756; `failed` leaves the loop. -/
inductive IntState
  | leftSpace | sign | digit | underscore | rightSpace
  deriving DecidableEq, Repr

/-- StringType.cpp:1756-1758: the variables of the loop. -/
structure IntScan where
  state : IntState
  negative : Bool
  value : Int
  deriving DecidableEq, Repr

/-- Arithmetic of int64_t. -/
def wrap64 (x : Int) : Int := Int.bmod x 18446744073709551616

/-- StringType.cpp:1762-1801: one character; `none` is `failed`. -/
def intStep (space : Nat → Bool) (m : IntScan) (c : Nat) : Option IntScan :=
  if space c then
    if m.state = .underscore ∨ m.state = .sign then none
    else if m.state = .digit then some { m with state := .rightSpace }
    else some m
  else if c = 43 ∨ c = 45 then
    if m.state ≠ .leftSpace then none
    else some { m with state := .sign, negative := if c = 45 then true else m.negative }
  else if c < 128 ∧ c ≥ 48 ∧ c ≤ 57 then
    if m.state = .rightSpace then none
    else some { m with state := .digit, value := wrap64 (wrap64 (m.value * 10) + ((c : Int) - 48)) }
  else if c = 95 then
    if m.state ≠ .digit then none else some { m with state := .underscore }
  else none

/-- StringType.cpp:1761-1802: the loop. -/
def intLoop (space : Nat → Bool) : List Nat → IntScan → Option IntScan
  | [], m => some m
  | c :: t, m =>
    match intStep space m c with
    | none => none
    | some m' => intLoop space t m'

/-- StringType.cpp:1755-1812 `to_int64`; _runtime.cpp:2625-2635: `none` is ValueError. -/
def toInt64 (space : Nat → Bool) (s : Str) : Option Int :=
  match intLoop space (text s) ⟨.leftSpace, false, 0⟩ with
  | none => none
  | some m =>
    if m.state = .digit ∨ m.state = .rightSpace then some (wrap64 (m.value * (if m.negative then -1 else 1))) else none

/-! ### proofs -/

theorem intLoop_append (space : Nat → Bool) : ∀ (a b : List Nat) (m : IntScan),
    intLoop space (a ++ b) m = (intLoop space a m).bind (intLoop space b)
  | [], _, _ => rfl
  | c :: a, b, m => by
    rw [List.cons_append]
    unfold intLoop
    cases intStep space m c with
    | none => rfl
    | some m' => exact intLoop_append space a b m'

theorem intLoop_snoc (space : Nat → Bool) (a : List Nat) (c : Nat) (m : IntScan) :
    intLoop space (a ++ [c]) m = (intLoop space a m).bind (fun m' => intStep space m' c) := by
  rw [intLoop_append]
  congr 1
  funext m'
  unfold intLoop
  cases intStep space m' c <;> rfl

theorem wrap64_step (n d : Nat) : wrap64 (wrap64 (wrap64 (n : Int) * 10) + d) = wrap64 ((10 * n + d : Nat) : Int) := by
  unfold wrap64
  rw [Int.bmod_mul_bmod, Int.bmod_add_bmod]
  congr 1
  omega

/-- What may stand before the numeral, and the sign it gives. -/
inductive Head (space : Nat → Bool) : List Nat → Bool → Prop
  | plain (a : List Nat) (ha : ∀ c ∈ a, space c = true) : Head space a false
  | plus (a : List Nat) (ha : ∀ c ∈ a, space c = true) : Head space (a ++ [43]) false
  | minus (a : List Nat) (ha : ∀ c ∈ a, space c = true) : Head space (a ++ [45]) true

/-- What the loop has read, by state. -/
def Reads (space : Nat → Bool) (p : List Nat) (m : IntScan) : Prop :=
  match m.state with
  | .leftSpace => (∀ c ∈ p, space c = true) ∧ m.value = 0 ∧ m.negative = false
  | .sign => ∃ a, (∀ c ∈ a, space c = true) ∧ m.value = 0 ∧ p = a ++ [if m.negative then 45 else 43]
  | .digit => ∃ h w n, Head space h m.negative ∧ Spec.Numeral w n ∧ p = h ++ w ∧ m.value = wrap64 n
  | .underscore => ∃ h w n, Head space h m.negative ∧ Spec.Numeral w n ∧ p = h ++ w ++ [95] ∧ m.value = wrap64 n
  | .rightSpace => ∃ h w b n, Head space h m.negative ∧ Spec.Numeral w n ∧ (∀ c ∈ b, space c = true) ∧ p = h ++ w ++ b ∧
      m.value = wrap64 n

/-- The characters of numbers are no white space. -/
def Sane (space : Nat → Bool) : Prop := ∀ c, c = 43 ∨ c = 45 ∨ c = 95 ∨ (48 ≤ c ∧ c ≤ 57) → space c = false

theorem first_digit (d : Nat) (h : d ≤ 9) : wrap64 (wrap64 (0 * 10) + (((48 + d : Nat) : Int) - 48)) = wrap64 (d : Int) := by
  have : (((48 + d : Nat) : Int) - 48) = d := by omega
  rw [this]
  unfold wrap64
  rw [Int.bmod_add_bmod]
  congr 1
  omega

theorem next_digit (n d : Nat) : wrap64 (wrap64 (wrap64 (n : Int) * 10) + (((48 + d : Nat) : Int) - 48)) =
    wrap64 ((10 * n + d : Nat) : Int) := by
  have : (((48 + d : Nat) : Int) - 48) = d := by omega
  rw [this, wrap64_step]

theorem all_snoc {P : Nat → Prop} {p : List Nat} {c : Nat} (h : ∀ x ∈ p, P x) (hc : P c) : ∀ x ∈ p ++ [c], P x := by
  intro x hx
  rcases List.mem_append.1 hx with hx | hx
  · exact h x hx
  · rw [List.mem_singleton.1 hx]; exact hc

theorem reads_step (space : Nat → Bool) (p : List Nat) (m m' : IntScan) (c : Nat) (h : Reads space p m)
    (hm : intStep space m c = some m') : Reads space (p ++ [c]) m' := by
  obtain ⟨st, ng, v⟩ := m
  unfold intStep at hm
  by_cases hs : space c = true
  · rw [if_pos hs] at hm
    cases st <;> simp at hm <;> subst hm
    · exact ⟨all_snoc h.1 hs, h.2⟩
    · obtain ⟨a, w, n, h1, h2, h3, h4⟩ := h
      exact ⟨a, w, [c], n, h1, h2, by simpa using hs, by rw [h3], h4⟩
    · obtain ⟨a, w, b, n, h1, h2, h3, h4, h5⟩ := h
      exact ⟨a, w, b ++ [c], n, h1, h2, all_snoc h3 hs, by rw [h4]; simp, h5⟩
  · rw [if_neg hs] at hm
    by_cases h1 : c = 43 ∨ c = 45
    · rw [if_pos h1] at hm
      cases st <;> simp at hm
      subst hm
      obtain ⟨ha, hv, hn⟩ := h
      simp only at hn hv
      refine ⟨p, ha, hv, ?_⟩
      rcases h1 with h1 | h1 <;> simp [h1, hn]
    · rw [if_neg h1] at hm
      by_cases h2 : c < 128 ∧ c ≥ 48 ∧ c ≤ 57
      · rw [if_pos h2] at hm
        obtain ⟨d, rfl⟩ : ∃ d, c = 48 + d := ⟨c - 48, by omega⟩
        have hd : d ≤ 9 := by omega
        cases st <;> simp only [reduceCtorEq, if_false, if_true, Option.some.injEq] at hm <;> subst hm
        · obtain ⟨ha, hv, hn⟩ := h
          simp only at hn hv
          refine ⟨p, [48 + d], d, by rw [hn]; exact .plain p ha, .digit d hd, rfl, ?_⟩
          exact (congrArg (fun x => wrap64 (wrap64 (x * 10) + (((48 + d : Nat) : Int) - 48))) hv).trans (first_digit d hd)
        · obtain ⟨a, ha, hv, hp⟩ := h
          simp only at hv hp
          refine ⟨p, [48 + d], d, ?_, .digit d hd, rfl, ?_⟩
          · rw [hp]
            cases ng
            · exact .plus a ha
            · exact .minus a ha
          · exact (congrArg (fun x => wrap64 (wrap64 (x * 10) + (((48 + d : Nat) : Int) - 48))) hv).trans (first_digit d hd)
        · obtain ⟨a, w, n, h3, h4, h5, h6⟩ := h
          simp only at h6
          refine ⟨a, w ++ [48 + d], 10 * n + d, h3, .more w n d h4 hd, by rw [h5, List.append_assoc], ?_⟩
          exact (congrArg (fun x => wrap64 (wrap64 (x * 10) + (((48 + d : Nat) : Int) - 48))) h6).trans (next_digit n d)
        · obtain ⟨a, w, n, h3, h4, h5, h6⟩ := h
          simp only at h6
          refine ⟨a, w ++ [95, 48 + d], 10 * n + d, h3, .under w n d h4 hd, by rw [h5]; simp, ?_⟩
          exact (congrArg (fun x => wrap64 (wrap64 (x * 10) + (((48 + d : Nat) : Int) - 48))) h6).trans (next_digit n d)
      · rw [if_neg h2] at hm
        by_cases h3 : c = 95
        · rw [if_pos h3] at hm
          cases st <;> simp at hm
          subst hm
          obtain ⟨a, w, n, h4, h5, h6, h7⟩ := h
          exact ⟨a, w, n, h4, h5, by rw [h6, h3], h7⟩
        · rw [if_neg h3] at hm
          simp at hm

theorem reads_loop (space : Nat → Bool) : ∀ (q p : List Nat) (m m' : IntScan), Reads space p m → intLoop space q m = some m' →
    Reads space (p ++ q) m'
  | [], p, m, m', h, e => by
    simp only [intLoop, Option.some.injEq] at e
    rw [← e, List.append_nil]
    exact h
  | c :: q, p, m, m', h, e => by
    unfold intLoop at e
    cases hc : intStep space m c with
    | none => rw [hc] at e; simp at e
    | some m₁ =>
      rw [hc] at e
      have := reads_loop space q (p ++ [c]) m₁ m' (reads_step space p m m₁ c h hc) e
      rwa [List.append_assoc] at this

theorem loop_spaces (space : Nat → Bool) (st : IntState) (hst : st = .leftSpace ∨ st = .rightSpace) (ng : Bool) (v : Int) :
    ∀ a : List Nat, (∀ c ∈ a, space c = true) → intLoop space a ⟨st, ng, v⟩ = some ⟨st, ng, v⟩
  | [], _ => rfl
  | c :: a, h => by
    have hc := h c (List.mem_cons_self ..)
    unfold intLoop
    have : intStep space ⟨st, ng, v⟩ c = some ⟨st, ng, v⟩ := by
      unfold intStep
      rw [if_pos hc]
      rcases hst with rfl | rfl <;> rfl
    rw [this]
    exact loop_spaces space st hst ng v a (fun x hx => h x (List.mem_cons_of_mem _ hx))

theorem step_digit (space : Nat → Bool) (hs : Sane space) (m : IntScan) (hm : m.state ≠ .rightSpace) (d : Nat) (hd : d ≤ 9) :
    intStep space m (48 + d) = some ⟨.digit, m.negative, wrap64 (wrap64 (m.value * 10) + (((48 + d : Nat) : Int) - 48))⟩ := by
  unfold intStep
  rw [if_neg (by rw [hs (48 + d) (by omega)]; simp), if_neg (by omega), if_pos (by omega), if_neg hm]

theorem step_under (space : Nat → Bool) (hs : Sane space) (m : IntScan) (hm : m.state = .digit) :
    intStep space m 95 = some { m with state := .underscore } := by
  unfold intStep
  rw [if_neg (by rw [hs 95 (by omega)]; simp), if_neg (by decide), if_neg (by decide), if_pos rfl,
    if_neg (by rw [hm]; simp)]

theorem loop_numeral (space : Nat → Bool) (hs : Sane space) (st : IntState) (hst : st = .leftSpace ∨ st = .sign) (ng : Bool)
    {w : List Nat} {n : Nat} (h : Spec.Numeral w n) : intLoop space w ⟨st, ng, 0⟩ = some ⟨.digit, ng, wrap64 n⟩ := by
  induction h with
  | digit d hd =>
    unfold intLoop
    rw [step_digit space hs _ (by rcases hst with rfl | rfl <;> simp) d hd, first_digit d hd]
    rfl
  | more w n d _ hd ih =>
    rw [intLoop_snoc, ih]
    change intStep space _ _ = _
    rw [step_digit space hs _ (by simp) d hd, next_digit]
  | under w n d _ hd ih =>
    rw [show w ++ [95, 48 + d] = (w ++ [95]) ++ [48 + d] by simp, intLoop_snoc, intLoop_snoc, ih]
    change (intStep space _ _).bind _ = _
    rw [step_under space hs _ rfl]
    change intStep space _ _ = _
    rw [step_digit space hs _ (by simp) d hd, next_digit]

theorem loop_tail (space : Nat → Bool) (ng : Bool) (v : Int) (b : List Nat) (hb : ∀ c ∈ b, space c = true) :
    ∃ st, (st = .digit ∨ st = .rightSpace) ∧ intLoop space b ⟨.digit, ng, v⟩ = some ⟨st, ng, v⟩ := by
  cases b with
  | nil => exact ⟨.digit, Or.inl rfl, rfl⟩
  | cons c b =>
    refine ⟨.rightSpace, Or.inr rfl, ?_⟩
    unfold intLoop
    have : intStep space ⟨.digit, ng, v⟩ c = some ⟨.rightSpace, ng, v⟩ := by
      unfold intStep
      rw [if_pos (hb c (List.mem_cons_self ..))]
      rfl
    rw [this]
    exact loop_spaces space .rightSpace (Or.inr rfl) ng v b (fun x hx => hb x (List.mem_cons_of_mem _ hx))

theorem loop_head (space : Nat → Bool) (hs : Sane space) {h : List Nat} {ng : Bool} (hh : Head space h ng) :
    ∃ st, (st = .leftSpace ∨ st = .sign) ∧ intLoop space h ⟨.leftSpace, false, 0⟩ = some ⟨st, ng, 0⟩ := by
  cases hh with
  | plain _ ha => exact ⟨.leftSpace, Or.inl rfl, loop_spaces space _ (Or.inl rfl) _ _ _ ha⟩
  | plus a ha =>
    refine ⟨.sign, Or.inr rfl, ?_⟩
    rw [intLoop_snoc, loop_spaces space _ (Or.inl rfl) _ _ _ ha]
    change intStep space _ _ = _
    unfold intStep
    rw [if_neg (by rw [hs 43 (by omega)]; simp)]
    rfl
  | minus a ha =>
    refine ⟨.sign, Or.inr rfl, ?_⟩
    rw [intLoop_snoc, loop_spaces space _ (Or.inl rfl) _ _ _ ha]
    change intStep space _ _ = _
    unfold intStep
    rw [if_neg (by rw [hs 45 (by omega)]; simp)]
    rfl

theorem literal_head {space : Nat → Bool} {h w b : List Nat} {ng : Bool} {n : Nat} (hh : Head space h ng) (hw : Spec.Numeral w n)
    (hb : ∀ c ∈ b, space c = true) : Spec.Literal space (h ++ w ++ b) (n * (if ng then -1 else 1)) := by
  cases hh with
  | plain _ ha => simpa using Spec.Literal.plain h w b n ha hw hb
  | plus a ha => simpa using Spec.Literal.plus a w b n ha hw hb
  | minus a ha => simpa using Spec.Literal.minus a w b n ha hw hb

theorem head_literal {space : Nat → Bool} {s : List Nat} {v : Int} (h : Spec.Literal space s v) :
    ∃ h w b ng n, Head space h ng ∧ Spec.Numeral w n ∧ (∀ c ∈ b, space c = true) ∧ s = h ++ w ++ b ∧
      v = n * (if ng then -1 else 1) := by
  cases h with
  | plain a w b n ha hw hb => exact ⟨a, w, b, false, n, .plain a ha, hw, hb, rfl, by simp⟩
  | plus a w b n ha hw hb => exact ⟨a ++ [43], w, b, false, n, .plus a ha, hw, hb, rfl, by simp⟩
  | minus a w b n ha hw hb => exact ⟨a ++ [45], w, b, true, n, .minus a ha, hw, hb, rfl, by simp⟩

theorem wrap64_sign (n : Nat) (ng : Bool) : wrap64 (wrap64 (n : Int) * (if ng then -1 else 1)) = wrap64 (n * (if ng then -1 else 1)) := by
  unfold wrap64
  rw [Int.bmod_mul_bmod]

/-- C25: `int(s)` gives a number exactly for the literals, and then the number they stand for, reduced to 64 bits. For all
strings of any width and any notion of white space that is sane. -/
theorem int_of_string (space : Nat → Bool) (hs : Sane space) (s : Str) (v : Int) :
    toInt64 space s = some v ↔ ∃ n, Spec.Literal space (text s) n ∧ v = Int.bmod n (2 ^ 64) := by
  constructor
  · intro e
    unfold toInt64 at e
    cases hl : intLoop space (text s) ⟨.leftSpace, false, 0⟩ with
    | none => rw [hl] at e; simp at e
    | some m =>
      rw [hl] at e
      simp only at e
      have hr := reads_loop space (text s) [] _ m (show Reads space [] ⟨.leftSpace, false, 0⟩ from ⟨by simp, rfl, rfl⟩) hl
      rw [List.nil_append] at hr
      by_cases hm : m.state = .digit ∨ m.state = .rightSpace
      · rw [if_pos hm, Option.some.injEq] at e
        unfold Reads at hr
        rcases hm with hm | hm
        · rw [hm] at hr
          obtain ⟨h, w, n, h1, h2, h3, h4⟩ := hr
          refine ⟨n * (if m.negative then -1 else 1), ?_, ?_⟩
          · rw [h3, ← List.append_nil (h ++ w)]
            exact literal_head h1 h2 (by simp)
          · rw [← e, h4, wrap64_sign]
            rfl
        · rw [hm] at hr
          obtain ⟨h, w, b, n, h1, h2, h3, h4, h5⟩ := hr
          refine ⟨n * (if m.negative then -1 else 1), ?_, ?_⟩
          · rw [h4]
            exact literal_head h1 h2 h3
          · rw [← e, h5, wrap64_sign]
            rfl
      · rw [if_neg hm] at e
        simp at e
  · rintro ⟨n, hn, rfl⟩
    obtain ⟨h, w, b, ng, k, h1, h2, h3, h4, h5⟩ := head_literal hn
    obtain ⟨st, hst, e1⟩ := loop_head space hs h1
    have e2 := loop_numeral space hs st hst ng h2
    obtain ⟨st', hst', e3⟩ := loop_tail space ng (wrap64 k) b h3
    unfold toInt64
    have : intLoop space (text s) ⟨.leftSpace, false, 0⟩ = some ⟨st', ng, wrap64 k⟩ := by
      rw [h4, intLoop_append, intLoop_append, e1]
      change (intLoop space w _).bind _ = _
      rw [e2]
      exact e3
    rw [this]
    simp only [if_pos hst']
    rw [wrap64_sign, h5]
    rfl

/-- Hence ValueError is raised exactly if the string is no literal, and a literal that fits 64 bits gives its own value. -/
theorem int_raises_iff (space : Nat → Bool) (hs : Sane space) (s : Str) :
    (toInt64 space s = none ↔ ¬ ∃ n, Spec.Literal space (text s) n) ∧
    (∀ n, Spec.Literal space (text s) n → -2 ^ 63 ≤ n → n < 2 ^ 63 → toInt64 space s = some n) := by
  constructor
  · constructor
    · rintro e ⟨n, hn⟩
      have := (int_of_string space hs s _).2 ⟨n, hn, rfl⟩
      rw [e] at this
      simp at this
    · intro h
      cases e : toInt64 space s with
      | none => rfl
      | some v =>
        obtain ⟨n, hn, _⟩ := (int_of_string space hs s v).1 e
        exact absurd ⟨n, hn⟩ h
  · intro n hn h1 h2
    refine (int_of_string space hs s n).2 ⟨n, hn, ?_⟩
    symm
    rw [Int.bmod_eq_of_le (by omega) (by omega)]

/-- " -1_234 " and "1__2". -/
example : toInt64 (· == 32) (some ⟨1, [32, 45, 49, 95, 50, 51, 52, 32]⟩) = some (-1234) ∧
    toInt64 (· == 32) (some ⟨1, [49, 95, 95, 50]⟩) = none ∧ toInt64 (· == 32) (some ⟨1, [49, 95]⟩) = none ∧
    toInt64 (· == 32) (some ⟨1, [45, 32, 49]⟩) = none ∧ toInt64 (· == 32) none = none := by decide

example : Sane (· == 32) ∧ Spec.Literal (· == 32) [32, 45, 49, 95, 50] (-12) :=
  ⟨by intro c h; simp; omega,
    .minus [32] [49, 95, 50] [] 12 (by simp) (.under [49] 1 2 (.digit 1 (by omega)) (by omega)) (by simp)⟩

/-- The code differs from Python where the number does not fit: "9223372036854775808" gives -9223372036854775808. -/
theorem int_wraps : toInt64 (· == 32) (some ⟨1, [57, 50, 50, 51, 51, 55, 50, 48, 51, 54, 56, 53, 52, 55, 55, 53, 56, 48, 56]⟩) =
    some (-9223372036854775808) := by decide +kernel

end Verif.Str
