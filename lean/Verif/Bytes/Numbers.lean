import Verif.Bytes.Model
import Verif.Bytes.Spec
import Verif.Str.ToFloat
/-
C105: `int(x)` and `float(x)` of bytes in compiled code.
/repo/typed_python/BytesType.cpp 515-712, _runtime.cpp 2650-2682, bytes_wrapper.py 1777-1795.

Both functions are those of strings (Str/ToInt.lean, Str/ToFloat.lean), byte for character, with white space as in the table of Unicode
properties.
-/
namespace Verif.Bytes

/-- Lines 32-34 of UnicodeProps_3.7.4.hpp: the code points below 256 with `Uprops_SPACE`, which is 0x40 (29). -/
def uspace (c : Nat) : Bool := (9 ≤ c ∧ c ≤ 13) ∨ (28 ≤ c ∧ c ≤ 32) ∨ c = 133 ∨ c = 160

/-- BytesType.cpp:516-576: `int(x)`; `none` is ValueError (_runtime.cpp:2650-2660). -/
def toInt (x : B) : Option Int := Str.toInt64 uspace (some ⟨1, text x⟩)

/-- BytesType.cpp:579-712: `float(x)`: the text `strtod` is given; `none` is ValueError (_runtime.cpp:2662-2682). -/
def toFloat (x : B) : Option (List Nat) := Str.toFloat uspace (text x)

/-- The white space that Python skips around the number in a bytes object (`Py_ISSPACE`). -/
def ascii (c : Nat) : Bool := c = 32 ∨ (9 ≤ c ∧ c ≤ 13)

theorem printable_uspace : Str.Printable uspace := by
  intro c h1 h2
  simp only [uspace, decide_eq_false_iff_not]
  omega

theorem sane_uspace : Str.Sane uspace := fun c h => printable_uspace c (by omega) (by omega)

theorem ascii_uspace {c : Nat} (h : ascii c = true) : uspace c = true := by
  simp only [ascii, uspace, decide_eq_true_eq] at h ⊢
  omega

/-- Where no byte is one of the six that only Unicode takes for white space. -/
def AsciiSpace (s : List Nat) : Prop := ∀ c ∈ s, ¬ (28 ≤ c ∧ c ≤ 31) ∧ c ≠ 133 ∧ c ≠ 160

theorem uspace_ascii {s : List Nat} (h : AsciiSpace s) {a : List Nat} (hs : ∀ c ∈ a, c ∈ s) (ha : ∀ c ∈ a, uspace c = true) :
    ∀ c ∈ a, ascii c = true := by
  intro c hc
  have h1 := h c (hs c hc)
  have h2 := ha c hc
  simp only [ascii, uspace, decide_eq_true_eq] at h2 ⊢
  omega

theorem literal_ascii {s : List Nat} {n : Int} (h : AsciiSpace s) : Str.Spec.Literal uspace s n ↔ Str.Spec.Literal ascii s n := by
  constructor
  · intro hl
    cases hl with
    | plain a w b n ha hw hb =>
      exact .plain a w b n (uspace_ascii h (by simp; tauto) ha) hw (uspace_ascii h (by simp; tauto) hb)
    | plus a w b n ha hw hb =>
      exact .plus a w b n (uspace_ascii h (by simp; tauto) ha) hw (uspace_ascii h (by simp; tauto) hb)
    | minus a w b n ha hw hb =>
      exact .minus a w b n (uspace_ascii h (by simp; tauto) ha) hw (uspace_ascii h (by simp; tauto) hb)
  · intro hl
    cases hl with
    | plain a w b n ha hw hb => exact .plain a w b n (fun c hc => ascii_uspace (ha c hc)) hw (fun c hc => ascii_uspace (hb c hc))
    | plus a w b n ha hw hb => exact .plus a w b n (fun c hc => ascii_uspace (ha c hc)) hw (fun c hc => ascii_uspace (hb c hc))
    | minus a w b n ha hw hb => exact .minus a w b n (fun c hc => ascii_uspace (ha c hc)) hw (fun c hc => ascii_uspace (hb c hc))

theorem float_ascii {s t : List Nat} : Str.Spec.Float ascii s t → Str.Spec.Float uspace s t := by
  intro hl
  cases hl with
  | number a sg m m' x x' b ha hs hm hx hb =>
    exact .number a sg m m' x x' b (fun c hc => ascii_uspace (ha c hc)) hs hm hx (fun c hc => ascii_uspace (hb c hc))
  | word a sg w b ha hs hw hb =>
    exact .word a sg w b (fun c hc => ascii_uspace (ha c hc)) hs hw (fun c hc => ascii_uspace (hb c hc))

theorem float_uspace {s t : List Nat} (h : AsciiSpace s) : Str.Spec.Float uspace s t → Str.Spec.Float ascii s t := by
  intro hl
  cases hl with
  | number a sg m m' x x' b ha hs hm hx hb =>
    exact .number a sg m m' x x' b (uspace_ascii h (by simp; tauto) ha) hs hm hx (uspace_ascii h (by simp; tauto) hb)
  | word a sg w b ha hs hw hb =>
    exact .word a sg w b (uspace_ascii h (by simp; tauto) ha) hs hw (uspace_ascii h (by simp; tauto) hb)

/-- C105: `int(x)` of bytes without the white space of Unicode gives a number exactly for Python's literals, and then the number they
stand for, reduced to 64 bits. -/
theorem int_of_bytes_partial (x : B) (v : Int) (h : AsciiSpace (text x)) :
    toInt x = some v ↔ ∃ n, Str.Spec.Literal ascii (text x) n ∧ v = Int.bmod n (2 ^ 64) := by
  rw [toInt, Str.int_of_string uspace sane_uspace]
  constructor
  · rintro ⟨n, hn, e⟩
    exact ⟨n, (literal_ascii h).1 hn, e⟩
  · rintro ⟨n, hn, e⟩
    exact ⟨n, (literal_ascii h).2 hn, e⟩

/-- b" -1_2\n" -/
example : AsciiSpace [32, 45, 49, 95, 50, 10] ∧ toInt (some [32, 45, 49, 95, 50, 10]) = some (-12) ∧ toInt (some [49, 95]) = none := by
  refine ⟨by unfold AsciiSpace; decide, by decide +kernel, by decide +kernel⟩

/-- C105: every bytes object that Python's `float()` accepts is accepted, and its first 48 characters are read. -/
theorem float_of_bytes (x : B) (t : List Nat) (h : Str.Spec.Float ascii (text x) t) : toFloat x = some (t.take 48) :=
  Str.float_literal printable_uspace (float_ascii h)

/-- C105: plain bytes without the white space of Unicode are accepted by `float()` exactly if Python accepts them. -/
theorem float_bytes_partial (x : B) (hp : Str.Spec.Plain (text x)) (h : AsciiSpace (text x)) :
    (∃ t, toFloat x = some t) ↔ ∃ t, Str.Spec.Float ascii (text x) t := by
  rw [toFloat]
  refine (Str.float_plain_partial printable_uspace hp).trans ⟨?_, ?_⟩
  · rintro ⟨t, ht⟩
    exact ⟨t, float_uspace h ht⟩
  · rintro ⟨t, ht⟩
    exact ⟨t, float_ascii ht⟩

theorem literal_bytes {s : List Nat} {n : Int} (h : Str.Spec.Literal ascii s n) :
    ∀ c ∈ s, ascii c = true ∨ c = 43 ∨ c = 45 ∨ c = 95 ∨ (48 ≤ c ∧ c ≤ 57) := by
  have hn : ∀ {w : List Nat} {k : Nat}, Str.Spec.Numeral w k → ∀ c ∈ w, c = 95 ∨ (48 ≤ c ∧ c ≤ 57) := by
    intro w k hw
    induction hw with
    | digit d hd => intro c hc; rw [List.mem_singleton.1 hc]; omega
    | more w n d hw hd ih =>
      intro c hc
      rcases List.mem_append.1 hc with hc | hc
      · exact ih c hc
      · rw [List.mem_singleton.1 hc]; omega
    | under w n d hw hd ih =>
      intro c hc
      rcases List.mem_append.1 hc with hc | hc
      · exact ih c hc
      · simp at hc; omega
  intro c hc
  cases h with
  | plain a w b n ha hw hb =>
    simp only [List.mem_append] at hc
    rcases hc with (hc | hc) | hc
    · exact Or.inl (ha c hc)
    · have := hn hw c hc; omega
    · exact Or.inl (hb c hc)
  | plus a w b n ha hw hb =>
    simp only [List.mem_append, List.mem_singleton] at hc
    rcases hc with ((hc | hc) | hc) | hc
    · exact Or.inl (ha c hc)
    · omega
    · have := hn hw c hc; omega
    · exact Or.inl (hb c hc)
  | minus a w b n ha hw hb =>
    simp only [List.mem_append, List.mem_singleton] at hc
    rcases hc with ((hc | hc) | hc) | hc
    · exact Or.inl (ha c hc)
    · omega
    · have := hn hw c hc; omega
    · exact Or.inl (hb c hc)

/-- The code violates C105: any of the six bytes that only Unicode takes for white space may stand around a number. -/
theorem unicode_space_accepted (c : Nat) (h : (28 ≤ c ∧ c ≤ 31) ∨ c = 133 ∨ c = 160) :
    toInt (some [c, 49]) = some 1 ∧ toFloat (some [c, 49]) = some [49] ∧ (¬ ∃ n, Str.Spec.Literal ascii [c, 49] n) ∧
    ¬ ∃ t, Str.Spec.Float ascii [c, 49] t := by
  have hn : ascii c = false := by
    simp only [ascii, decide_eq_false_iff_not]
    omega
  refine ⟨?_, ?_, ?_, ?_⟩
  · rcases h with h | rfl | rfl
    · obtain rfl | rfl | rfl | rfl : c = 28 ∨ c = 29 ∨ c = 30 ∨ c = 31 := by omega
      all_goals decide +kernel
    · decide +kernel
    · decide +kernel
  · rcases h with h | rfl | rfl
    · obtain rfl | rfl | rfl | rfl : c = 28 ∨ c = 29 ∨ c = 30 ∨ c = 31 := by omega
      all_goals decide +kernel
    · decide +kernel
    · decide +kernel
  · rintro ⟨n, hl⟩
    rcases literal_bytes hl c (by simp) with h' | h'
    · rw [hn] at h'; simp at h'
    · omega
  · rintro ⟨t, hl⟩
    have hfa : Str.Printable ascii := by
      intro c h1 h2
      simp only [ascii, decide_eq_false_iff_not]
      omega
    -- with this byte as no white space, the machine fails at once
    have hacc := Str.float_literal hfa hl
    have : Str.floatStep ascii .leftSpace c = none ∨ Str.floatStep ascii .leftSpace c = some .identifier := by
      unfold Str.floatStep
      rw [if_neg (by simp [hn]), if_neg (by omega), if_neg (by omega), if_neg (by omega), if_neg (by omega), if_neg (by omega)]
      split
      · right; rfl
      · left; rfl
    have hd : Str.floatStep ascii .identifier 49 = none := by decide
    have e : Str.toFloat ascii [c, 49] = none := by
      rw [Str.toFloat, Str.floatLoop]
      rcases this with h' | h'
      · rw [h']
      · rw [h']
        simp only
        rw [Str.floatLoop, hd]
    rw [e] at hacc
    simp at hacc

end Verif.Bytes
