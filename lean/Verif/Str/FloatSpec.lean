/-
C105: what `float(text)` accepts in Python, and which number it is: that of the text without white space around it and without
underscores, as the C library reads it (CPython: Objects/floatobject.c, `PyFloat_FromString`, and Python/pystrtod.c,
`_Py_string_to_number_with_underscores`).
-/
namespace Verif.Str.Spec

/-- "0" to "9". -/
def IsDigit (c : Nat) : Prop := 48 ≤ c ∧ c ≤ 57

instance (c : Nat) : Decidable (IsDigit c) := inferInstanceAs (Decidable (_ ∧ _))

/-- Digits with single underscores between them, and the same without underscores. -/
inductive Digits : List Nat → List Nat → Prop
  | one (d : Nat) (h : IsDigit d) : Digits [d] [d]
  | more (w t : List Nat) (d : Nat) (hw : Digits w t) (h : IsDigit d) : Digits (w ++ [d]) (t ++ [d])
  | under (w t : List Nat) (d : Nat) (hw : Digits w t) (h : IsDigit d) : Digits (w ++ [95, d]) (t ++ [d])

/-- Digits, a point, digits; one of both may be missing, and the point. -/
inductive Decimal : List Nat → List Nat → Prop
  | whole (w t : List Nat) (hw : Digits w t) : Decimal w t
  | point (w t : List Nat) (hw : Digits w t) : Decimal (w ++ [46]) (t ++ [46])
  | both (w t v u : List Nat) (hw : Digits w t) (hv : Digits v u) : Decimal (w ++ [46] ++ v) (t ++ [46] ++ u)
  | fraction (v u : List Nat) (hv : Digits v u) : Decimal ([46] ++ v) ([46] ++ u)

/-- No sign, "+" or "-". -/
def Sign (l : List Nat) : Prop := l = [] ∨ l = [43] ∨ l = [45]

/-- "e" or "E". -/
def IsE (c : Nat) : Prop := c = 101 ∨ c = 69

inductive Exponent : List Nat → List Nat → Prop
  | none : Exponent [] []
  | some (e : Nat) (sg w t : List Nat) (he : IsE e) (hs : Sign sg) (hw : Digits w t) : Exponent ([e] ++ sg ++ w) ([e] ++ sg ++ t)

/-- A letter in lower case. -/
def lowerLetter (c : Nat) : Nat := if 65 ≤ c ∧ c ≤ 90 then c + 32 else c

/-- "inf", "infinity" and "nan". -/
def words : List (List Nat) := [[105, 110, 102], [105, 110, 102, 105, 110, 105, 116, 121], [110, 97, 110]]

/-- The texts `float()` accepts, and what they stand for. -/
inductive Float (space : Nat → Bool) : List Nat → List Nat → Prop
  | number (a sg m m' x x' b : List Nat) (ha : ∀ c ∈ a, space c = true) (hs : Sign sg) (hm : Decimal m m') (hx : Exponent x x')
      (hb : ∀ c ∈ b, space c = true) : Float space (a ++ sg ++ m ++ x ++ b) (sg ++ m' ++ x')
  | word (a sg w b : List Nat) (ha : ∀ c ∈ a, space c = true) (hs : Sign sg) (hw : w.map lowerLetter ∈ words)
      (hb : ∀ c ∈ b, space c = true) : Float space (a ++ sg ++ w ++ b) (sg ++ w.map lowerLetter)

/-- In front of a point there is no point and no "e"; in front of an "e" there is no "e"; a point has a digit beside it; and no
character is NUL. -/
structure Plain (s : List Nat) : Prop where
  point : ∀ a b, s = a ++ 46 :: b → ∀ c ∈ a, c ≠ 46 ∧ ¬ IsE c
  exponent : ∀ a c b, IsE c → s = a ++ c :: b → ∀ d ∈ a, ¬ IsE d
  digit : ∀ a b, s = a ++ 46 :: b → (∃ d, a.getLast? = some d ∧ IsDigit d) ∨ (∃ d, b.head? = some d ∧ IsDigit d)
  noNul : 0 ∉ s

end Verif.Str.Spec
