import Mathlib.Data.List.Lex
/-
What a `str` is for the claims about strings: a list of code points.
-/
namespace Verif.Str.Spec

/-- The largest code point is U+10FFFF. -/
def maxPoint : Nat := 0x10FFFF

/-- UTF-8 (RFC 3629, section 3) of one code point. -/
def utf8 (c : Nat) : List Nat :=
  if c ≤ 0x7F then [c]
  else if c ≤ 0x7FF then [192 + c / 64, 128 + c % 64]
  else if c ≤ 0xFFFF then [224 + c / 4096, 128 + c / 64 % 64, 128 + c % 64]
  else [240 + c / 262144, 128 + c / 4096 % 64, 128 + c / 64 % 64, 128 + c % 64]

/-- Python's comparisons. -/
inductive Op
  | eq | ne | lt | le | gt | ge
  deriving DecidableEq, Repr

/-- Python's comparison of two strings: the lexicographic order of their code points. -/
def compare : Op → List Nat → List Nat → Bool
  | .eq, a, b => decide (a = b)
  | .ne, a, b => decide (a ≠ b)
  | .lt, a, b => decide (a < b)
  | .le, a, b => decide (a < b ∨ a = b)
  | .gt, a, b => decide (b < a)
  | .ge, a, b => decide (b < a ∨ a = b)

/-! ### searching (C22) -/

/-- Where a search of a string of length `n` starts: relative to the end if negative, but not before the beginning. -/
def searchStart (n : Nat) (i : Int) : Nat := if i < 0 then (i + n).toNat else i.toNat

/-- Where it ends: relative to the end if negative, but not before the beginning, nor after the end. -/
def searchStop (n : Nat) (j : Int) : Nat := min n (if j < 0 then (j + n).toNat else j.toNat)

/-- `sub` occurs in `s` at `i`, inside `s[start:stop]`. -/
def OccursAt (s sub : List Nat) (start stop : Int) (i : Nat) : Prop :=
  searchStart s.length start ≤ i ∧ i + sub.length ≤ searchStop s.length stop ∧ (s.drop i).take sub.length = sub

/-- The least position with a property, or -1 if there is none. -/
def IsFirst (P : Nat → Prop) (r : Int) : Prop :=
  (∃ i : Nat, r = i ∧ P i ∧ ∀ j < i, ¬ P j) ∨ (r = -1 ∧ ∀ i, ¬ P i)

/-- The greatest position with a property, or -1 if there is none. -/
def IsLast (P : Nat → Prop) (r : Int) : Prop :=
  (∃ i : Nat, r = i ∧ P i ∧ ∀ j > i, ¬ P j) ∨ (r = -1 ∧ ∀ i, ¬ P i)

/-- How often `sub` occurs in a list without overlapping, searching from the left; `skip` elements belong to the last
occurrence. -/
def occurrences (sub : List Nat) : List Nat → Nat → Nat
  | [], _ => if sub = [] then 1 else 0
  | _ :: t, skip + 1 => occurrences sub t skip
  | c :: t, 0 => if sub.isPrefixOf (c :: t) then occurrences sub t (sub.length - 1) + 1 else occurrences sub t 0

/-- `s.count(sub, start, stop)`. -/
def count (s sub : List Nat) (start stop : Int) : Nat :=
  if searchStart s.length start ≤ searchStop s.length stop then
    occurrences sub ((s.take (searchStop s.length stop)).drop (searchStart s.length start)) 0
  else 0

/-! ### indexing, slicing, stripping, repeating (C24) -/

/-- `s[i]`; `none` is IndexError. -/
def index (s : List Nat) (i : Int) : Option Nat :=
  if i < 0 then (if i + s.length < 0 then none else s[(i + s.length).toNat]?) else s[i.toNat]?

/-- `s[start:stop]`, where either bound may be left out. -/
def slice (s : List Nat) (start stop : Option Int) : List Nat :=
  (s.take (searchStop s.length (stop.getD s.length))).drop (searchStart s.length (start.getD 0))

/-- `s.lstrip`: without the longest prefix of characters to be dropped. -/
def lstrip (drop : Nat → Bool) (s : List Nat) : List Nat := s.dropWhile drop

/-- `s.rstrip`: the same from the right. -/
def rstrip (drop : Nat → Bool) (s : List Nat) : List Nat := (s.reverse.dropWhile drop).reverse

/-- `s * n`. -/
def times (s : List Nat) (n : Int) : List Nat := (List.replicate n.toNat s).flatten

/-! ### splitting and joining (C23) -/

/-- `sub` stands at position `i` of `s`. -/
def StandsAt (s sub : List Nat) (i : Nat) : Prop := (s.drop i).take sub.length = sub

/-- A limit on the number of cuts: a negative number is none. -/
def limit (n : Int) : Option Nat := if n < 0 then none else some n.toNat

/-- `s.split(sep, limit)`: cut at the first occurrence of the separator, and go on behind it. -/
inductive Split (sep : List Nat) : Option Nat → List Nat → List (List Nat) → Prop
  | uncut (limit : Option Nat) (s : List Nat) (h : limit = some 0 ∨ ∀ i, ¬ StandsAt s sep i) : Split sep limit s [s]
  | cut (limit : Option Nat) (a b : List Nat) (ps : List (List Nat)) (h : limit ≠ some 0)
      (first : ∀ i < a.length, ¬ StandsAt (a ++ sep ++ b) sep i) (rest : Split sep (limit.map (· - 1)) b ps) :
      Split sep limit (a ++ sep ++ b) (a :: ps)

/-- `s.rsplit(sep, limit)`: cut at the last occurrence of the separator, and go on before it. -/
inductive RSplit (sep : List Nat) : Option Nat → List Nat → List (List Nat) → Prop
  | uncut (limit : Option Nat) (s : List Nat) (h : limit = some 0 ∨ ∀ i, ¬ StandsAt s sep i) : RSplit sep limit s [s]
  | cut (limit : Option Nat) (a b : List Nat) (ps : List (List Nat)) (h : limit ≠ some 0)
      (last : ∀ i > a.length, ¬ StandsAt (a ++ sep ++ b) sep i) (rest : RSplit sep (limit.map (· - 1)) a ps) :
      RSplit sep limit (a ++ sep ++ b) (ps ++ [b])

/-- `s.split(None, limit)`: the words between white space; when the limit is reached, what is left without the white space
before it. -/
inductive Words (space : Nat → Bool) : Option Nat → List Nat → List (List Nat) → Prop
  | blank (limit : Option Nat) (s : List Nat) (h : ∀ c ∈ s, space c = true) : Words space limit s []
  | uncut (a : List Nat) (c : Nat) (b : List Nat) (ha : ∀ x ∈ a, space x = true) (hc : space c = false) :
      Words space (some 0) (a ++ c :: b) [c :: b]
  | word (limit : Option Nat) (a w b : List Nat) (ps : List (List Nat)) (h : limit ≠ some 0)
      (ha : ∀ x ∈ a, space x = true) (hw : w ≠ []) (hw' : ∀ x ∈ w, space x = false)
      (hb : ∀ x, b.head? = some x → space x = true) (rest : Words space (limit.map (· - 1)) b ps) :
      Words space limit (a ++ w ++ b) (w :: ps)

/-- `s.rsplit(None, limit)`: the same from the right. -/
inductive RWords (space : Nat → Bool) : Option Nat → List Nat → List (List Nat) → Prop
  | blank (limit : Option Nat) (s : List Nat) (h : ∀ c ∈ s, space c = true) : RWords space limit s []
  | uncut (a : List Nat) (c : Nat) (b : List Nat) (ha : ∀ x ∈ a, space x = true) (hc : space c = false) :
      RWords space (some 0) (b ++ [c] ++ a) [b ++ [c]]
  | word (limit : Option Nat) (a w b : List Nat) (ps : List (List Nat)) (h : limit ≠ some 0)
      (ha : ∀ x ∈ a, space x = true) (hw : w ≠ []) (hw' : ∀ x ∈ w, space x = false)
      (hb : ∀ x, b.getLast? = some x → space x = true) (rest : RWords space (limit.map (· - 1)) b ps) :
      RWords space limit (b ++ w ++ a) (ps ++ [w])

/-- The characters that end a line. -/
def lineEnds : List Nat := [10, 13, 11, 12, 0x1C, 0x1D, 0x1E, 0x85, 0x2028, 0x2029]

/-- `s.splitlines(keep)`: "\r\n" is one line end. -/
inductive Lines (keep : Bool) : List Nat → List (List Nat) → Prop
  | empty : Lines keep [] []
  | last (s : List Nat) (h : s ≠ []) (hs : ∀ c ∈ s, c ∉ lineEnds) : Lines keep s [s]
  | line (a e b : List Nat) (ps : List (List Nat)) (ha : ∀ c ∈ a, c ∉ lineEnds)
      (he : e = [13, 10] ∨ ∃ c, e = [c] ∧ c ∈ lineEnds ∧ ¬ (c = 13 ∧ b.head? = some 10)) (rest : Lines keep b ps) :
      Lines keep (a ++ e ++ b) ((a ++ if keep then e else []) :: ps)

/-- `sep.join(parts)`. -/
def join (sep : List Nat) : List (List Nat) → List Nat
  | [] => []
  | [x] => x
  | x :: y :: t => x ++ sep ++ join sep (y :: t)

/-! ### prefixes, replacing and padding (C26) -/

/-- `s.startswith(prefix, start, stop)`: of `s[start:stop]`, unless the range is no range. -/
def StartsWith (s pre : List Nat) (start stop : Int) : Prop :=
  searchStart s.length start ≤ searchStop s.length stop ∧ pre <+: slice s (some start) (some stop)

/-- `s.endswith(suffix, start, stop)`. -/
def EndsWith (s suf : List Nat) (start stop : Int) : Prop :=
  searchStart s.length start ≤ searchStop s.length stop ∧ suf <:+ slice s (some start) (some stop)

instance (s pre : List Nat) (start stop : Int) : Decidable (StartsWith s pre start stop) := inferInstanceAs (Decidable (_ ∧ _))

instance (s suf : List Nat) (start stop : Int) : Decidable (EndsWith s suf start stop) := inferInstanceAs (Decidable (_ ∧ _))

/-- `s.replace("", new, limit)`: before every character, and at the end, until the limit is reached. -/
def interleave (new : List Nat) : Option Nat → List Nat → List Nat
  | some 0, s => s
  | _, [] => new
  | lim, c :: s => new ++ c :: interleave new (lim.map (· - 1)) s

/-- `s.replace(old, new, limit)` where `old` is not empty: cut at the occurrences and put `new` in their places. -/
def Replaced (old new : List Nat) (lim : Option Nat) (s r : List Nat) : Prop :=
  ∃ ps, Split old lim s ps ∧ r = join new ps

/-- `n` times the character `c`. -/
def pad (c : Nat) (n : Int) : List Nat := List.replicate n.toNat c

/-- `s.ljust(width, fill)`. -/
def ljust (s : List Nat) (width : Int) (fill : Nat) : List Nat := s ++ pad fill (width - s.length)

/-- `s.rjust(width, fill)`. -/
def rjust (s : List Nat) (width : Int) (fill : Nat) : List Nat := pad fill (width - s.length) ++ s

/-- `s.center(width, fill)` as CPython defines it (Objects/unicodeobject.c, `unicode_center_impl`): of an odd number of
characters the greater half is on the left if the width is odd, and on the right if it is even. -/
def center (s : List Nat) (width : Int) (fill : Nat) : List Nat :=
  if width ≤ s.length then s
  else
    let margin := width - s.length
    let left := margin / 2 + (if margin % 2 = 1 ∧ width % 2 = 1 then 1 else 0)
    pad fill left ++ s ++ pad fill (margin - left)

/-- `s.zfill(width)`: zeros go behind the sign. -/
def zfill (s : List Nat) (width : Int) : List Nat :=
  match s with
  | [] => pad 48 width
  | c :: t =>
    if c = 43 ∨ c = 45 then c :: (pad 48 (width - (c :: t).length) ++ t) else pad 48 (width - (c :: t).length) ++ c :: t

/-- `s.expandtabs(size)` from column `col` on: a tab is filled with spaces up to the next multiple of the size. -/
def expandtabs (size : Int) : Nat → List Nat → List Nat
  | _, [] => []
  | col, c :: t =>
    if c = 9 then
      if size ≤ 0 then expandtabs size col t
      else
        let n := size.toNat - col % size.toNat
        List.replicate n 32 ++ expandtabs size (col + n) t
    else c :: expandtabs size (if c = 10 ∨ c = 13 then 0 else col + 1) t

/-! ### numbers (C25) -/

/-- Decimal digits with single underscores between them, and the number they stand for. -/
inductive Numeral : List Nat → Nat → Prop
  | digit (d : Nat) (h : d ≤ 9) : Numeral [48 + d] d
  | more (w : List Nat) (n d : Nat) (hw : Numeral w n) (h : d ≤ 9) : Numeral (w ++ [48 + d]) (10 * n + d)
  | under (w : List Nat) (n d : Nat) (hw : Numeral w n) (h : d ≤ 9) : Numeral (w ++ [95, 48 + d]) (10 * n + d)

/-- What `int()` accepts: a numeral with or without a sign, and white space around it. -/
inductive Literal (space : Nat → Bool) : List Nat → Int → Prop
  | plain (a w b : List Nat) (n : Nat) (ha : ∀ c ∈ a, space c = true) (hw : Numeral w n) (hb : ∀ c ∈ b, space c = true) :
      Literal space (a ++ w ++ b) n
  | plus (a w b : List Nat) (n : Nat) (ha : ∀ c ∈ a, space c = true) (hw : Numeral w n) (hb : ∀ c ∈ b, space c = true) :
      Literal space (a ++ [43] ++ w ++ b) n
  | minus (a w b : List Nat) (n : Nat) (ha : ∀ c ∈ a, space c = true) (hw : Numeral w n) (hb : ∀ c ∈ b, space c = true) :
      Literal space (a ++ [45] ++ w ++ b) (-n)

/-! ### case mapping and the predicates (C27, C58) -/

/-- The Unicode database, as CPython presents it: full case mappings (`_PyUnicode_ToUpperFull`, ...) and properties. -/
structure Unicode where
  upper : Nat → List Nat
  lower : Nat → List Nat
  folded : Nat → List Nat
  title : Nat → List Nat
  isUpper : Nat → Bool
  isLower : Nat → Bool
  isTitle : Nat → Bool
  isAlpha : Nat → Bool
  isCased : Nat → Bool
  isIgnorable : Nat → Bool

/-- What holds of every Unicode database: a character maps to one, two or three characters, and none is both an upper case and
a lower case letter. -/
structure Unicode.Sane (u : Unicode) : Prop where
  upper : ∀ c, 1 ≤ (u.upper c).length ∧ (u.upper c).length ≤ 3
  lower : ∀ c, 1 ≤ (u.lower c).length ∧ (u.lower c).length ≤ 3
  folded : ∀ c, 1 ≤ (u.folded c).length ∧ (u.folded c).length ≤ 3
  title : ∀ c, 1 ≤ (u.title c).length ∧ (u.title c).length ≤ 3
  disjoint : ∀ c, u.isUpper c = true → u.isLower c = false

/-- The first character after the ones Unicode ignores is cased. -/
def casedNext (u : Unicode) (s : List Nat) : Bool :=
  match s.dropWhile u.isIgnorable with
  | [] => false
  | c :: _ => u.isCased c

/-- The lower case of one character between `before` (reversed) and `after`: a Greek sigma at the end of a word is ς. -/
def lowerAt (u : Unicode) (before : List Nat) (c : Nat) (after : List Nat) : List Nat :=
  if c = 0x3A3 then (if casedNext u before = true ∧ casedNext u after = false then [0x3C2] else [0x3C3]) else u.lower c

/-- `s.lower()` after `before` (reversed). -/
def lower (u : Unicode) : List Nat → List Nat → List Nat
  | _, [] => []
  | before, c :: t => lowerAt u before c t ++ lower u (c :: before) t

/-- `s.capitalize()` (Python 3.8 on). -/
def capitalize (u : Unicode) : List Nat → List Nat
  | [] => []
  | c :: t => u.title c ++ lower u [c] t

/-- `s.swapcase()` after `before` (reversed). -/
def swapcase (u : Unicode) : List Nat → List Nat → List Nat
  | _, [] => []
  | before, c :: t =>
    (if u.isUpper c then lowerAt u before c t else if u.isLower c then u.upper c else [c]) ++ swapcase u (c :: before) t

/-- `s.title()` after `before` (reversed): a character after a cased one is made lower case, every other one title case. -/
def title (u : Unicode) : List Nat → List Nat → List Nat
  | _, [] => []
  | before, c :: t =>
    (if before.head?.any u.isCased then lowerAt u before c t else u.title c) ++ title u (c :: before) t

/-- Every character has the property, and there is one: `isalpha`, `isspace`, ... -/
def AllAre (q : Nat → Prop) (s : List Nat) : Prop := s ≠ [] ∧ ∀ c ∈ s, q c

/-- `islower`: there is a lower case letter and no letter of the other cases; `isupper` with the cases exchanged. -/
def OfCase (this other title : Nat → Bool) (s : List Nat) : Prop :=
  (∃ c ∈ s, this c = true) ∧ ∀ c ∈ s, other c = false ∧ title c = false

/-- `istitle`: there is a cased letter; upper and title case letters do not follow cased letters, lower case letters do. -/
def Titled (upper lower title : Nat → Bool) (s : List Nat) : Prop :=
  (∃ c ∈ s, upper c = true ∨ lower c = true ∨ title c = true) ∧
  (∀ (a b : List Nat) (c : Nat), s = a ++ c :: b → upper c = true ∨ title c = true →
    ∀ d, a.getLast? = some d → upper d = false ∧ lower d = false ∧ title d = false) ∧
  (∀ (a b : List Nat) (c : Nat), s = a ++ c :: b → lower c = true →
    ∃ d, a.getLast? = some d ∧ (upper d = true ∨ lower d = true ∨ title d = true))

end Verif.Str.Spec
