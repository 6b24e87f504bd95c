import Verif.Str.Spec
/-
What a `bytes` is for the claims about bytes: a list of numbers below 256. Most methods mean what they mean for strings
(Verif.Str.Spec); here is what differs.
-/
namespace Verif.Bytes.Spec

/-- The white space of `bytes`. -/
def White (c : Nat) : Prop := c ∈ [9, 10, 11, 12, 13, 32]

instance (c : Nat) : Decidable (White c) := inferInstanceAs (Decidable (_ ∈ _))

/-- `x.splitlines(keep)`: lines end with "\n", "\r" or "\r\n". -/
inductive Lines (keep : Bool) : List Nat → List (List Nat) → Prop
  | empty : Lines keep [] []
  | last (s : List Nat) (h : s ≠ []) (hs : ∀ c ∈ s, c ≠ 10 ∧ c ≠ 13) : Lines keep s [s]
  | line (a e b : List Nat) (ps : List (List Nat)) (ha : ∀ c ∈ a, c ≠ 10 ∧ c ≠ 13)
      (he : e = [13, 10] ∨ e = [10] ∨ (e = [13] ∧ b.head? ≠ some 10)) (rest : Lines keep b ps) :
      Lines keep (a ++ e ++ b) ((a ++ if keep then e else []) :: ps)

/-- The letters of `bytes` are those of ASCII. -/
def Upper (c : Nat) : Prop := 65 ≤ c ∧ c ≤ 90

def Lower (c : Nat) : Prop := 97 ≤ c ∧ c ≤ 122

def Digit (c : Nat) : Prop := 48 ≤ c ∧ c ≤ 57

instance (c : Nat) : Decidable (Upper c) := inferInstanceAs (Decidable (_ ∧ _))

instance (c : Nat) : Decidable (Lower c) := inferInstanceAs (Decidable (_ ∧ _))

instance (c : Nat) : Decidable (Digit c) := inferInstanceAs (Decidable (_ ∧ _))

/-- A letter in lower case. -/
def toLower (c : Nat) : Nat := if Upper c then c + 32 else c

/-- A letter in upper case. -/
def toUpper (c : Nat) : Nat := if Lower c then c - 32 else c

/-- `x.title()`: letters after letters are in lower case, other letters in upper case. -/
def IsTitle (s r : List Nat) : Prop :=
  r.length = s.length ∧ ∀ (i : Nat) c, s[i]? = some c →
    r[i]? = some (if ∃ d, (s.take i).getLast? = some d ∧ (Upper d ∨ Lower d) then toLower c else toUpper c)

/-- `bytes.maketrans(src, dst)`: a table of 256 bytes; the last of several replacements counts. -/
def IsTable (src dst table : List Nat) : Prop :=
  table.length = 256 ∧ ∀ c < 256,
    (c ∉ src → table[c]? = some c) ∧
    (∀ j : Nat, src[j]? = some c → (∀ k > j, src[k]? ≠ some c) → table[c]? = dst[j]?)

/-- `x.translate(table, delete)`. -/
def translate (table : Option (List Nat)) (delete s : List Nat) : List Nat :=
  (s.filter (· ∉ delete)).map fun c => match table with | none => c | some t => t.getD c 0

end Verif.Bytes.Spec
