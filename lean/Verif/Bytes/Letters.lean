import Verif.Bytes.Methods
import Verif.Str.Case
/-
C103: predicates and case of bytes.
-/
namespace Verif.Bytes
open Verif.Str.Spec (AllAre OfCase Titled)
open Spec

theorem allLoop_iff (p : Nat → Bool) : ∀ s : List Nat, allLoop p s = true ↔ ∀ c ∈ s, p c = true
  | [] => by simp [allLoop]
  | c :: t => by
    rw [allLoop]
    cases h : p c with
    | false => simp [h]
    | true => simp [h, allLoop_iff p t]

theorem all_predicate (p : Nat → Bool) (q : Nat → Prop) (h : ∀ c, p c = true ↔ q c) (s : List Nat) :
    (if s.length = 0 then false else allLoop p s) = true ↔ AllAre q s := by
  unfold AllAre
  by_cases h0 : s.length = 0
  · rw [if_pos h0]
    have := List.length_eq_zero_iff.1 h0
    simp [this]
  · rw [if_neg h0, allLoop_iff]
    have hn : s ≠ [] := fun h => h0 (by rw [h]; rfl)
    exact ⟨fun h' => ⟨hn, fun c hc => (h c).1 (h' c hc)⟩, fun h' c hc => (h c).2 (h'.2 c hc)⟩

/-- C103: `isalnum`, `isalpha`, `isdigit` and `isspace`: there is a byte, and every byte is of that kind. -/
theorem all_predicates (x : B) :
    (isalnum x = true ↔ AllAre (fun c => Digit c ∨ Upper c ∨ Lower c) (text x)) ∧
    (isalpha x = true ↔ AllAre (fun c => Upper c ∨ Lower c) (text x)) ∧
    (isdigit x = true ↔ AllAre Digit (text x)) ∧
    (isspaceMethod x = true ↔ AllAre White (text x)) := by
  refine ⟨all_predicate _ _ (fun c => ?_) _, all_predicate _ _ (fun c => ?_) _, all_predicate _ _ (fun c => ?_) _,
    all_predicate _ _ (fun c => ?_) _⟩
  · unfold Digit Upper Lower; simp
  · unfold Upper Lower; simp
  · unfold Digit; simp
  · unfold White; simp; omega

example : isalnum (some [97, 48]) = true ∧ isalpha (some [97, 48]) = false ∧ isdigit none = false ∧
    isspaceMethod (some [9, 32]) = true ∧ isspaceMethod (some [0x85]) = false := by decide +kernel

theorem lowerLoop_iff : ∀ (s : List Nat) (found : Bool), lowerLoop s found = true ↔
    (found = true ∨ ∃ c ∈ s, Lower c) ∧ ∀ c ∈ s, ¬ Upper c
  | [], found => by simp [lowerLoop]
  | c :: t, found => by
    rw [lowerLoop]
    unfold Lower Upper
    by_cases h1 : 97 ≤ c ∧ c ≤ 122
    · rw [if_pos h1, lowerLoop_iff t]
      unfold Lower Upper
      have : ¬ (65 ≤ c ∧ c ≤ 90) := by omega
      simp only [List.mem_cons, exists_eq_or_imp, forall_eq_or_imp, this, h1, true_or, or_true, true_and, not_false_eq_true, and_self]
    · rw [if_neg h1]
      by_cases h2 : 65 ≤ c ∧ c ≤ 90
      · rw [if_pos h2]
        simp [h2]
      · rw [if_neg h2, lowerLoop_iff t]
        unfold Lower Upper
        simp only [List.mem_cons, exists_eq_or_imp, forall_eq_or_imp, h1, h2, false_or, not_false_eq_true, true_and]

theorem upperLoop_iff : ∀ (s : List Nat) (found : Bool), upperLoop s found = true ↔
    (found = true ∨ ∃ c ∈ s, Upper c) ∧ ∀ c ∈ s, ¬ Lower c
  | [], found => by simp [upperLoop]
  | c :: t, found => by
    rw [upperLoop]
    unfold Lower Upper
    by_cases h1 : 65 ≤ c ∧ c ≤ 90
    · rw [if_pos h1, upperLoop_iff t]
      unfold Lower Upper
      have : ¬ (97 ≤ c ∧ c ≤ 122) := by omega
      simp only [List.mem_cons, exists_eq_or_imp, forall_eq_or_imp, this, h1, true_or, or_true, true_and, not_false_eq_true, and_self]
    · rw [if_neg h1]
      by_cases h2 : 97 ≤ c ∧ c ≤ 122
      · rw [if_pos h2]
        simp [h2]
      · rw [if_neg h2, upperLoop_iff t]
        unfold Lower Upper
        simp only [List.mem_cons, exists_eq_or_imp, forall_eq_or_imp, h1, h2, false_or, not_false_eq_true, true_and]

theorem titleLoop_eq : ∀ (s : List Nat) (last found : Bool), titleLoop s last found = Str.titleLoop Str.ascii last found s
  | [], _, _ => rfl
  | c :: t, last, found => by
    rw [titleLoop, Str.titleLoop]
    simp only [Str.ascii]
    rw [titleLoop_eq t]
    by_cases h1 : 65 ≤ c ∧ c ≤ 90 <;> by_cases h2 : 97 ≤ c ∧ c ≤ 122 <;> cases last <;> simp only [h1, h2] <;> simp

/-- C103: `islower`, `isupper` and `istitle`. -/
theorem case_predicates (x : B) :
    (islower x = true ↔ (∃ c ∈ text x, Lower c) ∧ ∀ c ∈ text x, ¬ Upper c) ∧
    (isupper x = true ↔ (∃ c ∈ text x, Upper c) ∧ ∀ c ∈ text x, ¬ Lower c) ∧
    (istitle x = true ↔ Titled (fun c => decide (Upper c)) (fun c => decide (Lower c)) (fun _ => false) (text x)) := by
  refine ⟨?_, ?_, ?_⟩
  · unfold islower
    rw [lowerLoop_iff]
    simp
  · unfold isupper
    rw [upperLoop_iff]
    simp
  · have e : istitle x = Str.istitle Str.ascii (some ⟨1, text x⟩) := by
      unfold istitle Str.istitle
      simp only [titleLoop_eq]
    rw [e, Str.istitle_as_python]
    exact Iff.rfl

example : islower (some [97, 49]) = true ∧ isupper (some [49]) = false ∧ istitle (some [65, 98, 32, 67]) = true ∧
    istitle (some [65, 66]) = false := by decide +kernel

theorem title_length : ∀ (s : List Nat) (w : Bool), (titleGo s w).length = s.length
  | [], _ => rfl
  | c :: t, w => by
    rw [titleGo]
    split <;> split <;> simp [title_length t]

/-- Whether the byte before position `i` is a letter; `w` before the first byte. -/
def after (s : List Nat) (w : Bool) (i : Nat) : Bool :=
  match (s.take i).getLast? with
  | none => w
  | some d => decide (Upper d ∨ Lower d)

theorem titleGo_cons (x : Nat) (t : List Nat) (w : Bool) :
    titleGo (x :: t) w = (if w then toLower x else toUpper x) :: titleGo t (decide (Upper x ∨ Lower x)) := by
  rw [titleGo]
  by_cases hal : Upper x ∨ Lower x
  · have h' : (65 ≤ x ∧ x ≤ 90) ∨ (97 ≤ x ∧ x ≤ 122) := hal
    cases w <;> simp only [hal, h'] <;> rfl
  · have h' : ¬ ((65 ≤ x ∧ x ≤ 90) ∨ (97 ≤ x ∧ x ≤ 122)) := hal
    have hl : toLower x = x := if_neg (fun h => hal (Or.inl h))
    have hu : toUpper x = x := if_neg (fun h => hal (Or.inr h))
    cases w <;> simp only [hal, h', hl, hu] <;> rfl

theorem titleGo_get : ∀ (s : List Nat) (w : Bool) (i c : Nat), s[i]? = some c →
    (titleGo s w)[i]? = some (if after s w i then toLower c else toUpper c)
  | [], _, _, _, h => by simp at h
  | x :: t, w, i, c, h => by
    rw [titleGo_cons]
    cases i with
    | zero =>
      simp at h
      subst h
      rfl
    | succ i =>
      rw [List.getElem?_cons_succ] at h ⊢
      rw [titleGo_get t _ i c h]
      have : after t (decide (Upper x ∨ Lower x)) i = after (x :: t) w (i + 1) := by
        unfold after
        rw [List.take_succ_cons]
        cases ht : t.take i with
        | nil => rfl
        | cons y l => rw [List.getLast?_cons_cons]; cases hl : (y :: l).getLast? with
          | none => simp at hl
          | some d => rfl
      rw [this]

/-- C103: `lower`, `upper`, `swapcase`, `capitalize` and `title`. -/
theorem case_maps (x : B) :
    text (lower x) = (text x).map toLower ∧ text (upper x) = (text x).map toUpper ∧
    text (swapcase x) = (text x).map (fun c => if Lower c then toUpper c else toLower c) ∧
    text (capitalize x) = (text x).zipIdx.map (fun p => if p.2 = 0 then toUpper p.1 else toLower p.1) ∧
    IsTitle (text x) (text (title x)) := by
  cases x with
  | none => exact ⟨rfl, rfl, rfl, rfl, rfl, fun i c h => by simp [text] at h⟩
  | some s =>
    refine ⟨rfl, rfl, ?_, ?_, title_length s false, fun i c h => ?_⟩
    · unfold swapcase text
      simp only [Option.map_some, Option.getD_some]
      refine List.map_congr_left fun c _ => ?_
      by_cases h1 : Lower c
      · rw [if_pos h1, if_pos (show 97 ≤ c ∧ c ≤ 122 from h1)]; rfl
      · rw [if_neg h1, if_neg (show ¬ (97 ≤ c ∧ c ≤ 122) from h1)]
        by_cases h2 : Upper c
        · rw [if_pos (show 65 ≤ c ∧ c ≤ 90 from h2)]; rfl
        · rw [if_neg (show ¬ (65 ≤ c ∧ c ≤ 90) from h2)]
          exact (if_neg h2).symm
    · cases s with
      | nil => rfl
      | cons c t =>
        simp only [capitalize, text, Option.getD_some, List.zipIdx_cons, List.map_cons, if_pos]
        congr 1
        have : ∀ (t : List Nat) (k : Nat), k ≠ 0 →
            t.map tolower = (t.zipIdx k).map (fun p => if p.2 = 0 then toUpper p.1 else toLower p.1) := by
          intro t
          induction t with
          | nil => intro k _; rfl
          | cons c t ih =>
            intro k hk
            simp only [List.map_cons, List.zipIdx_cons, if_neg hk]
            rw [ih (k + 1) (by omega)]
            rfl
        exact this t 1 (by omega)
    · have := titleGo_get s false i c h
      unfold title text
      simp only [Option.map_some, Option.getD_some]
      rw [this]
      congr 1
      have hiff : after s false i = true ↔ ∃ d, (s.take i).getLast? = some d ∧ (Upper d ∨ Lower d) := by
        unfold after
        cases (s.take i).getLast? with
        | none => simp
        | some d => simp
      by_cases hd : ∃ d, (s.take i).getLast? = some d ∧ (Upper d ∨ Lower d)
      · rw [if_pos hd, if_pos (hiff.2 hd)]
      · rw [if_neg hd, if_neg (fun h => hd (hiff.1 h))]

example : lower (some [65, 98]) = some [97, 98] ∧ upper (some [65, 98, 33]) = some [65, 66, 33] ∧
    swapcase (some [65, 98]) = some [97, 66] ∧ capitalize (some [97, 66, 67]) = some [65, 98, 99] ∧
    title (some [97, 66, 49, 99]) = some [65, 98, 49, 67] := by decide +kernel

end Verif.Bytes
