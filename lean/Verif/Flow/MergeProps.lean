import Verif.Flow.Merge
/-
C49: the merge of what is known about the variables on two paths is sound.
-/
namespace Verif.Flow.MergeProps

open Verif.Flow

variable {n : Nat}

/-- Specification. A state allows an assignment of values to variables when a bound variable has a
type that contains its value, and a variable that is known to be initialised is bound. -/
def Allows (H : Hier) (A : VS n) (ρ : Fin n → Option Val) : Prop :=
  ∀ x, (∀ v, ρ x = some v → ∃ t, A.types x = some (some t) ∧ inTy H v t = true) ∧
    (A.types x ≠ none → A.maybe x = false → ρ x ≠ none)

/-- No type of the state has `Value(True)` or `Value(False)` among its alternatives. -/
def NoBoolLiterals (A : VS n) : Prop :=
  ∀ x t, A.types x = some (some t) → ∀ b, Atom.const (.bool b) ∉ t

theorem no_lits {A : VS n} (h : NoBoolLiterals A) {x : Fin n} {t : Ty} (ht : A.types x = some (some t)) :
    t.all (fun a => !boolConst a) = true := by
  rw [List.all_eq_true]
  intro a ha
  cases a with
  | const c =>
    cases c with
    | bool b => exact absurd ha (h x t ht b)
    | _ => rfl
  | _ => rfl

theorem allows_merge2 {H : Hier} {L R : VS n} (hl : NoBoolLiterals L) (hr : NoBoolLiterals R)
    {ρ : Fin n → Option Val} (h : Allows H L ρ ∨ Allows H R ρ) : Allows H (L.merge2 H R) ρ := by
  intro x
  constructor
  · intro v hv
    have key : ∃ t, (L.types x = some (some t) ∨ R.types x = some (some t)) ∧ safeIn H v t = true := by
      rcases h with h | h
      · obtain ⟨t, h1, h2⟩ := (h x).1 v hv
        exact ⟨t, .inl h1, safeIn_of_inTy (no_lits hl h1) h2⟩
      · obtain ⟨t, h1, h2⟩ := (h x).1 v hv
        exact ⟨t, .inr h1, safeIn_of_inTy (no_lits hr h1) h2⟩
    obtain ⟨t, h1, h2⟩ := key
    have hm : some t ∈ [L.current x, R.current x] := by
      rcases h1 with h1 | h1
      · simp [VS.current, h1]
      · simp [VS.current, h1]
    obtain ⟨r, h3, h4⟩ := mergeTypes_safe hm h2
    refine ⟨r, ?_, inTy_of_safeIn h4⟩
    simp only [VS.merge2]
    rw [if_pos, h3]
    rcases h1 with h1 | h1 <;> simp [h1]
  · intro h1 h2
    simp only [VS.merge2] at h1 h2
    have hc : ((L.types x).isSome || (R.types x).isSome || L.maybe x || R.maybe x) = true := by
      by_contra hc
      rw [if_neg hc] at h1
      exact h1 rfl
    rw [if_pos hc] at h2
    simp only [Bool.or_eq_false_iff, Bool.not_eq_false', Bool.and_eq_true] at h2
    obtain ⟨⟨h3, h4⟩, h5, h6⟩ := h2
    rcases h with h | h
    · exact (h x).2 (by intro hn; rw [hn] at h5; simp at h5) h3
    · exact (h x).2 (by intro hn; rw [hn] at h6; simp at h6) h4

/-- C49, soundness: whatever values the variables can have on one of the two paths, the merge of the
two states allows. A path that is not reached (`None`) has no values. What is missing: types with a
boolean literal, for which it is false (`merge_drops_true`). -/
theorem merge_allows_partial {H : Hier} {L R : Option (VS n)} (hl : ∀ A, L = some A → NoBoolLiterals A)
    (hr : ∀ A, R = some A → NoBoolLiterals A) {ρ : Fin n → Option Val}
    (h : (∃ A, L = some A ∧ Allows H A ρ) ∨ (∃ A, R = some A ∧ Allows H A ρ)) :
    Allows H (VS.becomeMerge H L R) ρ := by
  cases L with
  | none =>
    cases R with
    | none => rcases h with ⟨A, h, _⟩ | ⟨A, h, _⟩ <;> simp at h
    | some R =>
      rcases h with ⟨A, h, _⟩ | ⟨A, h, h'⟩
      · simp at h
      · simp only [Option.some.injEq] at h; subst h; exact h'
  | some L =>
    cases R with
    | none =>
      rcases h with ⟨A, h, h'⟩ | ⟨A, h, _⟩
      · simp only [Option.some.injEq] at h; subst h; exact h'
      · simp at h
    | some R =>
      refine allows_merge2 (hl L rfl) (hr R rfl) ?_
      rcases h with ⟨A, h, h'⟩ | ⟨A, h, h'⟩ <;> simp only [Option.some.injEq] at h <;> subst h
      · exact .inl h'
      · exact .inr h'

/-- C49, initialisation: after the merge a variable is known to be initialised exactly when it is on
both paths. -/
theorem merge_initialised_iff (H : Hier) (L R : VS n) (x : Fin n) :
    (VS.becomeMerge H (some L) (some R)).defInit x = true ↔ L.defInit x = true ∧ R.defInit x = true := by
  simp only [VS.becomeMerge, VS.merge2, VS.defInit]
  cases L.types x <;> cases R.types x <;> cases L.maybe x <;> cases R.maybe x <;> simp

/-- C49, precision: every alternative of a merged type is an alternative of the type on one of the
paths. -/
theorem merge_adds_nothing {H : Hier} {L R : VS n} {x : Fin n} {t : Ty} {a : Atom}
    (h : (VS.becomeMerge H (some L) (some R)).types x = some (some t)) (ha : a ∈ t) :
    ∃ t', (L.types x = some (some t') ∨ R.types x = some (some t')) ∧ a ∈ t' := by
  simp only [VS.becomeMerge, VS.merge2] at h
  split at h
  · simp only [Option.some.injEq] at h
    obtain ⟨t', h1, h2⟩ := mem_mergeTypes h ha
    refine ⟨t', ?_, h2⟩
    simp only [List.mem_cons, List.not_mem_nil, or_false, VS.current] at h1
    rcases h1 with h1 | h1
    · exact .inl (Option.join_eq_some_iff.mp h1.symm)
    · exact .inr (Option.join_eq_some_iff.mp h1.symm)
  · simp at h

/-- The merge introduces no boolean literal, so the merge of many states
(function_stack_state.py:65-76) is sound too. -/
theorem merge_noLits {H : Hier} {L R : VS n} (hl : NoBoolLiterals L) (hr : NoBoolLiterals R) :
    NoBoolLiterals (VS.becomeMerge H (some L) (some R)) := by
  intro x t ht b hb
  obtain ⟨t', h1 | h1, h2⟩ := merge_adds_nothing ht hb
  · exact hl x t' h1 b h2
  · exact hr x t' h1 b h2

/-- C49 for any number of paths: `becomeMergeOf` allows whatever one of them allows. -/
theorem mergeOf_allows_partial {H : Hier} {ρ : Fin n → Option Val} :
    ∀ (others : List (VS n)) (A : VS n), NoBoolLiterals A → (∀ B ∈ others, NoBoolLiterals B) →
      (Allows H A ρ ∨ ∃ B ∈ others, Allows H B ρ) → Allows H (VS.becomeMergeOf H A others) ρ
  | [], A, _, _, h => by
    rcases h with h | ⟨B, hB, _⟩
    · exact h
    · simp at hB
  | B :: rest, A, hA, hO, h => by
    simp only [VS.becomeMergeOf]
    have hB := hO B (by simp)
    have e : VS.becomeMerge H (some A) (some B) = A.merge2 H B := rfl
    refine mergeOf_allows_partial rest _ (merge_noLits hA hB) (fun C hC => hO C (by simp [hC])) ?_
    rcases h with h | ⟨C, hC, h⟩
    · exact .inl (allows_merge2 hA hB (.inl h))
    · rcases List.mem_cons.mp hC with rfl | hC
      · exact .inl (allows_merge2 hA hB (.inr h))
      · exact .inr ⟨C, hC, h⟩

/-! ### Cases -/

/-- two unrelated classes -/
def flat : Hier where
  sub c d := c == d
  refl := by simp
  trans := by intro a b c h1 h2; simp_all

/-- `x: int` and `y` not assigned -/
def pathA : VS 2 where
  types x := if x = 0 then some (some [.int]) else none
  maybe _ := false

/-- `x: str` and `y: OneOf(None, float)` -/
def pathB : VS 2 where
  types x := if x = 0 then some (some [.str]) else some (some [.none, .float])
  maybe _ := false

example : NoBoolLiterals pathA ∧ NoBoolLiterals pathB := by
  constructor <;> intro x t ht b hb
  · revert ht; simp only [pathA]; split
    · intro h; simp only [Option.some.injEq] at h; subst h; simp at hb
    · intro h; simp at h
  · revert ht; simp only [pathB]; split <;> intro h <;> simp only [Option.some.injEq] at h <;> subst h <;>
      simp at hb

example : (VS.becomeMerge flat (some pathA) (some pathB)).types 0 = some (some [.int, .str]) ∧
    (VS.becomeMerge flat (some pathA) (some pathB)).types 1 = some (some [.none, .float]) ∧
    (VS.becomeMerge flat (some pathA) (some pathB)).defInit 0 = true ∧
    (VS.becomeMerge flat (some pathA) (some pathB)).defInit 1 = false := by decide

/-- `x: Value(True)` on one path, `x: int` on the other. -/
def litPath : VS 1 where
  types _ := some (some [.const (.bool true)])
  maybe _ := false

def intPath : VS 1 where
  types _ := some (some [.int])
  maybe _ := false

/-- The property is false for boolean literals: `isinstance(True, int)` holds in Python, so
merge_type_wrappers.py:81-82 takes `Value(True)` to be covered by `int`, and the merge of the two
types is `int`, which has no representation of `True`. -/
theorem merge_drops_true :
    Allows flat litPath (fun _ => some (.prim (.bool true))) ∧
    ¬ Allows flat (VS.becomeMerge flat (some litPath) (some intPath))
        (fun _ => some (.prim (.bool true))) := by
  constructor
  · intro x
    exact ⟨fun v hv => by
      simp only [Option.some.injEq] at hv; subst hv
      exact ⟨[.const (.bool true)], rfl, by decide⟩, fun _ _ => by simp⟩
  · intro h
    obtain ⟨t, h1, h2⟩ := (h 0).1 _ rfl
    have h3 : (VS.becomeMerge flat (some litPath) (some intPath)).types 0 = some (some [.int]) := by
      decide
    rw [h3] at h1
    simp only [Option.some.injEq] at h1
    subst h1
    revert h2
    decide

end Verif.Flow.MergeProps
