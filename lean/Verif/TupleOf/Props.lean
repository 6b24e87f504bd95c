import Verif.TupleOf.Model
import Mathlib.Tactic.Common
import Mathlib.Data.Int.Order.Basic
/-
C48: comparison and hashing of TupleOf and ListOf.
-/
namespace Verif.TupleOf
open Spec

variable {α : Type} [LinearOrder α]

/-! ### the order of sequences -/

theorem before_nil_left (b : List α) : Before [] b ↔ b ≠ [] := by
  constructor
  · rintro (⟨x, t, h⟩ | ⟨p, x, y, s, t, h, _⟩) e
    · simp [e] at h
    · simp at h
  · intro h
    cases b with
    | nil => exact absurd rfl h
    | cons x t => exact .inl ⟨x, t, rfl⟩

theorem before_nil_right (a : List α) : ¬ Before a [] := by
  rintro (⟨x, t, h⟩ | ⟨p, x, y, s, t, _, h, _⟩) <;> simp at h

theorem before_cons (a b : α) (as bs : List α) : Before (a :: as) (b :: bs) ↔ a < b ∨ (a = b ∧ Before as bs) := by
  constructor
  · rintro (⟨x, t, h⟩ | ⟨p, x, y, s, t, h1, h2, h3⟩)
    · simp only [List.cons_append, List.cons.injEq] at h
      exact .inr ⟨h.1.symm, .inl ⟨x, t, h.2⟩⟩
    · cases p with
      | nil =>
        simp only [List.nil_append, List.cons.injEq] at h1 h2
        rw [h1.1, h2.1]
        exact .inl h3
      | cons c p =>
        simp only [List.cons_append, List.cons.injEq] at h1 h2
        exact .inr ⟨h1.1.trans h2.1.symm, .inr ⟨p, x, y, s, t, h1.2, h2.2, h3⟩⟩
  · rintro (h | ⟨rfl, ⟨x, t, h⟩ | ⟨p, x, y, s, t, h1, h2, h3⟩⟩)
    · exact .inr ⟨[], a, b, as, bs, rfl, rfl, h⟩
    · exact .inl ⟨x, t, by rw [h]; rfl⟩
    · exact .inr ⟨a :: p, x, y, s, t, by rw [h1]; rfl, by rw [h2]; rfl, h3⟩

theorem before_irrefl (a : List α) : ¬ Before a a := by
  induction a with
  | nil => exact before_nil_right []
  | cons x a ih =>
    rw [before_cons]
    rintro (h | h)
    · exact lt_irrefl _ h
    · exact ih h.2

theorem before_trans (a b c : List α) (h1 : Before a b) (h2 : Before b c) : Before a c := by
  induction a generalizing b c with
  | nil =>
    rw [before_nil_left]
    rintro rfl
    exact before_nil_right _ h2
  | cons x a ih =>
    cases b with
    | nil => exact absurd h1 (before_nil_right _)
    | cons y b =>
      cases c with
      | nil => exact absurd h2 (before_nil_right _)
      | cons z c =>
        rw [before_cons] at *
        rcases h1 with h1 | ⟨rfl, h1⟩ <;> rcases h2 with h2 | ⟨rfl, h2⟩
        · exact .inl (lt_trans h1 h2)
        · exact .inl h1
        · exact .inl h2
        · exact .inr ⟨rfl, ih b c h1 h2⟩

theorem before_total (a b : List α) : Before a b ∨ a = b ∨ Before b a := by
  induction a generalizing b with
  | nil =>
    cases b with
    | nil => exact .inr (.inl rfl)
    | cons y b => exact .inl ((before_nil_left _).mpr (by simp))
  | cons x a ih =>
    cases b with
    | nil => exact .inr (.inr ((before_nil_left _).mpr (by simp)))
    | cons y b =>
      rw [before_cons, before_cons]
      rcases lt_trichotomy x y with h | rfl | h
      · exact .inl (.inl h)
      · rcases ih b with h | rfl | h
        · exact .inl (.inr ⟨rfl, h⟩)
        · exact .inr (.inl rfl)
        · exact .inr (.inr (.inr ⟨rfl, h⟩))
      · exact .inr (.inr (.inl h))

/-- A comparison whose result says which comes first answers all six questions. -/
theorem opResult_holds (op : Op) (r : Int) (a b : List α) (hlt : r < 0 ↔ Before a b) (heq : r = 0 ↔ a = b) :
    opResult op r = true ↔ holds op a b := by
  have hgt : r > 0 ↔ Before b a := by
    constructor
    · intro h
      rcases before_total a b with h1 | h1 | h1
      · have := hlt.mpr h1
        omega
      · have := heq.mpr h1
        omega
      · exact h1
    · intro h
      rcases lt_trichotomy r 0 with h1 | h1 | h1
      · exact absurd (before_trans _ _ _ (hlt.mp h1) h) (before_irrefl a)
      · rw [heq.mp h1] at h
        exact absurd h (before_irrefl _)
      · exact h1
  cases op
  · simp [opResult, holds, heq]
  · simp [opResult, holds, heq]
  · simp [opResult, holds, hlt]
  · simpa [opResult, holds] using hgt
  · simp only [opResult, holds, decide_eq_true_eq, ← hlt, ← heq]
    omega
  · simp only [opResult, holds, decide_eq_true_eq, ← hgt, ← heq]
    omega

/-! ### the loops -/

theorem eqLoop_iff (a b : List α) (h : a.length = b.length) : eqLoop a b = true ↔ a = b := by
  induction a generalizing b with
  | nil =>
    cases b with
    | nil => simp [eqLoop]
    | cons y b => simp at h
  | cons x a ih =>
    cases b with
    | nil => simp at h
    | cons y b =>
      simp only [eqLoop]
      by_cases hxy : x = y
      · simp [hxy, ih b (by simpa using h)]
      · simp [hxy]

theorem ordLoop_iff (op : Op) (hop : op ≠ .eq) (a b : List α) (n : Nat) :
    ordLoop op (n + a.length) (n + b.length) a b = true ↔ holds op a b := by
  induction a generalizing b n with
  | nil =>
    cases b with
    | nil =>
      simp only [ordLoop, List.length_nil, Nat.lt_irrefl, if_false]
      exact opResult_holds op 0 _ _ (by simp [before_nil_right]) (by simp)
    | cons y b =>
      simp only [ordLoop, List.length_nil, List.length_cons]
      rw [if_pos (by omega)]
      exact opResult_holds op (-1) _ _ (by simp [before_nil_left]) (by simp)
  | cons x a ih =>
    cases b with
    | nil =>
      simp only [ordLoop, List.length_nil, List.length_cons]
      rw [if_neg (by omega), if_pos (by omega)]
      exact opResult_holds op 1 _ _ (by simp [before_nil_right]) (by simp)
    | cons y b =>
      simp only [ordLoop]
      by_cases hxy : x = y
      · subst hxy
        simp only [ne_eq, not_true, if_false]
        have := ih b (n + 1)
        simp only [List.length_cons]
        rw [show n + (a.length + 1) = n + 1 + a.length by omega, show n + (b.length + 1) = n + 1 + b.length by omega, this]
        cases op <;> simp [holds, before_cons]
      · simp only [ne_eq, hxy, not_false_eq_true, if_true]
        apply opResult_holds
        · rw [before_cons]
          by_cases h : x < y <;> simp [h, hxy]
        · by_cases h : x < y <;> simp [h, hxy]

/-! ### C48: comparison -/

/-- Two instances at the same place have the same elements. -/
def Coherent (l r : Obj α) : Prop := ∀ a b, l = some a → r = some b → a.addr = b.addr → a.elts = b.elts

/-- C48: in the interpreter every comparison of two tuples (or lists) of a type says how their elements are ordered, whether or not
they share storage and however an empty one is stored. -/
theorem cmp_is_lexicographic (op : Op) (l r : Obj α) (hc : Coherent l r) :
    cmp op l r = true ↔ holds op l.elements r.elements := by
  have h0 : ∀ a b : List α, a = [] → b = [] → (opResult op 0 = true ↔ holds op a b) := by
    rintro _ _ rfl rfl
    exact opResult_holds op 0 _ _ (by simp [before_nil_right]) (by simp)
  have hm : ∀ a b : List α, a = [] → b ≠ [] → (opResult op (-1) = true ↔ holds op a b) := by
    rintro _ b rfl hb
    exact opResult_holds op (-1) _ _ (by simp [before_nil_left, hb]) (by simp [Ne.symm hb])
  have hp : ∀ a b : List α, a ≠ [] → b = [] → (opResult op 1 = true ↔ holds op a b) := by
    rintro a _ ha rfl
    exact opResult_holds op 1 _ _ (by simp [before_nil_right]) (by simp [ha])
  cases l with
  | none =>
    cases r with
    | none => exact h0 _ _ rfl rfl
    | some r =>
      simp only [cmp, Obj.elements, List.length_eq_zero_iff]
      split
      · exact h0 _ _ rfl ‹_›
      · exact hm _ _ rfl ‹_›
  | some l =>
    cases r with
    | none =>
      simp only [cmp, Obj.elements, List.length_eq_zero_iff]
      split
      · exact h0 _ _ ‹_› rfl
      · exact hp _ _ ‹_› rfl
    | some r =>
      simp only [cmp, Obj.elements, List.length_eq_zero_iff]
      have heq : (if l.elts.length ≠ r.elts.length then false else eqLoop l.elts r.elts) = true ↔ l.elts = r.elts := by
        by_cases hl : l.elts.length = r.elts.length
        · rw [if_neg (by simpa using hl)]
          exact eqLoop_iff _ _ hl
        · rw [if_pos hl]
          constructor
          · intro h
            cases h
          · intro h
            rw [h] at hl
            exact absurd rfl hl
      split
      · rename_i h
        exact h0 _ _ h.1 h.2
      · rename_i h1
        split
        · rename_i h2
          exact hm _ _ h2 (fun h3 => h1 ⟨h2, h3⟩)
        · rename_i h2
          split
          · rename_i h3
            exact hp _ _ h2 h3
          · split
            · rename_i h4
              have := hc l r rfl rfl h4
              rw [this]
              exact opResult_holds op 0 _ _ (by simp [before_irrefl]) (by simp)
            · split
              · rename_i h5
                subst h5
                rw [Bool.not_eq_true', ← Bool.not_eq_true, heq]
                rfl
              · split
                · rename_i h6
                  subst h6
                  exact heq
                · rename_i h6
                  have := ordLoop_iff op h6 l.elts r.elts 0
                  simpa using this

theorem pyLoop_iff (op : Op) (a b : List α) : opResult op (pyLoop op a b) = true ↔ holds op a b := by
  induction a generalizing b with
  | nil =>
    cases b with
    | nil => exact opResult_holds op 0 _ _ (by simp [before_nil_right]) (by simp)
    | cons y b => exact opResult_holds op (-1) _ _ (by simp [before_nil_left]) (by simp)
  | cons x a ih =>
    cases b with
    | nil => exact opResult_holds op 1 _ _ (by simp [before_nil_right]) (by simp)
    | cons y b =>
      simp only [pyLoop]
      by_cases hxy : x = y
      · subst hxy
        simp only [if_true]
        rw [ih b]
        cases op <;> simp [holds, before_cons]
      · rw [if_neg hxy]
        by_cases hop : op = .eq ∨ op = .ne
        · rw [if_pos hop]
          rcases hop with rfl | rfl <;> simp [opResult, holds, hxy]
        · rw [if_neg hop]
          apply opResult_holds
          · rw [before_cons]
            by_cases h : x < y <;> simp [h, hxy]
          · by_cases h : x < y <;> simp [h, hxy]

/-- C48: comparing with a Python tuple (for ListOf: a Python list) gives the same order. -/
theorem compareToPython_is_lexicographic (op : Op) (self : Obj α) (other : List α) :
    compareToPython op self other = true ↔ holds op self.elements other := pyLoop_iff op _ _

theorem cOrdLoop_spec (a b : List α) :
    match cOrdLoop a b with
    | some true => Before a b
    | some false => Before b a
    | none => (a.length < b.length ↔ Before a b) ∧ (a.length = b.length ↔ a = b) := by
  induction a generalizing b with
  | nil => cases b <;> simp [cOrdLoop, before_nil_left]
  | cons x a ih =>
    cases b with
    | nil => simp [cOrdLoop, before_nil_right]
    | cons y b =>
      rcases lt_trichotomy x y with h | rfl | h
      · simp only [cOrdLoop, gt_iff_lt, not_lt_of_gt h, if_false, h, if_true, before_cons]
        exact .inl trivial
      · have := ih b
        simp only [cOrdLoop, gt_iff_lt, lt_irrefl, if_false]
        cases hc : cOrdLoop a b with
        | none =>
          rw [hc] at this
          simpa [before_cons] using this
        | some v =>
          rw [hc] at this
          cases v <;> simpa [before_cons] using this
      · simp only [cOrdLoop, gt_iff_lt, h, if_true, before_cons]
        exact .inl trivial

theorem cLt_iff (a b : List α) : cLt a b = true ↔ Before a b := by
  have h := cOrdLoop_spec a b
  unfold cLt
  cases hc : cOrdLoop a b with
  | none =>
    rw [hc] at h
    simpa using h.1
  | some v =>
    rw [hc] at h
    cases v
    · simp only [Bool.false_eq_true, false_iff]
      exact fun h2 => before_irrefl a (before_trans _ _ _ h2 h)
    · simpa using h

theorem cLe_iff (a b : List α) : cLe a b = true ↔ Before a b ∨ a = b := by
  have h := cOrdLoop_spec a b
  unfold cLe
  cases hc : cOrdLoop a b with
  | none =>
    rw [hc] at h
    simp only [decide_eq_true_eq]
    rw [← h.1, ← h.2]
    omega
  | some v =>
    rw [hc] at h
    cases v
    · simp only [Bool.false_eq_true, false_iff]
      rintro (h2 | rfl)
      · exact before_irrefl a (before_trans _ _ _ h2 h)
      · exact before_irrefl _ h
    · simp only [true_iff]
      exact .inl h

/-- C48: compiled comparisons give the same order. -/
theorem compiled_is_lexicographic (op : Op) (a b : List α) : cCmp op a b = true ↔ holds op a b := by
  have heq : cEq a b = true ↔ a = b := by
    unfold cEq
    by_cases hl : a.length = b.length
    · rw [if_neg (by simpa using hl)]
      exact eqLoop_iff _ _ hl
    · rw [if_pos hl]
      constructor
      · intro h
        cases h
      · intro h
        rw [h] at hl
        exact absurd rfl hl
  have hlt := cLt_iff a b
  have hle := cLe_iff a b
  cases op with
  | eq => exact heq
  | ne => simp [cCmp, holds, ← heq]
  | lt => exact hlt
  | le => exact hle
  | gt =>
    simp only [cCmp, holds, Bool.not_eq_true', ← Bool.not_eq_true, hle]
    constructor
    · intro h
      rcases before_total a b with h1 | h1 | h1
      · exact absurd (.inl h1) h
      · exact absurd (.inr h1) h
      · exact h1
    · rintro h (h1 | rfl)
      · exact before_irrefl _ (before_trans _ _ _ h h1)
      · exact before_irrefl _ h
  | ge =>
    simp only [cCmp, holds, Bool.not_eq_true', ← Bool.not_eq_true, hlt]
    constructor
    · intro h
      rcases before_total a b with h1 | h1 | h1
      · exact absurd h1 h
      · exact .inr h1
      · exact .inl h1
    · rintro (h | rfl) h1
      · exact before_irrefl _ (before_trans _ _ _ h h1)
      · exact before_irrefl _ h1

/-- C48: compiled code and the interpreter agree. -/
theorem compiled_agrees (op : Op) (l r : Obj α) (hc : Coherent l r) : cCmp op l.elements r.elements = cmp op l r := by
  rw [Bool.eq_iff_iff, compiled_is_lexicographic, cmp_is_lexicographic op l r hc]

/-- C48: `<` is a strict total order that goes with `==`. -/
theorem order_laws (a b c : List α) :
    ¬ holds .lt a a ∧ (holds .lt a b → holds .lt b c → holds .lt a c) ∧ (holds .lt a b ∨ holds .eq a b ∨ holds .gt a b) ∧
    (holds .le a b ↔ ¬ holds .gt a b) ∧ (holds .ge a b ↔ ¬ holds .lt a b) ∧ (holds .ne a b ↔ ¬ holds .eq a b) := by
  have key : ∀ a b : List α, (Before a b ∨ a = b) ↔ ¬ Before b a := by
    intro a b
    constructor
    · rintro (h | rfl) h1
      · exact before_irrefl _ (before_trans _ _ _ h h1)
      · exact before_irrefl _ h1
    · intro h
      rcases before_total a b with h1 | h1 | h1
      · exact .inl h1
      · exact .inr h1
      · exact absurd h1 h
  exact ⟨before_irrefl a, before_trans a b c, before_total a b, key a b, (or_congr Iff.rfl eq_comm).trans (key b a), Iff.rfl⟩

/-- Two tuples with a common prefix, in different storage. -/
example : Coherent (some ⟨1, -1, [1, 2]⟩ : Obj Nat) (some ⟨2, -1, [1, 3, 0]⟩) ∧
    cmp .lt (some ⟨1, -1, [1, 2]⟩ : Obj Nat) (some ⟨2, -1, [1, 3, 0]⟩) = true ∧
    cmp .ge (some ⟨1, -1, [1, 2]⟩ : Obj Nat) (some ⟨2, -1, [1, 3, 0]⟩) = false ∧
    cmp .eq (none : Obj Nat) (some ⟨2, -1, []⟩) = true := by
  refine ⟨?_, by decide, by decide, by decide⟩
  intro a b ha hb hab
  cases ha
  cases hb
  exact absurd hab (by decide)

/-! ### C48: hashing -/

section
variable {β : Type} (h : β → Int)

/-- The cache holds nothing or the hash of the elements. -/
def CacheOk : Obj β → Prop
  | none => True
  | some l => l.cache = -1 ∨ l.cache = hashCompute h l.elts

theorem made_cacheOk (o : Obj β) (hm : Made o) : CacheOk h o := by
  cases hm with
  | interpreter a vs =>
    split
    · trivial
    · exact .inl rfl
  | comprehension a vs => exact .inl rfl

/-- The instance after any sequence of hash calls, interpreted (`false`) or compiled (`true`; one that faults does not return). -/
def hashes : List Bool → Obj β → Obj β
  | [], o => o
  | false :: t, o => hashes t (hash h o).2
  | true :: t, o =>
    match cHash h o with
    | none => hashes t o
    | some r => hashes t r.2

theorem hash_keeps (o : Obj β) (ho : CacheOk h o) : CacheOk h (hash h o).2 := by
  cases o with
  | none => exact ho
  | some l =>
    simp only [hash]
    split
    · exact .inr rfl
    · exact ho

theorem cHash_keeps (o : Obj β) (ho : CacheOk h o) : ∀ r, cHash h o = some r → CacheOk h r.2 := by
  intro r hr
  cases o with
  | none => cases hr
  | some l =>
    simp only [cHash] at hr
    split at hr <;> cases hr
    · exact ho
    · exact .inr rfl

theorem hashes_ok (cs : List Bool) : ∀ (o : Obj β), CacheOk h o → CacheOk h (hashes h cs o) := by
  induction cs with
  | nil => exact fun o ho => ho
  | cons c cs ih =>
    intro o ho
    cases c with
    | false => exact ih _ (hash_keeps h o ho)
    | true =>
      simp only [hashes]
      cases hc : cHash h o with
      | none => exact ih _ ho
      | some r => exact ih _ (cHash_keeps h o ho r hc)

theorem hashes_elements (cs : List Bool) : ∀ (o : Obj β), (hashes h cs o).elements = o.elements ∧ ((hashes h cs o).isNone ↔ o.isNone) := by
  induction cs with
  | nil => exact fun o => ⟨rfl, Iff.rfl⟩
  | cons c cs ih =>
    intro o
    cases o with
    | none =>
      cases c
      · exact ih none
      · exact ih none
    | some l =>
      cases c with
      | false =>
        simp only [hashes, hash]
        split
        · exact ih _
        · exact ih _
      | true =>
        simp only [hashes, cHash]
        split
        · rename_i h1
          split at h1 <;> cases h1
        · rename_i r h1
          split at h1 <;> cases h1
          · exact ih _
          · exact ih _

/-- The hash of a stored tuple is a function of its elements. -/
theorem hash_value (l : Layout β) (ho : CacheOk h (some l)) : (hash h (some l)).1 = hashCompute h l.elts := by
  simp only [hash]
  split
  · rfl
  · exact ho.resolve_left ‹_›

theorem cHash_value (l : Layout β) (ho : CacheOk h (some l)) : ∃ o, cHash h (some l) = some (hashCompute h l.elts, o) := by
  simp only [cHash]
  split
  · rw [ho.resolve_left ‹_›]
    exact ⟨_, rfl⟩
  · exact ⟨_, rfl⟩

/-- C48, part: tuples with equal elements have equal hashes, whatever hash calls were made on either before, if both or neither are
stored as the null pointer.  Missing: an empty tuple made by a compiled comprehension is not null (`empty_tuples_hash_differently`). -/
theorem equal_hash_partial (o o' : Obj β) (hm : Made o) (hm' : Made o') (he : o.elements = o'.elements) (hn : o.isNone ↔ o'.isNone)
    (cs cs' : List Bool) : (hash h (hashes h cs o)).1 = (hash h (hashes h cs' o')).1 := by
  have h1 := hashes_ok h cs o (made_cacheOk h o hm)
  have h1' := hashes_ok h cs' o' (made_cacheOk h o' hm')
  have h2 := hashes_elements h cs o
  have h2' := hashes_elements h cs' o'
  generalize hashes h cs o = a at h1 h2 ⊢
  generalize hashes h cs' o' = a' at h1' h2' ⊢
  have hnn : a.isNone ↔ a'.isNone := h2.2.trans (hn.trans h2'.2.symm)
  have hee : a.elements = a'.elements := h2.1.trans (he.trans h2'.1.symm)
  cases a with
  | none =>
    cases a' with
    | none => rfl
    | some l' => simp at hnn
  | some l =>
    cases a' with
    | none => simp at hnn
    | some l' =>
      rw [hash_value h l h1, hash_value h l' h1']
      exact congrArg _ hee

/-- Tuples that are not empty always qualify. -/
theorem nonempty_not_null (o : Obj β) (hne : o.elements ≠ []) : o.isNone = false := by
  cases o with
  | none => exact absurd rfl hne
  | some l => rfl

/-- C48, part: compiled hash and interpreter's hash agree on every tuple that is not null.  Missing: `compiled_hash_of_empty_faults`. -/
theorem compiled_hash_partial (o : Obj β) (hm : Made o) (hn : o.isNone = false) (cs : List Bool) :
    ∃ o', cHash h (hashes h cs o) = some ((hash h (hashes h cs o)).1, o') := by
  have h1 := hashes_ok h cs o (made_cacheOk h o hm)
  have h2 := (hashes_elements h cs o).2
  generalize hashes h cs o = a at h1 h2 ⊢
  cases a with
  | none => simp [hn] at h2
  | some l =>
    rw [hash_value h l h1]
    exact cHash_value h l h1

theorem hashCompute_ne (elts : List β) : hashCompute h elts ≠ -1 := by
  unfold hashCompute
  simp only
  split
  · decide
  · assumption

/-- C48: no tuple hashes to -1, which CPython reserves for errors. -/
theorem hash_never_error (o : Obj β) (hm : Made o) (cs : List Bool) : (hash h (hashes h cs o)).1 ≠ -1 := by
  have h1 := hashes_ok h cs o (made_cacheOk h o hm)
  generalize hashes h cs o = a at h1 ⊢
  cases a with
  | none => simp [hash]
  | some l =>
    rw [hash_value h l h1]
    exact hashCompute_ne h l.elts

/-- C48, with the cache: hashing twice gives the same. -/
theorem hash_stable (o : Obj β) (hm : Made o) (cs cs' : List Bool) : (hash h (hashes h cs o)).1 = (hash h (hashes h cs' o)).1 :=
  equal_hash_partial h o o hm hm rfl Iff.rfl cs cs'

end

/-- The hash of an int in the examples. -/
def h0 : Int → Int := fun x => x

/-- Two tuples `(3, 5)`, one hashed before; the hypotheses of `equal_hash_partial` hold and the hash is not trivial. -/
example : Made (some ⟨1, -1, [3, 5]⟩ : Obj Int) ∧ Made (some ⟨2, -1, [3, 5]⟩ : Obj Int) ∧
    (hash h0 (hashes h0 [false, true] (some ⟨1, -1, [3, 5]⟩))).1 = 3000012 := by
  exact ⟨.comprehension 1 [3, 5], .interpreter 2 [3, 5], by decide +kernel⟩

/-- The order matters. -/
example : hashCompute h0 [3, 5] ≠ hashCompute h0 [5, 3] := by decide +kernel

/-- The disagreement: `TupleOf(int)()` and compiled `TupleOf(int)([x for x in ()])` are equal and hash differently. -/
theorem empty_tuples_hash_differently : ∃ o o' : Obj Int, Made o ∧ Made o' ∧ cmp .eq o o' = true ∧ (hash h0 o).1 ≠ (hash h0 o').1 :=
  ⟨none, some ⟨1, -1, []⟩, .interpreter 0 [], .comprehension 1 [], by decide, by decide⟩

/-- Compiled `hash(TupleOf(int)())` loads the cache through a null pointer. -/
theorem compiled_hash_of_empty_faults : cHash h0 none = none := rfl

/-- Lists that are equal after a change can have different hashes: hash `[1]`, append 2, compare with a fresh `[1, 2]`. -/
theorem list_hash_goes_stale : ∃ l l' : Layout Int, ∃ m, (hash h0 (some l)).2 = some m ∧
    cmp .eq (some (appendKeepsCache m 2)) (some l') = true ∧ (hash h0 (some (appendKeepsCache m 2))).1 ≠ (hash h0 (some l')).1 :=
  ⟨⟨1, -1, [1]⟩, ⟨2, -1, [1, 2]⟩, ⟨1, 1, [1]⟩, by rfl, by decide +kernel, by decide +kernel⟩

end Verif.TupleOf
