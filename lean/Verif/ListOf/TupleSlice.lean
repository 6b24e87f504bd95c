import Verif.ListOf.CompiledRefine
import Verif.Common
/-
Slices of a `TupleOf` in compiled code. They run the code of lists, but an empty tuple is a null pointer.
-/
namespace Verif.ListOf
open Spec

variable {α : Type}

/-- A `TupleOf` as compiled code sees it: null if it is empty (tuple_of_wrapper.py:135-150, 811-816), otherwise the same layout
as a list. A comprehension may make an empty one that is not null. -/
abbrev T (α : Type) := Option (L α)

/-- tuple_of_wrapper.py:520-530: the length, zero for a null pointer. -/
def tLen : T α → Nat
  | none => 0
  | some s => s.count

/-- tuple_of_wrapper.py:250-258 and 281-289: how many elements the slice gets. -/
def cSliceCount (n : Nat) (start stop step : Int) : Int :=
  let start := if start < 0 then start + n else start
  let stop := if stop < 0 then stop + n else stop
  if step > 0 then max 0 (Int.fdiv (w64 (min (n : Int) stop - max 0 start + (step - 1))) step)
  else max 0 (Int.fdiv (w64 (min ((n : Int) - 1) start - max (-1) stop + (-step - 1))) (-step))

/-- tuple_of_wrapper.py:260-274 and 291-304 for a tuple: `PreReservedTupleOrList(...)(0)` is null, and `setSizeUnsafe`
(lines 553-565) and `pointerUnsafe` (lines 588-599) go through the pointer without looking. -/
def tSliceCore (t : T α) (start stop step : Int) : Except Fault (L α) :=
  if cSliceCount (tLen t) start stop step = 0 then .error .nullPointer
  else
    match t with
    | none => .error .nullPointer
    | some s => cSliceCore s start stop step

/-- tuple_of_wrapper.py:238-304 `list_or_tupleof_of_slice` for a tuple. -/
def tSlice (t : T α) (start stop step : Option Int) : Except Fault (Except PyErr (Ret α (L α))) :=
  if step.getD 1 = 0 then .ok (.error .valueError)
  else
    match tSliceCore t (cStart (tLen t) start (step.getD 1)) (cStop (tLen t) stop (step.getD 1)) (step.getD 1) with
    | .error f => .error f
    | .ok l => .ok (.ok (.new l))

/-- The tuple has these elements. -/
def TRep (t : T α) (xs : List α) : Prop :=
  match t with
  | none => xs = []
  | some s => Rep s xs

theorem TRep.len {t : T α} {xs : List α} (h : TRep t xs) : tLen t = xs.length := by
  cases t with
  | none => rw [show xs = [] from h]; rfl
  | some s => exact Rep.count h

theorem cSliceCore_count {s : L α} {start stop step : Int} {l : L α} (h : cSliceCore s start stop step = .ok l) :
    (l.count : Int) = cSliceCount s.count start stop step := by
  simp only [cSliceCore] at h
  simp only [cSliceCount]
  by_cases hs : step > 0
  · rw [if_pos hs] at h ⊢
    split at h
    · cases h
    · split at h
      · cases h
      · cases h
        exact Int.toNat_of_nonneg (by omega)
  · rw [if_neg hs] at h ⊢
    split at h
    · cases h
    · split at h
      · cases h
      · cases h
        exact Int.toNat_of_nonneg (by omega)

theorem cSlice_none_rep : Rep (⟨0, 0, []⟩ : L α) [] := ⟨rfl, by simp, by simp, rfl⟩

/-- Compiled slices of tuples are those of Python if they have elements; every slice that should be empty is a null pointer
dereference. -/
theorem compiled_tuple_slice_partial {t : T α} {xs : List α} (ht : TRep t xs) (a b c : Option Int) (ha : Modest a) (hb : Modest b)
    (hc : Modest c) (hx : xs.length < 2 ^ 30) :
    (∀ e, slice xs a b c = .error e → tSlice t a b c = .ok (.error e)) ∧
    (∀ ys, slice xs a b c = .ok ys → ys ≠ [] → ∃ l, tSlice t a b c = .ok (.ok (.new l)) ∧ Rep l ys) ∧
    (slice xs a b c = .ok [] → tSlice t a b c = .error .nullPointer) := by
  have core : ∀ {s : L α} (_ : Rep s xs) (h0 : c.getD 1 ≠ 0), ∃ ys l, slice xs a b c = .ok ys ∧
      cSliceCore s (cStart s.count a (c.getD 1)) (cStop s.count b (c.getD 1)) (c.getD 1) = .ok l ∧ Rep l ys := by
    intro s hs h0
    rcases cSlice_ok hs a b c ha hb hc hx with ⟨e, h, -⟩ | ⟨ys, l, h, h', hr⟩
    · rw [slice, if_neg h0] at h; cases h
    · refine ⟨ys, l, h, ?_, hr⟩
      rw [cSlice, if_neg h0] at h'
      cases hcc : cSliceCore s (cStart s.count a (c.getD 1)) (cStop s.count b (c.getD 1)) (c.getD 1) with
      | error f => rw [hcc] at h'; cases h'
      | ok l' => rw [hcc] at h'; cases h'; rfl
  by_cases h0 : c.getD 1 = 0
  · rw [slice, if_pos h0, tSlice, if_pos h0]
    refine ⟨fun e he => by cases he; rfl, fun ys h => (nomatch h), fun h => (nomatch h)⟩
  have hsl : ∃ s : L α, Rep s xs ∧ tLen t = s.count ∧ (t = none ∨ t = some s) := by
    cases t with
    | none => exact ⟨⟨0, 0, []⟩, by rw [show xs = [] from ht]; exact cSlice_none_rep, rfl, .inl rfl⟩
    | some s => exact ⟨s, ht, rfl, .inr rfl⟩
  obtain ⟨s, hs, hl, hts⟩ := hsl
  obtain ⟨ys, l, h1, h2, h3⟩ := core hs h0
  have hcount := cSliceCore_count h2
  rw [h3.count] at hcount
  rw [h1, tSlice, if_neg h0, hl]
  refine ⟨fun e he => (nomatch he), fun ys' he hne => ?_, fun he => ?_⟩
  · cases he
    have hpos : ys.length ≠ 0 := fun h => hne (List.length_eq_zero_iff.1 h)
    rcases hts with rfl | rfl
    · exfalso
      have hxs : xs = [] := ht
      rw [slice, if_neg h0, hxs] at h1
      simp only [Except.ok.injEq] at h1
      apply hne
      rw [← h1]
      simp
    · refine ⟨l, ?_, h3⟩
      rw [tSliceCore, hl, if_neg (by omega)]
      simp only [h2]
  · cases he
    simp only [tSliceCore, hl, ← hcount, List.length_nil, Int.natCast_zero, if_true]

/-- The empty tuple has no slice that does not crash. -/
theorem compiled_slice_of_empty_tuple_faults (a b c : Option Int) (ha : Modest a) (hb : Modest b) (hc : Modest c)
    (h0 : c.getD 1 ≠ 0) : tSlice (none : T α) a b c = .error .nullPointer := by
  refine (compiled_tuple_slice_partial (t := (none : T α)) (xs := []) rfl a b c ha hb hc (by simp)).2.2 ?_
  rw [slice, if_neg h0]; simp

example : TRep (some (⟨3, 4, [some 7, some 8, some 9, none]⟩ : L Nat)) [7, 8, 9] := ⟨rfl, by decide, by decide, rfl⟩
example : tSlice (some (⟨3, 4, [some 7, some 8, some 9, none]⟩ : L Nat)) (some (-2)) none none =
    .ok (.ok (.new ⟨2, 2, [some 8, some 9]⟩)) := by rfl
example : tSlice (some (⟨3, 4, [some 7, some 8, some 9, none]⟩ : L Nat)) (some 2) (some 1) none = .error .nullPointer := by rfl

end Verif.ListOf
