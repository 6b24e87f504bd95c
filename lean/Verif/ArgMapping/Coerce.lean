import Verif.ArgMapping.Final
/-
Conversion of the bound arguments.
-/
namespace Verif.ArgMapping
open Spec
variable {V T : Type}

section
variable {coerce : T → Level → V → Option V} {couldBe : T → Level → V → Bool}

theorem coerceAll_mapM (l : Level) (t : T) : ∀ vs : List V, coerceAll coerce l t vs = vs.mapM (coerce t l)
  | [] => rfl
  | v :: vs => by
    rw [List.mapM_cons]
    simp only [coerceAll, coerceAll_mapM l t vs]
    cases coerce t l v <;> cases List.mapM (coerce t l) vs <;> rfl

theorem coerceKw_mapM (l : Level) (t : T) : ∀ vs : List (String × V),
    coerceKw coerce l t vs = vs.mapM fun e => (coerce t l e.2).map fun w => (e.1, w)
  | [] => rfl
  | (n, v) :: vs => by
    rw [List.mapM_cons]
    simp only [coerceKw, coerceKw_mapM l t vs]
    cases coerce t l v <;> cases List.mapM (fun e => (coerce t l e.2).map fun w => (e.1, w)) vs <;> rfl

/-- Converting the declared parameters' values. -/
def convN (coerce : T → Level → V → Option V) (l : Level) : List (Param V T) → List V → Option (List V)
  | [], _ => some []
  | _, [] => some []
  | a :: N, v :: vs =>
    match (match a.filter with | none => some v | some t => coerce t l v) with
    | none => none
    | some w => match convN coerce l N vs with
      | none => none
      | some ws => some (w :: ws)

theorem convN_cons (l : Level) (a : Param V T) (N : List (Param V T)) (v : V) (vs : List V) :
    convN coerce l (a :: N) (v :: vs) =
      match (match a.filter with | none => some v | some t => coerce t l v) with
      | none => none
      | some w => match convN coerce l N vs with
        | none => none
        | some ws => some (w :: ws) := rfl

theorem convN_len (l : Level) : ∀ (N : List (Param V T)) (vs ws : List V), vs.length = N.length →
    convN coerce l N vs = some ws → ws.length = N.length
  | [], _, ws, _, h => by simp [convN] at h; subst h; rfl
  | a :: N, [], ws, hl, _ => by simp at hl
  | a :: N, v :: vs, ws, hl, h => by
    rw [convN_cons] at h
    cases hc : (match a.filter with | none => some v | some t => coerce t l v) with
    | none => rw [hc] at h; simp at h
    | some w =>
      rw [hc] at h
      cases hr : convN coerce l N vs with
      | none => rw [hr] at h; simp at h
      | some ws' =>
        rw [hr] at h
        simp at h
        subst h
        simp [convN_len l N vs ws' (by simpa using hl) hr]

/-- The quick check never fails internally, and when it rules the overload out some conversion fails. -/
theorem definitelyDoesnt_spec (l : Level) (hcb : ∀ t v w, coerce t l v = some w → couldBe t l v = true)
    (S K : Option (Param V T)) (hS : ∀ a ∈ S, a.isStar = true ∧ a.isKw = false)
    (hK : ∀ a ∈ K, a.isKw = true ∧ a.isStar = false) (s : St V T) : ∀ (N : List (Param V T)) (pre : List (Option V))
    (vals : List V) (ys : List (Option V)), (∀ a ∈ N, a.isKw = false ∧ a.isStar = false) →
    s.single = pre ++ vals.map some ++ ys → vals.length = N.length →
    definitelyDoesnt couldBe l s (N ++ (S.toList ++ K.toList)) pre.length = .ok false ∨
    (definitelyDoesnt couldBe l s (N ++ (S.toList ++ K.toList)) pre.length = .ok true ∧ convN coerce l N vals = none) := by
  intro N
  induction N with
  | nil =>
    intro pre vals ys _ _ _
    left
    cases S with
    | none =>
      cases K with
      | none => rfl
      | some b => simp [definitelyDoesnt, Param.isNormal, hK b rfl]
    | some a =>
      cases K with
      | none => simp [definitelyDoesnt, Param.isNormal, hS a rfl]
      | some b => simp [definitelyDoesnt, Param.isNormal, hS a rfl, hK b rfl]
  | cons a N ih =>
    intro pre vals ys hN hs hl
    match vals, hl with
    | v :: vals, hl =>
      have ha := hN a (by simp)
      have hget : s.single[pre.length]? = some (some v) := by rw [hs]; simp
      have := ih (pre ++ [some v]) vals ys (fun b hb => hN b (by simp [hb])) (by rw [hs]; simp) (by simpa using hl)
      simp only [List.length_append, List.length_singleton] at this
      have hn : a.isNormal = true := by simp [Param.isNormal, ha]
      rw [List.cons_append]
      unfold definitelyDoesnt
      rw [hn, hget, convN_cons]
      cases hf : a.filter with
      | none =>
        simp only
        rcases this with h | ⟨h, h'⟩
        · exact Or.inl h
        · exact Or.inr ⟨h, by rw [h']⟩
      | some t =>
        simp only
        cases hcb' : couldBe t l v with
        | false =>
          right
          simp only [Bool.not_false, ↓reduceIte, true_and]
          cases hc : coerce t l v with
          | none => rfl
          | some w => rw [hcb t v w hc] at hcb'; simp at hcb'
        | true =>
          simp only [Bool.not_true, Bool.false_eq_true, ↓reduceIte]
          rcases this with h | ⟨h, h'⟩
          · exact Or.inl h
          · right
            refine ⟨h, ?_⟩
            rw [h']
            cases coerce t l v <;> rfl

/-- Converting what the tail parameters received. -/
def convTail (coerce : T → Level → V → Option V) (l : Level) (S K : Option (Param V T)) (star : List V)
    (kw : List (String × V)) : Option (List V × List (String × V)) :=
  match (match S.bind (·.filter) with | none => some star | some t => coerceAll coerce l t star),
        (match K.bind (·.filter) with | none => some kw | some t => coerceKw coerce l t kw) with
  | some a, some b => some (a, b)
  | _, _ => none

theorem applyCoercion_tail (l : Level)
    (S K : Option (Param V T)) (hS : ∀ a ∈ S, a.isStar = true ∧ a.isKw = false)
    (hK : ∀ a ∈ K, a.isKw = true ∧ a.isStar = false) (s : St V T) (k : Nat) (hv : s.valid = true) :
    match convTail coerce l S K s.star s.kw with
    | some (a, b) => applyCoercion coerce l (S.toList ++ K.toList) k s = { s with star := a, kw := b }
    | none => (applyCoercion coerce l (S.toList ++ K.toList) k s).valid = false := by
  have goK : ∀ (s : St V T) (k : Nat), s.valid = true →
      match (match K.bind (·.filter) with | none => some s.kw | some t => coerceKw coerce l t s.kw) with
      | some b => applyCoercion coerce l K.toList k s = { s with kw := b }
      | none => (applyCoercion coerce l K.toList k s).valid = false := by
    intro s k hv
    cases K with
    | none => simp [applyCoercion]
    | some b =>
      have hb := hK b rfl
      simp only [Option.bind_some, Option.toList_some]
      unfold applyCoercion
      cases hf : b.filter with
      | none => simp [applyCoercion]
      | some t =>
        simp only [Param.isNormal, hb, Bool.not_true, Bool.false_and, Bool.false_eq_true, ↓reduceIte]
        cases hc : coerceKw coerce l t s.kw with
        | none => simp
        | some ws => simp [applyCoercion]
  unfold convTail
  cases S with
  | none =>
    have h := goK s k hv
    simp only [Option.bind_none, Option.toList_none, List.nil_append]
    cases hc : (match K.bind (·.filter) with | none => some s.kw | some t => coerceKw coerce l t s.kw) with
    | none => rw [hc] at h; exact h
    | some b => rw [hc] at h; exact h
  | some a =>
    have ha := hS a rfl
    simp only [Option.bind_some, Option.toList_some, List.cons_append, List.nil_append]
    unfold applyCoercion
    cases hf : a.filter with
    | none =>
      simp only
      have h := goK s (k + 1) hv
      cases hc : (match K.bind (·.filter) with | none => some s.kw | some t => coerceKw coerce l t s.kw) with
      | none => rw [hc] at h; exact h
      | some b => rw [hc] at h; exact h
    | some t =>
      simp only [Param.isNormal, ha, Bool.not_false, Bool.not_true, Bool.and_false, Bool.false_eq_true, ↓reduceIte]
      cases hc : coerceAll coerce l t s.star with
      | none => simp
      | some ws =>
        simp only
        have h := goK { s with star := ws } (k + 1) hv
        cases hc : (match K.bind (·.filter) with | none => some s.kw | some t => coerceKw coerce l t s.kw) with
        | none => simp only [hc] at h ⊢; exact h
        | some b => simp only [hc] at h ⊢; exact h

theorem applyCoercion_spec (l : Level)
    (S K : Option (Param V T)) (hS : ∀ a ∈ S, a.isStar = true ∧ a.isKw = false)
    (hK : ∀ a ∈ K, a.isKw = true ∧ a.isStar = false) : ∀ (N : List (Param V T)) (pre : List (Option V))
    (vals : List V) (ys : List (Option V)) (s : St V T), s.valid = true →
    (∀ a ∈ N, a.isKw = false ∧ a.isStar = false) →
    s.single = pre ++ vals.map some ++ ys → vals.length = N.length →
    match convN coerce l N vals, convTail coerce l S K s.star s.kw with
    | some ws, some (a, b) => applyCoercion coerce l (N ++ (S.toList ++ K.toList)) pre.length s
        = { s with single := pre ++ ws.map some ++ ys, star := a, kw := b }
    | _, _ => (applyCoercion coerce l (N ++ (S.toList ++ K.toList)) pre.length s).valid = false := by
  intro N
  induction N with
  | nil =>
    intro pre vals ys s hv _ hs hl
    have : vals = [] := List.length_eq_zero_iff.1 (by simpa using hl)
    subst this
    have h := applyCoercion_tail (coerce := coerce) l S K hS hK s pre.length hv
    simp only [convN, List.nil_append]
    cases hc : convTail coerce l S K s.star s.kw with
    | none => rw [hc] at h; exact h
    | some ab =>
      rw [hc] at h
      simp only at h ⊢
      rw [h, ← hs]
  | cons a N ih =>
    intro pre vals ys s hv hN hs hl
    match vals, hl with
    | v :: vals, hl =>
      have ha := hN a (by simp)
      have hget : s.single[pre.length]? = some (some v) := by rw [hs]; simp
      have hn : a.isNormal = true := by simp [Param.isNormal, ha]
      rw [List.cons_append]
      rw [convN_cons]
      unfold applyCoercion
      cases hf : a.filter with
      | none =>
        simp only
        have := ih (pre ++ [some v]) vals ys s hv (fun b hb => hN b (by simp [hb])) (by rw [hs]; simp)
          (by simpa using hl)
        simp only [List.length_append, List.length_singleton] at this
        cases hr : convN coerce l N vals with
        | none => rw [hr] at this; exact this
        | some ws =>
          rw [hr] at this
          cases hc : convTail coerce l S K s.star s.kw with
          | none => rw [hc] at this; exact this
          | some ab =>
            rw [hc] at this
            simp only at this ⊢
            rw [this]
            simp
      | some t =>
        simp only [hn, ↓reduceIte, hget]
        cases hcv : coerce t l v with
        | none => simp
        | some w =>
          simp only
          have := ih (pre ++ [some w]) vals ys { s with single := s.single.set pre.length (some w) } hv
            (fun b hb => hN b (by simp [hb])) (by simp only [hs]; simp) (by simpa using hl)
          simp only [List.length_append, List.length_singleton] at this
          cases hr : convN coerce l N vals with
          | none => rw [hr] at this; exact this
          | some ws =>
            rw [hr] at this
            cases hc : convTail coerce l S K s.star s.kw with
            | none => rw [hc] at this; exact this
            | some ab =>
              rw [hc] at this
              simp only at this ⊢
              rw [this]
              simp

/-- The converted arguments, reassembled. -/
def convOut (S K : Option (Param V T)) : Option (List V) → Option (List V × List (String × V)) → Option (List (Arg V))
  | some ws, some (a, b) => some (ws.map .one ++ (if S.isSome then [Arg.star a] else [])
      ++ (if K.isSome then [Arg.kw b] else []))
  | _, _ => none

/-- Converting parameter by parameter, as the specification says it. -/
theorem convert_spec (l : Level) (S K : Option (Param V T)) (star : List V) (kw : List (String × V)) :
    ∀ (N : List (Param V T)) (vals : List V), vals.length = N.length →
    ((N.map (·.filter) ++ S.toList.map (·.filter) ++ K.toList.map (·.filter)).zip (vals.map Arg.one
      ++ (if S.isSome then [Arg.star star] else []) ++ (if K.isSome then [Arg.kw kw] else []))).mapM
        (fun p => convertArg coerce l p.1 p.2) =
    convOut S K (convN coerce l N vals) (convTail coerce l S K star kw) := by
  intro N
  induction N with
  | nil =>
    intro vals hl
    have : vals = [] := List.length_eq_zero_iff.1 (by simpa using hl)
    subst this
    unfold convTail
    simp only [convN, List.map_nil, List.nil_append]
    cases S with
    | none =>
      cases K with
      | none => rfl
      | some b =>
        simp only [Option.toList_none, List.map_nil, List.nil_append, Option.toList_some, List.map_cons,
          Option.isSome_none, Bool.false_eq_true, ↓reduceIte, Option.isSome_some, List.zip_cons_cons, List.zip_nil_left,
          Option.bind_none, Option.bind_some]
        cases hf : b.filter with
        | none => rfl
        | some t =>
          simp only [List.mapM_cons, List.mapM_nil, convertArg, coerceKw_mapM]
          cases List.mapM (fun e => (coerce t l e.2).map fun w => (e.1, w)) kw <;> rfl
    | some a =>
      cases K with
      | none =>
        simp only [Option.toList_none, List.map_nil, Option.toList_some, List.map_cons, List.append_nil,
          Option.isSome_none, Bool.false_eq_true, ↓reduceIte, Option.isSome_some, List.zip_cons_cons, List.zip_nil_left,
          Option.bind_none, Option.bind_some]
        cases hf : a.filter with
        | none => rfl
        | some t =>
          simp only [List.mapM_cons, List.mapM_nil, convertArg, coerceAll_mapM]
          cases List.mapM (coerce t l) star <;> rfl
      | some b =>
        simp only [Option.toList_some, List.map_cons, List.map_nil, List.cons_append, List.nil_append,
          ↓reduceIte, Option.isSome_some, List.zip_cons_cons, List.zip_nil_left, Option.bind_some]
        cases hf : a.filter with
        | none =>
          cases hg : b.filter with
          | none => rfl
          | some t =>
            simp only [List.mapM_cons, List.mapM_nil, convertArg, coerceKw_mapM]
            cases List.mapM (fun e => (coerce t l e.2).map fun w => (e.1, w)) kw <;> rfl
        | some t =>
          cases hg : b.filter with
          | none =>
            simp only [List.mapM_cons, List.mapM_nil, convertArg, coerceAll_mapM]
            cases List.mapM (coerce t l) star <;> rfl
          | some t' =>
            simp only [List.mapM_cons, List.mapM_nil, convertArg, coerceAll_mapM, coerceKw_mapM]
            cases List.mapM (coerce t l) star <;>
              cases List.mapM (fun e => (coerce t' l e.2).map fun w => (e.1, w)) kw <;> rfl
  | cons a N ih =>
    intro vals hl
    match vals, hl with
    | v :: vals, hl =>
      have ih' := ih vals (by simpa using hl)
      simp only [List.map_cons, List.cons_append, List.zip_cons_cons, List.mapM_cons]
      rw [ih', convN_cons]
      cases hf : a.filter with
      | none =>
        simp only [convertArg]
        cases hr : convN coerce l N vals with
        | none => rfl
        | some ws => cases hc : convTail coerce l S K star kw <;> rfl
      | some t =>
        simp only [convertArg]
        cases hcv : coerce t l v with
        | none => rfl
        | some w =>
          cases hr : convN coerce l N vals with
          | none => rfl
          | some ws => cases hc : convTail coerce l S K star kw <;> rfl

end
end Verif.ArgMapping
