import Verif.Flow.Good
import Mathlib.Tactic.Common
import Mathlib.Tactic.Tauto
/-
The merge of types and of variable states loses no value.
-/
namespace Verif.Flow

variable {n : Nat}

/-- a value of an alternative that is not a bool literal -/
def safeAtom (H : Hier) (v : Val) (a : Atom) : Bool := inAtom H v a && !boolConst a

theorem safeIn_eq (H : Hier) (v : Val) (t : Ty) : safeIn H v t = t.any (safeAtom H v) := rfl

theorem inTy_of_safeIn {H : Hier} {v : Val} {t : Ty} (h : safeIn H v t = true) :
    inTy H v t = true := by
  rw [safeIn_eq, List.any_eq_true] at h
  obtain ⟨a, ha, hv⟩ := h
  rw [inTy, List.any_eq_true]
  exact ⟨a, ha, by simp only [safeAtom, Bool.and_eq_true] at hv; exact hv.1⟩

theorem safeIn_of_inTy {H : Hier} {v : Val} {t : Ty} (hc : t.all (fun a => !boolConst a) = true)
    (h : inTy H v t = true) : safeIn H v t = true := by
  rw [inTy, List.any_eq_true] at h
  obtain ⟨a, ha, hv⟩ := h
  rw [safeIn_eq, List.any_eq_true]
  rw [List.all_eq_true] at hc
  exact ⟨a, ha, by simp only [safeAtom, hv, hc a ha, Bool.and_self]⟩

theorem subsumes_safe {H : Hier} {v : Val} {big small : Atom} (hs : typeSubsumes H big small = true)
    (h : safeAtom H v small = true) : safeAtom H v big = true := by
  simp only [typeSubsumes, Bool.or_eq_true, beq_iff_eq] at hs
  rcases hs with ((hs | hs) | hs) | hs
  · rw [hs]; exact h
  · rw [hs]; simp [safeAtom, inAtom, boolConst]
  · cases small <;> cases big <;> simp_all
    rename_i c d
    simp only [safeAtom, inAtom, boolConst] at h ⊢
    cases v <;> simp_all
    exact H.trans _ _ _ h hs
  · cases small <;> simp at hs
    rename_i k
    simp only [safeAtom, inAtom, Bool.and_eq_true, beq_iff_eq, Bool.not_eq_true'] at h
    obtain ⟨hv, hk⟩ := h
    subst hv
    simp only [pyIsInst, Bool.or_eq_true, Bool.and_eq_true, beq_iff_eq] at hs
    have h1 : inAtom H (.prim k) big = true := by
      rcases hs with hs | ⟨_, hs⟩
      · exact hs
      · cases k <;> simp_all [inAtom, boolConst]
    have h2 : boolConst big = false := by
      cases big <;> simp_all [boolConst, inAtom]
    simp [safeAtom, h1, h2]

theorem addScan_new {H : Hier} {v : Val} {t : Atom} (ht : safeAtom H v t = true) :
    ∀ l : List Atom, (addScan H t l).2 = true ∨ (addScan H t l).1.any (safeAtom H v) = true
  | [] => .inl rfl
  | a :: rest => by
    simp only [addScan]
    split
    · rename_i h
      exact .inr (by simp [subsumes_safe h ht])
    · split
      · exact addScan_new ht rest
      · rcases addScan_new ht rest with h | h
        · exact .inl h
        · exact .inr (by simp [h])

theorem addScan_old {H : Hier} {v : Val} (t : Atom) :
    ∀ l : List Atom, l.any (safeAtom H v) = true →
      (addScan H t l).1.any (safeAtom H v) = true ∨
        ((addScan H t l).2 = true ∧ safeAtom H v t = true)
  | [], h => by simp at h
  | a :: rest, h => by
    simp only [addScan]
    split
    · exact .inl h
    · simp only [List.any_cons, Bool.or_eq_true] at h
      split
      · rename_i hs
        rcases h with h | h
        · have ht := subsumes_safe hs h
          rcases addScan_new ht rest with h' | h'
          · exact .inr ⟨h', ht⟩
          · exact .inl h'
        · exact addScan_old t rest h
      · rcases h with h | h
        · exact .inl (by simp [h])
        · rcases addScan_old t rest h with h' | h'
          · exact .inl (by simp [h'])
          · exact .inr h'

theorem addType_safe {H : Hier} {v : Val} {t : Atom} {l : List Atom}
    (h : l.any (safeAtom H v) = true ∨ safeAtom H v t = true) :
    (addType H l t).any (safeAtom H v) = true := by
  simp only [addType]
  rcases h with h | h
  · rcases addScan_old t l h with h' | ⟨h', h''⟩
    · split <;> simp [h']
    · rw [if_pos h']; simp [h'']
  · rcases addScan_new h l with h' | h'
    · rw [if_pos h']; simp [h]
    · split <;> simp [h']

theorem foldl_safe {H : Hier} {v : Val} :
    ∀ (l acc : List Atom), acc.any (safeAtom H v) = true ∨ l.any (safeAtom H v) = true →
      (l.foldl (addType H) acc).any (safeAtom H v) = true
  | [], acc, h => by
    rcases h with h | h
    · exact h
    · simp at h
  | a :: rest, acc, h => by
    simp only [List.foldl_cons]
    refine foldl_safe rest _ ?_
    rcases h with h | h
    · exact .inl (addType_safe (.inl h))
    · simp only [List.any_cons, Bool.or_eq_true] at h
      rcases h with h | h
      · exact .inl (addType_safe (.inr h))
      · exact .inr h

theorem mem_insertType (a t : Atom) : ∀ l : List Atom, a ∈ insertType t l ↔ a = t ∨ a ∈ l
  | [] => by simp [insertType]
  | b :: rest => by
    simp only [insertType]
    split
    · simp
    · simp only [List.mem_cons, mem_insertType a t rest]
      tauto

theorem mem_sortTypes (a : Atom) : ∀ l : List Atom, a ∈ sortTypes l ↔ a ∈ l
  | [] => by simp [sortTypes]
  | b :: rest => by simp [sortTypes, mem_insertType, mem_sortTypes a rest]

theorem any_sortTypes (p : Atom → Bool) (l : List Atom) : (sortTypes l).any p = l.any p := by
  rw [Bool.eq_iff_iff, List.any_eq_true, List.any_eq_true]
  simp only [mem_sortTypes]

theorem mergeAll_safe {H : Hier} {v : Val} {ts : List Ty} {t : Ty} (ht : t ∈ ts)
    (h : safeIn H v t = true) : safeIn H v (mergeAll H ts) = true := by
  have h1 : (ts.flatten.foldl (addType H) []).any (safeAtom H v) = true := by
    refine foldl_safe _ _ (.inr ?_)
    rw [safeIn_eq, List.any_eq_true] at h
    obtain ⟨a, ha, hv⟩ := h
    rw [List.any_eq_true]
    exact ⟨a, List.mem_flatten.mpr ⟨t, ht, ha⟩, hv⟩
  simp only [mergeAll]
  split
  · exact h1
  · rw [safeIn_eq, any_sortTypes]; exact h1

theorem mergeTypes_safe {H : Hier} {v : Val} {ts : List (Option Ty)} {t : Ty} (ht : some t ∈ ts)
    (h : safeIn H v t = true) : ∃ r, mergeTypes H ts = some r ∧ safeIn H v r = true := by
  have hm : t ∈ ts.filterMap id := List.mem_filterMap.mpr ⟨some t, ht, rfl⟩
  unfold mergeTypes
  generalize ts.filterMap id = l at hm
  match l, hm with
  | [], hm => simp at hm
  | [a], hm =>
    simp only [List.mem_singleton] at hm
    exact ⟨a, rfl, hm ▸ h⟩
  | [a, b], hm =>
    simp only
    split
    · rename_i hab
      simp only [List.mem_cons, List.not_mem_nil, or_false] at hm
      rcases hm with hm | hm
      · exact ⟨a, rfl, hm ▸ h⟩
      · exact ⟨a, rfl, by rw [hab, ← hm]; exact h⟩
    · exact ⟨_, rfl, mergeAll_safe hm h⟩
  | a :: b :: c :: rest, hm => exact ⟨_, rfl, mergeAll_safe hm h⟩

/-! ### Nothing is added -/

theorem mem_addScan {H : Hier} {t a : Atom} : ∀ l : List Atom, a ∈ (addScan H t l).1 → a ∈ l
  | [], h => by simp [addScan] at h
  | b :: rest, h => by
    simp only [addScan] at h
    split at h
    · exact h
    · split at h
      · exact List.mem_cons_of_mem _ (mem_addScan rest h)
      · simp only [List.mem_cons] at h ⊢
        rcases h with h | h
        · exact .inl h
        · exact .inr (mem_addScan rest h)

theorem mem_addType {H : Hier} {t a : Atom} {l : List Atom} (h : a ∈ addType H l t) :
    a = t ∨ a ∈ l := by
  simp only [addType] at h
  split at h
  · simp only [List.mem_append, List.mem_singleton] at h
    rcases h with h | h
    · exact .inr (mem_addScan l h)
    · exact .inl h
  · exact .inr (mem_addScan l h)

theorem mem_foldl_addType {H : Hier} {a : Atom} :
    ∀ (l acc : List Atom), a ∈ l.foldl (addType H) acc → a ∈ acc ∨ a ∈ l
  | [], _, h => .inl h
  | b :: rest, acc, h => by
    simp only [List.foldl_cons] at h
    rcases mem_foldl_addType rest _ h with h | h
    · rcases mem_addType h with h | h
      · exact .inr (by simp [h])
      · exact .inl h
    · exact .inr (by simp [h])

theorem mem_mergeAll {H : Hier} {a : Atom} {ts : List Ty} (h : a ∈ mergeAll H ts) :
    ∃ t ∈ ts, a ∈ t := by
  simp only [mergeAll] at h
  have h1 : a ∈ ts.flatten.foldl (addType H) [] := by
    split at h
    · exact h
    · exact (mem_sortTypes a _).mp h
  rcases mem_foldl_addType _ _ h1 with h2 | h2
  · simp at h2
  · exact List.mem_flatten.mp h2

theorem mem_mergeTypes {H : Hier} {a : Atom} {ts : List (Option Ty)} {r : Ty}
    (h : mergeTypes H ts = some r) (ha : a ∈ r) : ∃ t, some t ∈ ts ∧ a ∈ t := by
  have hm : ∀ t, t ∈ ts.filterMap id → some t ∈ ts := by
    intro t ht
    obtain ⟨o, ho, hot⟩ := List.mem_filterMap.mp ht
    simp only [id] at hot
    exact hot ▸ ho
  unfold mergeTypes at h
  generalize ts.filterMap id = l at hm h
  match l, hm, h with
  | [], _, h => simp at h
  | [b], hm, h =>
    simp only [Option.some.injEq] at h
    exact ⟨b, hm b (by simp), h ▸ ha⟩
  | [b, c], hm, h =>
    simp only at h
    split at h
    · simp only [Option.some.injEq] at h
      exact ⟨b, hm b (by simp), h ▸ ha⟩
    · simp only [Option.some.injEq] at h
      obtain ⟨t, ht, hat⟩ := mem_mergeAll (h ▸ ha)
      exact ⟨t, hm t ht, hat⟩
  | b :: c :: d :: rest, hm, h =>
    simp only [Option.some.injEq] at h
    obtain ⟨t, ht, hat⟩ := mem_mergeAll (h ▸ ha)
    exact ⟨t, hm t ht, hat⟩

end Verif.Flow
