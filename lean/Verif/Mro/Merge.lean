import Verif.Mro.Spec
import Mathlib.Data.List.Nodup
/-
What C3's merge guarantees: it keeps all orders, and it fails only if no order does.
-/
namespace Verif.Mro

theorem dropHead_cons (h y : Nat) (t : List Nat) :
    dropHead h (y :: t) = if y = h then t else y :: t := rfl

theorem mem_dropHead {h x : Nat} {l : List Nat} : x ∈ dropHead h l → x ∈ l := by
  cases l with
  | nil => exact id
  | cons y t =>
    rw [dropHead_cons]
    split
    · exact List.mem_cons_of_mem _
    · exact id

theorem not_mem_dropHead {h : Nat} {l : List Nat} (hg : h ∉ l.tail) : h ∉ dropHead h l := by
  cases l with
  | nil => simp [dropHead]
  | cons y t =>
    rw [dropHead_cons]
    split
    · exact hg
    · rename_i hne
      intro hm
      rcases List.mem_cons.mp hm with e | e
      · exact hne e.symm
      · exact hg e

theorem mem_dropHead_of_ne {h x : Nat} {l : List Nat} (hx : x ∈ l) (hne : x ≠ h) :
    x ∈ dropHead h l := by
  cases l with
  | nil => exact hx
  | cons y t =>
    rw [dropHead_cons]
    split
    · rename_i e
      rcases List.mem_cons.mp hx with e' | e'
      · exact absurd (e'.trans e) hne
      · exact e'
    · exact hx

theorem sublist_cons_of_dropHead {h : Nat} {l L : List Nat} (hs : (dropHead h l).Sublist L) :
    l.Sublist (h :: L) := by
  cases l with
  | nil => exact List.nil_sublist _
  | cons y t =>
    rw [dropHead_cons] at hs
    split at hs
    · rename_i e
      rw [e]
      exact hs.cons_cons h
    · exact hs.cons h

/-- A merge keeps the order of each of the lists, and holds each of their classes once. -/
theorem Merge.linearizes {ls : List (List Nat)} {out : List Nat} (hm : Merge ls out) :
    Linearizes ls out := by
  induction hm with
  | @done ls h =>
    refine ⟨List.nodup_nil, ?_, ?_⟩
    · intro c
      constructor
      · intro hc; cases hc
      · rintro ⟨l, hl, hc⟩
        rw [h l hl] at hc; cases hc
    · intro l hl
      rw [h l hl]
  | @take ls pre h t post out hls _ hg _ ih =>
    refine ⟨?_, ?_, ?_⟩
    · refine List.nodup_cons.mpr ⟨?_, ih.nodup⟩
      intro hmem
      obtain ⟨l', hl', hc⟩ := (ih.mem h).mp hmem
      obtain ⟨l, hl, rfl⟩ := List.mem_map.mp hl'
      exact not_mem_dropHead (hg l hl) hc
    · intro c
      constructor
      · intro hc
        rcases List.mem_cons.mp hc with e | e
        · exact ⟨h :: t, by rw [hls]; simp, by rw [e]; simp⟩
        · obtain ⟨l', hl', hc'⟩ := (ih.mem c).mp e
          obtain ⟨l, hl, rfl⟩ := List.mem_map.mp hl'
          exact ⟨l, hl, mem_dropHead hc'⟩
      · rintro ⟨l, hl, hc⟩
        by_cases e : c = h
        · rw [e]; simp
        · exact List.mem_cons_of_mem _
            ((ih.mem c).mpr ⟨dropHead h l, List.mem_map.mpr ⟨l, hl, rfl⟩, mem_dropHead_of_ne hc e⟩)
    · intro l hl
      exact sublist_cons_of_dropHead (ih.keeps _ (List.mem_map.mpr ⟨l, hl, rfl⟩))

/-- The first head that is good, if there is one. -/
theorem exists_first {ls : List (List Nat)} (P : Nat → Prop)
    (hex : ∃ h t, h :: t ∈ ls ∧ P h) :
    ∃ pre h t post, ls = pre ++ (h :: t) :: post ∧ (∀ x u, x :: u ∈ pre → ¬ P x) ∧ P h := by
  induction ls with
  | nil => obtain ⟨h, t, hm, _⟩ := hex; cases hm
  | cons l rest ih =>
    by_cases hl : ∃ h t, l = h :: t ∧ P h
    · obtain ⟨h, t, rfl, hp⟩ := hl
      exact ⟨[], h, t, rest, rfl, by simp, hp⟩
    · obtain ⟨h, t, hm, hp⟩ := hex
      rcases List.mem_cons.mp hm with e | e
      · exact absurd ⟨h, t, e.symm, hp⟩ hl
      · obtain ⟨pre, h', t', post, e1, e2, e3⟩ := ih ⟨h, t, e, hp⟩
        refine ⟨l :: pre, h', t', post, by rw [e1]; rfl, ?_, e3⟩
        intro x u hxu
        rcases List.mem_cons.mp hxu with e | e
        · intro hpx
          exact hl ⟨x, u, e.symm, hpx⟩
        · exact e2 x u e

/-- The first element of a linearization is a good head. -/
theorem Linearizes.goodHead {ls : List (List Nat)} {c : Nat} {L : List Nat}
    (hL : Linearizes ls (c :: L)) : GoodHead c ls := by
  intro l hl hc
  have hk := hL.keeps l hl
  have hn : c ∉ L := (List.nodup_cons.mp hL.nodup).1
  cases l with
  | nil => cases hc
  | cons x t =>
    have ht : c ∈ t := hc
    cases hk with
    | cons _ h => exact hn (h.subset (List.mem_cons_of_mem _ ht))
    | cons_cons _ h => exact hn (h.subset ht)

theorem filter_ne_of_not_mem {h : Nat} {l : List Nat} (hn : h ∉ l) :
    l.filter (fun y => y != h) = l := by
  rw [List.filter_eq_self]
  intro a ha
  simp only [bne_iff_ne, ne_eq]
  intro e; rw [e] at ha; exact hn ha

theorem length_dropHead_le (h : Nat) (l : List Nat) : (dropHead h l).length ≤ l.length := by
  cases l with
  | nil => exact Nat.le_refl _
  | cons y t =>
    rw [dropHead_cons]
    split
    · simp
    · exact Nat.le_refl _

theorem sum_dropHead_le (h : Nat) (ls : List (List Nat)) :
    ((ls.map (dropHead h)).map List.length).sum ≤ (ls.map List.length).sum := by
  induction ls with
  | nil => exact Nat.le_refl _
  | cons l rest ih =>
    have := length_dropHead_le h l
    simp only [List.map_cons, List.sum_cons]
    omega

theorem sum_dropHead_lt {h : Nat} {t : List Nat} {ls : List (List Nat)} (hm : h :: t ∈ ls) :
    ((ls.map (dropHead h)).map List.length).sum < (ls.map List.length).sum := by
  induction ls with
  | nil => cases hm
  | cons l rest ih =>
    simp only [List.map_cons, List.sum_cons]
    rcases List.mem_cons.mp hm with e | e
    · have h2 := sum_dropHead_le h rest
      have : (dropHead h l).length < l.length := by
        rw [← e]; simp [dropHead]
      omega
    · have := ih e
      have := length_dropHead_le h l
      omega

/-- What is left of a linearization when a good head is taken. -/
theorem Linearizes.drop {ls : List (List Nat)} {L : List Nat} {h : Nat}
    (hL : Linearizes ls L) (hg : GoodHead h ls) :
    Linearizes (ls.map (dropHead h)) (L.filter (fun y => y != h)) := by
  refine ⟨hL.nodup.filter _, ?_, ?_⟩
  · intro c
    constructor
    · intro hc
      obtain ⟨h1, h2⟩ := List.mem_filter.mp hc
      obtain ⟨l, hl, hcl⟩ := (hL.mem c).mp h1
      exact ⟨_, List.mem_map.mpr ⟨l, hl, rfl⟩, mem_dropHead_of_ne hcl (by simpa using h2)⟩
    · rintro ⟨l', hl', hc⟩
      obtain ⟨l, hl, rfl⟩ := List.mem_map.mp hl'
      refine List.mem_filter.mpr ⟨(hL.mem c).mpr ⟨l, hl, mem_dropHead hc⟩, ?_⟩
      simp only [bne_iff_ne, ne_eq]
      intro e; rw [e] at hc
      exact not_mem_dropHead (hg l hl) hc
  · intro l' hl'
    obtain ⟨l, hl, rfl⟩ := List.mem_map.mp hl'
    rw [← filter_ne_of_not_mem (not_mem_dropHead (hg l hl))]
    refine List.Sublist.filter _ (List.Sublist.trans ?_ (hL.keeps l hl))
    cases l with
    | nil => exact List.Sublist.refl _
    | cons y t =>
      rw [dropHead_cons]
      split
      · exact List.sublist_cons_self _ _
      · exact List.Sublist.refl _

/-- If any order keeps the order of each list, the merge does not get stuck. -/
theorem Linearizes.merge : ∀ {ls : List (List Nat)} {L : List Nat}, Linearizes ls L →
    ∃ out, Merge ls out := by
  intro ls
  induction hn : (ls.map List.length).sum using Nat.strongRecOn generalizing ls with
  | _ n ih =>
    intro L hL
    cases L with
    | nil =>
      refine ⟨[], Merge.done ?_⟩
      intro l hl
      exact List.sublist_nil.mp (hL.keeps l hl)
    | cons c L' =>
      have hg := hL.goodHead
      obtain ⟨l, hl, hcl⟩ := (hL.mem c).mp (List.mem_cons_self ..)
      have : ∃ h t, h :: t ∈ ls ∧ GoodHead h ls := by
        cases l with
        | nil => cases hcl
        | cons x t =>
          rcases List.mem_cons.mp hcl with e | e
          · exact ⟨c, t, by rw [e]; exact hl, hg⟩
          · exact absurd e (hg _ hl)
      obtain ⟨pre, h, t, post, e1, e2, e3⟩ := exists_first (fun h => GoodHead h ls) this
      have hmem : h :: t ∈ ls := by rw [e1]; simp
      obtain ⟨out, ho⟩ := ih _ (by rw [← hn]; exact sum_dropHead_lt hmem) rfl (hL.drop e3)
      exact ⟨h :: out, Merge.take e1 e2 e3 ho⟩

/-- The first good head is one class, whichever way the lists are split. -/
theorem first_unique {P : Nat → Prop} : ∀ {pre h t post pre' h' t' post'},
    pre ++ (h :: t) :: post = pre' ++ (h' :: t') :: post' →
    (∀ x u, x :: u ∈ pre → ¬ P x) → P h → (∀ x u, x :: u ∈ pre' → ¬ P x) → P h' → h = h' := by
  intro pre
  induction pre with
  | nil =>
    intro h t post pre' h' t' post' e _ hp n' _
    cases pre' with
    | nil => simp only [List.nil_append, List.cons.injEq] at e; exact e.1.1
    | cons l pre' =>
      simp only [List.nil_append, List.cons_append, List.cons.injEq] at e
      exact absurd hp (n' h t (by rw [e.1]; simp))
  | cons l pre ih =>
    intro h t post pre' h' t' post' e n hp n' hp'
    cases pre' with
    | nil =>
      simp only [List.nil_append, List.cons_append, List.cons.injEq] at e
      exact absurd hp' (n h' t' (by rw [e.1]; simp))
    | cons l' pre' =>
      simp only [List.cons_append, List.cons.injEq] at e
      exact ih e.2 (fun x u hx => n x u (List.mem_cons_of_mem _ hx)) hp
        (fun x u hx => n' x u (List.mem_cons_of_mem _ hx)) hp'

/-- C3 is a function. -/
theorem Merge.unique {ls : List (List Nat)} {a : List Nat} (ha : Merge ls a) :
    ∀ {b}, Merge ls b → a = b := by
  induction ha with
  | done h =>
    intro b hb
    cases hb with
    | done _ => rfl
    | @take _ pre x t post out e _ _ _ =>
      have := h (x :: t) (by rw [e]; simp)
      cases this
  | @take ls pre h t post out e n hg _ ih =>
    intro b hb
    cases hb with
    | done hd =>
      have := hd (h :: t) (by rw [e]; simp)
      cases this
    | @take _ pre' h' t' post' out' e' n' hg' hm' =>
      have hh : h = h' := first_unique (P := fun h => GoodHead h ls) (e.symm.trans e') n hg n' hg'
      subst hh
      rw [ih hm']

end Verif.Mro
