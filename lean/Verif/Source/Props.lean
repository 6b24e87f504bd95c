import Verif.Source.Order
/-
C116: the source that is found for a function, and for every function inside it, is its source.
-/
namespace Verif.Source
open Verif.Ast (Alg)

variable {κ : Type} [DecidableEq κ] (py : Python κ)

theorem firsts_length : ∀ (xs seen : List κ), (firsts seen xs).length ≤ xs.length
  | [], _ => by simp [firsts]
  | x :: xs, seen => by
    simp only [firsts]
    split
    · exact Nat.le_succ_of_le (firsts_length xs seen)
    · simpa using firsts_length xs _

theorem firsts_all : ∀ (xs seen : List κ), (firsts seen xs).length = xs.length → firsts seen xs = xs
  | [], _, _ => rfl
  | x :: xs, seen, h => by
    simp only [firsts] at h ⊢
    split at h
    · have := firsts_length xs seen
      simp only [List.length_cons] at h
      omega
    · next e =>
      rw [if_neg e]
      rw [firsts_all xs _ (by simpa using h)]

theorem firsts_nodup : ∀ (xs seen : List κ), xs.Nodup → (∀ x ∈ xs, x ∉ seen) → firsts seen xs = xs
  | [], _, _, _ => rfl
  | x :: xs, seen, h, hs => by
    rw [List.nodup_cons] at h
    simp only [firsts]
    rw [if_neg (hs x (.head _)), firsts_nodup xs _ h.2]
    intro y hy
    simp only [List.mem_append, List.mem_singleton, not_or]
    exact ⟨hs y (.tail _ hy), fun e => h.1 (e ▸ hy)⟩

/-- A program it is claimed for: a function that is plain, and regular with all that are inside it. -/
structure Fine (s : Alg) : Prop where
  scope : scope s = true
  plain : plain s = true
  regular : ∀ t, Nested s t → py.regular t

theorem Fine.part {s t : Alg} (h : Fine py s) (ht : t ∈ inner s) : Fine py t :=
  have hm := inner_mem h.scope h.plain t ht
  ⟨hm.1, hm.2, fun u hu => h.regular u (.step ht hu)⟩

theorem Fine.consts {s : Alg} (h : Fine py s) : py.consts (py.made s) = firsts [] ((inner s).map py.made) :=
  py.law s h.scope (h.regular s (.self s))

/-- The code objects and the functions, matched one by one. -/
theorem Fine.zip {s : Alg} (h : Fine py s) (hl : (inside s).length = (py.consts (py.made s)).length) :
    (py.consts (py.made s)).zip (inside s) = (inner s).map fun t => (py.made t, t) := by
  rw [← inner_plain h.scope h.plain] at hl ⊢
  rw [h.consts] at hl ⊢
  rw [firsts_all _ _ (by simpa using hl.symm)]
  generalize inner s = xs
  induction xs with
  | nil => rfl
  | cons x xs ih => simp [ih]

theorem Right.set {m : Memo κ} (h : Right py m) (s : Alg) : Right py (m.set (py.made s) (presented s)) := by
  intro c a hc
  simp only [Memo.set] at hc
  split at hc
  · next e => cases hc; exact ⟨s, e.symm, rfl⟩
  · exact h c a hc

theorem right_both (fuel : Nat) :
    (∀ (m : Memo κ) (s : Alg), Right py m → Fine py s → Right py (cacheAst py.consts fuel m (py.made s) s).1) ∧
    (∀ (m : Memo κ) (xs : List Alg), Right py m → (∀ s ∈ xs, Fine py s) → Right py (cacheAll py.consts fuel m (xs.map fun t => (py.made t, t))).1) := by
  induction fuel with
  | zero => exact ⟨fun m s h _ => h, fun m xs h _ => h⟩
  | succ fuel ih =>
    constructor
    · intro m s h hs
      simp only [cacheAst]
      split
      · exact h
      · split
        · next hl =>
          rw [hs.zip py hl]
          exact ih.2 _ _ (h.set py s) fun t ht => hs.part py ht
        · exact h.set py s
    · intro m xs h hx
      cases xs with
      | nil => exact h
      | cons x xs =>
        simp only [List.map_cons, cacheAll]
        have h1 := ih.1 m x h (hx x (.head _))
        split
        · next m' e =>
          rw [e] at h1
          exact ih.2 m' xs h1 fun t ht => hx t (.tail _ ht)
        · next m' e =>
          rw [e] at h1
          exact h1

/-- **C116, part.**  Whatever happens, failures included, what is kept for a code object is a source of that very code object, for all
regular programs that are plain.  (Partial: for other programs it is false, see `Wrong`.) -/
theorem guarded_right_partial {m : Memo κ} {s : Alg} (fuel : Nat) (h : Right py m) (hs : Fine py s) :
    Right py (cacheAst py.consts fuel m (py.made s) s).1 := (right_both py fuel).1 m s h hs

/-- Where something is kept, something is kept for all that is inside, except for the codes that are being worked on. -/
def ClosedBut (S : κ → Prop) (m : Memo κ) : Prop := ∀ c, ¬ S c → m c ≠ .none → ∀ d ∈ py.consts c, m d ≠ .none

/-- No two functions that are directly inside the same one give equal code objects. -/
def Distinct (s : Alg) : Prop := ∀ t, Nested s t → ((inner t).map py.made).Nodup

theorem Distinct.part {s t : Alg} (h : Distinct py s) (ht : t ∈ inner s) : Distinct py t := fun u hu => h u (.step ht hu)

theorem fine_consts {s : Alg} (h : Fine py s) (hd : Distinct py s) : py.consts (py.made s) = (inner s).map py.made := by
  rw [h.consts, firsts_nodup _ _ (hd s (.self s)) (by simp)]

/-- The result does not depend on the fuel, once there is enough. -/
theorem found_list (xs : List Alg) (S : κ → Prop)
    (ih : ∀ x ∈ xs, ∀ m, ClosedBut py S m → ∃ n m', (∀ fuel, n ≤ fuel → cacheAst py.consts fuel m (py.made x) x = (m', true)) ∧ ClosedBut py S m' ∧
      m' (py.made x) ≠ .none ∧ ∀ c, m c ≠ .none → m' c = m c) :
    ∀ m, ClosedBut py S m → ∃ n m', (∀ fuel, n ≤ fuel → cacheAll py.consts fuel m (xs.map fun t => (py.made t, t)) = (m', true)) ∧ ClosedBut py S m' ∧
      (∀ x ∈ xs, m' (py.made x) ≠ .none) ∧ ∀ c, m c ≠ .none → m' c = m c := by
  induction xs with
  | nil =>
    intro m hm
    refine ⟨0, m, ?_, hm, by simp, fun _ _ => rfl⟩
    intro fuel _
    cases fuel <;> rfl
  | cons x xs ihx =>
    intro m hm
    obtain ⟨n1, m1, h1, hc1, hx1, hk1⟩ := ih x (.head _) m hm
    obtain ⟨n2, m2, h2, hc2, hx2, hk2⟩ := ihx (fun y hy => ih y (.tail _ hy)) m1 hc1
    refine ⟨n1 + n2 + 1, m2, ?_, hc2, ?_, ?_⟩
    · intro fuel hf
      obtain ⟨k, rfl⟩ : ∃ k, fuel = k + 1 := ⟨fuel - 1, by omega⟩
      simp only [List.map_cons, cacheAll, h1 k (by omega)]
      exact h2 k (by omega)
    · intro y hy
      rcases List.mem_cons.mp hy with rfl | hy
      · rw [hk2 _ hx1]; exact hx1
      · exact hx2 y hy
    · intro c hc
      have := hk1 c hc
      rw [hk2 c (by rw [this]; exact hc), this]

theorem found_one (k : Nat) : ∀ (s : Alg), py.deep (py.made s) < k → Fine py s → Distinct py s → ∀ (S : κ → Prop), (∀ c, S c → py.deep (py.made s) < py.deep c) →
    ∀ m, ClosedBut py S m → ∃ n m', (∀ fuel, n ≤ fuel → cacheAst py.consts fuel m (py.made s) s = (m', true)) ∧ ClosedBut py S m' ∧
      m' (py.made s) ≠ .none ∧ ∀ c, m c ≠ .none → m' c = m c := by
  induction k with
  | zero => intro s h; omega
  | succ k ih =>
    intro s hk hs hd S hS m hm
    by_cases hin : m (py.made s) = .none
    · have hcs := fine_consts py hs hd
      have hdeep : ∀ t ∈ inner s, py.deep (py.made t) < py.deep (py.made s) := by
        intro t ht
        apply py.deeper
        rw [hcs]
        exact List.mem_map_of_mem ht
      have hm1 : ClosedBut py (fun c => S c ∨ c = py.made s) (m.set (py.made s) (presented s)) := by
        intro c hc hmc d hd'
        simp only [not_or] at hc
        simp only [Memo.set, if_neg hc.2] at hmc
        simp only [Memo.set]
        split
        · simp
        · exact hm c hc.1 hmc d hd'
      obtain ⟨n, m', h1, h2, h3, h4⟩ := found_list py (inner s) (fun c => S c ∨ c = py.made s) (by
        intro t ht m0 hm0
        refine ih t (by have := hdeep t ht; omega) (hs.part py ht) (hd.part py ht) _ ?_ m0 hm0
        rintro c (hc | rfl)
        · have := hS c hc; have := hdeep t ht; omega
        · exact hdeep t ht) _ hm1
      have hset : (m.set (py.made s) (presented s)) (py.made s) ≠ .none := by simp [Memo.set]
      refine ⟨n + 1, m', ?_, ?_, ?_, ?_⟩
      · intro fuel hf
        obtain ⟨j, rfl⟩ : ∃ j, fuel = j + 1 := ⟨fuel - 1, by omega⟩
        have hl : (inside s).length = (py.consts (py.made s)).length := by
          rw [hcs, ← inner_plain hs.scope hs.plain]; simp
        simp only [cacheAst, hin, Option.isSome_none, Bool.false_eq_true, if_false]
        rw [if_pos hl, hs.zip py hl]
        exact h1 j (by omega)
      · intro c hc hmc d hd'
        by_cases e : c = py.made s
        · subst e
          rw [hcs] at hd'
          obtain ⟨t, ht, rfl⟩ := List.mem_map.mp hd'
          exact h3 t ht
        · exact h2 c (by simp [hc, e]) hmc d hd'
      · rw [h4 _ hset]; exact hset
      · intro c hc
        have e : c ≠ py.made s := fun e => hc (e ▸ hin)
        have : (m.set (py.made s) (presented s)) c = m c := by simp [Memo.set, e]
        rw [h4 c (by rw [this]; exact hc), this]
    · refine ⟨1, m, ?_, hm, hin, fun _ _ => rfl⟩
      intro fuel hf
      obtain ⟨j, rfl⟩ : ∃ j, fuel = j + 1 := ⟨fuel - 1, by omega⟩
      have : (m (py.made s)).isSome = true := by cases h : m (py.made s) <;> simp_all
      simp [cacheAst, this]

/-- **C116, part.**  For every regular program that is plain, and in which no two functions directly inside the same one give equal code
objects, the source is found: no assertion fails, what was kept before stays, and for the function and all functions inside it, at any depth,
what is kept is a source of its code object.  (Partial: for other programs it is false, see `Wrong`.) -/
theorem found_partial {m : Memo κ} {s : Alg} (hr : Right py m) (hc : Closed py m) (hs : Fine py s) (hd : Distinct py s) :
    ∃ n m', (∀ fuel, n ≤ fuel → cacheAst py.consts fuel m (py.made s) s = (m', true)) ∧ Right py m' ∧ Closed py m' ∧
      (∀ c, m c ≠ .none → m' c = m c) ∧ ∀ t, Nested s t → ∃ u, py.made u = py.made t ∧ m' (py.made t) = some (presented u) := by
  obtain ⟨n, m', h1, h2, h3, h4⟩ := found_one py _ s (Nat.lt_succ_self _) hs hd (fun _ => False) (by simp) m (fun c _ => hc c)
  have hr' : Right py m' := by
    have := guarded_right_partial py (m := m) (s := s) n hr hs
    rwa [h1 n (Nat.le_refl _)] at this
  have hc' : Closed py m' := fun c => h2 c (by simp)
  have hn : ∀ s t, Nested s t → Fine py s → Distinct py s → m' (py.made s) ≠ .none → m' (py.made t) ≠ .none := by
    intro s t h
    induction h with
    | self => exact fun _ _ h => h
    | @step a b c hb _ ih =>
      intro hs hd hm
      refine ih (hs.part py hb) (hd.part py hb) (hc' _ hm _ ?_)
      rw [fine_consts py hs hd]
      exact List.mem_map_of_mem hb
  refine ⟨n, m', h1, hr', hc', h4, ?_⟩
  intro t ht
  have hx := hn s t ht hs hd h3
  cases e : m' (py.made t) with
  | none => exact absurd e hx
  | some a =>
    obtain ⟨u, hu, rfl⟩ := hr' _ _ e
    exact ⟨u, hu, rfl⟩

/-- Where different functions give different code objects (as they do from Python 3.11, where code objects know their columns) it is the
function's own source that is kept. -/
theorem found_own_partial {m : Memo κ} {s : Alg} (hr : Right py m) (hc : Closed py m) (hs : Fine py s) (hd : Distinct py s)
    (hi : ∀ t u, Nested s t → py.made u = py.made t → presented u = presented t) :
    ∃ n m', (∀ fuel, n ≤ fuel → cacheAst py.consts fuel m (py.made s) s = (m', true)) ∧ ∀ t, Nested s t → m' (py.made t) = some (presented t) := by
  obtain ⟨n, m', h1, _, _, _, h2⟩ := found_partial py hr hc hs hd
  refine ⟨n, m', h1, ?_⟩
  intro t ht
  obtain ⟨u, hu, e⟩ := h2 t ht
  rw [e, hi t u ht hu]

/-! ### Several lambdas on a line -/

theorem possible_mem {β γ : Type} [DecidableEq γ] {le : γ → γ → Bool} {c : Code γ} : ∀ (ds : List (β × Code γ)) (seen), ∀ d ∈ possible le c seen ds,
    ∃ x, (d, x) ∈ ds ∧ isPossible x c = true
  | [], _, _, h => by simp [possible] at h
  | (e, x) :: ds, seen, d, h => by
    simp only [possible, List.mem_append] at h
    rcases h with h | h
    · split at h
      · next hp =>
        rw [List.mem_singleton.mp h]
        simp only [Bool.and_eq_true] at hp
        exact ⟨x, .head _, hp.1⟩
      · cases h
    · obtain ⟨y, hy, hp⟩ := possible_mem ds _ d h
      exact ⟨y, .tail _ hy, hp⟩

/-- The first candidate with a key that is possible is among the possible ones. -/
theorem possible_key {β γ : Type} [DecidableEq γ] {le : γ → γ → Bool} {c : Code γ} : ∀ (ds : List (β × Code γ)) (seen : List (List Nat × List String × List γ)),
    (∀ d x, (d, x) ∈ ds → codeKey le x = codeKey le c → isPossible x c = true) → codeKey le c ∉ seen →
    (∃ d, (d, c) ∈ ds) → ∃ d x, (d, x) ∈ ds ∧ codeKey le x = codeKey le c ∧ d ∈ possible le c seen ds
  | [], _, _, _, h => by obtain ⟨d, h⟩ := h; cases h
  | (e, x) :: ds, seen, hp, hs, h => by
    by_cases hk : codeKey le x = codeKey le c
    · refine ⟨e, x, .head _, hk, ?_⟩
      have h1 := hp e x (.head _) hk
      simp only [possible, List.mem_append]
      left
      rw [if_pos (by simp [h1, hk, hs])]
      simp
    · have h' : ∃ d, (d, c) ∈ ds := by
        obtain ⟨d, h⟩ := h
        rcases List.mem_cons.mp h with h | h
        · cases h; exact absurd rfl hk
        · exact ⟨d, h⟩
      obtain ⟨d, y, h1, h2, h3⟩ := possible_key ds (seen ++ [codeKey le x]) (fun d x hx => hp d x (.tail _ hx)) (by
        simp only [List.mem_append, List.mem_singleton, not_or]
        exact ⟨hs, fun e => hk e.symm⟩) h'
      refine ⟨d, y, .tail _ h1, h2, ?_⟩
      simp only [possible, List.mem_append]
      exact .inr h3

theorem sortBy_mem {α : Type} {le : α → α → Bool} (x : α) (xs : List α) : x ∈ sortBy le xs ↔ x ∈ xs := by
  have hi : ∀ (y : α) (ys : List α), x ∈ insertBy le y ys ↔ x = y ∨ x ∈ ys := by
    intro y ys
    induction ys with
    | nil => simp [insertBy]
    | cons z zs ih =>
      simp only [insertBy]
      split
      · simp
      · simp only [List.mem_cons, ih]
        exact ⟨fun h => h.elim (fun h => .inr (.inl h)) (fun h => h.elim .inl fun h => .inr (.inr h)),
          fun h => h.elim (fun h => .inr (.inl h)) (fun h => h.elim .inl fun h => .inr (.inr h))⟩
  induction xs with
  | nil => simp [sortBy]
  | cons y ys ih => simp [sortBy, hi, ih]

theorem key_possible {γ : Type} [DecidableEq γ] {le : γ → γ → Bool} {x c : Code γ} (h : codeKey le x = codeKey le c) : isPossible x c = true := by
  simp only [codeKey, Prod.mk.injEq] at h
  obtain ⟨_, h2, h3⟩ := h
  have hm : ∀ v, v ∈ x.consts ↔ v ∈ c.consts := by
    intro v
    rw [← sortBy_mem (le := le) v x.consts, h3, sortBy_mem]
  simp [isPossible, h2, hm]

theorem allCodes_mem {β γ : Type} : ∀ (ds : List (Def β γ)) cs, allCodes ds = some cs → ∀ d x, (d, x) ∈ cs ↔ ∃ e ∈ ds, e.node = d ∧ e.first = some x
  | [], cs, h, d, x => by cases h; simp
  | e :: ds, cs, h, d, x => by
    simp only [allCodes] at h
    split at h
    · next c cs' h1 h2 =>
      cases h
      simp only [List.mem_cons, Prod.mk.injEq, allCodes_mem ds cs' h2 d x]
      constructor
      · rintro (⟨rfl, rfl⟩ | ⟨e', he, h⟩)
        · exact ⟨e, .inl rfl, rfl, h1⟩
        · exact ⟨e', .inr he, h⟩
      · rintro ⟨e', rfl | he, h3, h4⟩
        · rw [h1] at h4; cases h4; exact .inl ⟨h3.symm, rfl⟩
        · exact .inr ⟨e', he, h3, h4⟩
    · cases h

/-- **C116, part.**  Where several lambdas begin on the line of a lambda, the one that is picked (if any) has the same instructions as its
code, the same names and the same constants, provided the lambda itself is among them.  (Partial: these are compared without their order, so
that it can be another one, see `Wrong.picked_other`.) -/
theorem picked_partial {β γ : Type} [DecidableEq γ] {le : γ → γ → Bool} {c : Code γ} {ds : List (Def β γ)} {b : β}
    (h : pick le c ds = some b) (hc : ∃ e ∈ ds, e.first = some c) :
    ∃ e ∈ ds, e.node = b ∧ ∃ x, e.first = some x ∧ codeKey le x = codeKey le c := by
  unfold pick at h
  split at h
  · split at h
    · next cs hcs =>
      have hm := allCodes_mem ds cs hcs
      obtain ⟨e, he, hf⟩ := hc
      obtain ⟨d, x, h1, h2, h3⟩ := possible_key (le := le) (c := c) cs [] (fun _ _ _ hk => key_possible hk) (by simp) ⟨e.node, (hm _ _).mpr ⟨e, he, rfl, hf⟩⟩
      split at h
      · next d' hp =>
        cases h
        rw [hp] at h3
        have := List.mem_singleton.mp h3
        subst this
        obtain ⟨e', he', hn, hx⟩ := (hm d x).mp h1
        exact ⟨e', he', hn, x, hx, h2⟩
      · cases h
    · cases h
  · cases h

/-- So if different lambdas on the line have different instructions, names or constants, what is found is the function's own node. -/
theorem picked_own {β γ : Type} [DecidableEq γ] {le : γ → γ → Bool} {c : Code γ} {ds : List (Def β γ)} {b : β} {e : Def β γ}
    (h : pick le c ds = some b) (he : e ∈ ds) (hc : e.first = some c)
    (hd : ∀ e' ∈ ds, ∀ x, e'.first = some x → codeKey le x = codeKey le c → e'.node = e.node) : b = e.node := by
  obtain ⟨e', he', rfl, x, hx, hk⟩ := picked_partial h ⟨e, he, hc⟩
  exact hd e' he' x hx hk

/-- One function on the line, or one that is a lambda as the code is one (or is none as it is none). -/
theorem only_one {β γ : Type} [DecidableEq γ] {le : γ → γ → Bool} {c : Code γ} {lambda : Bool} {ds : List (Def β γ)} {e : Def β γ}
    (he : e ∈ ds) (hl : e.lambda = lambda) (h : ∀ e' ∈ ds, e'.lambda = lambda → e' = e) (hn : ds.Nodup) : astFor le lambda c ds = some e.node := by
  have hf : ds.filter (·.lambda == lambda) = [e] := by
    have hnd := hn.filter (p := fun d => d.lambda == lambda)
    have hmem : ∀ x, x ∈ ds.filter (·.lambda == lambda) ↔ x = e := by
      intro x
      simp only [List.mem_filter, beq_iff_eq]
      exact ⟨fun hx => h x hx.1 hx.2, fun hx => hx ▸ ⟨he, hl⟩⟩
    generalize ds.filter (·.lambda == lambda) = ys at hnd hmem
    match ys, hnd, hmem with
    | [], _, hm => exact absurd ((hm e).mpr rfl) (by simp)
    | [y], _, hm => rw [(hm y).mp (.head _)]
    | y :: z :: r, hnd, hm =>
      have h1 := (hm y).mp (.head _)
      have h2 := (hm z).mp (.tail _ (.head _))
      simp [h1, h2] at hnd
  match ds, he, hf with
  | [d], he, _ => rw [List.mem_singleton.mp he]; rfl
  | d :: d' :: r, _, hf => simp only [astFor, hf]

end Verif.Source
