import Verif.ListOf.Model
import Mathlib.Data.List.Nodup
/-
The storage of a list holding given elements, and what the memory operations do to it.
-/
namespace Verif.ListOf
open Spec

variable {α : Type}

/-- The cells of a list with the elements `xs` and room for `r`. -/
def store (xs : List α) (r : Nat) : Mem α := xs.map some ++ List.replicate (r - xs.length) none

theorem store_length (xs : List α) (r : Nat) (h : xs.length ≤ r) : (store xs r).length = r := by
  simp [store]
  omega

theorem store_lt (xs : List α) (r i : Nat) (h : i < xs.length) : (store xs r)[i]? = some (some xs[i]) := by
  unfold store
  rw [List.getElem?_append_left (by simpa using h)]
  simp [h]

theorem store_ge (xs : List α) (r i : Nat) (h : xs.length ≤ i) (hr : i < r) : (store xs r)[i]? = some none := by
  unfold store
  rw [List.getElem?_append_right (by simpa using h)]
  rw [List.length_map, List.getElem?_replicate, if_pos (by omega)]

theorem store_snoc (xs : List α) (r : Nat) (v : α) (h : xs.length < r) : (store xs r).set xs.length (some v) = store (xs ++ [v]) r := by
  unfold store
  obtain ⟨k, hk⟩ : ∃ k, r - xs.length = k + 1 := ⟨r - xs.length - 1, by omega⟩
  rw [hk, List.replicate_succ, List.set_append_right _ _ (by simp)]
  simp
  congr 1
  omega

theorem construct_store (xs : List α) (r : Nat) (v : α) (h : xs.length < r) :
    construct (store xs r) xs.length v = .ok (store (xs ++ [v]) r) := by
  unfold construct
  rw [store_ge xs r _ (Nat.le_refl _) h]
  exact congrArg _ (store_snoc xs r v h)

theorem read_store (xs : List α) (r i : Nat) (h : i < xs.length) : read (store xs r) i = .ok xs[i] := by
  unfold read
  rw [store_lt xs r i h]

theorem assign_store (xs : List α) (r i : Nat) (v : α) (h : i < xs.length) : assign (store xs r) i v = .ok (store (xs.set i v) r) := by
  unfold assign
  rw [store_lt xs r i h]
  unfold store
  rw [List.set_append_left _ _ (by simpa using h)]
  simp [List.map_set]

theorem realloc_store (xs : List α) (r n : Nat) (h : xs.length ≤ r) (hn : xs.length ≤ n) (hl : n < 2 ^ 31) :
    realloc (store xs r) n = .ok (store xs n) := by
  unfold realloc
  rw [if_pos hl, store_length xs r h]
  congr 1
  apply List.ext_getElem?
  intro i
  by_cases h1 : i < n
  · by_cases h2 : i < r
    · rw [List.getElem?_append_left (by simp [store_length xs r h]; omega), List.getElem?_take, if_pos h1]
      by_cases h3 : i < xs.length
      · rw [store_lt xs r i h3, store_lt xs n i h3]
      · rw [store_ge xs r i (by omega) h2, store_ge xs n i (by omega) h1]
    · rw [List.getElem?_append_right (by simp [store_length xs r h]; omega), List.getElem?_replicate, if_pos (by
        simp [store_length xs r h]; omega), store_ge xs n i (by omega) h1]
  · rw [List.getElem?_eq_none (by simp [store_length xs r h]; omega), List.getElem?_eq_none (by rw [store_length xs n hn]; omega)]

/-- The loop that constructs elements at the end. -/
theorem fillLoop_store (src : Mem α → Nat → Except Fault (Option α)) (xs : List α) (r : Nat) (vs : List (Option α)) :
    ∀ (ws : List α) (_ : xs.length + ws.length + vs.length ≤ r)
      (_ : ∀ (j : Nat) (h : j < vs.length) (ws' : List α), src (store (xs ++ ws') r) (ws.length + j) = .ok vs[j]),
      fillLoop src xs.length vs.length ws.length (store (xs ++ ws) r) =
        .ok (store (xs ++ ws ++ (convertible vs).1) r, ws.length + (convertible vs).1.length, !(convertible vs).2) := by
  induction vs with
  | nil =>
    intro ws _ _
    simp [fillLoop, convertible]
  | cons v vs ih =>
    intro ws hlen hsrc
    have h0 := hsrc 0 (by simp) ws
    simp only [Nat.add_zero, List.getElem_cons_zero] at h0
    simp only [List.length_cons] at hlen
    simp only [List.length_cons, fillLoop, h0]
    cases v with
    | none => simp [convertible]
    | some v =>
      simp only
      rw [← List.length_append, construct_store _ _ _ (by simp; omega)]
      simp only
      have := ih (ws ++ [v]) (by simp; omega) (fun j hj ws' => by
        have := hsrc (j + 1) (by simpa using hj) ws'
        simp only [List.getElem_cons_succ] at this
        rw [← this]
        congr 1
        simp
        omega)
      simp only [List.length_append, List.length_cons, List.length_nil, Nat.zero_add] at this
      rw [List.append_assoc, this]
      simp [convertible]
      omega

theorem convertible_some (vs : List α) : convertible (vs.map some) = (vs, true) := by
  induction vs with
  | nil => rfl
  | cons v vs ih => simp [convertible, ih]

/-- The same, when nothing raises. -/
theorem fillLoop_ok (src : Mem α → Nat → Except Fault (Option α)) (xs vs : List α) (r : Nat) (hlen : xs.length + vs.length ≤ r)
    (hsrc : ∀ (j : Nat) (h : j < vs.length) (ws' : List α), src (store (xs ++ ws') r) j = .ok (some vs[j])) :
    fillLoop src xs.length vs.length 0 (store xs r) = .ok (store (xs ++ vs) r, vs.length, false) := by
  have := fillLoop_store src xs r (vs.map some) [] (by simpa using hlen) (fun j hj ws' => by
    have := hsrc j (by simpa using hj) ws'
    simpa using this)
  simpa [convertible_some] using this

theorem destroyLoop_spec (mid : List α) : ∀ (pre post : Mem α),
    destroyLoop mid.length pre.length (pre ++ mid.map some ++ post) = .ok (pre ++ List.replicate mid.length none ++ post) := by
  induction mid with
  | nil =>
    intro pre post
    simp [destroyLoop]
  | cons v mid ih =>
    intro pre post
    have hg : (pre ++ (v :: mid).map some ++ post)[pre.length]? = some (some v) := by simp
    simp only [List.length_cons, destroyLoop, destroy, hg]
    have hs : (pre ++ (v :: mid).map some ++ post).set pre.length none = (pre ++ [none]) ++ mid.map some ++ post := by
      simp
    rw [hs]
    have := ih (pre ++ [none]) post
    simp only [List.length_append, List.length_cons, List.length_nil, Nat.zero_add] at this
    rw [this]
    simp [List.replicate_succ]

theorem destroyLoop_store (xs : List α) (r c : Nat) (hc : c ≤ xs.length) (hr : xs.length ≤ r) :
    destroyLoop (xs.length - c) c (store xs r) = .ok (store (xs.take c) r) := by
  have h := destroyLoop_spec (xs.drop c) ((xs.take c).map some) (List.replicate (r - xs.length) none)
  simp only [List.length_drop, List.length_map, List.length_take, Nat.min_eq_left hc] at h
  have e : (xs.take c).map some ++ (xs.drop c).map some = xs.map some := by
    rw [← List.map_append, List.take_append_drop]
  rw [e] at h
  refine (show destroyLoop (xs.length - c) c (store xs r) = _ from h).trans ?_
  unfold store
  rw [List.append_assoc, List.replicate_append_replicate]
  simp only [List.length_take, Nat.min_eq_left hc]
  congr 4
  omega

theorem remove_store (xs : List α) (r i : Nat) (hi : i < xs.length) (hr : xs.length ≤ r) :
    ∃ m, destroy (store xs r) i = .ok m ∧ memmoveDown m i (xs.length - i - 1) = .ok (store (xs.eraseIdx i) r) := by
  refine ⟨(store xs r).set i none, by simp [destroy, store_lt xs r i hi], ?_⟩
  unfold memmoveDown
  have hl := store_length xs r hr
  rw [if_pos (by simp [hl]; omega)]
  have hg : ((store xs r).set i none)[i]? = some none := by
    rw [List.getElem?_set_self (by rw [hl]; omega)]
  simp only [hg]
  congr 1
  apply List.ext_getElem?
  intro k
  have hel : (xs.eraseIdx i).length = xs.length - 1 := List.length_eraseIdx_of_lt hi
  rw [List.append_assoc]
  have ht : (((store xs r).set i none).take i).length = i := by simp [hl]; omega
  have hd : ((((store xs r).set i none).drop (i + 1)).take (xs.length - i - 1)).length = xs.length - i - 1 := by
    simp [hl]; omega
  by_cases h1 : k < i
  · rw [List.getElem?_append_left (by omega), List.getElem?_take, if_pos h1, List.getElem?_set_ne (by omega),
      store_lt xs r k (by omega), store_lt _ r k (by omega)]
    simp [List.getElem_eraseIdx, h1]
  · rw [List.getElem?_append_right (by omega), ht]
    by_cases h2 : k < xs.length - 1
    · rw [List.getElem?_append_left (by omega), List.getElem?_take, if_pos (by omega), List.getElem?_drop,
        List.getElem?_set_ne (by omega), store_lt xs r _ (by omega), store_lt _ r k (by omega)]
      simp only [List.getElem_eraseIdx, h1, dite_false]
      congr 3
      omega
    · rw [List.getElem?_append_right (by omega), hd]
      by_cases h3 : k = xs.length - 1
      · have : k - i - (xs.length - i - 1) = 0 := by omega
        rw [this, store_ge _ r k (by omega) (by omega)]
        rfl
      · obtain ⟨j, hj⟩ : ∃ j, k - i - (xs.length - i - 1) = j + 1 := ⟨k - xs.length, by omega⟩
        rw [hj, List.getElem?_cons_succ, List.getElem?_drop, List.getElem?_set_ne (by omega)]
        by_cases h4 : k < r
        · rw [store_ge xs r _ (by omega) (by omega), store_ge _ r k (by omega) h4]
        · rw [List.getElem?_eq_none (by rw [hl]; omega), List.getElem?_eq_none (by rw [store_length _ r (by omega)]; omega)]

/-- A list object holds the elements `xs`. -/
structure Rep (s : L α) (xs : List α) : Prop where
  count : s.count = xs.length
  room : xs.length ≤ s.reserved
  limit : s.reserved < 2 ^ 31
  cells : s.cells = store xs s.reserved

theorem malloc_store (n : Nat) (h : n < 2 ^ 31) : malloc n = .ok (store ([] : List α) n) := by
  simp [malloc, h, store]

theorem rep_mk (xs : List α) (r : Nat) (h : xs.length ≤ r) (hr : r < 2 ^ 31) : Rep ⟨xs.length, r, store xs r⟩ xs := ⟨rfl, h, hr, rfl⟩

theorem constructor_store (src : Mem α → Nat → Except Fault (Option α)) (vs : List (Option α)) (hn : vs.length < 2 ^ 31)
    (hsrc : ∀ (m : Mem α) (j : Nat) (h : j < vs.length), src m j = .ok vs[j]) :
    (convertible vs).2 = true ∧ (∃ l, constructor vs.length src = .ok (some l) ∧ Rep l (convertible vs).1) ∨
    (convertible vs).2 = false ∧ constructor vs.length src = .ok none := by
  unfold constructor
  rw [malloc_store _ (by omega)]
  have h := fillLoop_store src [] (max 1 vs.length) vs [] (by simp; omega) (fun j hj ws' => by simpa using hsrc _ j hj)
  simp only [List.length_nil, List.append_nil, List.nil_append, Nat.zero_add] at h
  simp only [h]
  cases hc : (convertible vs).2 with
  | true =>
    left
    refine ⟨rfl, _, rfl, ?_⟩
    have hlen : (convertible vs).1.length = vs.length := by
      clear h hsrc hn
      induction vs with
      | nil => rfl
      | cons v vs ih =>
        cases v with
        | none => simp [convertible] at hc
        | some v =>
          simp only [convertible] at hc ⊢
          simp [ih hc]
    exact ⟨hlen.symm, by simp only [hlen]; omega, by simp only; omega, rfl⟩
  | false =>
    right
    refine ⟨rfl, ?_⟩
    have hle : (convertible vs).1.length ≤ max 1 vs.length := by
      have : ∀ vs : List (Option α), (convertible vs).1.length ≤ vs.length := by
        intro vs
        induction vs with
        | nil => simp [convertible]
        | cons v vs ih => cases v <;> simp [convertible]; exact ih
      have := this vs
      omega
    have := destroyLoop_store (convertible vs).1 (max 1 vs.length) 0 (by omega) hle
    simp only [Nat.sub_zero] at this
    simp only [Bool.not_false, this]

theorem constructor_ok (src : Mem α → Nat → Except Fault (Option α)) (vs : List α) (hn : vs.length < 2 ^ 31)
    (hsrc : ∀ (m : Mem α) (j : Nat) (h : j < vs.length), src m j = .ok (some vs[j])) :
    ∃ l, constructor vs.length src = .ok (some l) ∧ Rep l vs := by
  have := constructor_store src (vs.map some) (by simpa using hn) (fun m j h => by simpa using hsrc m j (by simpa using h))
  simp only [convertible_some, List.length_map] at this
  rcases this with ⟨_, h⟩ | ⟨h, _⟩
  · exact h
  · cases h

theorem reserve_ok {s : L α} {xs : List α} (h : Rep s xs) (t : Nat) (ht : t < 2 ^ 31) :
    ∃ s', reserve s t = .ok s' ∧ Rep s' xs ∧ t ≤ s'.reserved := by
  obtain ⟨h1, h2, h3, h4⟩ := h
  unfold reserve
  rw [h1, h4]
  by_cases hlt : t < xs.length
  · simp only [hlt, if_true]
    rw [realloc_store xs _ _ h2 (Nat.le_refl _) (by omega)]
    exact ⟨_, rfl, ⟨rfl, Nat.le_refl _, by simp only; omega, rfl⟩, by simp only; omega⟩
  · simp only [hlt, if_false]
    rw [realloc_store xs _ _ h2 (by omega) ht]
    exact ⟨_, rfl, ⟨rfl, by simp only; omega, ht, rfl⟩, Nat.le_refl _⟩

theorem append_ok {s : L α} {xs : List α} (h : Rep s xs) (v : α) (hx : xs.length < 2 ^ 30) :
    ∃ s', append s v = .ok s' ∧ Rep s' (xs ++ [v]) := by
  obtain ⟨h1, h2, h3, h4⟩ := h
  have hg : ∃ s', growForAppend s = .ok s' ∧ Rep s' xs ∧ xs.length < s'.reserved := by
    unfold growForAppend
    split
    · rename_i heq
      rw [h4, realloc_store xs _ _ h2 (by omega) (by omega)]
      exact ⟨_, rfl, ⟨h1, by simp only; omega, by simp only; omega, rfl⟩, by simp only; omega⟩
    · exact ⟨s, rfl, ⟨h1, h2, h3, h4⟩, by omega⟩
  obtain ⟨s', e, ⟨k1, k2, k3, k4⟩, k5⟩ := hg
  unfold append
  simp only [e]
  rw [k1, k4, construct_store xs _ v k5]
  exact ⟨_, rfl, ⟨by simp, by simp; omega, k3, rfl⟩⟩

theorem extend_ok {s : L α} {xs : List α} (h : Rep s xs) (vs : List α) (hx : xs.length + vs.length < 2 ^ 31)
    (src : Mem α → Nat → Except Fault (Option α))
    (hsrc : ∀ (r j : Nat) (h : j < vs.length) (ws' : List α), src (store (xs ++ ws') r) j = .ok (some vs[j])) :
    ∃ s', extend s vs.length src = .ok (s', false) ∧ Rep s' (xs ++ vs) := by
  have hg : ∃ s', ensureSpaceFor s vs.length = .ok s' ∧ Rep s' xs ∧ xs.length + vs.length ≤ s'.reserved := by
    unfold ensureSpaceFor
    rw [h.count]
    split
    · exact reserve_ok h _ hx
    · exact ⟨s, rfl, h, by omega⟩
  obtain ⟨s', e, ⟨k1, k2, k3, k4⟩, k5⟩ := hg
  unfold extend
  simp only [e]
  rw [k1, k4, fillLoop_ok src xs vs _ k5 (hsrc _)]
  exact ⟨_, rfl, ⟨by simp, by simp; omega, k3, rfl⟩⟩

theorem remove_ok {s : L α} {xs : List α} (h : Rep s xs) (i : Nat) (hi : i < xs.length) :
    ∃ s', remove s i = .ok s' ∧ Rep s' (xs.eraseIdx i) := by
  obtain ⟨h1, h2, h3, h4⟩ := h
  obtain ⟨m, k1, k2⟩ := remove_store xs s.reserved i hi h2
  unfold remove
  rw [h4, k1]
  simp only
  rw [h1, k2]
  have := List.length_eraseIdx_of_lt hi
  exact ⟨_, rfl, ⟨by simp only; omega, by simp only; omega, h3, rfl⟩⟩

theorem resize_ok {s : L α} {xs : List α} (h : Rep s xs) (n : Nat) (v : α) (hn : n < 2 ^ 31) :
    ∃ s', resize s n v = .ok s' ∧ Rep s' (xs.take n ++ List.replicate (n - xs.length) v) := by
  have hg : ∃ s', (if n > s.reserved then reserve s n else .ok s) = .ok s' ∧ Rep s' xs ∧ n ≤ s'.reserved := by
    split
    · exact reserve_ok h _ hn
    · exact ⟨s, rfl, h, by omega⟩
  obtain ⟨s', e, ⟨k1, k2, k3, k4⟩, k5⟩ := hg
  unfold resize
  rw [e]
  simp only [k1]
  by_cases hlt : n < xs.length
  · simp only [hlt, if_true]
    rw [k4, destroyLoop_store xs _ n (by omega) k2]
    have : n - xs.length = 0 := by omega
    rw [this]
    exact ⟨_, rfl, ⟨by simp; omega, by simp; omega, k3, by simp⟩⟩
  · simp only [hlt, if_false]
    by_cases hgt : n > xs.length
    · simp only [hgt, if_true]
      have := fillLoop_ok (fun _ _ => .ok (some v)) xs (List.replicate (n - xs.length) v) s'.reserved (by simp; omega) (by simp)
      simp only [List.length_replicate] at this
      rw [k4, this, List.take_of_length_le (by omega)]
      exact ⟨_, rfl, ⟨by simp; omega, by simp; omega, k3, rfl⟩⟩
    · simp only [hgt, if_false]
      have : n - xs.length = 0 := by omega
      rw [List.take_of_length_le (by omega), this]
      exact ⟨_, rfl, ⟨by simpa using k1, by simpa using k2, k3, by simpa using k4⟩⟩

theorem appendAll_ok (vs : List (Option α)) : ∀ {s : L α} {xs : List α} (_ : Rep s xs) (_ : xs.length + (convertible vs).1.length < 2 ^ 30),
    ∃ s', appendAll vs s = .ok (s', if (convertible vs).2 then .ok .unit else .error .typeError) ∧ Rep s' (xs ++ (convertible vs).1) := by
  induction vs with
  | nil =>
    intro s xs h _
    exact ⟨s, rfl, by simpa [convertible] using h⟩
  | cons v vs ih =>
    intro s xs h hl
    cases v with
    | none => exact ⟨s, rfl, by simpa [convertible] using h⟩
    | some v =>
      simp only [convertible, List.length_cons] at hl
      obtain ⟨s1, e1, h1⟩ := append_ok h v (by omega)
      obtain ⟨s2, e2, h2⟩ := ih h1 (by simp; omega)
      refine ⟨s2, ?_, ?_⟩
      · simp only [appendAll, e1, e2]
        rfl
      · simpa [convertible] using h2

end Verif.ListOf
