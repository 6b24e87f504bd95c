import Verif.Iters.Model
import Verif.Iters.Spec
/-
Proofs for C125.
-/
namespace Verif.Iters

/-- An item or the end. -/
def ofOption {α : Type} : Option α → Res α
  | some a => .item a
  | none => .ended

theorem fastnext_eq {α : Type} (i : Nat) (xs : List α) : fastnext ⟨(i : Int) - 1⟩ xs = (⟨((i + 1 : Nat) : Int) - 1⟩, ofOption xs[i]?) := by
  have e : (i : Int) - 1 + 1 = (i : Int) := by omega
  have e' : ((i + 1 : Nat) : Int) - 1 = (i : Int) := by omega
  simp only [fastnext, e, e', Int.toNat_natCast]
  split
  · next h =>
    have h : i < xs.length := by omega
    rw [List.getElem?_eq_getElem h]; rfl
  · next h =>
    have h : xs.length ≤ i := by omega
    rw [List.getElem?_eq_none h]; rfl

/-- The call number `j` looks at the item number `j`, whatever happened before. -/
theorem calls_item {α : Type} (cs : List (List α)) : ∀ (i : Nat) (j : Nat), (calls ⟨(i : Int) - 1⟩ cs)[j]? = (cs[j]?).map fun xs => ofOption xs[i + j]? := by
  induction cs with
  | nil => intro i j; simp [calls]
  | cons xs rest ih =>
    intro i j
    rw [calls, fastnext_eq]
    cases j with
    | zero => rfl
    | succ j =>
      simp only [List.getElem?_cons_succ]
      rw [ih (i + 1) j]
      simp only [Nat.add_assoc, Nat.add_comm 1 j]

/-- C125: a new iterator gives the items of a list that does not change one after another, each once, and then the end, for ever. -/
theorem items_in_order {α : Type} (xs : List α) (n j : Nat) (h : j < n) : (calls new (List.replicate n xs))[j]? = some (ofOption xs[j]?) := by
  have := calls_item (List.replicate n xs) 0 j
  simp only [Nat.zero_add] at this
  rw [show new = ⟨((0 : Nat) : Int) - 1⟩ from rfl, this]
  simp [List.getElem?_replicate, h]

theorem ofOption_inj {α : Type} {a b : Option α} (h : ofOption a = ofOption b) : a = b := by
  cases a <;> cases b <;> simp_all [ofOption]

theorem pyCalls_none {α : Type} (cs : List (List α)) : pyCalls none cs = List.replicate cs.length none := by
  induction cs with
  | nil => rfl
  | cons xs rest ih => simp [pyCalls, pyNext, ih, List.replicate_succ]

theorem calls_ended {α : Type} (cs : List (List α)) : ∀ i : Nat, (calls ⟨(i : Int) - 1⟩ cs = (List.replicate cs.length (none : Option α)).map ofOption ↔
    ∀ j xs, cs[j]? = some xs → xs.length ≤ i + j) := by
  induction cs with
  | nil => intro i; simp [calls]
  | cons xs rest ih =>
    intro i
    rw [calls, fastnext_eq]
    simp only [List.length_cons, List.replicate_succ, List.map_cons, List.cons.injEq]
    rw [ih (i + 1)]
    constructor
    · rintro ⟨h1, h2⟩ j ys hj
      cases j with
      | zero =>
        simp at hj; subst hj
        have := ofOption_inj h1
        simpa using this
      | succ j =>
        have := h2 j ys (by simpa using hj)
        omega
    · intro h
      refine ⟨?_, fun j ys hj => ?_⟩
      · have := h 0 xs rfl
        rw [List.getElem?_eq_none (by omega)]
      · have := h (j + 1) ys (by simpa using hj)
        omega

/-- C125: for a list that changes between the calls, they give what Python's give if and only if no call after the end finds a list with more items
than calls were made before. -/
theorem calls_as_python {α : Type} (cs : List (List α)) : ∀ i : Nat, (calls ⟨(i : Int) - 1⟩ cs = (pyCalls (some i) cs).map ofOption ↔
    ∀ j xs, cs[j]? = some xs → xs.length ≤ i + j → ∀ j' ys, j < j' → cs[j']? = some ys → ys.length ≤ i + j') := by
  induction cs with
  | nil => intro i; simp [calls, pyCalls]
  | cons xs rest ih =>
    intro i
    rw [calls, fastnext_eq, pyCalls]
    cases hx : xs[i]? with
    | some a =>
      have hlt : i < xs.length := (List.getElem?_eq_some_iff.mp hx).1
      simp only [pyNext, hx, List.map_cons, List.cons.injEq, true_and]
      rw [ih (i + 1)]
      constructor
      · intro h j ys hj hle j' zs hjj hj'
        cases j with
        | zero => simp at hj; subst hj; omega
        | succ j =>
          cases j' with
          | zero => omega
          | succ j' =>
            have := h j ys (by simpa using hj) (by omega) j' zs (by omega) (by simpa using hj')
            omega
      · intro h j ys hj hle j' zs hjj hj'
        have := h (j + 1) ys (by simpa using hj) (by omega) (j' + 1) zs (by omega) (by simpa using hj')
        omega
    | none =>
      have hle : xs.length ≤ i := by simpa using hx
      simp only [pyNext, hx, List.map_cons, List.cons.injEq, true_and, pyCalls_none]
      rw [calls_ended rest (i + 1)]
      constructor
      · intro h j ys hj hle' j' zs hjj hj'
        cases j' with
        | zero => omega
        | succ j' =>
          have := h j' zs (by simpa using hj')
          omega
      · intro h j ys hj
        have := h 0 xs rfl (by omega) (j + 1) ys (by omega) (by simpa using hj)
        omega

/-- C125: over what does not change, the calls give what Python's give. -/
theorem fixed_as_python {α : Type} (xs : List α) (n : Nat) : calls new (List.replicate n xs) = (pyCalls (some 0) (List.replicate n xs)).map ofOption := by
  refine (calls_as_python _ 0).mpr fun j ys hj hle j' zs hjj hj' => ?_
  have e1 : ys = xs := by
    rw [List.getElem?_replicate] at hj
    split at hj <;> simp_all
  have e2 : zs = xs := by
    rw [List.getElem?_replicate] at hj'
    split at hj' <;> simp_all
  subst e1 e2
  omega

/-- C125: the first loop over an iterator of a list gives what Python's gives. -/
theorem loop_first_partial {α : Type} (xs : List α) (k : Nat) : (loopList new xs k).2 = pyLoop 0 xs k := by
  simp [loopList, pyLoop]

/-! ### Where it is not -/

/-- C125: a loop over an iterator of a list that has given items starts again: if it makes a round, it gives the first item, and the iterator does
not move. -/
theorem loop_restarts {α : Type} (it : Iter) (x : α) (xs : List α) (k : Nat) :
    (loopList it (x :: xs) (k + 1)).2.head? = some x ∧ (loopList it (x :: xs) (k + 1)).1 = it ∧ ∀ given, (x :: xs).length ≤ given → pyLoop given (x :: xs) (k + 1) = [] := by
  refine ⟨by simp [loopList], rfl, fun given h => ?_⟩
  unfold pyLoop
  rw [List.drop_eq_nil_of_le h]
  rfl

/-- C125: no loop over an iterator of bytes ever makes a round: it raises an exception as long as there are items, and reads through a null pointer
at the end. -/
theorem bytes_loop_fails {α : Type} (i : Nat) (xs : List α) :
    (i < xs.length → (iterBytes ⟨(i : Int) - 1⟩ xs).2 = .stopIteration) ∧ (xs.length ≤ i → (iterBytes ⟨(i : Int) - 1⟩ xs).2 = .nullRead) := by
  constructor
  · intro h
    simp [iterBytes, fastnext_eq, List.getElem?_eq_getElem h, ofOption]
  · intro h
    simp [iterBytes, fastnext_eq, List.getElem?_eq_none h, ofOption]

/-- C125: `__next__` of an iterator of a string never comes back. -/
theorem string_next_endless {α : Type} (fuel : Nat) (it : Iter) (xs : List α) : nextString fuel it xs = .endless := by
  induction fuel with
  | zero => rfl
  | succ fuel ih => simp [nextString, ih]

/-- A list that grows by two after the end: Python's iterator stays at the end, this one goes on, and skips an item. -/
example : calls new [[5], [5], [5, 6, 7]] = [.item 5, .ended, .item 7] ∧ pyCalls (some 0) [[5], [5], [5, 6, 7]] = [some 5, none, none] := by decide +kernel
/-- A list that grows and shrinks before the end. -/
example : calls new [[5], [5, 6], [5], [5]] = (pyCalls (some 0) [[5], [5, 6], [5], [5]]).map ofOption := by decide +kernel
/-- Two items of three are taken in a loop, and then the rest. -/
example : (loopList new [1, 2, 3] 2).2 = [1, 2] ∧ (loopList (loopList new [1, 2, 3] 2).1 [1, 2, 3] 5).2 = [1, 2, 3] ∧ pyLoop 2 [1, 2, 3] 5 = [3] := by
  decide +kernel

end Verif.Iters
