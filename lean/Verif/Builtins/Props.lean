import Verif.Builtins.Model
import Verif.Common
import Mathlib.Tactic.ByContra
/-
C87: `any`, `all`, `min` and `max` in compiled code.
-/
namespace Verif.Builtins
variable {σ ε α κ : Type}

theorem allLoop_eq (truth : α → Run σ ε Bool) (xs : List α) : allLoop truth xs = pyAll truth xs := by
  induction xs with
  | nil => rfl
  | cons x xs ih =>
    rw [allLoop, pyAll, ih]
    congr 1; funext b
    cases b <;> rfl

/-- `all` does exactly what it does in Python: same result, same exceptions, same truth values asked for. -/
theorem all_as_in_python (truth : α → Run σ ε Bool) (xs : List α) : compiledAll truth xs = pyAll truth xs :=
  allLoop_eq truth xs

/-- The function that `any` should call is right. -/
theorem any_loop_as_in_python (truth : α → Run σ ε Bool) (xs : List α) : anyLoop truth xs = pyAny truth xs := by
  induction xs with
  | nil => rfl
  | cons x xs ih => rw [anyLoop, pyAny, ih]

theorem pyAny_pure (p : α → Bool) (xs : List α) : pyAny (σ := σ) (ε := ε) (fun x => pure (p x)) xs = pure (xs.any p) := by
  induction xs with
  | nil => rfl
  | cons x xs ih =>
    rw [pyAny, pure_bind, ih]
    cases h : p x <;> simp [h]

theorem pyAll_pure (p : α → Bool) (xs : List α) : pyAll (σ := σ) (ε := ε) (fun x => pure (p x)) xs = pure (xs.all p) := by
  induction xs with
  | nil => rfl
  | cons x xs ih =>
    rw [pyAll, pure_bind, ih]
    cases h : p x <;> simp [h]

theorem pure_inj {β : Type} {a b : β} (s : σ) : (pure a : Run σ ε β) = pure b ↔ a = b := by
  refine ⟨fun h => ?_, fun h => by rw [h]⟩
  have := congrFun h s
  have h2 : (Except.ok a, s) = ((Except.ok b, s) : Except (Err ε) β × σ) := this
  cases h2; rfl

/-- Compiled `any` is right exactly for sequences that have elements, all true or all false. -/
theorem any_right_only_if (p : α → Bool) (xs : List α) (s : σ) :
    compiledAny (σ := σ) (ε := ε) (fun x => pure (p x)) xs = pyAny (fun x => pure (p x)) xs ↔
      xs ≠ [] ∧ ((∀ x ∈ xs, p x = true) ∨ ∀ x ∈ xs, p x = false) := by
  rw [compiledAny, allLoop_eq, pyAll_pure, pyAny_pure, pure_inj s]
  cases xs with
  | nil => simp
  | cons x xs =>
    cases h1 : (x :: xs).all p <;> cases h2 : (x :: xs).any p
    · simp only [List.any_eq_false, Bool.not_eq_true] at h2
      simp only [ne_eq, reduceCtorEq, not_false_eq_true, true_and, true_iff]
      exact .inr h2
    · rw [List.all_eq_false] at h1; rw [List.any_eq_true] at h2
      obtain ⟨a, ha, hpa⟩ := h1; obtain ⟨b, hb, hpb⟩ := h2
      simp only [Bool.false_eq_true, false_iff, not_and_or, not_or]
      right
      exact ⟨fun h => hpa (h a ha), fun h => by rw [h b hb] at hpb; cases hpb⟩
    · rw [List.all_eq_true] at h1; rw [List.any_eq_false] at h2
      exact absurd (h1 x (by simp)) (h2 x (by simp))
    · rw [List.all_eq_true] at h1
      simp only [ne_eq, reduceCtorEq, not_false_eq_true, true_and, true_iff]
      exact .inl h1

/-- In particular it is false where there is one true and one false element, and true for no elements. -/
theorem any_wrong : compiledAny (σ := Unit) (ε := Unit) (fun b => pure b) [true, false] () = (.ok false, ()) ∧
    compiledAny (σ := Unit) (ε := Unit) (fun b => pure b) [] () = (.ok true, ()) := ⟨rfl, rfl⟩

/-! ### `min` and `max` of an iterable -/

theorem iLoop_some (key : α → Run σ ε κ) (better : κ → κ → Run σ ε Bool) (default : Option α) : ∀ (v : List α) (r : α) (k : κ),
    (do match ← iLoop key better (some (r, k)) v with
        | some (ret, _) => pure ret
        | none => match default with
          | some d => pure d
          | none => throw .empty) = pyBest key better r k v
  | [], r, k => by rw [iLoop, pyBest, pure_bind]
  | e :: v, r, k => by
      rw [iLoop, pyBest, bind_assoc]
      congr 1; funext k'
      rw [bind_assoc]
      congr 1; funext b
      cases b
      · exact iLoop_some key better default v r k
      · exact iLoop_some key better default v e k'

/-- `min` and `max` of an iterable, with or without key and default, do exactly what they do in Python: the same keys and
comparisons in the same order, the same result or exception. -/
theorem min_as_in_python (key : α → Run σ ε κ) (better : κ → κ → Run σ ε Bool) (default : Option α) (v : List α) :
    iMin key better default v = pyMin key better default v := by
  cases v with
  | nil =>
    show (do match ← iLoop key better none [] with | some (ret, _) => pure ret | none => _) = _
    rw [iLoop, pure_bind]; rfl
  | cons x xs =>
    show (do match ← iLoop key better none (x :: xs) with | some (ret, _) => pure ret | none => _) = _
    rw [iLoop, pyMin, bind_assoc]
    congr 1; funext k
    exact iLoop_some key better default xs x k

/-- What that comes to when keys and comparisons have no effects. -/
def bestOf (key : α → κ) (better : κ → κ → Bool) : α → List α → α
  | b, [] => b
  | b, x :: xs => if better (key x) (key b) then bestOf key better x xs else bestOf key better b xs

theorem pyBest_pure (key : α → κ) (better : κ → κ → Bool) : ∀ (xs : List α) (b : α),
    pyBest (σ := σ) (ε := ε) (fun x => pure (key x)) (fun a b => pure (better a b)) b (key b) xs =
      pure (bestOf key better b xs)
  | [], b => rfl
  | x :: xs, b => by
      rw [pyBest, pure_bind, pure_bind, bestOf]
      cases h : better (key x) (key b)
      · simp only [Bool.false_eq_true, if_false]; exact pyBest_pure key better xs b
      · simp only [if_true]; exact pyBest_pure key better xs x

/-- After the elements `seen` the best is at place `i`. -/
theorem bestOf_first {better : κ → κ → Bool} (hw : WeakOrder better) (key : α → κ) : ∀ (xs seen : List α) (b : α),
    IsFirstBest better key seen b → IsFirstBest better key (seen ++ xs) (bestOf key better b xs)
  | [], seen, b, h => by rw [List.append_nil]; exact h
  | x :: xs, seen, b, ⟨i, hi, hb, hall, hbefore⟩ => by
      have e : seen ++ x :: xs = (seen ++ [x]) ++ xs := by simp
      rw [e, bestOf]
      cases h : better (key x) (key b)
      · simp only [Bool.false_eq_true, if_false]
        apply bestOf_first hw key xs
        refine ⟨i, by simp; omega, by rw [List.getElem_append_left hi, hb], fun j hj => ?_, fun j hj => ?_⟩
        · by_cases hjs : j < seen.length
          · rw [List.getElem_append_left hjs]; exact hall j hjs
          · have : j = seen.length := by simp at hj; omega
            subst this; simp [h]
        · rw [List.getElem_append_left (by omega)]; exact hbefore j hj
      · simp only [if_true]
        apply bestOf_first hw key xs
        refine ⟨seen.length, by simp, by simp, fun j hj => ?_, fun j hj => ?_⟩
        · by_cases hjs : j < seen.length
          · rw [List.getElem_append_left hjs]
            cases hb2 : better (key seen[j]) (key x)
            · rfl
            · have := hw.trans _ _ _ hb2 h
              rw [hall j hjs] at this; cases this
          · have : j = seen.length := by simp at hj; omega
            subst this; simp [hw.irrefl]
        · rw [List.getElem_append_left hj]
          by_contra hcon
          have hcon : better (key x) (key seen[j]) = false := by simpa using hcon
          have := hw.ntrans _ _ _ hcon (hall j hj)
          rw [this] at h; cases h

/-- If the order is one, that is the first of the best elements. -/
theorem min_is_first_best {better : κ → κ → Bool} (hw : WeakOrder better) (key : α → κ) (default : Option α) (x : α)
    (xs : List α) : ∃ r, iMin (σ := σ) (ε := ε) (fun x => pure (key x)) (fun a b => pure (better a b)) default (x :: xs) = pure r ∧
      IsFirstBest better key (x :: xs) r := by
  refine ⟨bestOf key better x xs, ?_, ?_⟩
  · rw [min_as_in_python, pyMin, pure_bind, pyBest_pure]
  · exact bestOf_first hw key xs [x] x ⟨0, by simp, rfl, fun j hj => by
      have : j = 0 := by simpa using hj
      subst this; simp [hw.irrefl], fun j hj => by omega⟩

theorem lt_weakOrder : WeakOrder (fun a b : Int => decide (a < b)) :=
  ⟨fun a => by simp, fun a b c => by simp only [decide_eq_true_eq]; omega, fun a b c => by simp only [decide_eq_false_iff_not]; omega⟩

example : iMin (σ := Unit) (ε := Unit) (fun x : Int => pure (x * x)) (fun a b => pure (decide (a < b))) none [3, -1, 2, 1] () =
    (.ok (-1), ()) := rfl

/-! ### `min` and `max` of several arguments -/

/-- Without a key: as in Python, if `a > b` does what `b < a` does. -/
theorem several_as_in_python (better worse : α → α → Run σ ε Bool) (hm : ∀ a b, worse a b = better b a) (a : α) (rest : List α) :
    several worse a rest = pyMin (fun x => pure x) better none (a :: rest) := by
  rw [pyMin, pure_bind]
  induction rest generalizing a with
  | nil => rfl
  | cons x rest ih =>
    rw [several, pyBest, pure_bind, hm]
    congr 1; funext b
    cases b
    · exact ih a
    · exact ih x

example : ∀ a b : Int, (pure (decide (a > b)) : Run Unit Unit Bool) = pure (decide (b < a)) := fun _ _ => rfl

theorem keysOf_pure (key : α → κ) (xs : List α) : keysOf (σ := σ) (ε := ε) (fun x => pure (key x)) xs = pure (xs.map key) := by
  induction xs with
  | nil => rfl
  | cons x xs ih => rw [keysOf, pure_bind, ih, pure_bind]; rfl

theorem keyedLoop_result (key : α → κ) {worse better : κ → κ → Bool} (hm : ∀ a b, worse a b = better b a) : ∀ (xs : List α) (a : α) (n : Nat),
    ∃ m, keyedLoop (σ := σ) (ε := ε) (fun a b => pure (worse a b)) a (key a) n (xs.zip (xs.map key)) =
      pure (bestOf key better a xs, m) ∧ n ≤ m ∧ (m = n ↔ ∀ x ∈ xs, better (key x) (key a) = false)
  | [], a, n => ⟨n, rfl, Nat.le_refl _, by simp⟩
  | x :: xs, a, n => by
      rw [List.map_cons, List.zip_cons_cons, keyedLoop, pure_bind, bestOf, hm]
      cases h : better (key x) (key a)
      · simp only [Bool.false_eq_true, if_false]
        obtain ⟨m, h1, h2, h3⟩ := keyedLoop_result key hm xs a n
        refine ⟨m, h1, h2, h3.trans ⟨fun hh y hy => ?_, fun hh y hy => hh y (by simp [hy])⟩⟩
        rcases List.mem_cons.1 hy with rfl | hy
        · exact h
        · exact hh y hy
      · simp only [if_true]
        obtain ⟨m, h1, h2, -⟩ := keyedLoop_result key hm xs x (n + 2)
        refine ⟨m, h1, by omega, ⟨fun hh => by omega, fun hh => ?_⟩⟩
        have := hh x (by simp)
        rw [h] at this; cases this

/-- With a key and no effects: the result is Python's, but values leak, unless no argument is better than the first. -/
theorem keyed_result_partial (key : α → κ) {worse better : κ → κ → Bool} (hm : ∀ a b, worse a b = better b a) (a : α)
    (rest : List α) (s : σ) : ∃ r lost,
      keyed (σ := σ) (ε := ε) (fun x => pure (key x)) (fun a b => pure (worse a b)) a rest s = (.ok (r, lost), s) ∧
      pyMin (σ := σ) (ε := ε) (fun x => pure (key x)) (fun a b => pure (better a b)) none (a :: rest) s = (.ok r, s) ∧
      (lost = 0 ↔ ∀ x ∈ rest, better (key x) (key a) = false) := by
  obtain ⟨m, h1, -, h3⟩ := keyedLoop_result (σ := σ) (ε := ε) key hm rest a 0
  refine ⟨bestOf key better a rest, m, ?_, ?_, h3⟩
  · rw [keyed, keysOf_pure, pure_bind, pure_bind, keysOf_pure, pure_bind, h1]; rfl
  · rw [pyMin, pure_bind, pyBest_pure]; rfl

theorem run_bind {β γ : Type} {m : Run σ ε β} {f : β → Run σ ε γ} {s s' : σ} {a : β} (h : m s = (.ok a, s')) :
    (m >>= f) s = f a s' := by
  simp only [bind, ExceptT.bind, ExceptT.mk, StateT.bind]
  rw [h]; rfl

/-- A key that notes for what it was called. -/
def noting (key : α → κ) : α → Run (List α) ε κ := fun x s => (.ok (key x), s ++ [x])

theorem keysOf_noting (key : α → κ) : ∀ (xs s : List α),
    keysOf (ε := ε) (noting key) xs s = (.ok (xs.map key), s ++ xs)
  | [], s => by simp [keysOf]; rfl
  | x :: xs, s => by
      have h := keysOf_noting key xs (s ++ [x])
      have e : keysOf (ε := ε) (noting key) (x :: xs) s =
        (do let ks ← keysOf (ε := ε) (noting key) xs; pure (key x :: ks) : Run (List α) ε (List κ)) (s ++ [x]) := rfl
      rw [e]
      simp only [bind, ExceptT.bind, ExceptT.mk, StateT.bind]
      rw [h]
      simp [ExceptT.bindCont, pure, ExceptT.pure, ExceptT.mk, StateT.pure]

theorem keyedLoop_state (worse : κ → κ → Bool) (s : σ) : ∀ (xs : List (α × κ)) (a : α) (k : κ) (n : Nat),
    (keyedLoop (ε := ε) (fun a b => pure (worse a b)) a k n xs s).2 = s
  | [], _, _, _ => rfl
  | (x, k') :: xs, a, k, n => by
      rw [keyedLoop, pure_bind]
      cases worse k k'
      · exact keyedLoop_state worse s xs a k n
      · exact keyedLoop_state worse s xs x k' (n + 2)

theorem pyBest_noting (key : α → κ) (better : κ → κ → Bool) : ∀ (xs s : List α) (b : α) (k : κ),
    (pyBest (ε := ε) (noting key) (fun a b => pure (better a b)) b k xs s).2 = s ++ xs
  | [], s, _, _ => by simp [pyBest]; rfl
  | x :: xs, s, b, k => by
      have e : pyBest (ε := ε) (noting key) (fun a b => pure (better a b)) b k (x :: xs) s =
        (if better (key x) k then pyBest (ε := ε) (noting key) (fun a b => pure (better a b)) x (key x) xs
          else pyBest (ε := ε) (noting key) (fun a b => pure (better a b)) b k xs) (s ++ [x]) := rfl
      rw [e]
      split
      · rw [pyBest_noting key better xs (s ++ [x])]; simp
      · rw [pyBest_noting key better xs (s ++ [x])]; simp

/-- The key is called twice for every argument, where Python calls it once: for all arguments, keys and comparisons. -/
theorem key_called_twice (key : α → κ) (worse better : κ → κ → Bool) (a : α) (rest : List α) :
    (keyed (ε := ε) (noting key) (fun a b => pure (worse a b)) a rest []).2 = (a :: rest) ++ (a :: rest) ∧
    (pyMin (ε := ε) (noting key) (fun a b => pure (better a b)) none (a :: rest) []).2 = a :: rest := by
  constructor
  · have h1 := keysOf_noting (ε := ε) key (a :: rest) []
    have h2 := keysOf_noting (ε := ε) key rest ((a :: rest) ++ [a])
    rw [List.nil_append] at h1
    have e : keyed (ε := ε) (noting key) (fun a b => pure (worse a b)) a rest [] =
        keyedLoop (ε := ε) (fun a b => pure (worse a b)) a (key a) 0 (rest.zip (rest.map key)) ((a :: rest) ++ [a] ++ rest) := by
      rw [keyed, run_bind h1, run_bind (show noting key a (a :: rest) = (.ok (key a), (a :: rest) ++ [a]) from rfl),
        run_bind h2]
    rw [e, keyedLoop_state]; simp
  · have e : pyMin (ε := ε) (noting key) (fun a b => pure (better a b)) none (a :: rest) [] =
      pyBest (ε := ε) (noting key) (fun a b => pure (better a b)) a (key a) rest [a] := rfl
    rw [e, pyBest_noting]; rfl

example : keyed (σ := Unit) (ε := Unit) (fun x : Int => pure x) (fun a b => pure (decide (a > b))) 3 [2, 1] () = (.ok (1, 4), ()) := rfl

/-- The results differ too if the key changes something: here the key is the number of calls so far, modulo 3. -/
theorem counting_key_wrong :
    let key : Int → Run Nat Unit Nat := fun _ s => (.ok (s * 2 % 3), s + 1)
    (keyed key (fun a b => pure (decide (a > b))) 10 [20] 0).1 = .ok (20, 2) ∧
    (pyMin key (fun a b => pure (decide (a < b))) none [10, 20] 0).1 = .ok 10 := by
  constructor <;> rfl

end Verif.Builtins
