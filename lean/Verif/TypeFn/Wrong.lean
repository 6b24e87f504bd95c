import Verif.TypeFn.Props
/-
C114, where it goes wrong: arguments that are equal but not the same, functions that fail after others have got their forward,
interrupts, and types that are given as a forward.
-/
namespace Verif.TypeFn.Wrong

/-- Whole numbers and truth values that Python holds equal make the same key: whichever is asked for first decides, and the function is
not run for the other, for every function and every `n`. -/
theorem equal_arguments (w : World) (depth : Nat) (fn : Nat) (n : Int) (s s1 : State) (o : Outcome)
    (h : call w depth ⟨fn, [.int n], []⟩ s = some (o, s1)) (ho : o ≠ .interrupted) :
    call w (depth + 1) ⟨fn, [.whole n], []⟩ s1 = some (o, s1) ∧
    (n = 1 → call w (depth + 1) ⟨fn, [.bool true], []⟩ s1 = some (o, s1)) := by
  have h1 := call_entry h (n := ⟨fn, [.int n], []⟩) rfl ho
  have e1 : key ⟨fn, [.int n], []⟩ = ⟨fn, [.int n], []⟩ := rfl
  rw [e1] at h1
  have f : ∀ c : Call, normal c = some c → key c = ⟨fn, [.int n], []⟩ → call w (depth + 1) c s1 = some (o, s1) := by
    intro c hc hk
    cases o with
    | interrupted => exact absurd rfl ho
    | ty t => simp only [call, hc, hk, h1, Outcome.entry]
    | raised e => simp only [call, hc, hk, h1, Outcome.entry]
  exact ⟨f _ rfl rfl, fun hn => f _ rfl (by subst hn; rfl)⟩

/-- `@TypeFunction def F(x): return Value(x)` (0), for numbers and truth values. -/
def value : World where
  contains := fun _ _ _ => false
  body
    | 0, [.int n], _ => .done (.ty (.con (toString n) []))
    | 0, [.bool b], _ => .done (.ty (.con (toString b) []))
    | 0, [], [(_, .int n)] => .done (.ty (.con (toString n) []))
    | _, _, _ => .done (.raised "TypeError")

/-- `F(1)` then `F(True)` gives the type for 1 twice; in the other order the type for True twice. -/
theorem first_decides :
    (exec (call value 2) (.call ⟨0, [.int 1], []⟩ fun _ => .call ⟨0, [.bool true], []⟩ .done) .initial).map (·.1) = some (.ty (.con "1" [])) ∧
    (exec (call value 2) (.call ⟨0, [.bool true], []⟩ fun _ => .call ⟨0, [.int 1], []⟩ .done) .initial).map (·.1) = some (.ty (.con "true" [])) := by
  decide +kernel

/-- A call with an argument by position and the same call with it by name are different: both run the function. -/
theorem position_or_name (fn : Nat) (x : String) (a b : Arg) (n n' : Call) (h : normal ⟨fn, [a], []⟩ = some n)
    (h' : normal ⟨fn, [], [(x, b)]⟩ = some n') : key n ≠ key n' := by
  obtain ⟨as, ks, h1, h2, rfl⟩ := normal_some h
  obtain ⟨as', ks', h3, h4, rfl⟩ := normal_some h'
  simp only [mapArgs, Option.some.injEq] at h3
  subst h3
  intro e
  simp only [key, Call.mk.injEq, canons] at e
  cases as with
  | nil =>
    simp only [mapArgs] at h1
    cases h5 : mapArg a <;> simp [h5] at h1
  | cons y ys => simp [canons] at e

/-- Run for `F(1)` and for `F(x=1)`. -/
example : (exec (call value 2) (.call ⟨0, [.int 1], []⟩ fun _ => .call ⟨0, [], [("x", .int 1)]⟩ .done) .initial).map (fun r => (r.1, r.2.ran.length)) =
    some (.ty (.con "1" []), 2) := by decide +kernel

/-- A function stopped by KeyboardInterrupt leaves its forward in the memo: every later call, after whatever else has happened, gives
that forward, which nothing ever defines, and does not run the function. -/
theorem interrupted_forever (w : World) (depth : Nat) (before : Prog) (ob : Outcome) (c n : Call) (s s1 s2 : State)
    (hb : exec (call w depth) before .initial = some (ob, s)) (hn : normal c = some n) (hk : s.memo (key n) = none) (h : call w (depth + 1) c s = some (.interrupted, s1)) (after : Prog) (oa : Outcome)
    (ha : exec (call w depth) after s1 = some (oa, s2)) :
    (∀ d, call w (d + 1) c s2 = some (.ty (.fwd s.forwards), s2)) ∧ s2.defined s.forwards = none := by
  replace hb := (exec_good (call_good w depth) _ _ _ _ hb initial_base).1
  obtain ⟨o2, s3, h1, h2⟩ := call_runs h hn hk
  have hg := exec_good (call_good w depth) _ _ _ _ h1 (begin_base hb hk)
  have hi : o2 = .interrupted := by
    cases o2 with
    | interrupted => rfl
    | raised e => simp [finish, fail] at h2
    | ty t =>
      simp only [finish] at h2
      split at h2 <;> simp [fail] at h2
  subst hi
  simp only [finish, Prod.mk.injEq, true_and] at h2
  have h1' := (call_good w (depth + 1) _ _ _ _ h hb).1
  have ha' := (exec_good (call_good w depth) _ _ _ _ ha h1').2
  subst h2
  have hm := hg.2.memo (key n) (.ty (.fwd s.forwards)) (by simp [begin_])
  have hf : s.forwards < s3.forwards := Nat.lt_of_lt_of_le (by simp [begin_]) hg.2.forwards
  refine ⟨fun d => ?_, ?_⟩
  · have := ha'.memo _ _ hm
    simp only [call, hn, this]
  · rw [ha'.defined _ hf]
    show s3.defined s.forwards = none
    rw [hg.2.defined _ (by simp [begin_])]
    exact hb.fresh _ (Nat.le_refl _)

/-- `F` calls `G`, which makes a type of `F`, and then raises (0 and 1); 2 calls 3, which gives the type of 2 itself. 4 is interrupted. -/
def failing : World where
  contains := fun _ _ _ => false
  body
    | 0, _, _ => .call ⟨1, [], []⟩ fun _ => .done (.raised "ValueError")
    | 1, _, _ => .call ⟨0, [], []⟩ fun
      | .ty t => .done (.ty (.con "ListOf" [t]))
      | o => .done o
    | 2, _, _ => .call ⟨3, [], []⟩ fun _ => .done (.ty (.con "Class" []))
    | 3, _, _ => .call ⟨2, [], []⟩ .done
    | _, _, _ => .done .interrupted

/-- `F` raises, and from then on `G()` gives `ListOf` of a forward that is never defined; had `G` been called first it would have raised.
So what `G()` gives depends on what was called before it. -/
theorem orphaned :
    (exec (call failing 4) (.call ⟨0, [], []⟩ fun _ => .call ⟨1, [], []⟩ .done) .initial).map (fun r => (r.1, r.2.defined 0)) =
      some (.ty (.con "ListOf" [.fwd 0]), none) ∧
    (exec (call failing 4) (.call ⟨1, [], []⟩ .done) .initial).map (·.1) = some (.raised "ValueError") := by decide +kernel

/-- A function that gives another's type while that one is under way goes on giving the forward: `G() is F()` is False, although the
forward is defined to `F()`; asked for first, `G()` is `F()`. -/
theorem forward_given :
    (exec (call failing 4) (.call ⟨2, [], []⟩ fun _ => .call ⟨3, [], []⟩ .done) .initial).map (fun r => (r.1, r.2.defined 0)) =
      some (.ty (.fwd 0), some (.con "Class" [])) ∧
    (exec (call failing 4) (.call ⟨2, [], []⟩ .done) .initial).map (·.1) = some (.ty (.con "Class" [])) ∧
    (exec (call failing 4) (.call ⟨3, [], []⟩ fun _ => .call ⟨3, [], []⟩ .done) .initial).map (·.1) = some (.ty (.con "Class" [])) := by
  decide +kernel

/-- The interrupted function. -/
example : (call failing 2 ⟨4, [], []⟩ .initial).map (·.1) = some .interrupted ∧
    (exec (call failing 2) (.call ⟨4, [], []⟩ fun _ => .call ⟨4, [], []⟩ .done) .initial).map (fun r => (r.1, r.2.ran.length)) =
      some (.ty (.fwd 0), 1) := by decide +kernel

/-- A dictionary argument reaches the function as a tuple of pairs, whatever it holds. -/
theorem dict_as_tuple (xs : List (String × Arg)) (a : Arg) (h : mapArg (.dict xs) = some a) : ∃ ys, a = .tuple ys := by
  simp only [mapArg, Option.map_eq_some_iff] at h
  obtain ⟨ys, _, rfl⟩ := h
  exact ⟨_, rfl⟩

end Verif.TypeFn.Wrong
