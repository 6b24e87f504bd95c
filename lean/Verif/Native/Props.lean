import Verif.Native.Slots
import Verif.Common
/-
C84-C86: control flow, temporaries and the variables of handlers in generated code.
-/
namespace Verif.Native

/-! ### Examples used below -/

/-- Nothing throws, all tests are true. -/
def calm : World := ⟨fun _ _ => false, fun _ _ => true⟩
/-- Act `a` throws. -/
def throwing (a : Nat) : World := ⟨fun _ b => b == a, fun _ _ => true⟩

/-- A `while` with a temporary in it, inside a `try` inside a named block which the handler leaves;
behind it another temporary, and a return. -/
def sample : Steps :=
  .block "loop_break"
    (.tryCatch
      (.while 0 (.temp 10 true 11 (.slot 13 (.ifelse 1 (.effect 12 false (.mark 0 .done)) .done
        (.effect 14 true .done)))) .done)
      (.ret (some "loop_break") .done)
      .done)
    (.traced (.temp 20 true 21 (.ret none .done)) 22 .done)

theorem sample_ok : sample.Ok := by
  refine ⟨?_, ?_, by decide⟩
  · simp [sample, Steps.Marked, Steps.marks]
  · simp [sample, Steps.Jumps]

/-! ### C84 -/

/-- Converting the body of a function never fails an assertion, and calling the function does exactly
what the body means: the same acts in the same order, the same teardowns at the same places, and it
throws or returns as it should. -/
theorem function_does_what_it_means {e : E} (h : e.Ok) (w : World) (fuel : Nat) :
    (conv [none] e fun _ => .no).fine ∧ runFunction w fuel e = meaning w fuel e :=
  ⟨ok_fine h, run_meaning h w fuel⟩

/-- The same for everything the compiler builds. -/
theorem built_function_does_what_it_means {s : Steps} (h : s.Ok) (w : World) (fuel : Nat) :
    (conv [none] s.function fun _ => .no).fine ∧ runFunction w fuel s.function = meaning w fuel s.function :=
  function_does_what_it_means h.function w fuel

/-- A call ends only by returning or throwing: jumps reach the block they are for. -/
theorem function_ends {e : E} (h : e.Ok) (w : World) (fuel : Nat) {o A tr}
    (he : eval w fuel e (fun _ => false) [] = some (o, A, tr)) : o = .exc ∨ o = .ret none :=
  eval_ends h w fuel he

example : sample.Ok := sample_ok
/-- In the second round of the loop something throws; the handler leaves the block. -/
example : runFunction ⟨fun tr a => a == 10 && tr.length > 6, fun _ c => c == 0⟩ 9 sample.function =
    some (.returns, [.act 10, .made 0, .act 14, .torn 0, .act 11, .act 10, .made 0, .act 14, .torn 0, .act 11,
      .act 10, .act 20, .made 2, .torn 2, .act 21]) := by
  decide +kernel
example : runFunction (throwing 14) 9 sample.function =
    some (.returns, [.act 10, .made 0, .act 12, .made 1, .act 14, .torn 0, .act 11, .torn 1, .act 13, .act 20,
      .made 2, .torn 2, .act 21]) := by decide +kernel
example : runFunction (throwing 20) 9 (Steps.traced (.temp 20 true 21 (.ret none .done)) 22 .done).function =
    some (.throws, [.act 20, .act 22]) := by decide +kernel

/-- Why a temporary must not be activated inside a `TryCatch` within the `Finally` that tears it
down: the tags after a `TryCatch` are those of its expression, so the teardown runs for a temporary
that was never made. -/
theorem activation_inside_try_is_wrong :
    runFunction (throwing 0) 1
        (.finally (.seq (.tryCatch (.seq (.act 0 true) (.activates 5)) .skip) (.ret none))
          (.byTag 5 (.act 1 false) .nil) none) = some (.returns, [.act 0, .torn 5, .act 1]) ∧
    meaning (throwing 0) 1
        (.finally (.seq (.tryCatch (.seq (.act 0 true) (.activates 5)) .skip) (.ret none))
          (.byTag 5 (.act 1 false) .nil) none) = some (.returns, [.act 0]) := by
  constructor <;> decide +kernel

/-- Why it must not be activated in a loop within it: the second activation finds the tag there. -/
theorem activation_inside_loop_is_refused :
    ¬ (conv [none] (.finally (.seq (.loop .skip 0 (.activates 5) .skip) (.ret none))
        (.byTag 5 (.act 1 false) .nil) none) fun _ => .no).fine := by
  intro h
  simp only [conv, finalizing] at h
  have := congrFun h.1.1.2.2.2.2 5
  simp [STags.set] at this

/-! ### C85 -/

/-- Whatever the compiler builds, and whatever throws: a temporary is destroyed only if it was made,
and not again before it is made again. -/
theorem temporaries_never_destroyed_twice {s : Steps} (h : s.Ok) (w : World) (fuel : Nat) {x : End} {tr : List Ev}
    (hr : runFunction w fuel s.function = some (x, tr)) : NeverTwice tr := by
  rw [run_meaning h.function] at hr; exact meaning_never_twice hr

/-- If destroying things does not throw, every temporary that is made is destroyed exactly once
before the call ends, whether it returns or throws, and on every path. -/
theorem temporaries_destroyed_exactly_once_partial {s : Steps} (h : s.Ok) (w : World)
    (hd : ∀ d ∈ s.destroys, ∀ tr, w.throws tr d = false) (fuel : Nat) {x : End} {tr : List Ev}
    (hr : runFunction w fuel s.function = some (x, tr)) : ExactlyOnce tr := by
  rw [run_meaning h.function] at hr
  exact meaning_exactly_once h.function (Steps.calm hd) hr

example : ∀ d ∈ sample.destroys, ∀ tr, (throwing 14).throws tr d = false := by
  intro d hd tr
  simp [sample, Steps.destroys] at hd
  rcases hd with rfl | rfl | rfl <;> rfl

/-- If destroying one temporary throws, the ones behind it leak. -/
theorem throwing_destructor_leaks : ∃ s : Steps, s.Ok ∧ ∃ w tr,
    runFunction w 1 s.function = some (.throws, tr) ∧ life true 1 tr = some true :=
  ⟨.temp 0 true 10 (.temp 1 true 11 (.ret none .done)),
    ⟨trivial, ⟨by simp, trivial⟩, rfl⟩, throwing 10, [.act 0, .made 0, .act 1, .made 1, .torn 0, .act 10],
    by decide +kernel, by decide +kernel⟩

/-! ### C86 -/

/-- After a handler `except T as x` whose body leaves `x` alone, however it ended, the exception has
been destroyed exactly once, and the flag of `x` says that it holds nothing. What `x` held before has
been destroyed too. -/
theorem handler_destroys_once_partial {w : World} (hw : Tracks w) {fuel : Nat} {st : Init} {body : E}
    (hb : body.Avoids) {A : Active} {tr : List Ev} (hr : st.Right tr) {o A' tr'}
    (he : eval w fuel (handler st body) A tr = some (o, A', tr')) : held tr' = some false ∧ flag tr' = false := by
  obtain ⟨tr0, A1, tr1, hs0, hb1, -, rfl⟩ := eval_handler hw hr he
  obtain ⟨h1, h2⟩ := eval_avoids body A tr0 hb hs0 _ _ _ hb1
  rw [held_snoc, held_snoc, flag_snoc, flag_snoc, h1]
  exact ⟨rfl, rfl⟩

/-- The same for a whole function `try: body / except T as x: h`. -/
theorem function_destroys_exception_once_partial {w : World} (hw : Tracks w) {body h : E} (hb : body.Avoids)
    (hh : h.Avoids) (hok : (tryFunction body h).Ok) {fuel : Nat} {x : End} {tr : List Ev}
    (hr : runFunction w fuel (tryFunction body h) = some (x, tr)) : held tr = some false := by
  rw [run_meaning hok] at hr
  obtain ⟨o, A, he⟩ := meaning_eval hr
  have hd : ∀ tr', (true && w.throws tr' 1) = false := fun tr' => by rw [hw.2 tr' 1 (by omega)]; rfl
  have hin : Always (Is (some false) false) (eval w fuel (.seq (.tryCatch body (handler .no h)) (.ret none))
      (fun _ => false) []) := by
    rw [eval, eval]
    refine Always.bind (P := Is (some false) false) ?_ (fun _ _ h => h) fun A tr h => by rw [eval]; exact .some h
    refine (eval_avoids (h := some false) (f := false) body _ [] hb ⟨rfl, rfl⟩).handle (fun _ _ h => h)
      fun A1 tr1 h1 => ?_
    intro o2 A2 tr2 he2
    exact handler_destroys_once_partial hw hh (st := .no) h1.1 he2
  rw [tryFunction, eval] at he
  have hcl : Active.clear (fun _ => false) (Tds.always (.branch 0 drop .skip) .nil).tags = fun _ => false := by
    funext t; simp [Active.clear]
  rw [hcl] at he
  simp only [finish] at he
  split at he
  · cases he
  · rename_i o1 A1 tr1 he1
    obtain ⟨h1, h2⟩ := hin _ _ _ he1
    have hf : w.test tr1 0 = false := by rw [hw.1, h2]
    simp only [evalTds, eval, hf, Bool.false_eq_true, if_false, andThen] at he
    simp only [Option.some.injEq, Prod.mk.injEq] at he
    rw [← he.2.2]; exact h1

/-- A world as the theorems ask for, where act 7 throws. -/
def tracking : World := ⟨fun _ a => a == 7, fun tr _ => flag tr⟩

theorem tracking_tracks : Tracks tracking :=
  ⟨fun _ => rfl, fun tr a h => by
    show (a == 7) = false
    rw [beq_eq_false_iff_ne]; omega⟩

example : (tryFunction (.act 7 true) (.seq (.act 8 true) .throw)).Ok ∧ (E.act 7 true).Avoids ∧
    (E.seq (.act 8 true) .throw).Avoids ∧
    runFunction tracking 1 (tryFunction (.act 7 true) (.seq (.act 8 true) .throw)) =
      some (.throws, [.act 7, .act 0, .act 2, .act 8, .act 1, .act 3]) := by
  refine ⟨⟨by decide, ?_, by decide, by decide⟩, by simp [E.Avoids], by simp [E.Avoids], by decide +kernel⟩
  simp [tryFunction, handler, assign, E.Wf, Tds.Wf, put, drop, flagOn, flagOff, E.acts, Tds.acts, E.falls]

/-- In an `except T as x` inside an `except S as x` the inner cleanup destroys the exception, and the
outer one destroys it again: for all bodies and worlds. -/
theorem nested_handler_destroys_twice {w : World} (hw : Tracks w) {fuel : Nat} {st : Init} {body : E}
    (hb : body.Avoids) {A : Active} {tr : List Ev} (hr : st.Right tr) {o A' tr'}
    (he : eval w fuel (handler st (handler .yes body)) A tr = some (o, A', tr')) : held tr' = none := by
  obtain ⟨tr0, A1, tr1, hs0, hb1, -, rfl⟩ := eval_handler hw hr he
  obtain ⟨h1, h2⟩ := handler_destroys_once_partial hw hb (st := .yes) hs0 hb1
  rw [held_snoc, held_snoc, h1]
  rfl

example : runFunction tracking 1 (tryFunction (.act 7 true) (handler .yes (.act 8 true))) =
    some (.returns, [.act 7, .act 0, .act 2, .act 1, .act 0, .act 8, .act 1, .act 3, .act 1, .act 3]) := by
  decide +kernel

/-- A variable that is assigned before a `try`, whose body has an inner `except T as x` that raises:
the names of handlers are not among the variables assigned in the body
(function_conversion_context.py:1692-1700), so the outer handler takes `x` for initialized and destroys
it again when it assigns it. -/
theorem handler_name_forgotten {w : World} (hw : Tracks w) (fuel : Nat) (A : Active) {tr : List Ev}
    (hr : Init.yes.Right tr) : ∃ o A' tr', eval w fuel (.tryCatch (handler .yes .throw) (assign .yes)) A tr =
      some (o, A', tr') ∧ held tr' = none := by
  have hd : ∀ tr', (true && w.throws tr' 1) = false := fun tr' => by rw [hw.2 tr' 1 (by omega)]; rfl
  have hcl : ∀ B : Active, B.clear [] = B := fun B => by funext t; simp [Active.clear]
  refine ⟨.norm, A, tr ++ [.act 1] ++ [.act 0] ++ [.act 1] ++ [.act 3] ++ [.act 1] ++ [.act 0], ?_, ?_⟩
  · simp [handler, assign, eval, evalTds, drop, put, flagOff, andThen, onExc, finish, settle, hd, Tds.tags, hcl]
  · obtain ⟨h1, _⟩ := hr
    simp only [held_snoc, h1]; rfl

example : Init.yes.Right [.act 0, .act 2] := ⟨rfl, rfl⟩

/-- A chained comparison of operands that are not POD, when all of them hold and nothing throws: every
comparison after the first reads its left operand from a slot that was torn down before. -/
theorem chained_comparison_reads_dead_slot {w : World} (ht : ∀ tr a, w.throws tr a = false)
    (hy : ∀ tr, w.test tr 0 = true) (fuel n : Nat) : ∃ tr,
      runFunction w fuel (chain 0 n).function = some (.returns, tr) ∧
      ∀ i, i + 1 < n → ∃ before after, tr = before ++ .act (4 * (i + 1) + 2) :: after ∧
        .made (2 * i + 1) ∈ before ∧ life true (2 * i + 1) before = some false := by
  have hlinks : ∀ (m k i : Nat), i + 1 < m → ∃ b a, links k m = b ++ .act (4 * (k + i + 1) + 2) :: a ∧
      .made (2 * (k + i) + 1) ∈ b ∧
      b.foldl (lifeStep true (2 * (k + i) + 1)) (some false) = some false := by
    intro m
    induction m with
    | zero => intro k i h; omega
    | succ m ih =>
      intro k i h
      cases i with
      | zero =>
        obtain ⟨m, rfl⟩ : ∃ m', m = m' + 1 := ⟨m - 1, by omega⟩
        refine ⟨link k ++ [.act (4 * (k + 1)), .made (2 * (k + 1)), .act (4 * (k + 1) + 1), .made (2 * (k + 1) + 1)],
          [.torn (2 * (k + 1)), .act (4 * (k + 1) + 3), .torn (2 * (k + 1) + 1), .act (4 * (k + 1) + 3)] ++
            links (k + 1 + 1) m, ?_, ?_, ?_⟩
        · simp [links, link]
        · simp [link]
        · have e1 : (2 * k : Nat) ≠ 2 * k + 1 := by omega
          have e2 : (2 * (k + 1) : Nat) ≠ 2 * k + 1 := by omega
          have e3 : (2 * (k + 1) + 1 : Nat) ≠ 2 * k + 1 := by omega
          simp [link, lifeStep, e1, e2]; omega
      | succ i =>
        obtain ⟨b, a, h1, h2, h3⟩ := ih (k + 1) i (by omega)
        have hk : k + 1 + i = k + (i + 1) := by omega
        rw [hk] at h1 h2 h3
        refine ⟨link k ++ b, a, by rw [links, h1, List.append_assoc], List.mem_append_right _ h2, ?_⟩
        have e1 : (2 * k : Nat) ≠ 2 * (k + (i + 1)) + 1 := by omega
        have e2 : (2 * k + 1 : Nat) ≠ 2 * (k + (i + 1)) + 1 := by omega
        rw [List.foldl_append]
        have : (link k).foldl (lifeStep true (2 * (k + (i + 1)) + 1)) (some false) = some false := by
          simp only [link, List.foldl_cons, List.foldl_nil, lifeStep, e1, e2, if_false]
        rw [this]; exact h3
  have hok : (chain 0 n).Ok := chain_marked n 0
  obtain ⟨A', h⟩ := chain_eval ht hy fuel n 0 (fun _ => false) []
  refine ⟨links 0 n, ?_, fun i hi => ?_⟩
  · rw [run_meaning hok.function, meaning, Steps.function, Built.close, chain_tds]
    simp only [Nat.mul_zero] at h
    simp only [h, List.nil_append]
  · obtain ⟨b, a, h1, h2, h3⟩ := hlinks n 0 i hi
    simp only [Nat.zero_add] at h1 h2 h3
    exact ⟨b, a, h1, h2, h3⟩

example : (∀ tr a, calm.throws tr a = false) ∧ ∀ tr, calm.test tr 0 = true := ⟨fun _ _ => rfl, fun _ => rfl⟩

end Verif.Native
