import Verif.Flow.Props
/-
C62 is false without the condition `good`: programs that the compiler gets wrong. In each of them the
types of the slots are final and every expression has the type it promises; what is given first is
what the compiled function does, and what is given last is what Python does.
-/
namespace Verif.Flow.Refute

open Verif.Flow Verif.Flow.Props

variable {n : Nat}

mutual
/-- Every assignment stores values of a type the slot holds, whatever types its operands have. -/
def Stmt.Settled (H : Hier) (σ : Slots n) : Stmt n → Prop
  | .assign x e => ∀ ts t, e.ty ts = some t → settled H σ x t = true
  | .seq a b | .ifS _ a b | .whileS _ a b => Stmt.Settled H σ a ∧ Stmt.Settled H σ b
  | .tryS a hs b c => Stmt.Settled H σ a ∧ Handlers.Settled H σ hs ∧ Stmt.Settled H σ b ∧ Stmt.Settled H σ c
  | _ => True
def Handlers.Settled (H : Hier) (σ : Slots n) : Handlers n → Prop
  | .nil => True
  | .cons c name body rest =>
    (∀ x, name = some x → settled H σ x [.cls c] = true) ∧ Stmt.Settled H σ body ∧ Handlers.Settled H σ rest
end

/-- The compiled program does `got` where Python does `want`, although nothing is wrong with its types. -/
structure Miscompiled (H : Hier) (σ : Slots n) (s : Stmt n) (args : Fin n → Option Ty)
    (env : Fin n → Option Val) (ω : Nat → Nat) (got want : Out) : Prop where
  sound : s.Sound H
  final : Stmt.Settled H σ s
  argsOK : ArgsOK H σ args env
  compiled : (convFn H σ 8 s (VS.start args)).map (fun c => runFn H ω 8 c env) = some got
  python : pyFn H ω 8 s env = want

/-- an expression with a constant value -/
def val (v : Val) (t : Ty) : Expr n := { reads := [], ty := fun _ => some t, eval := fun _ _ => .ok v }

def int (i : Int) : Expr n := val (.prim (.int i)) [.int]
def str (k : Nat) : Expr n := val (.prim (.str k)) [.str]
/-- an instance of class `c` -/
def obj (c : Nat) : Expr n := val (.inst c 0) [.cls c]

/-- a variable -/
def var (x : Fin n) : Expr n :=
  { reads := [x], ty := fun ts => ts.head?
    eval := fun vs _ => match vs with | [v] => .ok v | _ => .error (.inst 0 0) }

/-- a call that raises the exception `v` -/
def boom (v : Val) : Expr n := { reads := [], ty := fun _ => some [.none], eval := fun _ _ => .error v }

/-- a condition decided by the rest of the program -/
def coin : Test n := .cond [] (fun _ => true) (fun _ => none) (fun _ k => .ok (k != 0))

theorem val_sound {H : Hier} {v : Val} {t : Ty} (h : inTy H v t = true) : (val v t : Expr n).Sound H := by
  intro ts vs k w _ hw
  simp only [val, Except.ok.injEq] at hw
  subst hw
  exact ⟨t, rfl, h⟩

theorem int_sound {H : Hier} (i : Int) : (int i : Expr n).Sound H := val_sound rfl
theorem str_sound {H : Hier} (k : Nat) : (str k : Expr n).Sound H := val_sound rfl
theorem obj_sound {H : Hier} (c : Nat) : (obj c : Expr n).Sound H :=
  val_sound (by simp [inTy, inAtom, H.refl])

theorem var_sound {H : Hier} (x : Fin n) : (var x).Sound H := by
  intro ts vs k v hts h
  simp only [var] at h
  split at h
  · simp only [Except.ok.injEq] at h
    subst h
    cases ts with
    | nil => simp [hasTypes] at hts
    | cons t ts =>
      simp only [hasTypes, Bool.and_eq_true] at hts
      exact ⟨t, rfl, hts.1⟩
  · simp at h

theorem boom_sound {H : Hier} (v : Val) : (boom v : Expr n).Sound H := by
  intro ts vs k w _ h
  simp [boom] at h

theorem coin_sound {H : Hier} : (coin : Test n).Sound H := by
  intro ts vs k b _ _
  exact ⟨rfl, fun b' h => by simp [coin, Test.fold] at h⟩

theorem isinst_sound {H : Hier} (x : Fin n) (T : Atom) :
    (Test.isinst x T (fun _ => none) : Test n).Sound H := by
  intro ts vs k b _ _
  refine ⟨rfl, fun b' h => ?_⟩
  cases ts with
  | nil => simp [Test.fold] at h
  | cons t ts => cases ts <;> simp [Test.fold] at h

theorem val_settled {H : Hier} {σ : Slots n} {x : Fin n} {v : Val} {t : Ty} (h : settled H σ x t = true) :
    ∀ ts t', (val v t : Expr n).ty ts = some t' → settled H σ x t' = true := by
  intro ts t' ht
  simp only [val, Option.some.injEq] at ht
  subst ht
  exact h

/-- no arguments -/
theorem noArgs {H : Hier} {σ : Slots n} : ArgsOK H σ (fun _ => none) (fun _ => none) where
  bound := by intro x t h; simp at h
  unbound := by intros; rfl
  slot := by intro x t h; simp at h

/-- one argument, in variable 0 -/
theorem oneArg {H : Hier} {σ : Slots (n + 1)} {t : Ty} {v : Val} (h : inTy H v t = true)
    (hs : settled H σ 0 t = true) :
    ArgsOK H σ (fun x => if x = 0 then some t else none) (fun x => if x = 0 then some v else none) where
  bound := by
    intro x t' h'
    split at h'
    · rename_i hx
      simp only [Option.some.injEq] at h'
      subst h'
      exact ⟨v, by simp [hx], h⟩
    · simp at h'
  unbound := by
    intro x h'
    split at h'
    · simp at h'
    · rename_i hx; simp [hx]
  slot := by
    intro x t' h'
    split at h'
    · rename_i hx
      simp only [Option.some.injEq] at h'
      subst h'; subst hx
      exact hs
    · simp at h'

macro "soundness" : tactic => `(tactic| (
  simp only [Stmt.Sound, Handlers.Sound]
  repeat' (first | apply And.intro | exact trivial)
  all_goals first | exact int_sound _ | exact str_sound _ | exact obj_sound _ | exact var_sound _
                  | exact boom_sound _ | exact coin_sound | exact isinst_sound _ _))

macro "settling" : tactic => `(tactic| (
  simp only [Stmt.Settled, Handlers.Settled]
  repeat' (first | apply And.intro | exact trivial)
  all_goals first
    | exact val_settled (by decide)
    | (intro x hx; simp only [Option.some.injEq, reduceCtorEq] at hx; subst hx; decide)
    | (intro x hx; exact absurd hx (by simp))))

/-- the exceptions raised below: instances of class 1 and 2 -/
def e1 : Val := .inst 1 7
def e2 : Val := .inst 2 8

/-- the coins, in the order of evaluation -/
def coins (l : List Nat) : Nat → Nat := fun k => l.getD k 0

/-- a variable that holds an `int` or a `str` -/
def intStr : Slots 1 := fun _ => some [.int, .str]
/-- a variable that holds an exception -/
def excSlot : Slots 1 := fun _ => some [.cls 0]
def noSlots : Slots 0 := fun x => x.elim0

/-- a variable that holds a `bool`, an `int` or a `str` -/
def boolIntStr : Slots 1 := fun _ => some [.bool, .int, .str]

/-- The types at a `break` are forgotten (function_conversion_context.py:2081-2097 does not record the
state there, and :1658-1663 merges the states at the ends of the body and of `else` only):
```
x = 1
while <coin>:
    x = "s"
    if <coin>: break
    x = 1
return x            # read as an int
``` -/
theorem break_drops_types :
    Miscompiled (n := 1) exc intStr
      (.seq (.assign 0 (int 1)) (.seq (.whileS coin (.seq (.assign 0 (str 5))
    (.seq (.ifS coin .brk .pass) (.assign 0 (int 1)))) .pass) (.ret (var 0))))
      (fun _ => none) (fun _ => none) (coins [0, 1, 0, 1]) (.fault) (.returned (.prim (.str 5))) where
  sound := by soundness
  final := by settling
  argsOK := noArgs
  compiled := by decide +kernel
  python := by decide +kernel

/-- The types at a `continue` are forgotten in the same way:
```
x = 1
while <coin>:
    x = "s"
    if <coin>: continue
    return 0
return x
``` -/
theorem continue_drops_types :
    Miscompiled (n := 1) exc intStr
      (.seq (.assign 0 (int 1)) (.seq (.whileS coin (.seq (.assign 0 (str 5))
    (.seq (.ifS coin .cont .pass) (.ret (int 0)))) .pass) (.ret (var 0))))
      (fun _ => none) (fun _ => none) (coins [0, 1, 0, 1, 0]) (.fault) (.returned (.prim (.str 5))) where
  sound := by soundness
  final := by settling
  argsOK := noArgs
  compiled := by decide +kernel
  python := by decide +kernel

/-- A `while` whose body and `else` end in `return` is taken never to end, although it has a `break`
(function_conversion_context.py:1666-1673); what follows is dropped:
```
while <coin>:
    if <coin>: break
    return 1
else:
    return 2
return 3
``` -/
theorem break_then_dropped_code :
    Miscompiled (n := 0) exc noSlots
      (.seq (.whileS coin (.seq (.ifS coin .brk .pass) (.ret (int 1))) (.ret (int 2))) (.ret (int 3)))
      (fun _ => none) (fun _ => none) (coins [1, 1]) (.fault) (.returned (.prim (.int 3))) where
  sound := by soundness
  final := by settling
  argsOK := noArgs
  compiled := by decide +kernel
  python := by decide +kernel

/-- `finally` is converted for the types at the end of the body (function_conversion_context.py:1801-1810),
but also runs when the body raised before it got there:
```
x = 1
try:
    boom()
    x = "s"
finally:
    x               # read as a str
``` -/
theorem finally_assumes_body_types :
    Miscompiled (n := 1) exc intStr
      (.seq (.assign 0 (int 1)) (.tryS (.seq (.expr (boom e1)) (.assign 0 (str 5))) .nil .pass (.expr (var 0))))
      (fun _ => none) (fun _ => none) (coins []) (.fault) (.raised e1) where
  sound := by soundness
  final := by settling
  argsOK := noArgs
  compiled := by decide +kernel
  python := by decide +kernel

/-- For the same reason `finally` reads a variable that was never assigned, instead of raising
`UnboundLocalError`:
```
try:
    boom()
    x = 1
finally:
    x
``` -/
theorem finally_reads_unassigned :
    Miscompiled (n := 1) exc intStr
      (.tryS (.seq (.expr (boom e1)) (.assign 0 (int 1))) .nil .pass (.expr (var 0)))
      (fun _ => none) (fun _ => none) (coins []) (.fault) (.raised (unboundErr (n := 1) 0)) where
  sound := by soundness
  final := by settling
  argsOK := noArgs
  compiled := by decide +kernel
  python := by decide +kernel

/-- The state at the end of a handler goes through the `else` clause that did not run
(function_conversion_context.py:1790-1797):
```
def f(x: OneOf(int, str)):
    x = "s"
    try:
        boom()
    except Exception:
        pass
    else:
        x = 1
    return x        # read as an int
``` -/
theorem handler_state_lost :
    Miscompiled (n := 1) exc intStr
      (.seq (.assign 0 (str 5)) (.seq (.tryS (.expr (boom e1)) (.cons 0 none .pass .nil) (.assign 0 (int 1)) .pass)
    (.ret (var 0))))
      (fun _ => none) (fun _ => none) (coins []) (.fault) (.returned (.prim (.str 5))) where
  sound := by soundness
  final := by settling
  argsOK := noArgs
  compiled := by decide +kernel
  python := by decide +kernel

/-- `.exc_occurred` is one slot for all `try` statements of a function. An exception that an inner `try`
handled leaves it set, and the outer `else` is skipped:
```
try:
    try:
        boom()
    except Exception:
        pass
except Exception:
    pass
else:
    return 1
return 2
``` -/
theorem inner_try_skips_else :
    Miscompiled (n := 0) exc noSlots
      (.seq (.tryS (.tryS (.expr (boom e1)) (.cons 0 none .pass .nil) .pass .pass) (.cons 0 none .pass .nil)
    (.ret (int 1)) .pass) (.ret (int 2)))
      (fun _ => none) (fun _ => none) (coins []) (.returned (.prim (.int 2))) (.returned (.prim (.int 1))) where
  sound := by soundness
  final := by settling
  argsOK := noArgs
  compiled := by decide +kernel
  python := by decide +kernel

/-- A `try` in a handler resets the same slot, and the outer `else` runs although the body raised:
```
try:
    boom()
except Exception:
    try:
        pass
    except Exception:
        pass
else:
    return 1
return 2
``` -/
theorem inner_try_runs_else :
    Miscompiled (n := 0) exc noSlots
      (.seq (.tryS (.expr (boom e1)) (.cons 0 none (.tryS .pass (.cons 0 none .pass .nil) .pass .pass) .nil)
    (.ret (int 1)) .pass) (.ret (int 2)))
      (fun _ => none) (fun _ => none) (coins []) (.returned (.prim (.int 1))) (.returned (.prim (.int 2))) where
  sound := by soundness
  final := by settling
  argsOK := noArgs
  compiled := by decide +kernel
  python := by decide +kernel

/-- Two nested handlers that bind the same name destroy its content twice
(function_conversion_context.py:1747-1771):
```
try:
    boom()
except Exception as e:
    try:
        boom()
    except Exception as e:
        pass
``` -/
theorem same_name_destroyed_twice :
    Miscompiled (n := 1) exc excSlot
      (.tryS (.expr (boom e1)) (.cons 0 (some 0) (.tryS (.expr (boom e2)) (.cons 0 (some 0) .pass .nil) .pass .pass) .nil)
    .pass .pass)
      (fun _ => none) (fun _ => none) (coins []) (.fault) (.returned .none) where
  sound := by soundness
  final := by settling
  argsOK := noArgs
  compiled := by decide +kernel
  python := by decide +kernel

/-- The name a handler of an inner `try` binds, and unbinds, is not among the variables whose state the
outer handlers take to be unknown (python_ast_analysis.py `computeAssignedVariables`):
```
e = E()
try:
    try:
        boom()
    except Exception as e:
        boom()
except Exception:
    return e        # read without a check
``` -/
theorem handler_name_not_counted :
    Miscompiled (n := 1) exc excSlot
      (.seq (.assign 0 (obj 0)) (.tryS (.tryS (.expr (boom e1)) (.cons 0 (some 0) (.expr (boom e2)) .nil) .pass .pass)
    (.cons 0 none (.ret (var 0)) .nil) .pass .pass))
      (fun _ => none) (fun _ => none) (coins []) (.fault) (.raised (unboundErr (n := 1) 0)) where
  sound := by soundness
  final := by settling
  argsOK := noArgs
  compiled := by decide +kernel
  python := by decide +kernel

/-- A `try` in `finally` that handles an exception clears the exception that is waiting for the end of
`finally` (function_conversion_context.py:1776-1778, 1891-1895):
```
try:
    boom()
finally:
    try:
        boom()
    except Exception:
        pass
``` -/
theorem finally_loses_exception :
    Miscompiled (n := 0) exc noSlots
      (.tryS (.expr (boom e1)) .nil .pass (.tryS (.expr (boom e2)) (.cons 0 none .pass .nil) .pass .pass))
      (fun _ => none) (fun _ => none) (coins []) (.raised noActiveErr) (.raised e1) where
  sound := by soundness
  final := by settling
  argsOK := noArgs
  compiled := by decide +kernel
  python := by decide +kernel

/-- A handler that handles another exception can no longer raise its own:
```
try:
    boom()
except Exception:
    try:
        boom()
    except Exception:
        pass
    raise
``` -/
theorem handled_inside_handler :
    Miscompiled (n := 0) exc noSlots
      (.tryS (.expr (boom e1)) (.cons 0 none (.seq (.tryS (.expr (boom e2)) (.cons 0 none .pass .nil) .pass .pass)
    .reraise) .nil) .pass .pass)
      (fun _ => none) (fun _ => none) (coins []) (.raised noActiveErr) (.raised e1) where
  sound := by soundness
  final := by settling
  argsOK := noArgs
  compiled := by decide +kernel
  python := by decide +kernel

/-- `isinstance(x, int)` holds for a bool, and `x` is then read as an int:
```
def f(x: OneOf(bool, int, str)):
    if isinstance(x, int):
        return x
``` -/
theorem isinstance_int_of_bool :
    Miscompiled (n := 1) exc boolIntStr
      (.ifS (.isinst 0 .int (fun _ => none)) (.ret (var 0)) .pass)
      (fun x => if x = 0 then some [.bool, .int, .str] else none) (fun x => if x = 0 then some (.prim (.bool true)) else none) (coins []) (.fault) (.returned (.prim (.bool true))) where
  sound := by soundness
  final := by settling
  argsOK := oneArg (by decide) (by decide)
  compiled := by decide +kernel
  python := by decide +kernel

/-- `finally` after an `assert` that failed is converted as if it had held:
```
def f(x: OneOf(int, str)):
    try:
        assert isinstance(x, int)
    finally:
        x
``` -/
theorem assert_narrows_finally :
    Miscompiled (n := 1) exc intStr
      (.tryS (.assertS (.isinst 0 .int (fun _ => none))) .nil .pass (.expr (var 0)))
      (fun x => if x = 0 then some [.int, .str] else none) (fun x => if x = 0 then some (.prim (.str 5)) else none) (coins []) (.fault) (.raised assertErr) where
  sound := by soundness
  final := by settling
  argsOK := oneArg (by decide) (by decide)
  compiled := by decide +kernel
  python := by decide +kernel

/-- A `break` in a handler unbinds its name, which is not recorded either:
```
e = E()
while <coin>:
    try:
        boom()
    except Exception as e:
        break
    e = E()
return e
``` -/
theorem break_leaves_unbound :
    Miscompiled (n := 1) exc excSlot
      (.seq (.assign 0 (obj 0)) (.seq (.whileS coin (.seq (.tryS (.expr (boom e1)) (.cons 0 (some 0) .brk .nil) .pass .pass)
    (.assign 0 (obj 0))) .pass) (.ret (var 0))))
      (fun _ => none) (fun _ => none) (coins [0, 1]) (.fault) (.raised (unboundErr (n := 1) 0)) where
  sound := by soundness
  final := by settling
  argsOK := noArgs
  compiled := by decide +kernel
  python := by decide +kernel

/-- A `break` in the `else` of an inner loop should leave the outer loop, but the block that catches the
inner loop's `break` contains its `else` (function_conversion_context.py:1671):
```
while <coin>:
    while <coin>:
        pass
    else:
        break
    return 1
return 2
``` -/
theorem break_in_else_absorbed :
    Miscompiled (n := 0) exc noSlots
      (.seq (.whileS coin (.seq (.whileS coin .pass .brk) (.ret (int 1))) .pass) (.ret (int 2)))
      (fun _ => none) (fun _ => none) (coins [1, 0]) (.returned (.prim (.int 1))) (.returned (.prim (.int 2))) where
  sound := by soundness
  final := by settling
  argsOK := noArgs
  compiled := by decide +kernel
  python := by decide +kernel

end Verif.Flow.Refute
