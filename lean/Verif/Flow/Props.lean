import Verif.Flow.Try3
/-
C62: a compiled function does what the Python function does.
-/
namespace Verif.Flow.Props

open Verif.Flow

variable {n : Nat} {H : Hier} {σ : Slots n}

/-- The arguments: variable `x` is an argument of type `t` when `args x = some t`. It holds a value
of that type; the other variables are unbound. The slot of the argument holds values of its type
(function_conversion_context.py:797-855). -/
structure ArgsOK (H : Hier) (σ : Slots n) (args : Fin n → Option Ty) (env : Fin n → Option Val) :
    Prop where
  bound : ∀ x t, args x = some t → ∃ v, env x = some v ∧ inTy H v t = true
  unbound : ∀ x, args x = none → env x = none
  slot : ∀ x t, args x = some t → settled H σ x t = true

theorem args_slot {args : Fin n → Option Ty} {env : Fin n → Option Val} (h : ArgsOK H σ args env) :
    SlotOK H σ env := by
  intro x v hv
  cases ha : args x with
  | none => rw [h.unbound x ha] at hv; simp at hv
  | some t =>
    obtain ⟨w, h1, h2⟩ := h.bound x t ha
    rw [hv] at h1
    simp only [Option.some.injEq] at h1
    subst h1
    have h3 := h.slot x t ha
    exact (settled_safe h3 h2).2

theorem args_cov {args : Fin n → Option Ty} {env : Fin n → Option Val} (h : ArgsOK H σ args env) :
    Cov H σ (fun _ => True) (VS.start args) env := by
  intro x _
  constructor
  · intro hd
    cases ha : args x with
    | none => simp [VS.defInit, VS.start, ha] at hd
    | some t =>
      obtain ⟨w, h1, _⟩ := h.bound x t ha
      rw [h1]; simp
  · intro _ v hv
    cases ha : args x with
    | none => rw [h.unbound x ha] at hv; simp at hv
    | some t =>
      obtain ⟨w, h1, h2⟩ := h.bound x t ha
      rw [hv] at h1
      simp only [Option.some.injEq] at h1
      subst h1
      refine ⟨t, by simp [VS.current, VS.start, ha], safeIn_of_inTy ?_ h2⟩
      have h3 := h.slot x t ha
      simp only [settled] at h3
      split at h3
      · simp at h3
      · simp only [Bool.and_eq_true] at h3; exact h3.2

/-- C62. Calling the compiled function and calling the Python function give the same result: the same
return value or the same exception, whatever the expressions evaluate to, for any number of
iterations of any loop. In particular the compiled function never reads an uninitialised slot, reads
a slot as another type, destroys a slot twice or runs into `Unreachable` (`fault`).

What is missing for the full property is the condition `good`: a program it excludes may be
miscompiled, and `Verif.Flow.Refute` has one for every part of the condition. -/
theorem compiled_matches_python_partial (K : Nat) (ω : Nat → Nat) (N : Nat) (hN : 0 < N) (s : Stmt n)
    (c : Code n) (args : Fin n → Option Ty) (env : Fin n → Option Val)
    (hc : convFn H σ K s (VS.start args) = some c)
    (hg : good H σ K s Blocks.top (VS.start args) = true)
    (hs : s.Sound H) (ha : ArgsOK H σ args env) :
    runFn H ω N c env = pyFn H ω N s env := by
  unfold convFn at hc
  split at hc
  · simp at hc
  rename_i c0 A' r hcv
  simp only [Option.some.injEq] at hc
  subst hc
  let st : St n := { env, pos := 0, exc := false, flow := fun _ => .default, err := none,
                     info := none, rv := none }
  have hw : Blocks.top.WF := by intro l hl; simp [Blocks.top] at hl
  have h := sim (ω := ω) hN s Blocks.top hw _ _ _ _ hcv hg hs (fun _ => True) (fun _ _ => trivial)
    none st (args_slot ha) (args_cov ha) (fun _ => rfl)
  simp only [runFn, pyFn]
  change (run H ω N (.seq c0 (if r = true then Code.returnNone else Code.unreachable)) st).1 = _
  have hp : st.py = { env, pos := 0 } := rfl
  rw [hp] at h
  generalize py H ω N s none { env, pos := 0 } = y at h ⊢
  generalize hx : run H ω N c0 st = x at h
  obtain ⟨xo, xs⟩ := x
  obtain ⟨yo, ys⟩ := y
  by_cases hto : yo = .timeout
  · subst hto
    have : xo = .timeout := h.1 rfl
    subst this
    rw [run_seq_abn hx (by simp)]
  · have h2 := h.2 hto
    have hm := h2.out
    cases yo with
    | timeout => exact absurd rfl hto
    | normal =>
      have : xo = .normal := hm
      subst this
      rw [run_seq_normal hx, (h2.norm rfl).1]
      rfl
    | raised v =>
      have : xo = .raised v := hm
      subst this
      rw [run_seq_abn hx (by simp)]
    | returned v =>
      rcases hm with ⟨_, h3⟩ | ⟨l, h3, _⟩
      · simp only at h3
        subst h3
        rw [run_seq_abn hx (by simp)]
      · simp [Blocks.top] at h3
    | brk =>
      rcases hm with ⟨h3, _⟩
      simp [Blocks.top] at h3
    | cont =>
      rcases hm with ⟨h3, _⟩
      simp [Blocks.top] at h3

/-- C62, safety alone: the compiled function does not fault. -/
theorem compiled_never_faults_partial (K : Nat) (ω : Nat → Nat) (N : Nat) (hN : 0 < N) (s : Stmt n)
    (c : Code n) (args : Fin n → Option Ty) (env : Fin n → Option Val)
    (hc : convFn H σ K s (VS.start args) = some c)
    (hg : good H σ K s Blocks.top (VS.start args) = true)
    (hs : s.Sound H) (ha : ArgsOK H σ args env) :
    runFn H ω N c env ≠ .fault := by
  rw [compiled_matches_python_partial K ω N hN s c args env hc hg hs ha]
  unfold convFn at hc
  split at hc
  · simp at hc
  rename_i c0 A' r hcv
  let st : St n := { env, pos := 0, exc := false, flow := fun _ => .default, err := none,
                     info := none, rv := none }
  have hw : Blocks.top.WF := by intro l hl; simp [Blocks.top] at hl
  have h := sim (ω := ω) hN s Blocks.top hw _ _ _ _ hcv hg hs (fun _ => True) (fun _ _ => trivial)
    none st (args_slot ha) (args_cov ha) (fun _ => rfl)
  have hp : st.py = { env, pos := 0 } := rfl
  rw [hp] at h
  simp only [pyFn]
  generalize py H ω N s none { env, pos := 0 } = y at h ⊢
  obtain ⟨yo, ys⟩ := y
  cases yo with
  | brk =>
    have hm := (h.2 (by simp)).out
    rcases hm with ⟨h3, _⟩
    simp [Blocks.top] at h3
  | cont =>
    have hm := (h.2 (by simp)).out
    rcases hm with ⟨h3, _⟩
    simp [Blocks.top] at h3
  | _ => simp

/-! ### A case

```
def f(x: OneOf(None, int)):         # x is 0, y is 1, e is 2
    y = 0
    while y < <something>:
        if x is None:
            raise KeyError()
        try:
            y = x + y
            if y > <something>: break
        except ValueError:
            y = 1
        finally:
            <something>
    try:
        y = x + y
    except ValueError as e:
        <something>
    return y
```
-/

/-- class 0 is `Exception`, and the other classes derive from it -/
def exc : Hier where
  sub c d := c == d || d == 0
  refl := by simp
  trans := by intro a b c h1 h2; simp only [Bool.or_eq_true, beq_iff_eq] at *; omega

def zero : Expr 3 := { reads := [], ty := fun _ => some [.int], eval := fun _ _ => .ok (.prim (.int 0)) }
def one : Expr 3 := { reads := [], ty := fun _ => some [.int], eval := fun _ _ => .ok (.prim (.int 1)) }
/-- may raise `ValueError`, as the oracle decides -/
def something : Expr 3 :=
  { reads := [], ty := fun _ => some [.none]
    eval := fun _ k => if k % 7 = 0 then .error (.inst 2 0) else .ok .none }
def keyErr : Expr 3 := { reads := [], ty := fun _ => some [.cls 1], eval := fun _ _ => .ok (.inst 1 0) }
def sum : Expr 3 :=
  { reads := [0, 1], ty := fun _ => some [.int]
    eval := fun vs k => match vs with
      | [.prim (.int a), .prim (.int b)] => if k % 5 = 0 then .error (.inst 2 1) else .ok (.prim (.int (a + b)))
      | _ => .error (.inst 0 0) }
def readY : Expr 3 :=
  { reads := [1], ty := fun ts => ts.head?
    eval := fun vs _ => match vs with | [v] => .ok v | _ => .error (.inst 0 0) }
def lessY : Test 3 :=
  .cond [1] (fun _ => true) (fun _ => none)
    (fun vs k => match vs with | [.prim (.int a)] => .ok (a < k) | _ => .error (.inst 0 0))

def demo : Stmt 3 :=
  .seq (.assign 1 zero)
  (.seq (.whileS lessY
    (.seq (.ifS (.isNone 0 false (fun _ => none)) (.raiseE keyErr) .pass)
      (.tryS (.seq (.assign 1 sum) (.ifS lessY .pass .brk)) (.cons 2 none (.assign 1 one) .nil)
        .pass (.expr something))) .pass)
  (.seq (.tryS (.assign 1 sum) (.cons 2 (some 2) (.expr something) .nil) .pass .pass)
  (.ret readY)))

def demoSlots : Slots 3 := fun x => if x = 0 then some [.none, .int] else if x = 1 then some [.int]
  else some [.cls 2]

def demoArgs : Fin 3 → Option Ty := fun x => if x = 0 then some [.none, .int] else none

example : (convFn exc demoSlots 5 demo (VS.start demoArgs)).isSome = true := by decide +kernel
example : good exc demoSlots 5 demo Blocks.top (VS.start demoArgs) = true := by decide +kernel

example : demo.Sound exc := by
  have h0 : zero.Sound exc := by
    intro ts vs k v _ h
    simp only [zero, Except.ok.injEq] at h
    subst h; exact ⟨_, rfl, rfl⟩
  have h1 : one.Sound exc := by
    intro ts vs k v _ h
    simp only [one, Except.ok.injEq] at h
    subst h; exact ⟨_, rfl, rfl⟩
  have h2 : something.Sound exc := by
    intro ts vs k v _ h
    simp only [something] at h
    split at h
    · simp at h
    · simp only [Except.ok.injEq] at h
      subst h; exact ⟨_, rfl, rfl⟩
  have h3 : keyErr.Sound exc := by
    intro ts vs k v _ h
    simp only [keyErr, Except.ok.injEq] at h
    subst h; exact ⟨_, rfl, rfl⟩
  have h4 : sum.Sound exc := by
    intro ts vs k v _ h
    simp only [sum] at h
    split at h
    · split at h
      · simp at h
      · simp only [Except.ok.injEq] at h
        subst h; exact ⟨_, rfl, rfl⟩
    · simp at h
  have h5 : readY.Sound exc := by
    intro ts vs k v hts h
    simp only [readY] at h
    split at h
    · simp only [Except.ok.injEq] at h
      subst h
      cases ts with
      | nil => simp [hasTypes] at hts
      | cons t ts =>
        simp only [hasTypes, Bool.and_eq_true] at hts
        exact ⟨t, rfl, hts.1⟩
    · simp at h
  have h6 : lessY.Sound exc := by
    intro ts vs k b _ _
    exact ⟨rfl, fun b' h => by simp [lessY, Test.fold] at h⟩
  have h7 : (Test.isNone 0 false (fun _ => none) : Test 3).Sound exc := by
    intro ts vs k b _ _
    refine ⟨rfl, fun b' h => ?_⟩
    cases ts with
    | nil => simp [Test.fold] at h
    | cons t ts => cases ts <;> simp [Test.fold] at h
  simp only [demo, Stmt.Sound, Handlers.Sound]
  exact ⟨h0, ⟨h6, ⟨⟨h7, h3, trivial⟩, ⟨h4, h6, trivial, trivial⟩, ⟨h1, trivial⟩, trivial, h2⟩, trivial⟩,
    ⟨h4, ⟨h2, trivial⟩, trivial, trivial⟩, h5⟩

example : ArgsOK exc demoSlots demoArgs (fun x => if x = 0 then some (.prim (.int 3)) else none) where
  bound := by
    intro x t h
    simp only [demoArgs] at h
    split at h
    · rename_i hx; subst hx
      simp only [Option.some.injEq] at h; subst h
      exact ⟨.prim (.int 3), rfl, by decide⟩
    · simp at h
  unbound := by
    intro x h
    simp only [demoArgs] at h
    split at h
    · simp at h
    · rename_i hx; simp [hx]
  slot := by
    intro x t h
    simp only [demoArgs] at h
    split at h
    · rename_i hx; subst hx
      simp only [Option.some.injEq] at h; subst h
      decide
    · simp at h

end Verif.Flow.Props
