import Verif.Loops.Props
/-
C57: programs that are compiled rightly, and programs that are not.
-/
namespace Verif.Loops.Demo
open Verif.Gen Verif.Loops

/-- The variables of the programs below: a list `l`, a tuple `t` of two numbers, the number of items
`left` that an iterator will yet produce, the target `x`, and what has been appended to `out`. -/
structure Vars where
  l : List Nat
  t : Nat × Nat
  left : Nat
  x : Nat
  out : List Nat
deriving DecidableEq, Repr

/-- Sequences: the list, or `range(n)`. -/
inductive Seq where
  | list
  | range (n : Nat)

/-- How these are iterated over. -/
def iter : Iter Vars Unit Nat Seq (Nat × Nat) Unit Nat where
  size | .list, s => s.l.length | .range n, _ => n
  item
    | .list, i => fun s =>
      match s.l[i]? with
      | some x => (s, .ok x)
      | none => (s, .error (.other ()))
    | .range _, i => fun s => (s, .ok i)
  elem | (a, _), 0 => a | (_, b), _ => b
  step _ := fun s => if s.left = 0 then (s, .ok none) else ({ s with left := s.left - 1 }, .ok s.left)

/-- What memory behind the end of a list contains. -/
def garbage : Nat := 777

/-- `__typed_python_int_iter_value__` (tuple_of_wrapper.py:439-443) does not check the index. -/
def value : Seq → Nat → Act Vars Unit Nat Nat
  | .list, i => fun s => (s, .ok (s.l[i]?.getD garbage))
  | .range _, i => fun s => (s, .ok i)

/-- It is right for the items that there are. -/
theorem value_item : ∀ q i s, i < iter.size q s → value q i s = iter.item q i s
  | .list, i, s, h => by
    have h' : i < s.l.length := h
    simp only [value, iter, List.getElem?_eq_getElem h', Option.getD_some]
  | .range _, _, _, _ => rfl

abbrev S := Stmt Vars Unit Nat Seq (Nat × Nat) Unit Nat
abbrev B := Block Vars Unit Nat Seq (Nat × Nat) Unit Nat

/-- A list of statements. -/
def blk : List S → B
  | [] => .nil
  | s :: r => .cons s (blk r)

/-- The target `x`. -/
def target (x : Nat) : Act Vars Unit Nat Unit := fun s => ({ s with x := x }, .ok ())
/-- An assignment. -/
def set (f : Vars → Vars) : S := .prim (fun s => (f s, .ok ()))
/-- `out.append(x)` -/
def append : S := set (fun s => { s with out := s.out ++ [s.x] })
/-- `if test: body` -/
def when (t : Vars → Bool) (b : List S) : S := .ite (fun s => (s, .ok (t s))) (blk b) .nil
/-- `return n` -/
def retN (n : Nat) : S := .ret (fun s => (s, .ok n))
/-- An expression with this value. -/
def lit {α : Type} (a : α) : Act Vars Unit Nat α := fun s => (s, .ok a)

/-- How a call ends, for comparison: the value returned or `none` when it does not return, and
`out`. -/
def obs : Option (Fin Unit Nat × Vars) → Option (Option (Option Nat) × List Nat)
  | none => none
  | some (.value v, s) => some (some v, s.out)
  | some (_, s) => some (none, s.out)

def start (l : List Nat) : Vars := { l := l, t := (1, 2), left := 3, x := 0, out := [] }
def py (b : List S) (l : List Nat) := obs (call iter 20 (blk b) (start l))
def nat (b : List S) (l : List Nat) := obs (callCompiled iter value 20 (blk b) (start l))

/-! ### A program that is compiled rightly -/

/-- ```
for x in l:
    if x == 3: continue
    if x > 4: break
    for x in t:
        out.append(x)
    else:
        out.append(x)
while left > 2:
    for x in it:
        out.append(x)
        if x == 2: break
    else:
        return 1
return 7
``` -/
def good : List S :=
  [.forSeq 1 (lit .list) target
    (blk [when (fun s => s.x == 3) [.cont], when (fun s => decide (s.x > 4)) [.brk],
      .forVar 2 (fun s => s.t) target (blk [append]) (blk [append])]) .nil,
   .whl (fun s => (s, .ok (decide (s.left > 2))))
    (blk [.forIter 8 (lit ()) target (blk [append, when (fun s => s.x == 2) [.brk]]) (blk [retN 1])])
    .nil,
   retN 7]

example : py good [1, 3, 2, 5, 6] = some (some (some 7), [1, 2, 2, 1, 2, 2, 3, 2]) := by
  decide +kernel

/-- What does not change `l` and `t`. -/
def Keeps (r : Res Vars Unit Nat Empty) (s : Vars) : Prop :=
  ∀ o s', r = some (o, s') → s'.l = s.l ∧ s'.t = s.t

theorem append_keeps (N : Nat) (s : Vars) : Keeps (execB iter N (blk [append]) s) s := by
  intro o s' h
  have : execB iter N (blk [append]) s = some (.norm, { s with out := s.out ++ [s.x] }) := rfl
  rw [this] at h
  cases h
  exact ⟨rfl, rfl⟩

theorem inner_keeps (N : Nat) (s : Vars) : Keeps (execB iter N (blk
      [when (fun s => s.x == 3) [.cont], when (fun s => decide (s.x > 4)) [.brk],
      .forVar 2 (fun s => s.t) target (blk [append]) (blk [append])]) s) s := by
  intro o s' h
  have e : execB iter N (blk
      [when (fun s => s.x == 3) [.cont], when (fun s => decide (s.x > 4)) [.brk],
      .forVar 2 (fun s => s.t) target (blk [append]) (blk [append])]) s =
      seqR (fun s => seqR (fun s => some (.norm, { s with x := s.t.2, out := s.out ++ [s.t.1] ++ [s.t.2] ++ [s.t.2] }))
        (if decide (s.x > 4) then some (.brk, s) else some (.norm, s)))
        (if (s.x == 3) then some (.cont, s) else some (.norm, s)) := by
    cases h1 : (s.x == 3) <;> cases h2 : decide (s.x > 4) <;>
      simp [blk, execB, exec, when, condR, seqR, listFor, items, append, set, bindR, target, againR,
        List.range_succ, iter, h1, h2] <;> simp_all
  rw [e] at h
  cases h1 : (s.x == 3) <;> cases h2 : decide (s.x > 4) <;> simp [h1, h2, seqR] at h <;>
    first
    | (obtain ⟨_, rfl⟩ := h; exact ⟨rfl, rfl⟩)
    | (simp_all)

/-- The hypotheses of `loops_compiled_as_python_partial` hold of that program. -/
theorem good_is_good : (blk good).Good iter := by
  refine ⟨⟨?_, ?_, rfl, ?_⟩, ⟨?_, trivial, rfl, .inl rfl⟩, trivial, trivial⟩
  · refine ⟨⟨⟨trivial, trivial⟩, trivial⟩, ⟨⟨trivial, trivial⟩, trivial⟩, ⟨⟨trivial, trivial⟩,
      ⟨trivial, trivial⟩, ⟨rfl, .inl rfl, .inr (.inl rfl)⟩, ?_⟩, trivial⟩
    intro N i s s₁ s₂ o _ ht hb _
    cases ht
    exact (append_keeps N _ o s₂ hb).2
  · decide
  · refine ⟨fun q n s => q = .list ∧ s.l.length = n, ?_, ?_, ?_⟩
    · intro s s' q h; cases h; exact ⟨rfl, rfl⟩
    · intro q n s h; obtain ⟨rfl, h⟩ := h; exact h
    · intro N q n i s x s₁ s₂ s₃ o hj hi hx ht hb _
      obtain ⟨rfl, hl⟩ := hj
      refine ⟨rfl, ?_⟩
      have h1 : s₁ = s := by
        simp only [iter] at hx
        split at hx
        · cases hx; rfl
        · cases hx
      cases ht
      subst h1
      rw [(inner_keeps N _ o s₃ hb).1]
      exact hl
  · exact ⟨⟨⟨trivial, ⟨⟨trivial, trivial⟩, trivial⟩, trivial⟩, ⟨trivial, trivial⟩,
      ⟨rfl, .inl rfl⟩, by decide⟩, trivial⟩

/-- It runs as in Python, on every list. -/
theorem good_runs (N : Nat) (s : Vars) :
    callCompiled iter value N (blk good) s = call iter N (blk good) s :=
  loops_compiled_as_python_partial iter value value_item (blk good) good_is_good N s

/-! ### Programs that are not -/

/-- `for x in range(2): out.append(x)`, `else: out.append(x)`: the `else` clause does not run. -/
def elseRange : List S :=
  [.forSeq 1 (lit (.range 2)) target (blk [append]) (blk [append]), retN 0]

theorem else_over_range :
    py elseRange [] = some (some (some 0), [0, 1, 1]) ∧
    nat elseRange [] = some (some (some 0), [0, 1]) := by
  constructor <;> decide +kernel

/-- A list that grows while it is iterated over: `for x in l: out.append(x)`, and
`if x < 3: l.append(x + 1)`.  Only the items that were there at the beginning are visited. -/
def growing : List S :=
  [.forSeq 1 (lit .list) target
    (blk [append, when (fun s => decide (s.x < 3)) [set (fun s => { s with l := s.l ++ [s.x + 1] })]])
    .nil]

theorem growing_list :
    py growing [1] = some (some none, [1, 2, 3]) ∧ nat growing [1] = some (some none, [1]) := by
  constructor <;> decide +kernel

/-- A list that shrinks while it is iterated over: `for x in l: out.append(x); l.pop()`.  Memory
behind its end is read. -/
def shrinking : List S :=
  [.forSeq 1 (lit .list) target (blk [append, set (fun s => { s with l := s.l.dropLast })]) .nil]

theorem shrinking_list :
    py shrinking [1, 2, 3] = some (some none, [1, 2]) ∧
    nat shrinking [1, 2, 3] = some (some none, [1, 2, garbage]) := by
  constructor <;> decide +kernel

/-- `for x in t: if x == 2: break`, `else: return 0`, then `return 1`.  The compiler takes it that
what comes after the loop is never reached and leaves it out; when `break` leaves the loop, the
program runs into `Unreachable`. -/
def search : List S :=
  [.forVar 2 (fun s => s.t) target (blk [when (fun s => s.x == 2) [.brk]]) (blk [retN 0]), retN 1]

theorem code_after_search_dropped :
    py search [] = some (some (some 1), []) ∧ nat search [] = some (none, []) := by
  constructor <;> decide +kernel

/-- `for x in t: if x == 1: break`, `return 0` in the loop, then `return 1`. -/
def leave : List S :=
  [.forVar 2 (fun s => s.t) target (blk [when (fun s => s.x == 1) [.brk], retN 0]) .nil, retN 1]

theorem code_after_break_dropped :
    py leave [] = some (some (some 1), []) ∧ nat leave [] = some (none, []) := by
  constructor <;> decide +kernel

/-- `for x in t: if x == 1: continue`, then `return x` in the loop: no second round. -/
def skip : List S :=
  [.forVar 2 (fun s => s.t) target
    (blk [when (fun s => s.x == 1) [.cont], .ret (fun s => (s, .ok s.x))]) .nil, retN 0]

theorem round_after_continue_dropped :
    py skip [] = some (some (some 2), []) ∧ nat skip [] = some (none, []) := by
  constructor <;> decide +kernel

/-- The same with an iterator: `for x in it: if x == 3: break`, `return 0` in the loop,
`else: return 2`, then `return 1`. -/
def leaveIter : List S :=
  [.forIter 1 (lit ()) target (blk [when (fun s => s.x == 3) [.brk], retN 0]) (blk [retN 2]), retN 1]

theorem code_after_iteration_dropped :
    py leaveIter [] = some (some (some 1), []) ∧ nat leaveIter [] = some (none, []) := by
  constructor <;> decide +kernel

/-- `while left > 0: left -= 1`, then in the loop `for x in t: out.append(x)`, `else: break`.  The
`break` is meant for the `while`, and leaves only the `for`. -/
def breakInElse : List S :=
  [.whl (fun s => (s, .ok (decide (s.left > 0))))
    (blk [set (fun s => { s with left := s.left - 1 }),
      .forVar 2 (fun s => s.t) target (blk [append]) (blk [.brk])]) .nil]

theorem break_in_else_of_for_absorbed :
    py breakInElse [] = some (some none, [1, 2]) ∧
    nat breakInElse [] = some (some none, [1, 2, 1, 2, 1, 2]) := by
  constructor <;> decide +kernel

/-- `for x in t: out.append(x); t = (8, 9)`: the second item is that of the new tuple. -/
def reassigned : List S :=
  [.forVar 2 (fun s => s.t) target (blk [append, set (fun s => { s with t := (8, 9) })]) .nil]

theorem tuple_variable_reassigned :
    py reassigned [] = some (some none, [1, 2]) ∧ nat reassigned [] = some (some none, [1, 9]) := by
  constructor <;> decide +kernel

/-- Two loops on one line, as in code that is generated: the inner loop ends the outer one. -/
def sameLine : List S :=
  [.forSeq 1 (lit (.range 2)) target (blk [.forSeq 1 (lit (.range 2)) target (blk [append]) .nil])
    .nil]

theorem loops_on_one_line :
    py sameLine [] = some (some none, [0, 1, 0, 1]) ∧
    nat sameLine [] = some (some none, [0, 1]) := by
  constructor <;> decide +kernel

/-- C57 `loops_compiled_as_python_refuted`: the statement of `loops_compiled_as_python_partial`
without `Block.Good` is false. -/
theorem loops_compiled_as_python_refuted :
    ¬ ∀ (σ E V Q T I X : Type) (p : Iter σ E V Q T I X) (value : Q → Nat → Act σ E V X),
      (∀ q i s, i < p.size q s → value q i s = p.item q i s) →
      ∀ (b : Block σ E V Q T I X) (N : Nat) (s : σ),
        callCompiled p value N b s = call p N b s := by
  intro h
  have h1 := h _ _ _ _ _ _ _ iter value value_item (blk elseRange) 20 (start [])
  have h2 : nat elseRange [] = py elseRange [] := congrArg obs h1
  rw [else_over_range.1, else_over_range.2] at h2
  revert h2
  decide

end Verif.Loops.Demo
