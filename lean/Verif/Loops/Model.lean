import Verif.Loops.Spec
/-
How the compiler converts loops in functions that are not generators
(typed_python/compiler/function_conversion_context.py).

The native code is given by its meaning.  A jump to the label `loop_break` or `loop_continue` is
the outcome `brk` or `cont`; a label is a place where that outcome becomes `norm`.
-/
namespace Verif.Loops
open Verif.Gen

variable {σ E V Q T I X P α : Type}

/-- The hidden variables of the loop on one line: `.iterate_over`, `.iteratorMaxValue`,
`.iteratorValue`, `.triggerElse` (for_loop_codegen.py:220-222,
function_conversion_context.py:2224) and `.iter` (function_conversion_context.py:2237).  The
names of `.iteratorMaxValue` and so on contain the line of the target, which is taken to be that of
the loop. -/
structure HVars (Q I : Type) where
  over : Option Q
  max : Nat
  idx : Nat
  trigger : Bool
  iter : Option I

/-- The hidden variables. -/
abbrev Hid (Q I : Type) := Nat → HVars Q I

/-- No hidden variable has been assigned. -/
def Hid.empty : Hid Q I := fun _ => ⟨none, 0, 0, false, none⟩

/-- Assign hidden variables. -/
def Hid.set (h : Hid Q I) (k : Nat) (f : HVars Q I → HVars Q I) : Hid Q I :=
  fun k' => if k' = k then f (h k) else h k'

/-- The native state. -/
abbrev G (σ Q I : Type) := σ × Hid Q I

/-- An expression that does not mention hidden variables. -/
def up (f : Act σ E V α) : G σ Q I → G σ Q I × Except (Exc E V) α :=
  fun g => (((f g.1).1, g.2), (f g.1).2)

/-- `withReturnTargetName("loop_break")` (native_ast.py:524-528). -/
def labelBreak {S : Type} : Res S E V P → Res S E V P
  | some (.brk, s) => some (.norm, s)
  | r => r

/-- `withReturnTargetName("loop_continue")` (native_ast.py:524-528). -/
def labelContinue {S : Type} : Res S E V P → Res S E V P
  | some (.cont, s) => some (.norm, s)
  | r => r

/-- `native_ast.Expression.While`, at most `n` evaluations of the condition.  `cond` may do
things before it decides (function_conversion_context.py:2286-2288), which may raise. -/
def nativeWhile {S : Type} (cond : S → S × Except (Exc E V) Bool) (body orelse : S → Res S E V P) :
    Nat → S → Res S E V P
  | 0, _ => none
  | n + 1, s => condR cond (fun s' => seqR (nativeWhile cond body orelse n) (body s')) orelse s

mutual
/-- The flag that `convert_statement_ast` returns: whether control flow may come to the end of
the statement.  Conditions that are constant are not modelled. -/
def Stmt.flows : Stmt σ E V Q T I X → Bool
  | .prim _ => true
  /- function_conversion_context.py:1600-1607 -/
  | .ite _ b o => b.flows || o.flows
  /- function_conversion_context.py:1672 -/
  | .whl _ b o => b.flows || o.flows
  /- function_conversion_context.py:2234: that of the statements of `rewriteIntiterForLoop`, a
  `while` without `else` and an `if` without `else` -/
  | .forSeq _ _ _ _ _ => true
  /- function_conversion_context.py:2199-2203, 2215 -/
  | .forTup n _ _ b o => (n == 0 || b.flows) && o.flows
  | .forVar n _ _ b o => (n == 0 || b.flows) && o.flows
  /- function_conversion_context.py:2315 -/
  | .forIter _ _ _ b o => b.flows || o.flows
  /- function_conversion_context.py:2081-2083, 2099-2101 -/
  | .brk => true
  | .cont => true
  | .ret _ => false
/-- The flag for a list of statements (function_conversion_context.py:2523-2544). -/
def Block.flows : Block σ E V Q T I X → Bool
  | .nil => true
  | .cons s r => s.flows && r.flows
end

/-- The code of an unrolled loop (function_conversion_context.py:2186-2213): `get k` assigns the
`k`-th item to the target; the code for the body is repeated until it does not come to its end. -/
def unrolled {S : Type} (get : Nat → S → S × Except (Exc E V) Unit) (bodyFlows : Bool)
    (body orelse : S → Res S E V P) : List Nat → S → Res S E V P
  | [], s => orelse s
  | k :: l, s => bindR (get k) (fun _ s' =>
      if bodyFlows then
        seqR (unrolled get bodyFlows body orelse l) (labelContinue (body s'))
      else labelContinue (body s')) s

/-- Assign a hidden variable. -/
def hset (k : Nat) (e : HVars Q I → Act σ E V α) (put : α → HVars Q I → HVars Q I) :
    G σ Q I → G σ Q I × Except (Exc E V) Unit := fun g =>
  match e (g.2 k) g.1 with
  | (s', .error x) => ((s', g.2), .error x)
  | (s', .ok a) => ((s', g.2.set k (put a)), .ok ())

/-- A pure expression. -/
def con (a : α) : Act σ E V α := fun s => (s, .ok a)

/-- Reading a variable that has no value raises; it never happens here. -/
def getOr {α β : Type} (o : Option α) (f : α → Act σ E V β) : Act σ E V β :=
  match o with
  | some a => f a
  | none => fun s => (s, .error .noActive)

/-- The simple statement `f`, then `k`. -/
def thenR {S : Type} (f : S → S × Except (Exc E V) Unit) (k : S → Res S E V P) : S → Res S E V P :=
  bindR f (fun _ => k)

/-- `value < max` (for_loop_codegen.py:232). -/
def seqTest (k : Nat) : G σ Q I → G σ Q I × Except (Exc E V) Bool :=
  fun g => (g, .ok (decide ((g.2 k).idx < (g.2 k).max)))

/-- Assign the item at the current index to the target (for_loop_codegen.py:235-241).  `value` is
`__typed_python_int_iter_value__`, which need not check that there is such an item
(tuple_of_wrapper.py:439-443). -/
def seqItem (value : Q → Nat → Act σ E V X) (k : Nat) (target : X → Act σ E V Unit) :
    G σ Q I → G σ Q I × Except (Exc E V) Unit :=
  fun g => up (getOr (g.2 k).over (fun q s =>
    match value q (g.2 k).idx s with
    | (s', .error x) => (s', .error x)
    | (s', .ok x) => target x s')) g

/-- `value += 1` (for_loop_codegen.py:242). -/
def seqNext (k : Nat) : G σ Q I → G σ Q I × Except (Exc E V) Unit :=
  hset k (fun _ => con ()) (fun _ v => { v with idx := v.idx + 1 })

/-- The `while` loop that `rewriteIntiterForLoop` makes (for_loop_codegen.py:231-244), as it is
converted. -/
def seqWhile (value : Q → Nat → Act σ E V X) (N : Nat) (k : Nat)
    (target : X → Act σ E V Unit) (body : G σ Q I → Res (G σ Q I) E V P) :
    G σ Q I → Res (G σ Q I) E V P :=
  fun g => labelBreak (nativeWhile (seqTest k)
    (fun g => labelContinue (thenR (seqItem value k target) (thenR (seqNext k) body) g))
    (fun g => some (.norm, g)) N g)

/-- A loop over a sequence (function_conversion_context.py:2217-2234): the code for
`rewriteIntiterForLoop` (for_loop_codegen.py:218-250). -/
def seqCode (p : Iter σ E V Q T I X) (value : Q → Nat → Act σ E V X) (N : Nat) (k : Nat)
    (it : Act σ E V Q) (target : X → Act σ E V Unit) (body orelse : G σ Q I → Res (G σ Q I) E V P) :
    G σ Q I → Res (G σ Q I) E V P :=
  thenR (hset k (fun _ => it) (fun q v => { v with over := some q }))
    (thenR (hset k (fun v => getOr v.over (fun q s => (s, .ok (p.size q s))))
        (fun n v => { v with max := n }))
      (thenR (hset k (fun _ => con ()) (fun _ v => { v with idx := 0 }))
        (thenR (hset k (fun _ => con ()) (fun _ v => { v with trigger := false }))
          (fun g => seqR
            (condR (fun g => (g, .ok (g.2 k).trigger)) orelse (fun g => some (.norm, g)))
            (seqWhile value N k target body g)))))

/-- The condition of a loop over an iterator (function_conversion_context.py:2278-2288): the next
item is assigned to the target if there is one. -/
def iterCond (p : Iter σ E V Q T I X) (target : X → Act σ E V Unit) (i : I) : Act σ E V Bool :=
  fun s =>
    match p.step i s with
    | (s', .error x) => (s', .error x)
    | (s', .ok none) => (s', .ok false)
    | (s', .ok (some x)) =>
      match target x s' with
      | (s'', .error e) => (s'', .error e)
      | (s'', .ok _) => (s'', .ok true)

/-- That condition, of the iterator in the hidden variable. -/
def iterTest (p : Iter σ E V Q T I X) (k : Nat) (target : X → Act σ E V Unit) :
    G σ Q I → G σ Q I × Except (Exc E V) Bool :=
  fun g => up (getOr (g.2 k).iter (iterCond p target)) g

/-- A loop over an iterator (function_conversion_context.py:2236-2243, 2264-2316). -/
def iterCode (p : Iter σ E V Q T I X) (N : Nat) (k : Nat) (it : Act σ E V I)
    (target : X → Act σ E V Unit) (body orelse : G σ Q I → Res (G σ Q I) E V P) :
    G σ Q I → Res (G σ Q I) E V P :=
  thenR (hset k (fun _ => it) (fun i v => { v with iter := some i }))
    (fun g => labelBreak (nativeWhile (iterTest p k target)
      (fun g => labelContinue (body g)) orelse N g))

mutual
/-- `convert_statement_ast` (function_conversion_context.py:1564-1673, 1899-1945, 2081-2110,
2177-2316), for values that are not of a `OneOf` type. -/
def lower (p : Iter σ E V Q T I X) (value : Q → Nat → Act σ E V X) (N : Nat) :
    Stmt σ E V Q T I X → G σ Q I → Res (G σ Q I) E V Empty
  | .prim f, g => bindR (up f) (fun _ g' => some (.norm, g')) g
  | .ite t b o, g => condR (up t) (lowerB p value N b) (lowerB p value N o) g
  | .whl t b o, g =>
    labelBreak (nativeWhile (up t) (fun g => labelContinue (lowerB p value N b g))
      (lowerB p value N o) N g)
  | .forSeq k it target b o, g =>
    seqCode p value N k it target (lowerB p value N b) (lowerB p value N o) g
  | .forTup n it target b o, g =>
    bindR (up it) (fun t g => labelBreak (unrolled (fun k => up (target (p.elem t k))) b.flows
      (lowerB p value N b) (lowerB p value N o) (List.range n) g)) g
  | .forVar n read target b o, g =>
    labelBreak (unrolled (fun k => up (fun s => target (p.elem (read s) k) s)) b.flows
      (lowerB p value N b) (lowerB p value N o) (List.range n) g)
  | .forIter k it target b o, g =>
    iterCode p N k it target (lowerB p value N b) (lowerB p value N o) g
  | .brk, g => some (.brk, g)
  | .cont, g => some (.cont, g)
  | .ret e, g => bindR (up e) (fun v g' => some (.ret (some v), g')) g
/-- `convert_statement_list_ast` (function_conversion_context.py:2465-2545): the statements after
one that does not come to its end are left out. -/
def lowerB (p : Iter σ E V Q T I X) (value : Q → Nat → Act σ E V X) (N : Nat) :
    Block σ E V Q T I X → G σ Q I → Res (G σ Q I) E V Empty
  | .nil, g => some (.norm, g)
  | .cons s r, g =>
    if s.flows then seqR (lowerB p value N r) (lower p value N s g) else lower p value N s g
end

/-- Call a compiled function (function_conversion_context.py:2535-2542, 2546-2564): code that may
come to its end returns `None` there, other code ends in `Unreachable`. -/
def callCompiled (p : Iter σ E V Q T I X) (value : Q → Nat → Act σ E V X) (N : Nat)
    (b : Block σ E V Q T I X) (s : σ) : Option (Fin E V × σ) :=
  match lowerB p value N b (s, Hid.empty) with
  | none => none
  | some (.norm, g) => some (if b.flows then .value none else .lost, g.1)
  | some (.ret v, g) => some (.value v, g.1)
  | some (.exc e, g) => some (.raised e, g.1)
  | some (_, g) => some (.lost, g.1)

end Verif.Loops
