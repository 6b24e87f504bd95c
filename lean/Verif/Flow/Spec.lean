import Verif.Flow.Model
/-
What Python does with the same statements: a small separate specification. Variables are bound or
unbound, values have no static type, and there are no slots, flags or labels.
-/
namespace Verif.Flow

variable {n : Nat}

/-- The variables, and how many values have been taken from the oracle. -/
structure PSt (n : Nat) where
  env : Fin n → Option Val
  pos : Nat

/-- How a statement ends in Python. -/
inductive POut where
  | normal
  | brk
  | cont
  | raised (v : Val)
  | returned (v : Val)
  | timeout
  deriving DecidableEq, Repr

/-- Read variables from left to right; an unbound one raises `UnboundLocalError`. -/
def pyReads (env : Fin n → Option Val) : List (Fin n) → Except Val (List Val)
  | [] => .ok []
  | x :: xs =>
    match env x with
    | none => .error (unboundErr x)
    | some v =>
      match pyReads env xs with
      | .error w => .error w
      | .ok vs => .ok (v :: vs)

/-- Evaluate an expression or a condition: read its variables, then compute. -/
def pyEval (ω : Nat → Nat) (reads : List (Fin n)) (f : List Val → Nat → Except Val α) (st : PSt n) :
    Except Val α × PSt n :=
  match pyReads st.env reads with
  | .error v => (.error v, st)
  | .ok vs => (f vs (ω st.pos), { st with pos := st.pos + 1 })

/-- `while`: `break` leaves it without running `else`. -/
def pyLoop (test : PSt n → Except Val Bool × PSt n) (body orelse : PSt n → POut × PSt n) :
    Nat → PSt n → POut × PSt n
  | 0, st => (.timeout, st)
  | k + 1, st =>
    match test st with
    | (.error v, st') => (.raised v, st')
    | (.ok false, st') => orelse st'
    | (.ok true, st') =>
      match body st' with
      | (.normal, st'') => pyLoop test body orelse k st''
      | (.cont, st'') => pyLoop test body orelse k st''
      | (.brk, st'') => (.normal, st'')
      | r => r

/-- the exception that is active in a `finally` clause -/
def pending (cur : Option Val) : POut → Option Val
  | .raised v => some v
  | _ => cur

/-- what happened, when `finally` ended with the second argument -/
def afterFinal (o : POut) : POut × PSt n → POut × PSt n
  | (.normal, st) => (o, st)
  | r => r

/-- `finally` runs whatever happened before it; if it ends in any way but normally, that replaces
what happened before. -/
def pyFinally (cur : Option Val) (final : Option Val → PSt n → POut × PSt n) :
    POut × PSt n → POut × PSt n
  | (.timeout, st) => (.timeout, st)
  | (o, st) => afterFinal o (final (pending cur o) st)

mutual
/-- Run a statement. `cur` is the exception being handled, which a bare `raise` raises again. -/
def py (H : Hier) (ω : Nat → Nat) (N : Nat) : Stmt n → Option Val → PSt n → POut × PSt n
  | .pass, _, st => (.normal, st)
  | .seq a b, cur, st =>
    match py H ω N a cur st with
    | (.normal, st') => py H ω N b cur st'
    | r => r
  | .assign x e, _, st =>
    match pyEval ω e.reads e.eval st with
    | (.error v, st') => (.raised v, st')
    | (.ok v, st') => (.normal, { st' with env := setVar st'.env x (some v) })
  | .expr e, _, st =>
    match pyEval ω e.reads e.eval st with
    | (.error v, st') => (.raised v, st')
    | (.ok _, st') => (.normal, st')
  | .ret e, _, st =>
    match pyEval ω e.reads e.eval st with
    | (.error v, st') => (.raised v, st')
    | (.ok v, st') => (.returned v, st')
  | .raiseE e, _, st =>
    match pyEval ω e.reads e.eval st with
    | (.error v, st') => (.raised v, st')
    | (.ok v, st') => (.raised v, st')
  | .reraise, cur, st =>
    match cur with
    | none => (.raised noActiveErr, st)
    | some v => (.raised v, st)
  | .assertS t, _, st =>
    match pyEval ω t.reads (t.eval H) st with
    | (.error v, st') => (.raised v, st')
    | (.ok true, st') => (.normal, st')
    | (.ok false, st') => (.raised assertErr, st')
  | .ifS t a b, cur, st =>
    match pyEval ω t.reads (t.eval H) st with
    | (.error v, st') => (.raised v, st')
    | (.ok true, st') => py H ω N a cur st'
    | (.ok false, st') => py H ω N b cur st'
  | .whileS t a b, cur, st =>
    pyLoop (pyEval ω t.reads (t.eval H)) (py H ω N a cur) (py H ω N b cur) N st
  | .brk, _, st => (.brk, st)
  | .cont, _, st => (.cont, st)
  | .tryS body hs orelse final, cur, st =>
    pyFinally cur (py H ω N final)
      (match py H ω N body cur st with
       | (.normal, st') => py H ω N orelse cur st'
       | (.raised v, st') => pyHandlers H ω N hs v st'
       | r => r)
/-- The first handler whose class matches handles the exception; its name is bound to the exception
while it runs and unbound afterwards. Without a match the exception goes on. -/
def pyHandlers (H : Hier) (ω : Nat → Nat) (N : Nat) : Handlers n → Val → PSt n → POut × PSt n
  | .nil, v, st => (.raised v, st)
  | .cons c name body rest, v, st =>
    if inAtom H v (.cls c) then
      match name with
      | none => py H ω N body (some v) st
      | some x =>
        match py H ω N body (some v) { st with env := setVar st.env x (some v) } with
        | (.timeout, st') => (.timeout, st')
        | (o, st') => (o, { st' with env := setVar st'.env x none })
    else pyHandlers H ω N rest v st
end

/-- Call a Python function whose arguments are in `env`: what the caller sees. `fault` here stands
for `break` or `continue` outside a loop, which Python does not accept. -/
def pyFn (H : Hier) (ω : Nat → Nat) (N : Nat) (s : Stmt n) (env : Fin n → Option Val) : Out :=
  match (py H ω N s none { env, pos := 0 }).1 with
  | .normal => .returned .none
  | .returned v => .returned v
  | .raised v => .raised v
  | .timeout => .timeout
  | .brk => .fault
  | .cont => .fault

/-- each value has the type in the same place -/
def hasTypes (H : Hier) : List Val → List Ty → Bool
  | [], [] => true
  | v :: vs, t :: ts => inTy H v t && hasTypes H vs ts
  | _, _ => false

/-- What the types given to an expression promise: when the variables have the types assumed, a
value it yields has the type it was given. -/
def Expr.Sound (H : Hier) (e : Expr n) : Prop :=
  ∀ ts vs k v, hasTypes H vs ts = true → e.eval vs k = .ok v →
    ∃ t, e.ty ts = some t ∧ inTy H v t = true

/-- The same for a condition: it is a constant only if it has that value. -/
def Test.Sound (H : Hier) (t : Test n) : Prop :=
  ∀ ts vs k b, hasTypes H vs ts = true → t.eval H vs k = .ok b →
    t.ok ts = true ∧ ∀ b', t.fold ts = some b' → b = b'

mutual
/-- Every expression and condition of the statement is sound. -/
def Stmt.Sound (H : Hier) : Stmt n → Prop
  | .pass | .reraise | .brk | .cont => True
  | .seq a b => a.Sound H ∧ b.Sound H
  | .assign _ e => e.Sound H
  | .expr e | .ret e | .raiseE e => e.Sound H
  | .assertS t => t.Sound H
  | .ifS t a b => t.Sound H ∧ a.Sound H ∧ b.Sound H
  | .whileS t a b => t.Sound H ∧ a.Sound H ∧ b.Sound H
  | .tryS body hs orelse final => body.Sound H ∧ hs.Sound H ∧ orelse.Sound H ∧ final.Sound H
def Handlers.Sound (H : Hier) : Handlers n → Prop
  | .nil => True
  | .cons _ _ body rest => body.Sound H ∧ rest.Sound H
end

end Verif.Flow
