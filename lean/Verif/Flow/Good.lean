import Verif.Flow.Spec
/-
The programs for which the conversion is proved to agree with Python. Each condition excludes a
program on which the generated code does something else; Refute.lean shows the programs.
-/
namespace Verif.Flow

variable {n : Nat}

mutual
/-- the variables a statement reads, assigns, tests or binds in an `except` clause -/
def Stmt.mentions : Stmt n → Fin n → Bool
  | .pass, _ | .reraise, _ | .brk, _ | .cont, _ => false
  | .seq a b, x => a.mentions x || b.mentions x
  | .assign y e, x => y == x || e.reads.contains x
  | .expr e, x | .ret e, x | .raiseE e, x => e.reads.contains x
  | .assertS t, x => t.reads.contains x
  | .ifS t a b, x => t.reads.contains x || a.mentions x || b.mentions x
  | .whileS t a b, x => t.reads.contains x || a.mentions x || b.mentions x
  | .tryS body hs orelse final, x =>
    body.mentions x || hs.mentions x || orelse.mentions x || final.mentions x
def Handlers.mentions : Handlers n → Fin n → Bool
  | .nil, _ => false
  | .cons _ name body rest, x => name == some x || body.mentions x || rest.mentions x
end

mutual
/-- the variables bound by an `except` clause somewhere in the statement -/
def Stmt.hnames : Stmt n → Fin n → Bool
  | .seq a b, x | .ifS _ a b, x | .whileS _ a b, x => a.hnames x || b.hnames x
  | .tryS body hs orelse final, x =>
    body.hnames x || hs.hnames x || orelse.hnames x || final.hnames x
  | _, _ => false
def Handlers.hnames : Handlers n → Fin n → Bool
  | .nil, _ => false
  | .cons _ name body rest, x => name == some x || body.hnames x || rest.hnames x
end

/-- no `try` anywhere in the statement -/
def Stmt.noTry : Stmt n → Bool
  | .seq a b | .ifS _ a b | .whileS _ a b => a.noTry && b.noTry
  | .tryS _ _ _ _ => false
  | _ => true

def Handlers.noTry : Handlers n → Bool
  | .nil => true
  | .cons _ _ body rest => body.noTry && rest.noTry

def Handlers.isNil : Handlers n → Bool
  | .nil => true
  | .cons _ _ _ _ => false

mutual
/-- contains a `break` that leaves the statement -/
def Stmt.freeBrk : Stmt n → Bool
  | .brk => true
  | .seq a b | .ifS _ a b => a.freeBrk || b.freeBrk
  | .whileS _ _ b => b.freeBrk
  | .tryS body hs orelse final => body.freeBrk || hs.freeBrk || orelse.freeBrk || final.freeBrk
  | _ => false
def Handlers.freeBrk : Handlers n → Bool
  | .nil => false
  | .cons _ _ body rest => body.freeBrk || rest.freeBrk
end

mutual
/-- contains a `continue` that leaves the statement -/
def Stmt.freeCont : Stmt n → Bool
  | .cont => true
  | .seq a b | .ifS _ a b => a.freeCont || b.freeCont
  | .whileS _ _ b => b.freeCont
  | .tryS body hs orelse final => body.freeCont || hs.freeCont || orelse.freeCont || final.freeCont
  | _ => false
def Handlers.freeCont : Handlers n → Bool
  | .nil => false
  | .cons _ _ body rest => body.freeCont || rest.freeCont
end

/-- contains a bare `raise` that refers to the exception being handled around the statement -/
def Stmt.usesReraise : Stmt n → Bool
  | .reraise => true
  | .seq a b | .ifS _ a b | .whileS _ a b => a.usesReraise || b.usesReraise
  | .tryS body _ orelse final => body.usesReraise || orelse.usesReraise || final.usesReraise
  | _ => false

def Stmt.isPass : Stmt n → Bool
  | .pass => true
  | _ => false

def boolConst : Atom → Bool
  | .const (.bool _) => true
  | _ => false

/-- The type contains the value, other than by `Value(True)` or `Value(False)`. -/
def safeIn (H : Hier) (v : Val) (t : Ty) : Bool := t.any (fun a => inAtom H v a && !boolConst a)

/-- The slot of `x` holds values of type `t`: adding `t` to its type does not change it. The code
repeats the conversion of a function until this is so for every assignment
(function_conversion_context.py:729-747, python_to_native_converter.py:442-445). -/
def settled (H : Hier) (σ : Slots n) (x : Fin n) (t : Ty) : Bool :=
  match σ x with
  | none => false
  | some s => mergeTypes H [some s, some t] == some s && t.all (fun a => !boolConst a)

/-- The condition's effect on the type of its variable is right: `isinstance(x, int)` is not asked
of something that may be a bool. -/
def exactTest (H : Hier) (σ : Slots n) (A : VS n) : Test n → Bool
  | .isinst x T _ =>
    !boolConst T && (T != .int ||
      match σ x with
      | none => true
      | some s => (recast H s (A.current x)).all (fun a =>
          !inAtom H (.prim (.bool true)) a && !inAtom H (.prim (.bool false)) a))
  | _ => true

/-- function_conversion_context.py:1613: the state a loop's conversion ends with at its head -/
def fixHead (pass : VS n → Option (Pass n)) : Nat → VS n → Option (VS n)
  | 0, _ => none
  | k + 1, A =>
    match pass A with
    | none => none
    | some (.done _) => some A
    | some (.again A') => fixHead pass k A'

mutual
/-- The conditions. -/
def good (H : Hier) (σ : Slots n) (K : Nat) : Stmt n → Blocks → VS n → Bool
  | .pass, _, _ | .expr _, _, _ | .ret _, _, _ | .raiseE _, _, _ | .reraise, _, _ => true
  | .seq s₁ s₂, b, A =>
    good H σ K s₁ b A &&
    (match conv H σ K s₁ b A with
     | some (_, A₁, true) => good H σ K s₂ b A₁ && (!s₂.usesReraise || s₁.noTry)
     | _ => true)
  | .assign x e, _, A =>
    match (convExpr H σ A e).2 with
    | none => true
    | some t => settled H σ x t
  | .assertS t, _, A => exactTest H σ A t
  | .ifS t a c, b, A =>
    match convTest H σ A t with
    | (_, false, _) => true
    | (_, true, some true) => good H σ K a b A
    | (_, true, some false) => good H σ K c b A
    | (_, true, none) =>
      exactTest H σ A t && good H σ K a b (restrictBy H A t true) &&
        good H σ K c b (restrictBy H A t false)
  | .whileS t a c, b, A =>
    match fixHead (whilePass H σ t (conv H σ K a b.pushLoop) (conv H σ K c b)) K A with
    | none => true
    | some I =>
      match convTest H σ I t with
      | (_, false, _) => true
      | (_, true, some false) => good H σ K c b I
      | (_, true, _) =>
        exactTest H σ I t && good H σ K a b.pushLoop (restrictBy H I t true) &&
        good H σ K c b (restrictBy H I t false) && !c.freeBrk &&
        (!(a.usesReraise || c.usesReraise) || a.noTry) &&
        (!(a.freeBrk || a.freeCont) ||
          ((match conv H σ K a b.pushLoop (restrictBy H I t true),
                  conv H σ K c b (restrictBy H I t false) with
            | some (_, _, rt), some (_, _, rf) => rt || rf
            | _, _ => true) &&
           decide (∀ x, (I.defInit x → a.hnames x = false) ∧
             (narrowable (σ x) → a.assigns x = false ∧ a.hnames x = false))))
  | .brk, b, _ | .cont, b, _ => b.inLoopEver
  | .tryS body hs orelse final, b, A =>
    match conv H σ K body (b.pushTry (.endTry b.depth)) A with
    | none => true
    | some (_, A₁, _) =>
      match convHandlers H σ K hs (b.pushTry (.endTry b.depth)) (A.enterHandlers σ body.assigns) A₁ with
      | none => true
      | some (_, A₁') =>
        match conv H σ K orelse (b.pushTry (.endTry b.depth)) A₁' with
        | none => true
        | some (_, A₂, _) =>
          good H σ K body (b.pushTry (.endTry b.depth)) A &&
          goodHandlers H σ K hs (b.pushTry (.endTry b.depth)) (A.enterHandlers σ body.assigns) &&
          good H σ K orelse (b.pushTry (.endTry b.depth)) A₁' &&
          good H σ K final (b.pushTry (.endFin b.depth)) A₂ &&
          decide (∀ x, body.hnames x → A.defInit x = false) &&
          final.noTry && !final.usesReraise &&
          decide (∀ x, final.mentions x →
            (A₂.defInit x → A.defInit x ∧
              (body.hnames x || hs.hnames x || orelse.hnames x) = false) ∧
            (narrowable (σ x) →
              (body.assigns x || hs.assigns x || orelse.assigns x) = false ∧
              (body.hnames x || hs.hnames x || orelse.hnames x) = false ∧
              A₂.types x = A.types x)) &&
          (orelse.isPass ||
            (body.noTry && hs.noTry &&
              (hs.isNil || decide (∀ x, (A₂.defInit x → A₁'.defInit x) ∧
                (narrowable (σ x) → A₂.types x = A₁'.types x)))))
/-- The conditions for the handlers. -/
def goodHandlers (H : Hier) (σ : Slots n) (K : Nat) : Handlers n → Blocks → VS n → Bool
  | .nil, _, _ => true
  | .cons c name body rest, b, AH =>
    goodHandlers H σ K rest b AH &&
    match name with
    | none => good H σ K body b AH
    | some x =>
      settled H σ x [.cls c] && !body.hnames x && good H σ K body b (AH.assigned x [.cls c])
end

/-- The state at the beginning of a function, from the types recorded for its arguments
(function_conversion_context.py:797-855). -/
def VS.start (args : Fin n → Option Ty) : VS n :=
  { types := fun x => (args x).map some, maybe := fun _ => false }

end Verif.Flow
