import Verif.Native.Syntax
/-
The conversion of native expressions to LLVM
(typed_python/compiler/native_compiler/native_ast_to_llvm_function_converter.py): blocks, jumps to
the handlers of enclosing `Finally` and `TryCatch` expressions, and which teardowns are known to be
active, known not to be, or to be decided at run time.
-/
namespace Verif.Native

/-- An entry of `tags_initialized`: not there, `True`, or an LLVM value. -/
inductive S where
  | no | yes | dyn
  deriving DecidableEq, Repr

abbrev STags := Tag → S

def STags.set (σ : STags) (t : Tag) (s : S) : STags := fun u => if u = t then s else σ u

/-- The code generated. Handlers of enclosing scopes are entered by `jump`s with an integer that
says how many scopes to leave; the values of the tags that are passed along are the `phi` nodes of
the handler's block. -/
inductive Code where
  | nop
  /-- `unreachable`. -/
  | stuck
  /-- A call; if it throws, the landing pad jumps to the handler with the tags of this point
  (converter lines 620-655). -/
  | act (a : Nat) (canThrow : Bool) (tags : STags)
  /-- No code; for the proofs. -/
  | mark (e : Ev)
  | seq (a b : Code)
  | jump (tags : STags) (switch : Int)
  /-- `if_else`, and the `phi` nodes for the tags after it. -/
  | ite (c : Nat) (yes no : Code) (yesTags noTags : STags)
  | loop (pre : Code) (c : Nat) (body orelse : Code)
  /-- `if_then(tagVal)`. -/
  | ifTag (t : Tag) (body : Code)
  /-- A `Finally`: the body, the teardowns after it has ended normally, and the handler: teardowns,
  what is known of the integer, the tags after the teardowns, and whether jumps can end here. -/
  | fin (body mainTds handlerTds : Code) (switch : Option Int) (after : STags) (named : Bool)
  /-- A `TryCatch`: the body, and the handler with its tags and what is known of the integer. -/
  | try (body handler : Code) (switch : Option Int) (tags : STags)

/-- What the tags say at run time, where `ρ` are the values of those that are LLVM values. -/
def val (σ : STags) (ρ : Active) : Active := fun t =>
  match σ t with
  | .no => false
  | .yes => true
  | .dyn => ρ t

/-- How code ends: normally, or jumping to the innermost handler. -/
inductive COut where
  | norm
  | jump (switch : Int)
  deriving DecidableEq, Repr

abbrev CRes := Option (COut × Active × List Ev)

/-- Go on after a normal end. -/
def cthen (r : CRes) (f : Active → List Ev → CRes) : CRes :=
  match r with
  | some (.norm, ρ, tr) => f ρ tr
  | r => r

/-- Go on after a jump. -/
def onJump (r : CRes) (f : Int → Active → List Ev → CRes) : CRes :=
  match r with
  | some (.jump sw, s, tr) => f sw s tr
  | r => r

/-- At most `n` rounds of a loop. -/
def crounds (pre body orelse : Active → List Ev → CRes) (test : List Ev → Bool) :
    Nat → Active → List Ev → CRes
  | 0, _, _ => none
  | n + 1, ρ, tr =>
      cthen (pre ρ tr) fun ρ1 tr1 =>
        if test tr1 then cthen (body ρ1 tr1) (crounds pre body orelse test n)
        else orelse ρ1 tr1

/-- What the code does. `ρ` are the values of the tags that are LLVM values, one for each tag:
whether two LLVM values for a tag are the same one or a `phi` of both makes no difference to what
they are. Where a handler resumes normal control flow, the values are those from before its scope,
since only these dominate the block. -/
def run (w : World) (fuel : Nat) : Code → Active → List Ev → CRes
  | .nop, ρ, tr => some (.norm, ρ, tr)
  | .stuck, _, _ => none
  | .act a ct σ, ρ, tr =>
      if ct && w.throws tr a then some (.jump (-1), val σ ρ, tr ++ [.act a])
      else some (.norm, ρ, tr ++ [.act a])
  | .mark e, ρ, tr => some (.norm, ρ, tr ++ [e])
  | .seq a b, ρ, tr =>
      cthen (run w fuel a ρ tr) (run w fuel b)
  | .jump σ k, ρ, tr => some (.jump k, val σ ρ, tr)
  | .ite c yes no σ1 σ2, ρ, tr =>
      if w.test tr c then
        cthen (run w fuel yes ρ tr) fun ρ1 tr1 => some (.norm, val σ1 ρ1, tr1)
      else
        cthen (run w fuel no ρ tr) fun ρ1 tr1 => some (.norm, val σ2 ρ1, tr1)
  | .loop pre c body orelse, ρ, tr =>
      crounds (run w fuel pre) (run w fuel body) (run w fuel orelse) (fun tr => w.test tr c) fuel ρ tr
  | .ifTag t body, ρ, tr => if ρ t then run w fuel body ρ tr else some (.norm, ρ, tr)
  | .fin body mainTds handlerTds k after named, ρ, tr =>
      match run w fuel body ρ tr with
      | none => none
      | some (.norm, ρ1, tr1) => run w fuel mainTds ρ1 tr1
      | some (.jump sw, s, tr1) =>
          cthen (run w fuel handlerTds s tr1) fun ρ2 tr2 =>
            if named && (k.getD sw == 0) then some (.norm, ρ, tr2)
            else some (.jump (k.getD sw - 1), val after ρ2, tr2)
  | .try body handler k σ, ρ, tr =>
      onJump (run w fuel body ρ tr) fun sw s tr1 =>
        if k.getD sw > 0 then some (.jump (k.getD sw - 1), val σ s, tr1)
        else cthen (run w fuel handler s tr1) fun _ tr2 => some (.norm, ρ, tr2)

/-- A jump to a handler as seen by the conversion: the tags, and the integer unless it is an LLVM
value (`acceptIncoming`, converter lines 348-362). -/
abbrev Edge := STags × Option Int

/-- The result of converting an expression. -/
structure Conv where
  code : Code
  /-- Does it return a value, i.e. not `None`? -/
  res : Bool
  /-- `tags_initialized` afterwards. -/
  tags : STags
  /-- The jumps to the handler around it. -/
  edges : List Edge
  /-- Is `tags_initialized` another dictionary afterwards than it was? -/
  fresh : Bool
  /-- What is afterwards in the dictionary that was `tags_initialized` before (for teardowns). -/
  orig : STags
  /-- No assertion fails and no exception is raised in converting it; the handler of an
  `ExceptionPropagator` propagates, as native_ast.py:592-593 asks; teardowns have a value. -/
  fine : Prop

/-- `collapse_tags` (converter lines 387-407). -/
def collapse (es : List Edge) : STags := fun t =>
  if es.all fun e => e.1 t == .no then .no
  else if es.all fun e => e.1 t == .yes then .yes
  else .dyn

/-- `_generateControlFlowSwitchExpr` (converter lines 299-331): an integer if all agree. -/
def agreed : List Edge → Option Int
  | [] => none
  | (_, none) :: _ => none
  | (_, some k) :: rest => if rest.all fun e => e.2 == some k then some k else none

/-- The merging of tags after a `Branch` (converter lines 1110-1132). -/
def merge (σ1 σ2 : STags) : STags := fun t =>
  match σ1 t, σ2 t with
  | .yes, .yes => .yes
  | .no, .no => .no
  | _, _ => .dyn

/-- `controlFlowSwitchForReturn` with a name (converter lines 333-343): how many scopes to leave. The
names of the scopes, innermost first; the last one is the function itself. -/
def scopesTo (nm : Name) : List (Option Name) → Option Nat
  | [] => none
  | h :: hs => if h = some nm then some 0 else (scopesTo nm hs).map (· + 1)

/-- What the handler of a `Finally` passes to the one around it (`generate_teardown`, converter
lines 428-481). -/
def passOn (k : Option Int) (after : STags) : List Edge :=
  match k with
  | some v => if v = 0 then [] else [(after, some (v - 1))]
  | none => [(after, none)]

/-- `TryCatch` and `ExceptionPropagator` (converter lines 1424-1474) and `generate_trycatch_unwind`
(lines 512-557), from the conversions of the expression and of the handler, which starts with the
tags `σh`. Whatever the handler does to the tags is forgotten. -/
def catching (ce ch : Conv) (σh : STags) (isTry : Bool) : Conv :=
  match ce.edges with
  | [] => ⟨.try ce.code .stuck none σh, isTry || ce.res, ce.tags, [], ce.fresh, ce.tags, ce.fine⟩
  | _ :: _ =>
    match agreed ce.edges with
    | some v =>
        if v > 0 then
          ⟨.try ce.code .stuck (some v) σh, isTry || ce.res, ce.tags, [(σh, some (v - 1))], ce.fresh,
            ce.tags, ce.fine⟩
        else
          ⟨.try ce.code ch.code (some v) σh, isTry || ce.res, ce.tags, ch.edges, ce.fresh, ce.tags,
            ce.fine ∧ ch.fine ∧ v ≠ 0 ∧ (isTry = false → ch.res = false)⟩
    | none =>
        ⟨.try ce.code ch.code none σh, isTry || ce.res, ce.tags, (σh, none) :: ch.edges, ce.fresh,
          ce.tags, ce.fine ∧ ch.fine ∧ (isTry = false → ch.res = false)⟩

/-- `Finally` (converter lines 1483-1528) and `generate_teardown` (lines 416-481), from the
conversions of the expression, of the teardowns after it (`cm`) and of the teardowns in the handler
(`ch`). The handler passes on the dictionary it started with. -/
def finalizing (ce cm ch : Conv) (name : Option Name) : Conv :=
  let mainCode := if ce.res then cm.code else .stuck
  let mainEdges := if ce.res then cm.edges else []
  let mainFine := if ce.res then cm.fine else True
  let fresh := ce.fresh || (ce.res && cm.fresh)
  match ce.edges with
  | [] =>
      ⟨.fin ce.code mainCode .stuck none (fun _ => .no) false, name.isSome || ce.res,
        cm.tags, mainEdges, fresh, cm.tags, ce.fine ∧ mainFine⟩
  | _ :: _ =>
      ⟨.fin ce.code mainCode ch.code (agreed ce.edges) ch.orig name.isSome, name.isSome || ce.res,
        cm.tags, mainEdges ++ ch.edges ++ passOn (agreed ce.edges) ch.orig, fresh, cm.tags,
        ce.fine ∧ mainFine ∧ ch.fine ∧ (agreed ce.edges = some 0 → name ≠ none)⟩

mutual
/-- `_convert` (converter lines 770-1530), with `hs` the names of the enclosing handlers and `σ` =
`tags_initialized`. -/
def conv (hs : List (Option Name)) : E → STags → Conv
  | .skip, σ => ⟨.nop, true, σ, [], false, σ, True⟩
  | .act a ct, σ =>
      -- lines 1317-1386
      ⟨.act a ct σ, true, σ, if ct then [(σ, some (-1))] else [], false, σ, True⟩
  | .activates t, σ =>
      -- lines 1401-1404
      ⟨.mark (.made t), true, σ.set t .yes, [], false, σ.set t .yes, σ t = .no⟩
  | .seq a b, σ =>
      -- lines 1388-1396 and 772-812
      let ca := conv hs a σ
      if ca.res then
        let cb := conv hs b ca.tags
        ⟨.seq ca.code cb.code, cb.res, cb.tags, ca.edges ++ cb.edges, ca.fresh || cb.fresh, cb.tags,
          ca.fine ∧ cb.fine⟩
      else ca
  | .branch c yes no, σ =>
      -- lines 1058-1146
      let ct := conv hs yes σ
      let cf := conv hs no σ
      let tags :=
        if ct.res then if cf.res then merge ct.tags cf.tags else ct.tags
        else if cf.res then cf.tags else σ
      ⟨.ite c ct.code cf.code ct.tags cf.tags, ct.res || cf.res, tags, ct.edges ++ cf.edges,
        true, tags, ct.fine ∧ cf.fine⟩
  | .loop pre c body orelse, σ =>
      -- lines 1148-1189; the else part is converted with the tags after the body
      let cp := conv hs pre σ
      let cb := conv hs body cp.tags
      let co := conv hs orelse cb.tags
      ⟨.loop cp.code c cb.code co.code, co.res, co.tags, cp.edges ++ cb.edges ++ co.edges,
        cp.fresh || cb.fresh || co.fresh, co.tags,
        cp.res = true ∧ cp.fine ∧ cb.fine ∧ co.fine ∧ co.tags = σ⟩
  | .throw, σ =>
      -- lines 1406-1422
      ⟨.jump σ (-1), false, σ, [(σ, some (-1))], false, σ, True⟩
  | .ret none, σ =>
      -- lines 1028-1056; line 335 gives the height plus two
      ⟨.jump σ (hs.length + 1), false, σ, [(σ, some (hs.length + 1))], false, σ, True⟩
  | .ret (some nm), σ =>
      -- lines 1003-1027
      match scopesTo nm hs with
      | some k => ⟨.jump σ k, false, σ, [(σ, some (k : Int))], false, σ, True⟩
      | none => ⟨.stuck, false, σ, [], false, σ, False⟩
  | .tryCatch e h, σ =>
      -- lines 1424-1474 and 512-557
      let ce := conv (none :: hs) e σ
      let σh := collapse ce.edges
      catching ce (conv hs h σh) σh true
  | .propagate e h, σ =>
      -- the same, but there is no value if the expression has none
      let ce := conv (none :: hs) e σ
      let σh := collapse ce.edges
      catching ce (conv hs h σh) σh false
  | .finally e tds name, σ =>
      -- lines 1483-1528
      let ce := conv (name :: hs) e σ
      finalizing ce (convTds hs tds ce.tags) (convTds hs tds (collapse ce.edges)) name
/-- `convert_teardown` (converter lines 657-680) for each. The tags that are cleared are the same if
nothing else is done (`justClearTags`). Tags are deleted from the dictionary that `tags_initialized`
is at the time: `orig` says what is left in the one it was at first. -/
def convTds (hs : List (Option Name)) : Tds → STags → Conv
  | .nil, σ => ⟨.nop, true, σ, [], false, σ, True⟩
  | .always e rest, σ =>
      let ce := conv hs e σ
      let cr := convTds hs rest σ
      ⟨.seq ce.code cr.code, true, cr.tags, ce.edges ++ cr.edges,
        ce.fresh || cr.fresh, if ce.fresh then σ else cr.orig,
        ce.fine ∧ ce.res = true ∧ ce.tags = σ ∧ cr.fine⟩
  | .byTag t e rest, σ =>
      let ce := conv hs e (σ.set t .no)
      let cr := convTds hs rest (σ.set t .no)
      match σ t with
      | .no => convTds hs rest σ
      | .yes =>
          ⟨.seq (.seq (.mark (.torn t)) ce.code) cr.code, true, cr.tags, ce.edges ++ cr.edges,
            ce.fresh || cr.fresh, if ce.fresh then σ.set t .no else cr.orig,
            ce.fine ∧ ce.res = true ∧ ce.tags = σ.set t .no ∧ cr.fine⟩
      | .dyn =>
          ⟨.seq (.ifTag t (.seq (.mark (.torn t)) ce.code)) cr.code, true, cr.tags,
            ce.edges ++ cr.edges,
            ce.fresh || cr.fresh, if ce.fresh then σ.set t .no else cr.orig,
            ce.fine ∧ ce.res = true ∧ ce.tags = σ.set t .no ∧ cr.fine⟩
end

/-- How a call of the function ends: `finalize` (converter lines 617-618) and the end of
`generate_teardown` for the outermost handler (lines 482-510). -/
inductive End where
  | returns
  | throws
  deriving DecidableEq, Repr

/-- The whole function. -/
def runFunction (w : World) (fuel : Nat) (e : E) : Option (End × List Ev) :=
  match run w fuel (conv [none] e fun _ => .no).code (fun _ => false) [] with
  | some (.jump sw, _, tr) =>
      some (if (agreed (conv [none] e fun _ => .no).edges).getD sw ≥ 0 then .returns else .throws, tr)
  | _ => none

end Verif.Native
