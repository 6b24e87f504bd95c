/-
`map` and `reduce` over tuples: a model of /repo/typed_python/lib/map.py and
/repo/typed_python/lib/reduce.py.

Functions, values and types are parameters: `World` says what `type(...)`, a call, the compiler's type
inference and the construction of a tuple element do.
-/
namespace Verif.MapReduce

/-- What the two functions use of the rest of the system. `F` functions, `K` their types, `V` values,
`T` types of values, `E` exceptions. -/
structure World (F K V T E : Type) where
  /-- `type(f)` -/
  ftype : F → K
  /-- `type(elt)` -/
  typeOf : V → T
  /-- `f.resultTypeFor(t)`: runtime.py:403-461. `none` when no overload returns. -/
  infer : F → T → Option T
  /-- `f(elt)` -/
  call : F → V → Except E V
  /-- one element of `resT(outElts)`: the value as an element of type `t` -/
  convert : T → V → Except E V
  /-- `None.interpreterTypeRepresentation` -/
  attributeError : E
  /-- map.py:38, reduce.py:33 -/
  typeError : E

/-- The type of a `Tuple` or, with names, of a `NamedTuple`. -/
structure TupTy (T : Type) where
  elems : List T
  names : Option (List String)
  deriving DecidableEq, Repr

/-- A tuple value. -/
structure Tup (V T : Type) where
  ty : TupTy T
  vals : List V
  deriving DecidableEq, Repr

/-- What is passed as the second argument: a typed tuple or something else. -/
inductive Arg (V T : Type) where
  | tuple (t : Tup V T)
  | other
  deriving DecidableEq, Repr

variable {F K V T E : Type}

/-- map.py:45-47 `outTypes` -/
def outTypes (W : World F K V T E) (f : F) : List V → Except E (List T)
  | [] => .ok []
  | v :: vs =>
    match W.infer f (W.typeOf v) with
    | none => .error W.attributeError
    | some t =>
      match outTypes W f vs with
      | .error e => .error e
      | .ok ts => .ok (t :: ts)

/-- map.py:49-52 `resT` -/
def resTy (tup : Tup V T) (ts : List T) : TupTy T := { elems := ts, names := tup.ty.names }

/-- map.py:58-61 `outElts` -/
def outElts (W : World F K V T E) (f : F) : List V → Except E (List V)
  | [] => .ok []
  | v :: vs =>
    match W.call f v with
    | .error e => .error e
    | .ok w =>
      match outElts W f vs with
      | .error e => .error e
      | .ok ws => .ok (w :: ws)

/-- map.py:63 `resT(outElts)`, element by element. The lengths agree: the tuple types with which `f`
was called before have the length of this tuple. -/
def build (W : World F K V T E) : List T → List V → Except E (List V)
  | t :: ts, v :: vs =>
    match W.convert t v with
    | .error e => .error e
    | .ok w =>
      match build W ts vs with
      | .error e => .error e
      | .ok ws => .ok (w :: ws)
  | _, _ => .ok []

/-- map.py:58-63 -/
def applyWith (W : World F K V T E) (f : F) (tup : Tup V T) (resT : TupTy T) : Except E (Tup V T) :=
  match outElts W f tup.vals with
  | .error e => .error e
  | .ok ws =>
    match build W resT.elems ws with
    | .error e => .error e
    | .ok ws' => .ok { ty := resT, vals := ws' }

/-- map.py:24 `_typeCache` -/
abbrev Cache (K T : Type) := List ((K × TupTy T) × TupTy T)

def lookup [DecidableEq K] [DecidableEq T] (c : Cache K T) (k : K × TupTy T) : Option (TupTy T) :=
  match c with
  | [] => none
  | (k', r) :: rest => if k' = k then some r else lookup rest k

/-- map.py:34-63 `Map.__call__` and `mapTuple` -/
def mapCall [DecidableEq K] [DecidableEq T] (W : World F K V T E) (c : Cache K T) (f : F)
    (a : Arg V T) : Except E (Tup V T) × Cache K T :=
  match a with
  | .other => (.error W.typeError, c)
  | .tuple tup =>
    match lookup c (W.ftype f, tup.ty) with
    | some resT => (applyWith W f tup resT, c)
    | none =>
      match outTypes W f tup.vals with
      | .error e => (.error e, c)
      | .ok ts => (applyWith W f tup (resTy tup ts), ((W.ftype f, tup.ty), resTy tup ts) :: c)

/-- A history of calls of `map`, made by anyone in the process. -/
def runCalls [DecidableEq K] [DecidableEq T] (W : World F K V T E) :
    Cache K T → List (F × Arg V T) → Cache K T
  | c, [] => c
  | c, (f, a) :: rest => runCalls W (mapCall W c f a).2 rest

/-- map.py:77-96 `convert_call_on_tuple`: compiled code. The element types are the declared ones, and
the result has the types the compiler gives to the calls; `inferDecl` is `none` when the call cannot
return, and then nothing after it runs. -/
def mapCompiled (W : World F K V T E) (inferDecl : F → T → Option T) (f : F) (tup : Tup V T) :
    Except E (Tup V T) :=
  match outElts W f tup.vals with
  | .error e => .error e
  | .ok ws => .ok { ty := resTy tup (tup.ty.elems.filterMap (inferDecl f)), vals := ws }

/-- reduce.py:35-46: the loop of `reduceTuple`. `reducer` is called with one argument first and with
two afterwards. -/
def reduceLoop (one : V → Except E V) (two : V → V → Except E V) (none_ : V) :
    Bool → V → List V → Except E V
  | _, result, [] => .ok result
  | true, _, elt :: rest =>
    match one elt with
    | .error e => .error e
    | .ok r => reduceLoop one two none_ false r rest
  | false, result, elt :: rest =>
    match two result elt with
    | .error e => .error e
    | .ok r => reduceLoop one two none_ false r rest

/-- reduce.py:29-46 `Reduce.__call__` and `reduceTuple`; `none_` is `None` -/
def reduceCall (typeError : E) (one : V → Except E V) (two : V → V → Except E V) (none_ : V) :
    Arg V T → Except E V
  | .other => .error typeError
  | .tuple t => reduceLoop one two none_ true none_ t.vals

/-- What a compiled expression does. `unreachable`: the conversion returned `None` without any code
that raises, so the code after it is dropped and the generated code runs past its end. -/
inductive Compiled (V E : Type) where
  | value (v : V)
  | raised (e : E)
  | unreachable
  deriving DecidableEq, Repr

/-- reduce.py:60-74 `convert_call_on_tuple`: the loop over the elements after the first -/
def reduceRest (two : V → V → Except E V) : V → List V → Compiled V E
  | r, [] => .value r
  | r, elt :: rest =>
    match two r elt with
    | .error e => .raised e
    | .ok r' => reduceRest two r' rest

/-- reduce.py:60-74 -/
def reduceCompiled (one : V → Except E V) (two : V → V → Except E V) : List V → Compiled V E
  | [] => .unreachable
  | elt :: rest =>
    match one elt with
    | .error e => .raised e
    | .ok r => reduceRest two r rest

end Verif.MapReduce
