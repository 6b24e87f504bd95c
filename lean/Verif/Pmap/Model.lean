import Mathlib.Logic.Function.Basic
/-
`pmap`: a model of /repo/typed_python/lib/pmap.py under every interleaving of the threads.

What the mapped function does with one element is a `Comp`: it returns, raises, or calls `pmap` itself
(to any depth) and goes on with what that returned or raised. Functions have no other effects. The
work queue and the output and exception queues are TypedQueues, whose operations are atomic
(`Verif.TypedQueue`). One step of a thread is one queue operation or one element.
-/
namespace Verif.Pmap

variable {V E : Type}

/-- What a mapped function, or a program that calls `pmap`, does. -/
inductive Comp (V E : Type) where
  /-- return a value -/
  | ret (v : V)
  /-- raise an `Exception` -/
  | exc (e : E)
  /-- raise a `BaseException` that is no `Exception` (`SystemExit`, `KeyboardInterrupt`) -/
  | base (e : E)
  /-- `pmap(lst, f, OutT, minGranularity)` with `n` elements, `xs i` being what `f(lst[i])` does and
  `g` the granularity (at least one, pmap.py:137); `k` goes on with its result or exception -/
  | pmap (n g : Nat) (xs : Nat → Comp V E) (k : Except E (List V) → Comp V E)

/-- pmap.py:137, 160-163 `jobGranularity`, `jobCount` -/
def gran (g : Nat) : Nat := max 1 g

def jobCount (n g : Nat) : Nat :=
  if n / gran g * gran g < n then n / gran g + 1 else n / gran g

/-- pmap.py:66: the first element of job `i`, and the end of its elements -/
def jobLo (g i : Nat) : Nat := i * gran g

def jobHi (n g i : Nat) : Nat := min n ((i + 1) * gran g)

/-- pmap.py:42-62, 139-157: one call of `pmap`. `res x` is the output element `x` if it is initialised:
`outputPtr` and `isInitializedPtr` together. -/
structure Call (V E : Type) where
  n : Nat
  g : Nat
  xs : Nat → Comp V E
  res : Nat → Option V
  exq : List (Nat × E)
  out : List Nat

abbrev Cont (V E : Type) := Except E (List V) → Comp V E

/-- A nested call of `pmap` on the stack of a worker: call `c` was made while it executed element `jx`
of job `ji` of call `jc`; the worker is in the loop pmap.py:173-186 of call `c`. -/
structure Nest (V E : Type) where
  c : Nat
  cnt : Nat
  k : Cont V E
  jc : Nat
  ji : Nat
  jx : Nat

/-- What is below a computation on a thread's stack: nothing (a thread of the user), or, in a worker,
the job whose element it is. -/
inductive Below (V E : Type) where
  | client
  | job (c i x : Nat) (rest : List (Nest V E))

/-- Where a computation is. `put`: in the loop pmap.py:165-167, next job `i`. `drain`: in the loop
pmap.py:173-186. `wait`: in `getMany`, pmap.py:179 or 189, having received `got`. `cnt` is the local
variable `jobCount`. -/
inductive Mode (V E : Type) where
  | run (p : Comp V E)
  | put (c cnt i : Nat) (k : Cont V E)
  | drain (c cnt : Nat) (k : Cont V E)
  | wait (c cnt : Nat) (got : List Nat) (k : Cont V E)

/-- A thread. -/
inductive Thread (V E : Type) where
  /-- evaluating -/
  | comp (m : Mode V E) (b : Below V E)
  /-- pmap.py:66: a worker at the head of the loop over the elements of job `i` of call `c` -/
  | next (c i x : Nat) (rest : List (Nest V E))
  /-- pmap.py:72: about to `outputQueue.put(i)` -/
  | finish (c i : Nat) (rest : List (Nest V E))
  /-- pmap.py:87: a worker blocked in `work_queue.get()` -/
  | idle
  /-- the program of the user has ended -/
  | done (r : Except E V)
  /-- a worker whose loop was left by a `BaseException` -/
  | dead
  /-- an element was initialised twice, or an uninitialised one became part of a result -/
  | fault

structure State (N : Nat) (V E : Type) where
  queue : List (Nat × Nat)
  ncalls : Nat
  calls : Nat → Call V E
  thr : Fin N → Thread V E

/-- pmap.py:193-200: the loop over the exception queue -/
def earliest : Nat → Option E → List (Nat × E) → Option E
  | _, best, [] => best
  | minI, best, (i, e) :: rest =>
    if i < minI then earliest i (some e) rest else earliest minI best rest

/-- pmap.py:211-213: the elements `0..n` of the storage as a list; `none` if one is not initialised -/
def allElems (res : Nat → Option V) : Nat → Option (List V)
  | 0 => some []
  | n + 1 =>
    match allElems res n, res n with
    | some vs, some v => some (vs ++ [v])
    | _, _ => none

/-- pmap.py:205-207: every initialised element is destroyed -/
def destroyAll (res : Nat → Option V) : Nat → (Nat → Option V)
  | 0 => res
  | n + 1 => Function.update (destroyAll res n) n none

/-- Where a worker goes on after a job: pmap.py:86 or 173. -/
def resume : List (Nest V E) → Thread V E
  | [] => .idle
  | f :: rest => .comp (.drain f.c f.cnt f.k) (.job f.jc f.ji f.jx rest)

/-- The computation of a thread has returned `v`: pmap.py:67-68 in a worker. -/
def onReturn {N : Nat} (s : State N V E) (t : Fin N) (v : V) : Below V E → State N V E
  | .client => { s with thr := Function.update s.thr t (.done (.ok v)) }
  | .job c i x rest =>
    match (s.calls c).res x with
    | some _ => { s with thr := Function.update s.thr t .fault }
    | none =>
      { s with
        calls := Function.update s.calls c
          { s.calls c with res := Function.update (s.calls c).res x (some v) },
        thr := Function.update s.thr t (.next c i (x + 1) rest) }

/-- The computation of a thread has raised an `Exception`: pmap.py:69-70 in a worker. -/
def onRaise {N : Nat} (s : State N V E) (t : Fin N) (e : E) : Below V E → State N V E
  | .client => { s with thr := Function.update s.thr t (.done (.error e)) }
  | .job c i x rest =>
    { s with
      calls := Function.update s.calls c { s.calls c with exq := (s.calls c).exq ++ [(x, e)] },
      thr := Function.update s.thr t (.finish c i rest) }

/-- A `BaseException` is not caught by pmap.py:69 nor by pmap.py:82-94. -/
def onBase {N : Nat} (s : State N V E) (t : Fin N) (e : E) : Below V E → State N V E
  | .client => { s with thr := Function.update s.thr t (.done (.error e)) }
  | .job _ _ _ _ => { s with thr := Function.update s.thr t .dead }

/-- pmap.py:135-157: a call of `pmap` begins. -/
def onPmap {N : Nat} (s : State N V E) (t : Fin N) (n g : Nat) (xs : Nat → Comp V E) (k : Cont V E)
    (b : Below V E) : State N V E :=
  { s with
    ncalls := s.ncalls + 1,
    calls := Function.update s.calls s.ncalls
      { n := n, g := g, xs := xs, res := fun _ => none, exq := [], out := [] },
    thr := Function.update s.thr t (.comp (.put s.ncalls (jobCount n g) 0 k) b) }

/-- pmap.py:172: `isExecutorThread()`. Only workers have jobs below them. -/
def afterPut (c cnt : Nat) (k : Cont V E) : Below V E → Thread V E
  | .client => .comp (.wait c cnt [] k) .client
  | .job c' i x rest => .comp (.drain c cnt k) (.job c' i x rest)

/-- pmap.py:191-213: all jobs have been reported. -/
def collect {N : Nat} (s : State N V E) (t : Fin N) (c : Nat) (k : Cont V E) (b : Below V E) :
    State N V E :=
  let cl := s.calls c
  match earliest cl.n none cl.exq with
  | some e =>
    { s with
      calls := Function.update s.calls c { cl with res := destroyAll cl.res cl.n, exq := [] },
      thr := Function.update s.thr t (.comp (.run (k (.error e))) b) }
  | none =>
    match allElems cl.res cl.n with
    | none => { s with thr := Function.update s.thr t .fault }
    | some vs =>
      { s with
        calls := Function.update s.calls c { cl with res := fun _ => none, exq := [] },
        thr := Function.update s.thr t (.comp (.run (k (.ok vs))) b) }

/-- One step of a computation. -/
def stepMode {N : Nat} (s : State N V E) (t : Fin N) (b : Below V E) : Mode V E → Option (State N V E)
  | .run (.ret v) => some (onReturn s t v b)
  | .run (.exc e) => some (onRaise s t e b)
  | .run (.base e) => some (onBase s t e b)
  | .run (.pmap n g xs k) => some (onPmap s t n g xs k b)
  | .put c cnt i k =>
    if i < cnt then
      some { s with
        queue := s.queue ++ [(c, i)],
        thr := Function.update s.thr t (.comp (.put c cnt (i + 1) k) b) }
    else some { s with thr := Function.update s.thr t (afterPut c cnt k b) }
  | .drain c cnt k =>
    match s.queue, b with
    | [], _ => some { s with thr := Function.update s.thr t (.comp (.wait c cnt [] k) b) }
    | (c', i') :: q, .job jc ji jx rest =>
      some { s with
        queue := q,
        thr := Function.update s.thr t
          (.next c' i' (jobLo (s.calls c').g i') (⟨c, cnt, k, jc, ji, jx⟩ :: rest)) }
    | _ :: _, .client => none
  | .wait c cnt got k =>
    if got.length < cnt then
      match (s.calls c).out with
      | [] => none
      | i :: out =>
        some { s with
          calls := Function.update s.calls c { s.calls c with out := out },
          thr := Function.update s.thr t (.comp (.wait c cnt (got ++ [i]) k) b) }
    else some (collect s t c k b)

/-- One step of thread `t`; `none` when it is blocked or has ended. -/
def step {N : Nat} (s : State N V E) (t : Fin N) : Option (State N V E) :=
  match s.thr t with
  | .comp m b => stepMode s t b m
  | .next c i x rest =>
    if x < jobHi (s.calls c).n (s.calls c).g i then
      some { s with thr := Function.update s.thr t (.comp (.run ((s.calls c).xs x)) (.job c i x rest)) }
    else some { s with thr := Function.update s.thr t (.finish c i rest) }
  | .finish c i rest =>
    some { s with
      calls := Function.update s.calls c { s.calls c with out := (s.calls c).out ++ [i] },
      thr := Function.update s.thr t (resume rest) }
  | .idle =>
    match s.queue with
    | [] => none
    | (c, i) :: q =>
      some { s with
        queue := q,
        thr := Function.update s.thr t (.next c i (jobLo (s.calls c).g i) []) }
  | .done _ => none
  | .dead => none
  | .fault => none

/-- A process at the start: worker threads (pmap.py:109-114) and threads of the user, each with its
program. Calls that do not exist yet have arbitrary contents. -/
def init {N : Nat} [Inhabited V] (progs : Fin N → Option (Comp V E)) : State N V E :=
  { queue := [], ncalls := 0,
    calls := fun _ =>
      { n := 0, g := 0, xs := fun _ => .ret default, res := fun _ => none, exq := [], out := [] },
    thr := fun t => match progs t with
      | none => .idle
      | some p => .comp (.run p) .client }

/-- A run: the threads that take a step, in order; `none` if one of them cannot. -/
def run {N : Nat} : State N V E → List (Fin N) → Option (State N V E)
  | s, [] => some s
  | s, t :: ts =>
    match step s t with
    | none => none
    | some s' => run s' ts

end Verif.Pmap
