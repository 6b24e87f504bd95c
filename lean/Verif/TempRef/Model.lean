/-
C128: temporary references to held objects, and the trace function that turns them into copies.

Simplifications: `frameToActions` (a map from frames to lists that are never empty) is one list of actions with their frames, in the order in which they were
added; `mostRecentEmptyFrame` is always null, since it is set only if a frame that was just found is not found again
(PyTemporaryReferenceTracer.cpp:55-56, 70-73).  Which lines of a frame's code begin statements is a parameter (`starts`).  Frames are never reused.
-/
namespace Verif.TempRef

abbrev Frame := Nat
abbrev Thread := Nat
abbrev Line := Nat
/-- A Python object: a view of a held object, or a container. -/
abbrev Obj := Nat
/-- A place in the memory of a container. -/
abbrev Slot := Nat
abbrev Val := Nat
/-- A trace function of the program: a debugger, coverage. -/
abbrev Fun := Nat

/-- PyInstance.hpp:79: `mTemporaryRefTo`, or a value of its own. -/
inductive Ref where
  | temp (p : Slot)
  | own (v : Val)
  deriving DecidableEq, Repr

/-- PyTemporaryReferenceTracer.hpp:37-51 `FrameAction`, with its frame; `convert` is `ConvertTemporaryReference`, otherwise `Decref`. -/
structure Action where
  frame : Frame
  obj : Obj
  convert : Bool
  line : Line
  deriving DecidableEq, Repr

/-- The events that a trace function is given. -/
inductive What where
  | call | line | exception | ret
  deriving DecidableEq, Repr

structure Event where
  thread : Thread
  frame : Frame
  what : What
  line : Line
  deriving DecidableEq, Repr

/-- The trace function of a thread (`c_tracefunc`). -/
inductive Cfun where
  | tracer
  | user (g : Option Fun)
  deriving DecidableEq, Repr

structure State where
  objs : Obj → Option Ref
  mem : Slot → Val
  pending : List Action
  cfun : Thread → Cfun
  /-- `priorTraceFunc`: one for all threads. -/
  prior : Option Fun
  /-- What the program's trace functions were given. -/
  seen : List (Fun × Event)

/-- PyInstance.cpp:71-81 `resolveTemporaryReference`. -/
def resolve (mem : Slot → Val) : Ref → Ref
  | .temp p => .own (mem p)
  | .own v => .own v

/-- PyTemporaryReferenceTracer.cpp:80: what is to be done now. -/
def hit (f : Frame) (line : Line) (force : Bool) (a : Action) : Bool := a.frame = f && (a.line ≠ line || force)

/-- PyTemporaryReferenceTracer.cpp:77-95. -/
def process (f : Frame) (line : Line) (force : Bool) (s : State) : State :=
  { s with
    objs := fun o => if s.pending.any (fun a => hit f line force a && a.convert && a.obj = o) then (s.objs o).map (resolve s.mem) else s.objs o
    pending := s.pending.filter fun a => !hit f line force a }

/-- PyTemporaryReferenceTracer.cpp:58-61: exceptions and returns. -/
def force : What → Bool
  | .exception => true
  | .ret => true
  | _ => false

/-- PyTemporaryReferenceTracer.cpp:55-98, the first part of `globalTraceFun`. -/
def act (starts : Frame → Line → Bool) (e : Event) (s : State) : State :=
  if s.pending.any (fun a => a.frame = e.frame) && (starts e.frame e.line || force e.what) then process e.frame e.line (force e.what) s else s

def setFun (t : Thread) (c : Cfun) (s : State) : State := { s with cfun := fun u => if u = t then c else s.cfun u }

/-- Giving an event to a trace function of the program. -/
def tell (g : Option Fun) (e : Event) (s : State) : State := match g with
  | some g => { s with seen := s.seen ++ [(g, e)] }
  | none => s

/-- PyTemporaryReferenceTracer.cpp:54-118 `globalTraceFun`; without it events go to the program's function. -/
def event (starts : Frame → Line → Bool) (e : Event) (s : State) : State := match s.cfun e.thread with
  | .user g => tell g e s
  | .tracer =>
    let s1 := tell s.prior e (act starts e s)
    if s1.pending.isEmpty then { setFun e.thread (.user s1.prior) s1 with prior := none } else s1

/-- PyTemporaryReferenceTracer.cpp:120-131 `installGlobalTraceHandlerIfNecessary`. -/
def install (t : Thread) (s : State) : State := match s.cfun t with
  | .tracer => s
  | .user g => { setFun t .tracer s with prior := g }

/-- PyInstance.cpp:264-284: a reference to a place in a container, which is kept alive (PyTemporaryReferenceTracer.cpp:133-148 `traceObject`, 150-165
`keepaliveForCurrentInstruction`). -/
def create (t : Thread) (f : Frame) (line : Line) (obj container : Obj) (p : Slot) (s : State) : State :=
  install t { s with
    objs := fun o => if o = obj then some (.temp p) else s.objs o
    pending := s.pending ++ [⟨f, container, false, line⟩, ⟨f, obj, true, line⟩] }

/-- What a program does. -/
inductive Op where
  | create (t : Thread) (f : Frame) (line : Line) (obj container : Obj) (p : Slot)
  /-- A container is changed. -/
  | write (p : Slot) (v : Val)
  /-- A view of a held object is changed. -/
  | assign (obj : Obj) (v : Val)
  | event (e : Event)
  /-- `sys.settrace` -/
  | settrace (t : Thread) (g : Option Fun)
  deriving DecidableEq, Repr

def write (p : Slot) (v : Val) (s : State) : State := { s with mem := fun q => if q = p then v else s.mem q }

/-- PyInstance.cpp:83-88 `dataPtr`: a change goes to the container, or to the object's own value. -/
def assign (o : Obj) (v : Val) (s : State) : State := match s.objs o with
  | some (.temp p) => write p v s
  | some (.own _) => { s with objs := fun o' => if o' = o then some (.own v) else s.objs o' }
  | none => s

/-- What is read from an object. -/
def read (s : State) (o : Obj) : Option Val := match s.objs o with
  | some (.temp p) => some (s.mem p)
  | some (.own v) => some v
  | none => none

def step (starts : Frame → Line → Bool) (s : State) : Op → State
  | .create t f line obj c p => create t f line obj c p s
  | .write p v => write p v s
  | .assign o v => assign o v s
  | .event e => event starts e s
  | .settrace t g => setFun t (.user g) s

def run (starts : Frame → Line → Bool) (s : State) (ops : List Op) : State := ops.foldl (step starts) s

/-- Nothing is traced, but the program may have a trace function in each thread. -/
def init (users : Thread → Option Fun) : State := ⟨fun _ => none, fun _ => 0, [], fun t => .user (users t), none, []⟩

end Verif.TempRef
