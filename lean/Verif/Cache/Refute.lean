import Verif.Cache.Props
/-
Runs of several processes: cases that meet the hypotheses of the theorems, and what goes wrong.
-/
namespace Verif.Cache

/-- A process adds functions, writes all files and renames the directory. -/
def publish (i : Nat) (defs inlined calls : List Sym) : List Step :=
  .add i defs inlined calls :: List.replicate 9 (.write i) ++ [.finish i]

def every : Hash → Bool := fun _ => true

/-- A process compiles function 1, then function 2, which calls 1. -/
def two : List Step := [.start] ++ publish 0 [1] [] [] ++ publish 0 [2] [] [1]

theorem two_fine : ∀ a ∈ two, a.Fine := by
  intro a ha
  simp [two, publish, List.replicate] at ha
  rcases ha with rfl | rfl | rfl | rfl | rfl | rfl | rfl <;> simp [Step.Fine, globalsName]

example : (run two).faults = [] ∧ isNamed (run two).disk 1 = true ∧
    (modOf (run two).disk 1).subs = [0] ∧ (modOf (run two).disk 1).ext = [1] := by decide +kernel

/-- A process that is killed while it writes leaves a directory without a name, which other processes do
not see; they compile the function again. -/
example : let w := run ([.start, .add 0 [1] [] [], .write 0, .write 0, .crash 0, .start] ++
      publish 1 [1] [] [] ++ [.start, .scan 2, .ask 2 every 1])
    w.faults = [] ∧ isNamed w.disk 0 = false ∧ isNamed w.disk 1 = true ∧
    w.procs[2]?.map (·.loaded) = some [1] ∧ w.procs[2]?.map (·.known) = some [1, 0] := by
  decide +kernel

/-- Two processes compile the same function at the same time; a third sees both modules and takes the
first. -/
example : let w := run ([.start, .start, .add 0 [1] [] [], .add 1 [1] [] []] ++
      List.replicate 9 (.write 0) ++ List.replicate 9 (.write 1) ++ [.finish 1, .finish 0, .start,
      .scan 2, .scan 2, .ask 2 every 1, .fetch 2 every 1])
    w.faults = [] ∧ w.procs[2]?.map (·.symMods 1) = some (some [0, 1]) ∧
    w.procs[2]?.map (·.symLoaded 1) = some (some 0) := by
  decide +kernel

/-- A new process finds both functions, and loads module 0 before module 1. -/
example : let w := run (two ++ [.start, .scan 1, .scan 1, .ask 1 every 2, .fetch 1 every 1])
    w.faults = [] ∧ w.procs[1]?.map (·.loaded) = some [0, 1] ∧
    w.procs[1]?.map (·.known) = some [1, 0, 2, 0] := by
  decide +kernel

/-- The hypotheses of `compiled_once` and `start_right`. -/
example : (∀ a ∈ two, a.Fine) ∧ (run two).procs[0]?.map (·.own) = some [1, 2] ∧
    startUp (run two) = [.start, .scan 1, .scan 1] ∧ isMarked (run two).disk 0 = false ∧
    isMarked (run two).disk 1 = false :=
  ⟨two_fine, by decide +kernel, by rfl, by decide +kernel, by decide +kernel⟩

/-! ### The assertion -/

/-- The process that starts now cannot use module 0 (a global variable it names is gone, say), though it
could use module 1. -/
def not0 : Hash → Bool := fun h => h != 0

/-- Asking for function 2 is an assertion that fails, not an answer. -/
theorem asking_asserts :
    (run (two ++ [.start, .scan 1, .scan 1, .ask 1 not0 2])).faults = [(1, .assertFailed)] := by
  decide +kernel

/-- The hypotheses of `ask_fails` are met there. -/
example : ∃ p, (run (two ++ [.start, .scan 1, .scan 1])).procs[1]? = some p ∧
    p.known = [] ∧ p.symLoaded 2 = none ∧ p.symMods 2 = some [1] ∧ not0 1 = true ∧
    0 ∈ (modOf (run (two ++ [.start, .scan 1, .scan 1])).disk 1).subs ∧ p.loaded = [] ∧
    not0 0 = false := by
  refine ⟨_, rfl, ?_⟩
  decide +kernel

/-- With the module that cannot be used and all that need it out of the way, asking is answered: the
process that started after the first had marked module 0 does not see module 1 either. -/
example : let w := run (two ++ [.start, .scan 1, .scan 1, .ask 1 not0 1, .start, .scan 2, .scan 2,
      .ask 2 every 2])
    w.faults = [] ∧ w.procs[2]?.map (·.known) = some [] ∧ isMarked w.disk 0 = true ∧
    isMarked w.disk 1 = false := by
  decide +kernel

/-! ### A function defined twice -/

/-- A process compiles functions 1 and 3 in one module, then 2, that repeats 1. -/
def inlining : List Step := [.start] ++ publish 0 [1, 3] [] [] ++ publish 0 [2] [1] [1]

/-- A new process that cannot use the first module (because of function 3, say) loads function 2, is told
that 1 is not defined, and cannot compile it: the assertion of `add_functions` fails. -/
theorem compiling_asserts :
    let w := run (inlining ++ [.start, .scan 1, .scan 1, .ask 1 not0 2, .ask 1 not0 1])
    w.faults = [] ∧ w.procs[1]?.map (fun p => (p.known, p.symMods 1, p.conv, p.mayAdd [1] [] [])) =
      some ([2, 0], none, [2, 1], true) ∧
    (step w (.add 1 [1] [] [])).faults = [(1, .defineTwice)] := by
  decide +kernel

/-! ### A function that is defined but not there -/

/-- A module that cannot be used at first, because a global variable has no value yet, is taken out of
the index; loaded later as part of another module its functions are defined, but asking for one of them
gives nothing. -/
theorem defined_but_not_there :
    let w := run (two ++ [.start, .scan 1, .scan 1, .ask 1 not0 1, .ask 1 every 2])
    w.faults = [] ∧ w.procs[1]?.map (fun p => (p.known, p.loaded)) = some ([1, 0, 2, 0], [0, 1]) ∧
    w.procs[1]?.map (fun p => (pointer every ⟨w.disk, p⟩ 1).2) = some (.ok none) := by
  decide +kernel

/-- And if no module with a function can be used, fetching the function is an error, where the
documentation says None. -/
theorem fetching_raises :
    (run ([.start] ++ publish 0 [1] [] [] ++ [.start, .scan 1, .fetch 1 not0 1])).faults =
      [(1, .cantFind)] := by
  decide +kernel

/-! ### Marks -/

/-- One process that cannot use a module takes it from all that start later. -/
theorem one_marks_for_all :
    let w := run (two ++ [.start, .scan 1, .scan 1, .ask 1 not0 1])
    isMarked w.disk 0 = true ∧ ¬ Clean w.disk 0 ∧ ¬ Clean w.disk 1 := by
  have h0 : isMarked (run (two ++ [.start, .scan 1, .scan 1, .ask 1 not0 1])).disk 0 = true := by
    decide +kernel
  have h1 : 0 ∈ (modOf (run (two ++ [.start, .scan 1, .scan 1, .ask 1 not0 1])).disk 1).subs := by
    decide +kernel
  have h2 : ¬ Clean (run (two ++ [.start, .scan 1, .scan 1, .ask 1 not0 1])).disk 0 := by
    intro hc
    have := (Clean.iff.mp hc).2.1
    rw [h0] at this
    cases this
  exact ⟨h0, h2, fun hc => h2 ((Clean.iff.mp hc).2.2 0 h1)⟩

end Verif.Cache
