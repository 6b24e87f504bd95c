import Verif.Common
/-
The on-disk cache of compiled code (compiler_cache.py) as the compiler uses it (native_compiler.py), for
any number of processes that share it, and crash.
-/
namespace Verif.Cache

/-- The name of a module's directory.  The program hashes a random number (compiler_cache.py:310); here
the number of the directory, so that names do not repeat. -/
abbrev Hash := Nat

/-- The link name of a function. -/
abbrev Sym := Nat

/-- `.get_global_variables`, which every module defines (module_definition.py:29,
native_ast_to_llvm.py:404-409). -/
def globalsName : Sym := 0

/-- The files of a module, in the order they are written (compiler_cache.py:323-366). -/
inductive File where
  | so | names | namesTxt | types | nativeTypes | globals | subs | links | defs
deriving DecidableEq, Repr

def allFiles : List File :=
  [.so, .names, .namesTxt, .types, .nativeTypes, .globals, .subs, .links, .defs]

/-- What the files of a module say: the functions it was made for, those repeated in it from other
modules (native_ast_to_llvm.py:395-398), the functions it calls that are not in it, and the modules it
was linked with. -/
structure Module where
  defs : List Sym
  inlined : List Sym
  ext : List Sym
  subs : List Hash
deriving DecidableEq, Repr

/-- `functionTypes` (native_ast_to_llvm.py:296-301, 406-409), whose keys are `definedSymbols`
(binary_shared_object.py:63-65) and the name manifest (compiler_cache.py:328). -/
def Module.syms (m : Module) : List Sym := m.defs ++ [globalsName]

/-- A directory: whether it has been renamed to the name that processes look for, the files in it, and
whether there is a file `marked_invalid`. -/
structure Dir where
  named : Bool
  files : List File
  mod : Module
  invalid : Bool
deriving DecidableEq, Repr

abbrev Disk := List Dir

/-- A process: the fields of its `CompilerCache` (compiler_cache.py:52-75) and `NativeCompiler`
(native_compiler.py:40-59).  `todo` are the directories that the constructor has yet to look at,
`writing` the module being written and its files to write; `conv` is `_functions_by_name` of the llvm
converter, and `own` are the functions that this process has compiled (`_targets` and `_definitions` of
python_to_native_converter.py).  `modulesMarkedInvalid` is never read; typed call targets are left out. -/
structure Proc where
  live : Bool := true
  todo : List Hash := []
  loaded : List Hash := []
  symLoaded : Sym → Option Hash := fun _ => none
  symMods : Sym → Option (List Hash) := fun _ => none
  modSyms : Hash → Option (List Sym) := fun _ => none
  valid : List Hash := []
  writing : Option (Hash × List File) := none
  known : List Sym := []
  conv : List Sym := []
  own : List Sym := []

/-- The ways to fail: a file that is not there, a key that is not there (compiler_cache.py:93, 243), the
first of an empty list (compiler_cache.py:104), the assertion of compiler_cache.py:113-118, that of
native_ast_to_llvm.py:283, the errors of native_ast_to_llvm.py:418 and compiler_cache.py:381, and
recursion without end. -/
inductive Fault where
  | noFile | keyError | indexError | assertFailed | defineTwice | noDefinition | cantFind | endless
deriving DecidableEq, Repr

/-- What an operation changes, which stays changed if it fails. -/
structure St where
  disk : Disk
  proc : Proc

/-- A file can be opened. -/
def canOpen (d : Disk) (h : Hash) (f : File) : Bool :=
  match d[h]? with
  | none => false
  | some dir => dir.named && dir.files.contains f

/-- What is in the files. -/
def modOf (d : Disk) (h : Hash) : Module :=
  match d[h]? with
  | none => ⟨[], [], [], []⟩
  | some dir => dir.mod

/-- A directory of this name is there. -/
def isNamed (d : Disk) (h : Hash) : Bool :=
  match d[h]? with
  | none => false
  | some dir => dir.named

/-- There is a file `marked_invalid`. -/
def isMarked (d : Disk) (h : Hash) : Bool :=
  match d[h]? with
  | none => false
  | some dir => dir.named && dir.invalid

/-- `d[k] = v` for a dict. -/
def upd {β : Type} (f : Nat → β) (k : Nat) (v : β) : Nat → β := fun x => if x = k then v else f x

/-- The loop of `markModuleHashInvalid` (compiler_cache.py:92-96). -/
def dropSyms (h : Hash) : List Sym → (Sym → Option (List Hash)) →
    (Sym → Option (List Hash)) × Except Fault Unit
  | [], m => (m, .ok ())
  | s :: rest, m => match m s with
    | none => (m, .error .keyError)
    | some hs =>
      let hs' := hs.filter (· ≠ h)
      dropSyms h rest (upd m s (if hs' = [] then none else some hs'))

/-- `markModuleHashInvalid` (compiler_cache.py:86-96). -/
def markInvalid (st : St) (h : Hash) : St × Except Fault Unit :=
  if isNamed st.disk h then
    let disk := st.disk.modify h (fun dir => { dir with invalid := true })
    match st.proc.modSyms h with
    | none => (⟨disk, st.proc⟩, .ok ())
    | some syms =>
      let r := dropSyms h syms st.proc.symMods
      (⟨disk, { st.proc with modSyms := upd st.proc.modSyms h none, symMods := r.1 }⟩, r.2)
  else (st, .error .noFile)

/-! ### Starting -/

/-- The loop over the submodules (compiler_cache.py:280-283), with the call of the method. -/
def namesOfSubs (f : St → Hash → St × Except Fault Bool) : List Hash → St → St × Except Fault Bool
  | [], st => (st, .ok true)
  | s :: rest, st => match f st s with
    | (st', .ok true) => namesOfSubs f rest st'
    | (st', .ok false) => match markInvalid st' s with
      | (st'', .ok _) => (st'', .ok false)
      | (st'', .error e) => (st'', .error e)
    | (st', .error e) => (st', .error e)

/-- Adding a module to the index (compiler_cache.py:288-290; setdefault adds an empty set). -/
def indexSyms (h : Hash) : List Sym → (Sym → Option (List Hash)) → Sym → Option (List Hash)
  | [], m => m
  | s :: rest, m =>
    let hs := (m s).getD []
    indexSyms h rest (upd m s (some (if hs.contains h then hs else hs ++ [h])))

/-- `loadNameManifestFromStoredModuleByHash` (compiler_cache.py:261-294).  The number bounds the depth of
the recursion. -/
def loadNames : Nat → St → Hash → St × Except Fault Bool
  | 0, st, _ => (st, .error .endless)
  | n + 1, st, h =>
    if st.proc.valid.contains h then (st, .ok true)
    else if isMarked st.disk h then (st, .ok false)
    else if !canOpen st.disk h .subs then (st, .error .noFile)
    else match namesOfSubs (loadNames n) (modOf st.disk h).subs st with
      | (st', .ok true) =>
        if !canOpen st'.disk h .names then (st', .error .noFile)
        else
          let syms := (modOf st'.disk h).syms
          (⟨st'.disk, { st'.proc with
            symMods := indexSyms h syms st'.proc.symMods
            modSyms := upd st'.proc.modSyms h (some syms)
            valid := st'.proc.valid ++ [h] }⟩, .ok true)
      | r => r

/-! ### Loading -/

/-- What loading found: the names of functions and of definitions (compiler_cache.py:189-191). -/
structure Found where
  syms : List Sym := []
  defs : List Sym := []
deriving DecidableEq, Repr

/-- The loop over the submodules (compiler_cache.py:168-175), with the call of the method. -/
def loadSubs (f : St → Found → Hash → St × Found × Except Fault Bool) :
    List Hash → St → Found → St × Found × Except Fault Bool
  | [], st, acc => (st, acc, .ok true)
  | s :: rest, st, acc => match f st acc s with
    | (st', acc', .ok true) => loadSubs f rest st' acc'
    | r => r

/-- The first module with a symbol is the one it is loaded from (compiler_cache.py:193-195, 255-257). -/
def setLoaded (h : Hash) : List Sym → (Sym → Option Hash) → Sym → Option Hash
  | [], m => m
  | s :: rest, m => setLoaded h rest (if (m s).isSome then m else upd m s (some h))

/-- `loadModuleByHash` (compiler_cache.py:120-197).  `env` tells which modules can be used by this
process at this time: whether what is in their files can be read (compiler_cache.py:138-161) and their
global variables are valid (compiler_cache.py:163-165).  Loading the shared object itself does not
fail. -/
def loadModule (env : Hash → Bool) : Nat → St → Found → Hash → St × Found × Except Fault Bool
  | 0, st, acc, _ => (st, acc, .error .endless)
  | n + 1, st, acc, h =>
    if st.proc.loaded.contains h then (st, acc, .ok true)
    else if !([File.types, .globals, .nativeTypes, .subs, .links, .defs].all (canOpen st.disk h) &&
        env h) then
      match markInvalid st h with
      | (st', .ok _) => (st', acc, .ok false)
      | (st', .error e) => (st', acc, .error e)
    else match loadSubs (loadModule env n) (modOf st.disk h).subs st acc with
      | (st', acc', .ok true) =>
        if !canOpen st'.disk h .so then (st', acc', .error .noFile)
        else
          let m := modOf st'.disk h
          (⟨st'.disk, { st'.proc with
            loaded := st'.proc.loaded ++ [h]
            symLoaded := setLoaded h m.syms st'.proc.symLoaded }⟩,
           ⟨acc'.syms ++ m.syms, acc'.defs ++ (m.defs ++ m.inlined)⟩, .ok true)
      | r => r

/-- The loop of `loadForSymbol` (compiler_cache.py:103-118).  The number bounds its rounds. -/
def loadLoop (env : Hash → Bool) (s : Sym) : Nat → St → St × Except Fault (Option Found)
  | 0, st => (st, .error .endless)
  | n + 1, st => match st.proc.symMods s with
    | none => (st, .ok none)
    | some [] => (st, .error .indexError)
    | some (h :: _) => match loadModule env (h + 1) st {} h with
      | (st', acc, .ok true) => (st', .ok (some acc))
      | (st', _, .ok false) =>
        match st'.proc.symMods s with
        | none => loadLoop env s n st'
        | some hs => if hs.contains h then (st', .error .assertFailed) else loadLoop env s n st'
      | (st', _, .error e) => (st', .error e)

/-- The number of rounds that suffice. -/
def rounds (st : St) (s : Sym) : Nat :=
  match st.proc.symMods s with
  | none => 1
  | some hs => hs.length + 1

/-- `loadForSymbol` (compiler_cache.py:98-118). -/
def loadForSymbol (env : Hash → Bool) (st : St) (s : Sym) : St × Except Fault (Option Found) :=
  if (st.proc.symLoaded s).isSome then (st, .ok none)
  else loadLoop env s (rounds st s) st

/-- `isFunctionDefined` with a cache (native_compiler.py:66-77) and `_loadFromCache`
(native_compiler.py:170-185). -/
def isDefined (env : Hash → Bool) (st : St) (s : Sym) : St × Except Fault Bool :=
  if st.proc.known.contains s then (st, .ok true)
  else if (st.proc.symMods s).isNone then (st, .ok false)
  else match loadForSymbol env st s with
    | (st', .error e) => (st', .error e)
    | (st', .ok none) => (st', .ok (st'.proc.known.contains s))
    | (st', .ok (some found)) =>
      let p := { st'.proc with
        conv := st'.proc.conv ++ found.defs
        known := st'.proc.known ++ found.syms }
      (⟨st'.disk, p⟩, .ok (p.known.contains s))

/-- `functionPointerByName` with a cache (native_compiler.py:148-164) and `function_pointer_by_name`
(compiler_cache.py:378-386): the module whose function it is.  That pointers found once are kept is left
out. -/
def pointer (env : Hash → Bool) (st : St) (s : Sym) : St × Except Fault (Option Hash) :=
  if (st.proc.symMods s).isNone then (st, .ok none)
  else match loadForSymbol env st s with
    | (st', .error e) => (st', .error e)
    | (st', .ok _) => match st'.proc.symLoaded s with
      | none => (st', .error .cantFind)
      | some h =>
        if st'.proc.loaded.contains h then
          if (modOf st'.disk h).syms.contains s then (st', .ok (some h)) else (st', .error .keyError)
        else (st', .error .cantFind)

/-! ### Adding -/

/-- The modules of the functions that are called (compiler_cache.py:240-243). -/
def dependencies (p : Proc) : List Sym → Except Fault (List Hash)
  | [] => .ok []
  | x :: rest => match p.symLoaded x with
    | none => .error .keyError
    | some h => match dependencies p rest with
      | .error e => .error e
      | .ok hs => .ok (if hs.contains h then hs else h :: hs)

/-- `addFunctions` (native_compiler.py:132-137) up to the first file: `add_functions`
(native_ast_to_llvm.py:278-439) for the functions `defs`, which repeats the functions `inlined` and calls
`calls`, and `addModule` (compiler_cache.py:240-245, 310-320).  The check of compiler_cache.py:209-238
compares what native_ast_to_llvm.py:411-414 computes with the same expression. -/
def beginAdd (st : St) (defs inlined calls : List Sym) : St × Except Fault Unit :=
  if defs.any (fun s => st.proc.conv.contains s) then (st, .error .defineTwice)
  else
    let ext := calls.filter (fun s => !(defs.contains s || inlined.contains s))
    let p := { st.proc with conv := st.proc.conv ++ defs }
    if ext.any (fun s => !p.conv.contains s) then (⟨st.disk, p⟩, .error .noDefinition)
    else match dependencies p ext with
      | .error e => (⟨st.disk, p⟩, .error e)
      | .ok subs =>
        (⟨st.disk ++ [⟨false, [], ⟨defs, inlined, ext, subs⟩, false⟩],
          { p with writing := some (st.disk.length, allFiles) }⟩, .ok ())

/-- The next file is written (compiler_cache.py:322-366). -/
def writeFile (st : St) : St :=
  match st.proc.writing with
  | some (h, f :: rest) =>
    ⟨st.disk.modify h (fun dir => { dir with files := dir.files ++ [f] }),
     { st.proc with writing := some (h, rest) }⟩
  | _ => st

/-- The directory is renamed (compiler_cache.py:369), and the module loaded and put in the index
(compiler_cache.py:251-259). -/
def finishAdd (st : St) : St × Except Fault Unit :=
  match st.proc.writing with
  | some (h, []) =>
    let disk := st.disk.modify h (fun dir => { dir with named := true })
    if !canOpen disk h .so then (⟨disk, st.proc⟩, .error .noFile)
    else
      let m := modOf disk h
      (⟨disk, { st.proc with
        writing := none
        loaded := st.proc.loaded ++ [h]
        symLoaded := setLoaded h m.syms st.proc.symLoaded
        symMods := indexSyms h m.syms st.proc.symMods
        modSyms := upd st.proc.modSyms h (some m.syms)
        own := st.proc.own ++ m.defs }⟩, .ok ())
  | _ => (st, .ok ())

/-! ### Many processes -/

/-- All processes, and what went wrong in which. -/
structure World where
  disk : Disk := []
  procs : List Proc := []
  faults : List (Nat × Fault) := []

/-- What can happen.  `env` is as for `loadModule`: it may differ between processes, and change. -/
inductive Step where
  /-- a process starts: its cache lists the directory (compiler_cache.py:73-74) -/
  | start
  /-- its constructor looks at the next module -/
  | scan (i : Nat)
  /-- the compiler asks whether a function is defined -/
  | ask (i : Nat) (env : Hash → Bool) (s : Sym)
  /-- the compiler asks for a function -/
  | fetch (i : Nat) (env : Hash → Bool) (s : Sym)
  /-- the compiler adds functions -/
  | add (i : Nat) (defs inlined calls : List Sym)
  | write (i : Nat)
  | finish (i : Nat)
  /-- a process ends or is killed -/
  | crash (i : Nat)

/-- The new state after an operation of process `i`. -/
def put {α : Type} (w : World) (i : Nat) : St × Except Fault α → World
  | (st, .ok _) => { w with disk := st.disk, procs := w.procs.set i st.proc }
  | (st, .error e) =>
    { disk := st.disk, procs := w.procs.set i st.proc, faults := w.faults ++ [(i, e)] }

/-- The process can do something: it is there, and not in its constructor or writing a module. -/
def Proc.idle (p : Proc) : Bool := p.live && p.todo.isEmpty && p.writing.isNone

/-- The compiler adds functions only if it did not compile them before and was told that they are not
defined (python_to_native_converter.py:344-348, 745-757), which an idle process finds out by `ask`;
repeats functions that the llvm converter has; and calls functions that it compiled, or was told are
defined. -/
def Proc.mayAdd (p : Proc) (defs inlined calls : List Sym) : Bool :=
  defs.all (fun s => !p.own.contains s && !p.known.contains s &&
    ((p.symMods s).isNone || (p.symLoaded s).isSome)) &&
  inlined.all (fun s => p.conv.contains s) &&
  calls.all (fun s => defs.contains s || inlined.contains s || p.own.contains s || p.known.contains s)

/-- A step. -/
def step (w : World) : Step → World
  | .start =>
    { w with procs := w.procs ++ [{ todo := (List.range w.disk.length).filter (isNamed w.disk) }] }
  | .scan i => match w.procs[i]? with
    | some p => match p.live, p.todo with
      | true, h :: rest => put w i (loadNames (h + 1) ⟨w.disk, { p with todo := rest }⟩ h)
      | _, _ => w
    | none => w
  | .ask i env s => match w.procs[i]? with
    | some p => if p.idle then put w i (isDefined env ⟨w.disk, p⟩ s) else w
    | none => w
  | .fetch i env s => match w.procs[i]? with
    | some p => if p.idle then put w i (pointer env ⟨w.disk, p⟩ s) else w
    | none => w
  | .add i defs inlined calls => match w.procs[i]? with
    | some p => if p.idle && p.mayAdd defs inlined calls then
        put w i (beginAdd ⟨w.disk, p⟩ defs inlined calls) else w
    | none => w
  | .write i => match w.procs[i]? with
    | some p => if p.live then put w i (writeFile ⟨w.disk, p⟩, (.ok () : Except Fault Unit)) else w
    | none => w
  | .finish i => match w.procs[i]? with
    | some p => if p.live then put w i (finishAdd ⟨w.disk, p⟩) else w
    | none => w
  | .crash i => match w.procs[i]? with
    | some p => { w with procs := w.procs.set i { p with live := false } }
    | none => w

/-- Everything that happened. -/
def run (steps : List Step) : World := steps.foldl step {}

end Verif.Cache
