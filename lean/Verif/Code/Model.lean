import Mathlib.Data.List.Infix
/-
Codebases: /repo/typed_python/Codebase.py.

Simplifications: a path is the list of what is between its slashes, so that `a/b.py` is ["a", "b.py"] and `/a` is ["", "a"]; a directory on the
disk is the list of names that lead to it.  `.` and `..` are resolved without looking at the disk, there are no links, and nobody else writes.
Texts can be encoded.  The root of the file system is not used as a root directory.  Names of modules are lists of characters.
-/
namespace Verif.Code

abbrev Path := List String
abbrev Files := List (Path × String)
abbrev Name := List Char

/-- What is at a place of the disk. -/
inductive Entry
  | dir
  | file (text : String)
deriving DecidableEq

/-- A file. -/
def isFile : Option Entry → Bool
  | some (.file _) => true
  | _ => false

abbrev Disk := Path → Option Entry

/-! ### Names of modules -/

/-- Codebase.py:235: `.py` at the end. -/
def endsPy (c : String) : Bool := ['.', 'p', 'y'].isSuffixOf c.toList

/-- Codebase.py:240: without the last three characters. -/
def stem (c : String) : Name := c.toList.take (c.toList.length - 3)

/-- `".".join(parts)`. -/
def dotted : List Name → Name
  | [] => []
  | [a] => a
  | a :: b :: rest => a ++ '.' :: dotted (b :: rest)

/-- Codebase.py:236-240: the parts of a module's name. -/
def parts (p : Path) : List Name :=
  if p.getLast? = some "__init__.py" then p.dropLast.map String.toList
  else p.dropLast.map String.toList ++ [stem (p.getLastD "")]

/-- Codebase.py:230-247 `filesToModuleNames`, as a list. -/
def moduleNames (files : List Path) (pre : Option Name) : List Name :=
  (files.filter fun p => endsPy (p.getLastD "")).map fun p => dotted (pre.toList ++ parts p)

/-- `x.split(".")[0]`. -/
def rootOf (x : Name) : Name := x.takeWhile (· ≠ '.')

/-- Codebase.py:70, 226: the names of root modules. -/
def rootNames (files : List Path) (pre : Option Name) : List Name := (moduleNames files pre).map rootOf

/-! ### Reading a directory -/

/-- A directory with what is in it, in the order of `os.listdir`. -/
inductive Tree
  | file (text : String)
  | dir (entries : List (String × Tree))

/-- Codebase.py:206 with the extension `.py`: `os.path.splitext` takes dots at the beginning for part of the name. -/
def isPy (c : String) : Bool := endsPy c && (stem c).any (· ≠ '.')

/-- Codebase.py:193: the path so far begins with a dot. -/
def hidden (soFar : Path) : Bool := match soFar with
  | c :: _ => c.toList.head? = some '.'
  | [] => false

mutual
/-- Codebase.py:192-220 `walkDisk`, for one entry.  `suppress` is the function given by the user; the extension is `.py`. -/
def walk (suppress : Path → Bool) (soFar : Path) : Tree → Files
  | .dir entries => if hidden soFar || suppress soFar then [] else walkAll suppress soFar entries
  | .file text => if isPy (soFar.getLastD "") then [(soFar, text)] else []
/-- Codebase.py:200-220. -/
def walkAll (suppress : Path → Bool) (soFar : Path) : List (String × Tree) → Files
  | [] => []
  | (name, t) :: rest => walk suppress (soFar ++ [name]) t ++ walkAll suppress soFar rest
end

/-- A codebase (Codebase.py:61-63).  `some []` is the root directory `''`. -/
structure Codebase where
  root : Option Path
  files : Files
  roots : List Name

/-- Codebase.py:67-76 `FromFileMap`. -/
def fromFileMap (files : Files) : Codebase := ⟨none, files, rootNames (files.map (·.1)) none⟩

/-- Codebase.py:132-159 `FromRootlevelPath` with 162-228 `_walkDiskRepresentation`: the path is split into what is before its last slash and the
rest (186); `none` is an exception (215-218). -/
def fromPath (suppress : Path → Bool) (max : Nat) (pre : Option Name) (rootPath : Path) (tree : Tree) : Option Codebase :=
  let moduleDir := rootPath.getLastD ""
  let files := walk suppress (if moduleDir = "" then [] else [moduleDir]) tree
  if (files.map fun f => f.2.length).sum > max then none
  else some ⟨some (rootPath.dropLast.filter (· ≠ "")), files, rootNames (files.map (·.1)) pre⟩

/-! ### Writing -/

/-- `os.path.join(root, path)` and the file system: an absolute path replaces the root (Codebase.py:280). -/
def resolve (root path : Path) : Path :=
  path.foldl (fun q c => if c = "" ∨ c = "." then q else if c = ".." then q.dropLast else q ++ [c]) (if path.head? = some "" then [] else root)

/-- Codebase.py:282-283: `makedirs` unless something is there; fails if a file is in the way. -/
def makeDirs (d : Disk) (p : Path) : Option Disk :=
  if (d p).isSome then some d
  else if p.inits.any (fun q => isFile (d q)) then none
  else some fun q => if q <+: p then some .dir else d q

/-- Codebase.py:285-286: opens and writes a file. -/
def writeText (d : Disk) (p : Path) (name text : String) : Option Disk :=
  if name = "" ∨ name = "." ∨ name = ".." then none
  else if d p ≠ some .dir ∨ d (p ++ [name]) = some .dir then none
  else some fun q => if q = p ++ [name] then some (.file text) else d q

/-- Codebase.py:278-286: what is on the disk afterwards, and whether all went well. -/
def writeAll (d : Disk) (root : Path) : Files → Disk × Bool
  | [] => (d, true)
  | (p, text) :: rest => match makeDirs d (resolve root p.dropLast) with
    | none => (d, false)
    | some d1 => match writeText d1 (resolve root p.dropLast) (p.getLastD "") text with
      | none => (d1, false)
      | some d2 => writeAll d2 root rest

/-- The disk, the directories in which modules are looked for, the codebases, and which of them are installed, by hash and by the names of root
modules (Codebase.py:29, 32). -/
structure State where
  disk : Disk
  sysPath : List Path
  codebases : List Codebase
  installed : List (Nat × Nat)
  roots : List (Name × Nat)

/-- Codebase.py:84-86 `isInstantiated`. -/
def isInstantiated (hash : Files → Nat) (s : State) (c : Codebase) : Bool :=
  (match c.root with | some (_ :: _) => true | _ => false) || (s.installed.lookup (hash c.files)).isSome

/-- Codebase.py:105-111 `markNative`; the newest entry for a name is found first. -/
def markNative (hash : Files → Nat) (s : State) (i : Nat) (c : Codebase) : State :=
  { s with roots := c.roots.map (·, i) ++ s.roots, installed := (hash c.files, i) :: s.installed }

/-- Codebase.py:249-294 `instantiate` in a directory; a temporary directory (276) is one that does not exist.  Also whether it returned. -/
def instantiate (hash : Files → Nat) (s : State) (i : Nat) (c : Codebase) (dir : Path) : State × Bool :=
  if isInstantiated hash s c then (s, true)
  else if c.root ≠ none then (s, false)
  else if (s.installed.lookup (hash c.files)).isSome then (s, true)
  else if c.roots.any fun r => (s.roots.lookup r).isSome then (s, false)
  else match writeAll s.disk dir c.files with
    | (d, false) => ({ s with disk := d }, false)
    | (d, true) => ({
        disk := d
        sysPath := dir :: s.sysPath
        codebases := s.codebases.set i { c with root := some dir }
        installed := (hash c.files, i) :: s.installed
        roots := c.roots.map (·, i) ++ s.roots }, true)

/-- What a program does: makes a codebase from files or from a directory, marks one as native, instantiates one. -/
inductive Op
  | make (c : Codebase)
  | native (i : Nat)
  | instantiate (i : Nat) (dir : Path)

/-- One step. -/
def step (hash : Files → Nat) (s : State) : Op → State
  | .make c => { s with codebases := s.codebases ++ [c] }
  | .native i => match s.codebases[i]? with
    | some c => markNative hash s i c
    | none => s
  | .instantiate i dir => match s.codebases[i]? with
    | some c => (Code.instantiate hash s i c dir).1
    | none => s

/-- A history. -/
def run (hash : Files → Nat) (s : State) (ops : List Op) : State := ops.foldl (step hash) s

/-- Where Python finds a root module: in the first directory that has it as a package with an `__init__.py` or as a file.  (Directories without
`__init__.py`, modules that are imported already and built-in modules are not modelled.) -/
def finds (s : State) (x : String) : Option Path :=
  s.sysPath.find? fun p => isFile (s.disk (p ++ [x, "__init__.py"])) || isFile (s.disk (p ++ [x ++ ".py"]))

end Verif.Code
