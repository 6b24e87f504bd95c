/-
C124: macros.  What a macro function returns is checked, compiled under a file name of its own, remembered for the compiler, and executed.
-/
namespace Verif.Macro

abbrev Text := List Char
/-- A value in a namespace. -/
abbrev Val := Nat
/-- A namespace: the names that are defined, with their values. -/
abbrev Env := Text → Option Val

/-- A line of the source text that a macro function returned: a string, something else that can be sliced, or something that cannot. -/
inductive Line where
  | text (s : Text)
  | slice
  | other
  deriving DecidableEq, Repr

/-- What is under `'sourceText'`. -/
inductive Source where
  | list (ls : List Line)
  | other
  deriving DecidableEq, Repr

/-- What is under `'locals'`; a key is a string or not. -/
inductive Locals where
  | dict (items : List (Option Text × Val))
  | other
  deriving DecidableEq, Repr

/-- What a macro function returns: a dictionary with these two keys and `more` others, or something else. -/
inductive Returned where
  | dict (source : Option Source) (locals : Option Locals) (more : Nat)
  | other
  deriving DecidableEq, Repr

/-- How a call of a macro fails. -/
inductive Err where
  | format
  | type
  | collision
  | syntax
  /-- `MacroNameError` for a name that the source text uses. -/
  | missing (name : Text)
  /-- `MacroNameError` for the name that it returns. -/
  | undefined (name : Text)
  | assertion
  /-- An exception of the code itself. -/
  | raised (e : Nat)
  deriving DecidableEq, Repr

/-- How executing code ends: with a namespace, with a `NameError` with a message, or with another exception. -/
inductive Outcome where
  | done (env : Env)
  | nameError (message : Text)
  | raised (e : Nat)

def returnText : Text := "return ".toList

/-- macro.py:43-45: all lines are strings. -/
def texts : List Line → Option (List Text)
  | [] => some []
  | .text s :: ls => (texts ls).map (s :: ·)
  | _ :: _ => none

/-- macro.py:50-53, with macro.py:19-20 `isValidVariableName` as a parameter: all keys are variable names. -/
def names (valid : Text → Bool) : List (Option Text × Val) → Option (List (Text × Val))
  | [] => some []
  | (some k, v) :: rest => if valid k then (names valid rest).map ((k, v) :: ·) else none
  | (none, _) :: _ => none

/-- macro.py:23-53 `checkFormat`, giving the lines and the namespace.  Slicing a last line that cannot be sliced is a `TypeError` (38). -/
def checkFormat (valid : Text → Bool) : Returned → Except Err (List Text × List (Text × Val))
  | .other => .error .format
  | .dict none _ _ => .error .format
  | .dict (some _) none _ => .error .format
  | .dict (some source) (some locals) more =>
    if more ≠ 0 then .error .format
    else match source with
      | .other => .error .format
      | .list ls => match ls.getLast? with
        | none => .error .format
        | some .other => .error .type
        | some .slice => .error .format
        | some (.text last) =>
          if last.take 7 ≠ returnText then .error .format
          else match texts ls with
            | none => .error .format
            | some lines => match locals with
              | .other => .error .format
              | .dict items => match names valid items with
                | none => .error .format
                | some ns => .ok (lines, ns)

/-- macro.py:56-58 `getSourceText`. -/
def getSourceText (lines : List Text) : List Text := lines.dropLast.map (· ++ ['\n'])

/-- macro.py:61-62 `getReturnName`. -/
def getReturnName (lines : List Text) : Text := (lines.getLastD []).drop 7

/-- Python's `str` of a number that is not negative. -/
def decimal (n : Nat) : Text :=
  if n < 10 then [Char.ofNat (48 + n)] else decimal (n / 10) ++ [Char.ofNat (48 + n % 10)]

/-- macro.py:90-97: the name of the file that the code is said to come from. -/
def fileName (file : Text) (line count : Nat) : Text :=
  "macro stash at".toList ++ (file ++ (", line ".toList ++ (decimal line ++ (", unique call number ".toList ++ decimal count))))

/-- A macro, macro.py:69-74: where its function is, and how often it was called. -/
structure Macro where
  file : Text
  line : Nat
  count : Nat := 0
  deriving DecidableEq, Repr

/-- The macros and the two caches of files, python_ast_util.py:19-20. -/
structure State where
  macros : List Macro
  lines : List (Text × List Text) := []
  exist : List (Text × Bool) := []
  deriving DecidableEq, Repr

/-- macro.py:82-107 `__call__`, up to where the code is executed: the state afterwards and the name of the file.  `compiles` says which texts are
Python. -/
def begin (compiles : Text → Bool) (s : State) (i : Nat) (m : Macro) (lines : List Text) : State × Except Err Text :=
  let name := fileName m.file m.line m.count
  let s := { s with macros := s.macros.set i { m with count := m.count + 1 } }
  if !compiles (getSourceText lines).flatten then (s, .error .syntax)
  else if (s.lines.lookup name).isSome then (s, .error .collision)
  else ({ s with lines := (name, getSourceText lines) :: s.lines }, .ok name)

/-- `str.split(" ")`. -/
def splitSpaces : Text → List Text
  | [] => [[]]
  | c :: cs => if c = ' ' then [] :: splitSpaces cs else match splitSpaces cs with
    | w :: ws => (c :: w) :: ws
    | [] => [[c]]

/-- macro.py:115-118: the name in the message of a `NameError`: its second word, without the first and the last character.  A message of one word
would be an `IndexError`; it is the empty name here. -/
def nameIn (message : Text) : Text := (((splitSpaces message)[1]?).getD []).tail.dropLast

/-- macro.py:109-110: a copy of the globals of the function, with the returned namespace. -/
def fakeGlobals (globals : Env) (ns : List (Text × Val)) : Env := fun n => match ns.lookup n with
  | some v => some v
  | none => globals n

/-- macro.py:112-129: what is returned when the code has been executed. -/
def finish (env : Env) (ret : Text) : Outcome → Except Err Val
  | .raised e => .error (.raised e)
  | .nameError msg => if (env (nameIn msg)).isSome then .error .assertion else .error (.missing (nameIn msg))
  | .done env' => match env' ret with
    | some v => .ok v
    | none => .error (.undefined ret)

/-- macro.py:82-129 `__call__` of the macro number `i`, whose function has returned `r` and has these globals.  `exec` is Python's: the effect of a
text on a namespace.  Code that calls macros while it is executed is not nested here; its calls come later in the history. -/
def call (valid compiles : Text → Bool) (exec : Text → Env → Outcome) (globals : Env) (s : State) (i : Nat) (r : Returned) : State × Except Err Val :=
  match s.macros[i]? with
  | none => (s, .error .type)
  | some m => match checkFormat valid r with
    | .error e => (s, .error e)
    | .ok (lines, ns) => match begin compiles s i m lines with
      | (s', .error e) => (s', .error e)
      | (s', .ok _) => (s', finish (fakeGlobals globals ns) (getReturnName lines) (exec (getSourceText lines).flatten (fakeGlobals globals ns)))

/-- python_ast_util.py:39-55 `getLines`, with the files that are on the disk now.  What `linecache` has for names like `<stdin>` (52-53) is not
modelled. -/
def getLines (disk : Text → Option (List Text)) (s : State) (path : Text) : State × Option (List Text) :=
  match s.lines.lookup path with
  | some ls => (s, some ls)
  | none =>
    let (s, there) := match s.exist.lookup path with
      | some b => (s, b)
      | none => ({ s with exist := (path, (disk path).isSome) :: s.exist }, (disk path).isSome)
    if there then match disk path with
      | some ls => ({ s with lines := (path, ls) :: s.lines }, some ls)
      | none => (s, none)
    else (s, none)

/-- python_ast_util.py:58-60 `clearAllCaches`. -/
def clear (s : State) : State := { s with lines := [], exist := [] }

/-- One step of a history: a macro is made, macro.py:69-74; one is called; the lines of a file are asked for; the caches are cleared. -/
inductive Op where
  | make (file : Text) (line : Nat)
  | call (i : Nat) (globals : Env) (r : Returned)
  | read (disk : Text → Option (List Text)) (path : Text)
  | clear

/-- The state after a step. -/
def step (valid compiles : Text → Bool) (exec : Text → Env → Outcome) (s : State) : Op → State
  | .make file line => { s with macros := s.macros ++ [⟨file, line, 0⟩] }
  | .call i g r => (call valid compiles exec g s i r).1
  | .read disk path => (getLines disk s path).1
  | .clear => Macro.clear s

def run (valid compiles : Text → Bool) (exec : Text → Env → Outcome) (s : State) (ops : List Op) : State :=
  ops.foldl (step valid compiles exec) s

end Verif.Macro
