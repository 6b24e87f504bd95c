import Verif.Macro.Props
/-
Where C124 does not hold, and cases that meet the hypotheses.
-/
namespace Verif.Macro.Wrong

open Verif.Macro

/-- C124: if two macros come from functions at one place, and one has been called as often before as the other now, a call of the other fails,
whatever it returns and whatever its source text is. -/
theorem collide {valid compiles : Text → Bool} {exec : Text → Env → Outcome} {globals globals' : Env} {s : State} {i j : Nat} {m m' : Macro}
    (hm : s.macros[i]? = some m) (hf : m'.file = m.file) (hl : m'.line = m.line) (hc : m'.count = m.count)
    {r r' : Returned} {v : Val} (h : (call valid compiles exec globals s i r).2 = .ok v) {ops : List Op} (hops : NoClear ops)
    (hsame : (run valid compiles exec (call valid compiles exec globals s i r).1 ops).macros[j]? = some m')
    {body : List Text} {ret : Text} {ns : List (Text × Val)} (hp : Proper valid r' body ret ns) (hcomp : compiles (program body) = true) :
    (call valid compiles exec globals' (run valid compiles exec (call valid compiles exec globals s i r).1 ops) j r').2 = .error .collision := by
  obtain ⟨b0, r0, n0, env, env', hp0, hcomp0, hl0, _⟩ := (call_right hm r v).mp h
  have hc0 := check_proper.mpr ⟨b0, r0, hp0, rfl⟩
  have h1 : (call valid compiles exec globals s i r).1.lines.lookup (fileName m.file m.line m.count) =
      some (getSourceText (b0 ++ ["return ".toList ++ r0])) := by
    simp only [call, hm, hc0, begin, getSourceText_proper, hcomp0, hl0, Bool.not_true, Option.isSome_none, Bool.false_eq_true, if_false]
    simp [List.lookup_cons]
  have h2 := run_keeps (valid := valid) (compiles := compiles) (exec := exec) hops h1
  have hc1 := check_proper.mpr ⟨body, ret, hp, rfl⟩
  generalize run valid compiles exec (call valid compiles exec globals s i r).1 ops = t at hsame h2
  simp only [call, hsame, hc1, begin, getSourceText_proper, hcomp, hf, hl, hc, h2, Bool.not_true, Option.isSome_some, Bool.false_eq_true, if_false,
    if_true]

/-- C124: when the caches have been cleared, the source text of all macros is lost. -/
theorem forgets (s : State) (disk : Text → Option (List Text)) (f : Text) (l c : Nat) (h : disk (fileName f l c) = none) :
    (getLines disk (clear s) (fileName f l c)).2 = none := by
  simp [getLines, clear, h]

/-- C124: for a local variable without a value, the error names something that is not in the source text. -/
theorem unbound_local (env : Env) (ret x : Text) (h : env "ariabl".toList = none) :
    finish env ret (.nameError ("local variable '".toList ++ x ++ "' referenced before assignment".toList)) = .error (.missing "ariabl".toList) := by
  have hn : nameIn ("local variable '".toList ++ x ++ "' referenced before assignment".toList) = "ariabl".toList := by
    have e : "local variable '".toList ++ x ++ "' referenced before assignment".toList =
        "local".toList ++ ' ' :: ("variable".toList ++ ' ' :: ('\'' :: (x ++ "' referenced before assignment".toList))) := by
      have e1 : "local variable '".toList = "local".toList ++ ' ' :: ("variable".toList ++ [' ', '\'']) := by decide +kernel
      rw [e1]
      simp
    unfold nameIn
    rw [e, splitSpaces_word _ (by decide +kernel), splitSpaces_word _ (by decide +kernel)]
    change "variable".toList.tail.dropLast = _
    decide +kernel
  simp only [finish, hn, h, Option.isSome_none, Bool.false_eq_true, if_false]

/-- C124: the error of a macro that is called inside the source text is replaced by one with a wrong name, because it is a `NameError` too
(macro.py:15, 114-122). -/
theorem nested_error (env : Env) (ret x : Text) (h : env "ourc".toList = none) :
    finish env ret (.nameError ("Macro source text contains ".toList ++ x ++ " but it's not in the namespace".toList)) =
      .error (.missing "ourc".toList) := by
  have hn : nameIn ("Macro source text contains ".toList ++ x ++ " but it's not in the namespace".toList) = "ourc".toList := by
    have e : "Macro source text contains ".toList ++ x ++ " but it's not in the namespace".toList =
        "Macro".toList ++ ' ' :: ("source".toList ++ ' ' :: ("text contains ".toList ++ (x ++ " but it's not in the namespace".toList))) := by
      have e1 : "Macro source text contains ".toList = "Macro".toList ++ ' ' :: ("source".toList ++ ' ' :: "text contains ".toList) := by decide +kernel
      rw [e1]
      simp
    unfold nameIn
    rw [e, splitSpaces_word _ (by decide +kernel), splitSpaces_word _ (by decide +kernel)]
    change "source".toList.tail.dropLast = _
    decide +kernel
  simp only [finish, hn, h, Option.isSome_none, Bool.false_eq_true, if_false]

/-- C124: a last line that cannot be sliced is not reported as an error of the format. -/
theorem last_line (valid : Text → Bool) (ls : List Line) (locals : Locals) :
    checkFormat valid (.dict (some (.list (ls ++ [.other]))) (some locals) 0) = .error .type := by
  simp [checkFormat]

/-! ### Cases -/

deriving instance DecidableEq for Except

def yes : Text → Bool := fun _ => true
/-- Executing a text defines the name x as the length of the text. -/
def len : Text → Env → Outcome := fun t env => .done fun n => if n = ['x'] then some t.length else env n
def empty : Env := fun _ => none
/-- `x = 1` and `return x`. -/
def good : Returned := .dict (some (.list [.text "x = 1".toList, .text "return x".toList])) (some (.dict [(some ['T'], 5)])) 0
def st (ms : List Macro) : State := ⟨ms, [], []⟩

/-- Two macros at different places are called twice each; the lines of the first call are found. -/
example :
    let ops : List Op := [.make "a.py".toList 3, .make "a.py".toList 30, .call 0 empty good, .call 1 empty good, .call 0 empty good, .read (fun _ => none) ['q']]
    Apart ops ∧ NoClear ops ∧ NoStash ops ∧ (call yes yes len empty (run yes yes len (st []) ops) 1 good).2 = .ok 6 ∧
      (getLines (fun _ => none) (run yes yes len (st []) ops) "macro stash ata.py, line 3, unique call number 0".toList).2 = some ["x = 1\n".toList] := by
  refine ⟨?_, ?_, ?_, by decide +kernel, by decide +kernel⟩
  · simp [Apart]
  · simp [NoClear]
  · intro op hop disk path e f l c
    subst e
    simp at hop
    rw [hop.1]

/-- Two macros at one place: the first call of the second fails, and the next one works. -/
example :
    let s := st [⟨"a.py".toList, 3, 0⟩, ⟨"a.py".toList, 3, 0⟩]
    let s1 := (call yes yes len empty s 0 good).1
    let s2 := (call yes yes len empty s1 1 good).1
    (call yes yes len empty s 0 good).2 = .ok 6 ∧ (call yes yes len empty s1 1 good).2 = .error .collision ∧
      (call yes yes len empty s2 1 good).2 = .ok 6 := by
  refine ⟨by decide +kernel, by decide +kernel, by decide +kernel⟩

/-- What was returned hides the globals; a value of the globals can be returned; an expression cannot. -/
example :
    let ret (r : String) (ns : List (Option Text × Val)) : Returned := .dict (some (.list [.text r.toList])) (some (.dict ns)) 0
    let g : Env := fun n => if n = ['T'] then some 7 else none
    let s := st [⟨"a.py".toList, 3, 0⟩]
    (call yes yes len g s 0 (ret "return T" [(some ['T'], 5)])).2 = .ok 5 ∧ (call yes yes len g s 0 (ret "return T" [])).2 = .ok 7 ∧
      (call yes yes len g s 0 (ret "return T()" [])).2 = .error (.undefined "T()".toList) ∧
      (call yes yes len g s 0 (ret "returnT" [])).2 = .error .format := by
  refine ⟨by decide +kernel, by decide +kernel, by decide +kernel, by decide +kernel⟩

end Verif.Macro.Wrong
