import Verif.Code.Props
/-
Where codebases do not do what is said about them.
-/
namespace Verif.Code.Wrong

/-- C122: a codebase made from a directory with an absolute path counts as instantiated, so that instantiating it does nothing: its modules cannot
be imported unless they could be before. -/
theorem from_path_does_nothing (hash : Files → Nat) (s : State) (i : Nat) (suppress : Path → Bool) (max : Nat) (pre : Option Name) (rootPath : Path)
    (tree : Tree) (c : Codebase) (dir : Path) (h : fromPath suppress max pre rootPath tree = some c) (ha : ∃ a ∈ rootPath.dropLast, a ≠ "") :
    instantiate hash s i c dir = (s, true) := by
  have hroot : c.root = some (rootPath.dropLast.filter (· ≠ "")) := by
    simp only [fromPath] at h
    generalize walk suppress _ tree = fs at h
    split at h
    · cases h
    · cases h; rfl
  obtain ⟨a, hm, hne⟩ := ha
  have : isInstantiated hash s c = true := by
    unfold isInstantiated
    rw [hroot]
    have : a ∈ rootPath.dropLast.filter (· ≠ "") := List.mem_filter.mpr ⟨hm, by simpa using hne⟩
    cases hl : rootPath.dropLast.filter (· ≠ "") with
    | nil => rw [hl] at this; cases this
    | cons b l => simp
  simp [instantiate, this]

/-- C122: one made from a directory named without a slash never counts as instantiated, and cannot be. -/
theorem relative_never (hash : Files → Nat) (s : State) (i : Nat) (suppress : Path → Bool) (max : Nat) (pre : Option Name) (m : String)
    (tree : Tree) (c : Codebase) (dir : Path) (h : fromPath suppress max pre [m] tree = some c) (hn : s.installed.lookup (hash c.files) = none) :
    isInstantiated hash s c = false ∧ instantiate hash s i c dir = (s, false) := by
  have hroot : c.root = some [] := by
    simp only [fromPath] at h
    generalize walk suppress _ tree = fs at h
    split at h
    · cases h
    · cases h; rfl
  have : isInstantiated hash s c = false := by simp [isInstantiated, hroot, hn]
  exact ⟨this, by simp [instantiate, this, hroot]⟩

/-- C122: marking a codebase as native takes root modules away from one that is instantiated. -/
theorem native_overwrites : let s := run size nothing [.make (fromFileMap some_), .make (fromFileMap [(["other.py"], "z = 3")]),
      .instantiate 0 ["tmp", "d"], .native 1]
    s.installed = [(1, 1), (4, 0)] ∧ s.roots.lookup "other".toList = some 1 ∧ finds s "other" = some ["tmp", "d"] := by decide +kernel

/-- C122: a codebase with a root module that exists locally is accepted and hides the local one. -/
theorem hides_local : finds nothing "json" = some ["usr"] ∧
    (instantiate size nothing 0 (fromFileMap [(["json.py"], "2")]) ["tmp", "d"]).2 = true ∧
    finds (instantiate size nothing 0 (fromFileMap [(["json.py"], "2")]) ["tmp", "d"]).1 "json" = some ["tmp", "d"] := by decide +kernel

/-- C122: files with `..` or with absolute paths are written outside the directory. -/
theorem escapes :
    (instantiate size nothing 0 (fromFileMap [(["a.py"], ""), (["..", "x.py"], "2")]) ["tmp", "d"]).1.disk ["tmp", "x.py"] = some (.file "2") ∧
    (instantiate size nothing 0 (fromFileMap [(["", "usr", "json.py"], "2")]) ["tmp", "d"]).1.disk ["usr", "json.py"] = some (.file "2") := by
  decide +kernel

/-- C122: if writing fails, the files that were written stay, although the codebase is not installed. -/
theorem half_written : let r := instantiate size nothing 0 (fromFileMap [(["a"], "1"), (["a", "b.py"], "2")]) ["tmp", "d"]
    r.2 = false ∧ r.1.disk ["tmp", "d", "a"] = some (.file "1") ∧ r.1.sysPath = [["usr"]] := by decide +kernel

/-- C122: directories that begin with a dot are read, unless the root directory does. -/
theorem hidden_read (m n : String) (text : String) (hm : m.toList.head? ≠ some '.') (hn : isPy n = true) :
    walk (fun _ => false) [m] (.dir [(".git", .dir [(n, .file text)])]) = [([m, ".git", n], text)] := by
  simp [walk, walkAll, hidden, hm, hn]

/-- C122: with a slash at the end of the path the files in the directory become root modules themselves. -/
theorem slash_at_end : ((fromPath (fun _ => false) 9 none ["", "home", "pack", ""] tree).map fun c => (c.root, c.roots)) =
    some (some ["home", "pack"], ["".toList, "sub".toList]) := by decide +kernel

/-- C122: one name for two files, and a file whose name has a dot in it. -/
theorem one_name_two_files : moduleNames [["a.py"], ["a", "__init__.py"], ["a", "b.py"], ["a.b.py"]] none =
    ["a".toList, "a".toList, "a.b".toList, "a.b".toList] := by decide +kernel

/-- C122: a second codebase with the same files counts as instantiated, but has no root directory. -/
theorem second_without_directory : let s := run size nothing [.make (fromFileMap some_), .make (fromFileMap some_), .instantiate 0 ["tmp", "d"],
      .instantiate 1 ["tmp", "e"]]
    (s.codebases.map (·.root)) = [some ["tmp", "d"], none] ∧ (s.codebases.map (isInstantiated size s)) = [true, true] := by decide +kernel

end Verif.Code.Wrong
