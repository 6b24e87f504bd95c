import Verif.Cache.Inv
/-
The properties of the compiler cache (C78, C79), for any number of processes, any order of their steps,
and processes that end anywhere.
-/
namespace Verif.Cache

/-! ### The disk -/

/-- C78.  Whatever processes do and wherever they are killed, a module that has its name has all its
files, so have the modules it was linked with, they were there before it, and define every function that
it calls and does not have. -/
theorem disk_complete (steps : List Step) (fine : ∀ a ∈ steps, a.Fine) (h : Hash)
    (hn : isNamed (run steps).disk h = true) :
    Whole (run steps).disk h ∧
    (∀ s ∈ (modOf (run steps).disk h).subs, s < h ∧ isNamed (run steps).disk s = true ∧
      Whole (run steps).disk s) ∧
    ∀ x ∈ (modOf (run steps).disk h).ext, ∃ s ∈ (modOf (run steps).disk h).subs,
      x ∈ (modOf (run steps).disk s).syms := by
  have inv := inv_run fine
  refine ⟨inv.disk.files h hn, ?_, inv.disk.ext h⟩
  intro s hs
  obtain ⟨h1, h2⟩ := inv.disk.subs h s hs
  exact ⟨h1, h2, inv.disk.files s h2⟩

/-- C78.  What a process has loaded: each module is loaded once and after the modules it was linked with,
so every function that it calls and does not have is in a module loaded before it; and a symbol is
taken from a loaded module that defines it. -/
theorem loaded_right (steps : List Step) (fine : ∀ a ∈ steps, a.Fine) (i : Nat) (p : Proc)
    (hp : (run steps).procs[i]? = some p) :
    p.loaded.Nodup ∧
    (∀ (pre : List Hash) (h : Hash) (post : List Hash), p.loaded = pre ++ h :: post →
      Whole (run steps).disk h ∧ (∀ s ∈ (modOf (run steps).disk h).subs, s ∈ pre) ∧
      ∀ x ∈ (modOf (run steps).disk h).ext, ∃ s ∈ pre, x ∈ (modOf (run steps).disk s).syms) ∧
    (∀ (s : Sym) (h : Hash), p.symLoaded s = some h →
      h ∈ p.loaded ∧ s ∈ (modOf (run steps).disk h).syms) ∧
    ∀ s : Sym, s ∈ p.known ∨ s ∈ p.own → ∃ h, p.symLoaded s = some h := by
  have inv := inv_run fine
  have ok := inv.procs i p hp
  refine ⟨ok.loaded.nodup, ?_, ok.loaded.from_, ?_⟩
  · intro pre h post hl
    have hn := ok.loaded.named h (by rw [hl]; simp)
    have hsub := ok.loaded.order pre h post hl
    refine ⟨inv.disk.files h hn, hsub, ?_⟩
    intro x hx
    obtain ⟨s, h1, h2⟩ := inv.disk.ext h x hx
    exact ⟨s, hsub s h1, h2⟩
  · intro s hs
    rcases hs with hs | hs
    · exact isSome_of (ok.known s hs)
    · obtain ⟨l, h, h2, h3, h4⟩ := ok.own s hs
      obtain ⟨-, -, h5⟩ := ok.index.mods s l h2
      obtain ⟨l', h6, h7⟩ := h5 h h3
      obtain ⟨-, h8, -⟩ := ok.index.syms h l' h6
      exact isSome_of (ok.loaded.total h h4 s (h8 ▸ h7))

/-- C78.  What a process has compiled is on disk, whole, whether the process is still there or not. -/
theorem published (steps : List Step) (fine : ∀ a ∈ steps, a.Fine) (i : Nat) (p : Proc)
    (hp : (run steps).procs[i]? = some p) (s : Sym) (hs : s ∈ p.own) :
    ∃ h, isNamed (run steps).disk h = true ∧ Whole (run steps).disk h ∧
      s ∈ (modOf (run steps).disk h).syms := by
  obtain ⟨-, -, h1, h2⟩ := loaded_right steps fine i p hp
  obtain ⟨h, h3⟩ := h2 s (.inr hs)
  obtain ⟨h4, h5⟩ := h1 s h h3
  have inv := inv_run fine
  have hn := (inv.procs i p hp).loaded.named h h4
  exact ⟨h, hn, inv.disk.files h hn, h5⟩

/-! ### What can go wrong -/

/-- C78.  Starting a process, reading the names of modules, writing and renaming never fail. -/
theorem start_never_fails (steps : List Step) (fine : ∀ a ∈ steps, a.Fine) (i : Nat) :
    (step (run steps) .start).faults = (run steps).faults ∧
    (step (run steps) (.scan i)).faults = (run steps).faults ∧
    (step (run steps) (.write i)).faults = (run steps).faults ∧
    (step (run steps) (.finish i)).faults = (run steps).faults := by
  have inv := inv_run fine
  generalize run steps = w at inv
  refine ⟨rfl, ?_, ?_, ?_⟩
  · rw [step]
    cases hp : w.procs[i]? with
    | none => rfl
    | some p =>
      simp only
      split
      · rename_i h rest hl ht
        obtain ⟨st, b, h1, -⟩ := scan_ok inv hp ht
        rw [h1]; rfl
      · rfl
  · rw [step]
    cases hp : w.procs[i]? with
    | none => rfl
    | some p =>
      simp only
      split
      · rfl
      · rfl
  · rw [step]
    cases hp : w.procs[i]? with
    | none => rfl
    | some p =>
      simp only
      split
      · rcases finishAdd_well ⟨w.disk, p⟩ inv.disk (inv.procs i p hp) with h1 | ⟨h, st, h1, h2, -⟩
        · rw [h1]; rfl
        · rw [h2]; rfl
      · rfl

/-- C78.  The only errors are the assertion of `loadForSymbol`, that a function to be compiled is defined
already, and that a function that is asked for has no module that can be loaded: no file is missing, no
key is missing, no definition is missing, and all recursion ends. -/
theorem faults_are (steps : List Step) (fine : ∀ a ∈ steps, a.Fine) (i : Nat) (e : Fault)
    (he : (i, e) ∈ (run steps).faults) : e = .assertFailed ∨ e = .cantFind ∨ e = .defineTwice :=
  (inv_run fine).faults (i, e) he

/-! ### Asking -/

/-- C79, in part.  If what can be used of a module includes the modules it was linked with, then
`isFunctionDefined` does not fail; if it answers yes, the function is loaded; and it answers no only if
the function is loaded without its names (as for the functions that this process compiled) or no module
that it knows to have the function can be used. -/
theorem ask_right_partial (steps : List Step) (fine : ∀ a ∈ steps, a.Fine) (i : Nat) (p : Proc)
    (hp : (run steps).procs[i]? = some p) (hidle : p.idle = true) (env : Hash → Bool) (s : Sym)
    (hc : Closed (run steps).disk env) :
    ∃ st b, isDefined env ⟨(run steps).disk, p⟩ s = (st, .ok b) ∧
      (b = true → ∃ h, st.proc.symLoaded s = some h) ∧
      (b = false → (∃ h, p.symLoaded s = some h) ∨
        ∀ hs, p.symMods s = some hs → ∀ h ∈ hs, env h = false) := by
  have inv := inv_run fine
  obtain ⟨-, ht, -⟩ := idle_todo hidle
  obtain ⟨st, r, h1, h2, h3, h4, -, -, -, h5, h6, h7, h8⟩ :=
    isDefined_well env s ⟨(run steps).disk, p⟩ inv.disk (inv.procs i p hp) ht
  cases r with
  | error e =>
    have := h5 e rfl
    subst this
    exact absurd hc (h6 rfl).2
  | ok b =>
    refine ⟨st, b, h1, ?_, ?_⟩
    · intro hb
      exact isSome_of (h3.known s ((h7 b rfl).mp hb))
    · intro hb
      subst hb
      rcases h8 rfl with h9 | h9
      · exact .inl (isSome_of h9)
      · exact .inr h9

/-- C79 fails otherwise: if the first module with a function can be used, and one that it was linked with
is not loaded and cannot be used, then asking for the function is an assertion that fails, though the
function could be compiled, or be in another module. -/
theorem ask_fails (steps : List Step) (fine : ∀ a ∈ steps, a.Fine) (i : Nat) (p : Proc)
    (hp : (run steps).procs[i]? = some p) (env : Hash → Bool) (s : Sym)
    (hk : s ∉ p.known) (hl : p.symLoaded s = none) (h : Hash) (hs : List Hash)
    (hm : p.symMods s = some (h :: hs)) (he : env h = true) (k : Hash)
    (hsub : k ∈ (modOf (run steps).disk h).subs) (hkl : k ∉ p.loaded) (hke : env k = false) :
    (isDefined env ⟨(run steps).disk, p⟩ s).2 = .error .assertFailed := by
  have inv := inv_run fine
  have ok := inv.procs i p hp
  generalize run steps = w at *
  have good : Good ⟨w.disk, p⟩ := ⟨inv.disk, ok.index, ok.loaded⟩
  obtain ⟨-, -, hin⟩ := ok.index.mods s _ hm
  obtain ⟨ls, hls, hsl⟩ := hin h (by simp)
  obtain ⟨hname, hsyms, -⟩ := ok.index.syms h ls hls
  have hnl : h ∉ p.loaded := fun hl' => by
    have := ok.loaded.total h hl' s (hsyms ▸ hsl)
    simp [hl] at this
  obtain ⟨st1, acc1, b1, h1, g1, r1, l1, k1, -, n1, -⟩ :=
    loadModule_well env (h + 1) ⟨w.disk, p⟩ {} h good hname (Nat.lt_succ_self _)
  have hb : b1 = false := by
    cases b1 with
    | false => rfl
    | true =>
      exfalso
      obtain ⟨pre, post, h2⟩ := List.append_of_mem (l1 rfl)
      have h3 := g1.loaded.order pre h post h2 k (by rw [r1.same.modOf]; exact hsub)
      rcases k1 k (by rw [h2]; simp [h3]) with h4 | ⟨_, h4⟩
      · exact hkl h4
      · rw [hke] at h4; cases h4
  subst hb
  have hk' : st1.proc.modSyms h = some ls := by
    rw [n1 h (.inr ⟨rfl, he⟩)]; exact hls
  obtain ⟨-, -, h3⟩ := g1.index.syms h ls hk'
  obtain ⟨hs1, h4, h5⟩ := h3 s hsl
  have hround : rounds ⟨w.disk, p⟩ s = hs.length + 1 + 1 := by simp [rounds, hm]
  have hloop : loadForSymbol env ⟨w.disk, p⟩ s = (st1, .error .assertFailed) := by
    unfold loadForSymbol
    rw [if_neg (by simp [hl]), hround, loadLoop]
    simp only [hm, h1, h4, List.contains_eq_mem, h5, decide_true, if_true]
  unfold isDefined
  rw [if_neg (by simpa using hk), if_neg (by simp [hm]), hloop]

/-! ### Fetching -/

/-- C79, in part.  A function that this process compiled can be fetched at any time after, and is one of a
loaded module that defines it. -/
theorem fetch_own (steps : List Step) (fine : ∀ a ∈ steps, a.Fine) (i : Nat) (p : Proc)
    (hp : (run steps).procs[i]? = some p) (hidle : p.idle = true) (env : Hash → Bool) (s : Sym)
    (hs : s ∈ p.own) :
    ∃ h, (pointer env ⟨(run steps).disk, p⟩ s).2 = .ok (some h) ∧ h ∈ p.loaded ∧
      s ∈ (modOf (run steps).disk h).syms := by
  have inv := inv_run fine
  have ok := inv.procs i p hp
  obtain ⟨-, -, h1, h2⟩ := loaded_right steps fine i p hp
  obtain ⟨h, h3⟩ := h2 s (.inr hs)
  obtain ⟨h4, h5⟩ := h1 s h h3
  obtain ⟨l, k, h6, -⟩ := ok.own s hs
  refine ⟨h, ?_, h4, h5⟩
  simp [pointer, h6, loadForSymbol, h3, h4, h5]

/-- C79.  What is fetched is a function of a module that defines it, which is loaded with all it was
linked with. -/
theorem fetch_right (steps : List Step) (fine : ∀ a ∈ steps, a.Fine) (i : Nat) (p : Proc)
    (hp : (run steps).procs[i]? = some p) (hidle : p.idle = true) (env : Hash → Bool) (s : Sym)
    (st : St) (h : Hash)
    (hf : pointer env ⟨(run steps).disk, p⟩ s = (st, .ok (some h))) :
    h ∈ st.proc.loaded ∧ s ∈ (modOf (run steps).disk h).syms ∧
    (∀ k ∈ (modOf (run steps).disk h).subs, k ∈ st.proc.loaded) ∧
    ∀ k : Hash, p.symLoaded s = some k → k = h := by
  have inv := inv_run fine
  obtain ⟨-, ht, -⟩ := idle_todo hidle
  obtain ⟨st', r, h1, h2, h3, h4, -, -, -, -, h5, -, h6⟩ :=
    pointer_well env s ⟨(run steps).disk, p⟩ inv.disk (inv.procs i p hp) ht
  rw [hf] at h1
  cases h1
  have h7 := h5 h rfl
  obtain ⟨h8, h9⟩ := h3.loaded.from_ s h h7
  rw [h4.modOf] at h9
  refine ⟨h8, h9, ?_, ?_⟩
  · intro k hk
    obtain ⟨pre, post, h10⟩ := List.append_of_mem h8
    rw [h10]
    exact List.mem_append_left _ (h3.loaded.order pre h post h10 k (by rw [h4.modOf]; exact hk))
  · intro k hk
    have := h6 s k hk
    rw [h7] at this
    cases this
    rfl

/-- C79.  The module of a symbol does not change while a process lives. -/
theorem symbol_stays (steps : List Step) (fine : ∀ a ∈ steps, a.Fine) (a : Step) (ha : a.Fine)
    (i : Nat) (p q : Proc) (hp : (run steps).procs[i]? = some p)
    (hq : (step (run steps) a).procs[i]? = some q) (s : Sym) (h : Hash)
    (hs : p.symLoaded s = some h) : q.symLoaded s = some h := by
  have inv := inv_run fine
  generalize run steps = w at *
  have hlt : i < w.procs.length := (List.getElem?_eq_some_iff.mp hp).1
  -- the process that takes the step
  have key : ∀ {α : Type} (j : Nat) (p' : Proc) (st : St) (r : Except Fault α),
      w.procs[j]? = some p' → step w a = put w j (st, r) →
      (∀ h', p'.symLoaded s = some h' → st.proc.symLoaded s = some h') → q.symLoaded s = some h := by
    intro α j p' st r h1 h2 h3
    have h4 : (w.procs.set j st.proc)[i]? = some q := by
      rw [h2] at hq
      cases r <;> exact hq
    by_cases hji : j = i
    · subst hji
      rw [List.getElem?_set_self hlt] at h4
      cases h4
      rw [hp] at h1
      cases h1
      exact h3 h hs
    · rw [List.getElem?_set_ne hji, hp] at h4
      cases h4
      exact hs
  have same : step w a = w → q.symLoaded s = some h := by
    intro h1
    rw [h1, hp] at hq
    cases hq
    exact hs
  cases a with
  | start =>
    simp only [step] at hq
    rw [List.getElem?_append_left hlt, hp] at hq
    cases hq
    exact hs
  | scan j =>
    cases h1 : w.procs[j]? with
    | none => exact same (by simp only [step, h1])
    | some p' =>
      cases hl : p'.live with
      | false => exact same (by simp only [step, h1, hl])
      | true =>
        cases ht : p'.todo with
        | nil => exact same (by simp only [step, h1, hl, ht])
        | cons k rest =>
          obtain ⟨st, b, h2, -, -, h3, -⟩ := scan_ok inv h1 ht
          simp only [hl] at h2
          refine key j p' st (.ok b) h1 (by simp only [step, h1, hl, ht, h2]) ?_
          rw [h3.proc]
          exact fun _ h' => h'
  | ask j env x =>
    cases h1 : w.procs[j]? with
    | none => exact same (by simp only [step, h1])
    | some p' =>
      by_cases hi : p'.idle = true
      · have ok := inv.procs j p' h1
        refine key j p' (isDefined env ⟨w.disk, p'⟩ x).1 (isDefined env ⟨w.disk, p'⟩ x).2 h1
          (by simp only [step, h1, hi, if_true]) ?_
        intro h' hh'
        have good : Good ⟨w.disk, p'⟩ := ⟨inv.disk, ok.index, ok.loaded⟩
        obtain ⟨st', r, h2, -, h3, -⟩ := loadForSymbol_well env x ⟨w.disk, p'⟩ good
        unfold isDefined
        rw [h2]
        simp only
        split
        · exact hh'
        · split
          · exact hh'
          · cases r with
            | error e => exact h3.symLoaded s h' hh'
            | ok o => cases o with
              | none => exact h3.symLoaded s h' hh'
              | some f => exact h3.symLoaded s h' hh'
      · exact same (by simp only [step, h1, hi]; rfl)
  | fetch j env x =>
    cases h1 : w.procs[j]? with
    | none => exact same (by simp only [step, h1])
    | some p' =>
      by_cases hi : p'.idle = true
      · obtain ⟨-, ht, -⟩ := idle_todo hi
        obtain ⟨st', r, h2, -, -, -, -, -, -, -, -, -, h3⟩ :=
          pointer_well env x ⟨w.disk, p'⟩ inv.disk (inv.procs j p' h1) ht
        exact key j p' st' r h1 (by simp only [step, h1, hi, if_true, h2]) (h3 s)
      · exact same (by simp only [step, h1, hi]; rfl)
  | add j defs inlined calls =>
    cases h1 : w.procs[j]? with
    | none => exact same (by simp only [step, h1])
    | some p' =>
      by_cases hi : (p'.idle && p'.mayAdd defs inlined calls) = true
      · refine key j p' (beginAdd ⟨w.disk, p'⟩ defs inlined calls).1
          (beginAdd ⟨w.disk, p'⟩ defs inlined calls).2 h1
          (by simp only [step, h1, hi, if_true]) ?_
        intro h' hh'
        unfold beginAdd
        simp only
        split
        · exact hh'
        · split
          · exact hh'
          · split <;> exact hh'
      · exact same (by simp only [step, h1, hi]; rfl)
  | write j =>
    cases h1 : w.procs[j]? with
    | none => exact same (by simp only [step, h1])
    | some p' =>
      by_cases hi : p'.live = true
      · refine key j p' (writeFile ⟨w.disk, p'⟩) (.ok ()) h1
          (by simp only [step, h1, hi, if_true]) ?_
        intro h' hh'
        unfold writeFile
        split <;> exact hh'
      · exact same (by simp only [step, h1, hi]; rfl)
  | finish j =>
    cases h1 : w.procs[j]? with
    | none => exact same (by simp only [step, h1])
    | some p' =>
      by_cases hi : p'.live = true
      · refine key j p' (finishAdd ⟨w.disk, p'⟩).1 (finishAdd ⟨w.disk, p'⟩).2 h1
          (by simp only [step, h1, hi, if_true]) ?_
        intro h' hh'
        unfold finishAdd
        split
        · simp only
          split
          · exact hh'
          · simp only [setLoaded_get]
            rw [show p'.symLoaded s = some h' from hh']
            rfl
        · exact hh'
      · exact same (by simp only [step, h1, hi]; rfl)
  | crash j =>
    cases h1 : w.procs[j]? with
    | none => exact same (by simp only [step, h1])
    | some p' =>
      exact key j p' ⟨w.disk, { p' with live := false }⟩ (.ok () : Except Fault Unit) h1
        (by simp only [step, h1]; rfl) (fun _ h' => h')

/-! ### Adding -/

/-- C79, in part.  Adding functions that the compiler was told are not defined does not fail if none of
them is repeated in a module that is loaded; the new module names every function that it calls and does
not have. -/
theorem add_right_partial (steps : List Step) (fine : ∀ a ∈ steps, a.Fine) (i : Nat) (p : Proc)
    (hp : (run steps).procs[i]? = some p) (hidle : p.idle = true) (defs inlined calls : List Sym)
    (hadd : p.mayAdd defs inlined calls = true)
    (hfine : (Step.add i defs inlined calls).Fine)
    (hrep : ∀ s ∈ defs, ∀ h ∈ p.loaded, s ∉ (modOf (run steps).disk h).inlined) :
    ∃ st, beginAdd ⟨(run steps).disk, p⟩ defs inlined calls = (st, .ok ()) ∧
      ∃ m : Module, st.disk = (run steps).disk ++ [⟨false, [], m, false⟩] ∧ m.defs = defs ∧
        ∀ x ∈ calls, x ∈ defs ∨ x ∈ inlined ∨ x ∈ m.ext := by
  have inv := inv_run fine
  obtain ⟨-, ht, hw⟩ := idle_todo hidle
  rcases beginAdd_well ⟨(run steps).disk, p⟩ defs inlined calls inv.disk (inv.procs i p hp) ht hw hadd
    hfine with ⟨-, s, h1, h, h2, h3⟩ | ⟨m, st, h1, h2, h3, -, h4, -⟩
  · exact absurd h3 (hrep s h1 h h2)
  · exact ⟨st, h1, m, h2, h3, h4⟩

/-- C79 fails otherwise: to compile a function of which the process has loaded a copy, and that is not
defined otherwise, is an assertion that fails. -/
theorem add_fails (steps : List Step) (i : Nat) (p : Proc)
    (hp : (run steps).procs[i]? = some p) (s : Sym) (hs : s ∈ p.conv) (defs inlined calls : List Sym)
    (hd : s ∈ defs) :
    (beginAdd ⟨(run steps).disk, p⟩ defs inlined calls).2 = .error .defineTwice := by
  unfold beginAdd
  rw [if_pos]
  simp only [List.any_eq_true, List.contains_eq_mem, decide_eq_true_eq]
  exact ⟨s, hd, hs⟩

/-! ### A new process -/

theorem put_ok {α : Type} (w : World) (i : Nat) (st : St) (a : α) :
    put w i (st, .ok a) = { w with disk := st.disk, procs := w.procs.set i st.proc } := rfl

/-- A new process reads the names of all modules. -/
theorem scan_all (l : List Hash) : ∀ (w : World) (i : Nat) (p : Proc), Inv w →
    w.procs[i]? = some p → p.live = true → p.todo = l → ValidClean ⟨w.disk, p⟩ →
    ∃ p', ((List.replicate l.length (Step.scan i)).foldl step w).procs[i]? = some p' ∧
      p' = { p with todo := [], symMods := p'.symMods, modSyms := p'.modSyms, valid := p'.valid } ∧
      Inv ((List.replicate l.length (Step.scan i)).foldl step w) ∧
      ValidClean ⟨((List.replicate l.length (Step.scan i)).foldl step w).disk, p'⟩ ∧
      Same w.disk ((List.replicate l.length (Step.scan i)).foldl step w).disk ∧
      (∀ h : Hash, Clean ((List.replicate l.length (Step.scan i)).foldl step w).disk h ↔
        Clean w.disk h) ∧
      ((List.replicate l.length (Step.scan i)).foldl step w).faults = w.faults ∧
      (∀ h ∈ p.valid, h ∈ p'.valid) ∧ (∀ h ∈ l, Clean w.disk h → h ∈ p'.valid) := by
  induction l with
  | nil =>
    intro w i p inv hp hl ht v
    refine ⟨p, hp, ?_, inv, v, Same.refl _, fun _ => Iff.rfl, rfl, fun _ h => h, by simp⟩
    cases p
    simp only at ht
    subst ht
    rfl
  | cons h rest ih =>
    intro w i p inv hp hl ht v
    obtain ⟨st, b, h1, h2, h3, h4, h5, h6⟩ := scan_ok inv hp ht
    obtain ⟨h7, h8, h9⟩ := h6 v
    simp only [hl] at h1
    have hstep : step w (.scan i) = { w with disk := st.disk, procs := w.procs.set i st.proc } := by
      simp only [step, hp, hl, ht, h1, put_ok]
    have hlt : i < w.procs.length := (List.getElem?_eq_some_iff.mp hp).1
    have inv' : Inv (step w (.scan i)) := inv.step (a := .scan i) trivial
    rw [hstep] at inv'
    obtain ⟨p', g1, g2, g3, g4, g5, g6, g7, g8, g9⟩ :=
      ih { w with disk := st.disk, procs := w.procs.set i st.proc } i st.proc inv'
        (by simp only; rw [List.getElem?_set_self hlt]) (by rw [h4.proc]; exact hl)
        (by rw [h4.proc]) h8
    simp only [List.length_cons, List.replicate_succ, List.foldl_cons, hstep]
    refine ⟨p', g1, ?_, g3, g4, h4.same.trans g5, fun k => (g6 k).trans (h9 k), g7,
      fun k hk => g8 k (h4.valid k hk), ?_⟩
    · rw [g2, h4.proc]
    · intro k hk hc
      rcases List.mem_cons.mp hk with rfl | hk
      · exact g8 k (h5 (h7.mpr hc))
      · exact g9 k hk ((h9 k).mpr hc)

/-- The steps of a new process until it can be used. -/
def startUp (w : World) : List Step :=
  .start :: List.replicate ((List.range w.disk.length).filter (isNamed w.disk)).length
    (.scan w.procs.length)

/-- C79.  When a process has started, a module is in its index for a symbol exactly if it defines the
symbol and neither it nor any module it was linked with is marked; it has loaded nothing yet, and starting
changed no module but by marks on modules that cannot be used anyway. -/
theorem start_right (steps : List Step) (fine : ∀ a ∈ steps, a.Fine) :
    ∃ p, (run (steps ++ startUp (run steps))).procs[(run steps).procs.length]? = some p ∧
      p.idle = true ∧ p.loaded = [] ∧ p.known = [] ∧ (∀ s, p.symLoaded s = none) ∧
      (∀ (s : Sym) (h : Hash), (∃ hs, p.symMods s = some hs ∧ h ∈ hs) ↔
        Clean (run steps).disk h ∧ s ∈ (modOf (run steps).disk h).syms) ∧
      (∀ h : Hash, Clean (run (steps ++ startUp (run steps))).disk h ↔ Clean (run steps).disk h) ∧
      modOf (run (steps ++ startUp (run steps))).disk = modOf (run steps).disk ∧
      isNamed (run (steps ++ startUp (run steps))).disk = isNamed (run steps).disk ∧
      (run (steps ++ startUp (run steps))).faults = (run steps).faults := by
  have inv := inv_run fine
  have hrun : ∀ more, run (steps ++ more) = more.foldl step (run steps) := by
    intro more
    simp [run, List.foldl_append]
  rw [hrun]
  generalize run steps = w at *
  obtain ⟨p', g1, g2, g3, g4, g5, g6, g7, -, g9⟩ := scan_all
    ((List.range w.disk.length).filter (isNamed w.disk)) (step w .start) w.procs.length
    { todo := (List.range w.disk.length).filter (isNamed w.disk) } (inv.step (a := .start) trivial)
    (by simp [step]) rfl rfl ⟨fun h hh => (by cases hh), fun h => (by simp)⟩
  have hfold : (startUp w).foldl step w = (List.replicate ((List.range w.disk.length).filter
      (isNamed w.disk)).length (Step.scan w.procs.length)).foldl step (step w .start) := rfl
  rw [hfold]
  refine ⟨p', g1, ?_, ?_, ?_, ?_, ?_, g6, g5.modOf, g5.isNamed, g7⟩
  · rw [g2]; rfl
  · rw [g2]
  · rw [g2]
  · intro s; rw [g2]
  · intro s h
    have ok := g3.procs _ _ g1
    constructor
    · rintro ⟨hs, h1, h2⟩
      obtain ⟨-, -, h3⟩ := ok.index.mods s hs h1
      obtain ⟨l, h4, h5⟩ := h3 h h2
      obtain ⟨h6, h7, -⟩ := ok.index.syms h l h4
      have hv : h ∈ p'.valid := (g4.index h).mp (by simp [h4])
      refine ⟨(g6 h).mp (g4.clean h hv), ?_⟩
      rw [h7, g5.modOf] at h5
      exact h5
    · rintro ⟨h1, h2⟩
      have hn : isNamed w.disk h = true := (Clean.iff.mp h1).1
      have hv : h ∈ p'.valid := g9 h (List.mem_filter.mpr
        ⟨List.mem_range.mpr (isNamed_lt hn), hn⟩) h1
      obtain ⟨l, h3⟩ := isSome_of ((g4.index h).mpr hv)
      obtain ⟨-, h4, h5⟩ := ok.index.syms h l h3
      refine h5 s ?_
      rw [h4, g5.modOf]
      exact h2

/-- C79, in part.  A function in a module that is not marked, linked with modules that are not marked, is
found by a process started later, and need not be compiled, if the modules that can be used include the
module, and with each module the modules it was linked with. -/
theorem cache_hit_partial (steps : List Step) (fine : ∀ a ∈ steps, a.Fine) (env : Hash → Bool)
    (hc : Closed (run steps).disk env) (h : Hash) (s : Sym) (hclean : Clean (run steps).disk h)
    (hs : s ∈ (modOf (run steps).disk h).syms) (he : env h = true) :
    ∃ p, (run (steps ++ startUp (run steps))).procs[(run steps).procs.length]? = some p ∧
      (isDefined env ⟨(run (steps ++ startUp (run steps))).disk, p⟩ s).2 = .ok true := by
  obtain ⟨p, h1, h2, -, -, h3, h4, -, h5, h6, -⟩ := start_right steps fine
  have fine' : ∀ a ∈ steps ++ startUp (run steps), a.Fine := by
    intro a ha
    rcases List.mem_append.mp ha with ha | ha
    · exact fine a ha
    · simp only [startUp, List.mem_cons] at ha
      rcases ha with rfl | ha
      · trivial
      · rw [List.eq_of_mem_replicate ha]; trivial
  refine ⟨p, h1, ?_⟩
  obtain ⟨st, b, h7, -, h8⟩ := ask_right_partial _ fine' _ p h1 h2 env s (by
    unfold Closed
    rw [h5, h6]
    exact hc)
  rw [h7]
  cases b with
  | true => rfl
  | false =>
    exfalso
    rcases h8 rfl with ⟨k, h9⟩ | h9
    · rw [h3] at h9; cases h9
    · obtain ⟨hs', h10, h11⟩ := (h4 s h).mpr ⟨hclean, hs⟩
      have := h9 hs' h10 h h11
      rw [he] at this
      cases this

/-- C79.  While no module is marked, what any process has compiled, even one that was killed since, is
found by a process that starts later and can use all modules. -/
theorem compiled_once (steps : List Step) (fine : ∀ a ∈ steps, a.Fine)
    (hm : ∀ h, isMarked (run steps).disk h = false) (i : Nat) (q : Proc)
    (hq : (run steps).procs[i]? = some q) (s : Sym) (hs : s ∈ q.own) :
    ∃ p, (run (steps ++ startUp (run steps))).procs[(run steps).procs.length]? = some p ∧
      (isDefined (fun _ => true) ⟨(run (steps ++ startUp (run steps))).disk, p⟩ s).2 = .ok true := by
  obtain ⟨h, h1, -, h2⟩ := published steps fine i q hq s hs
  refine cache_hit_partial steps fine _ (fun _ _ _ _ _ => rfl) h s ?_ h2 rfl
  have inv := inv_run fine
  clear h2
  induction h using Nat.strongRecOn with
  | ind h ih =>
    refine .mk h h1 (hm h) (fun k hk => ?_)
    obtain ⟨h3, h4⟩ := inv.disk.subs h k hk
    exact ih k h3 h4

/-- C79.  No mark is ever taken away. -/
theorem marks_stay (steps : List Step) (fine : ∀ a ∈ steps, a.Fine) (a : Step) (ha : a.Fine) (h : Hash)
    (hm : isMarked (run steps).disk h = true) : isMarked (step (run steps) a).disk h = true := by
  have inv := inv_run fine
  generalize run steps = w at *
  have key : ∀ {α : Type} (j : Nat) (r : St × Except Fault α), (put w j r).disk = r.1.disk := by
    intro α j r
    obtain ⟨st, r⟩ := r
    cases r <;> rfl
  have hmod : ∀ (k : Hash) (f : Dir → Dir), (∀ x, x.named = true → (f x).named = true) →
      (∀ x, (f x).invalid = x.invalid) → isMarked (w.disk.modify k f) h = true := by
    intro k f hf1 hf2
    unfold isMarked at hm ⊢
    rw [List.getElem?_modify]
    cases hd : w.disk[h]? with
    | none => rw [hd] at hm; cases hm
    | some dir =>
      rw [hd] at hm
      simp only [Bool.and_eq_true] at hm
      by_cases hk : k = h
      · simp [hk, hf1 dir hm.1, hf2, hm.2]
      · simp [hk, hm]
  cases a with
  | start => exact hm
  | scan j =>
    cases h1 : w.procs[j]? with
    | none => simp only [step, h1]; exact hm
    | some p' =>
      cases hl : p'.live with
      | false => simp only [step, h1, hl]; exact hm
      | true =>
        cases ht : p'.todo with
        | nil => simp only [step, h1, hl, ht]; exact hm
        | cons k rest =>
          obtain ⟨st, b, h2, -, -, h3, -⟩ := scan_ok inv h1 ht
          simp only [hl] at h2
          simp only [step, h1, hl, ht, h2, key]
          exact h3.same.marks h hm
  | ask j env x =>
    cases h1 : w.procs[j]? with
    | none => simp only [step, h1]; exact hm
    | some p' =>
      by_cases hi : p'.idle = true
      · obtain ⟨-, ht, -⟩ := idle_todo hi
        obtain ⟨st, r, h2, -, -, h3, -⟩ := isDefined_well env x ⟨w.disk, p'⟩ inv.disk
          (inv.procs j p' h1) ht
        simp only [step, h1, hi, if_true, h2, key]
        exact h3.marks h hm
      · simp only [step, h1, hi]; exact hm
  | fetch j env x =>
    cases h1 : w.procs[j]? with
    | none => simp only [step, h1]; exact hm
    | some p' =>
      by_cases hi : p'.idle = true
      · obtain ⟨-, ht, -⟩ := idle_todo hi
        obtain ⟨st, r, h2, -, -, h3, -⟩ := pointer_well env x ⟨w.disk, p'⟩ inv.disk
          (inv.procs j p' h1) ht
        simp only [step, h1, hi, if_true, h2, key]
        exact h3.marks h hm
      · simp only [step, h1, hi]; exact hm
  | add j defs inlined calls =>
    cases h1 : w.procs[j]? with
    | none => simp only [step, h1]; exact hm
    | some p' =>
      by_cases hi : (p'.idle && p'.mayAdd defs inlined calls) = true
      · simp only [step, h1, hi, if_true, key]
        simp only [Bool.and_eq_true] at hi
        obtain ⟨-, ht, hw⟩ := idle_todo hi.1
        rcases beginAdd_well ⟨w.disk, p'⟩ defs inlined calls inv.disk (inv.procs j p' h1) ht hw hi.2
          ha with ⟨h2, -⟩ | ⟨m, st, h2, h3, -⟩
        · rw [h2]; exact hm
        · rw [h2]
          simp only [h3]
          have hlt : h < w.disk.length := by
            refine isNamed_lt ?_
            unfold isMarked at hm
            unfold isNamed
            split at hm
            · cases hm
            · simp only [Bool.and_eq_true] at hm; exact hm.1
          unfold isMarked at hm ⊢
          rw [List.getElem?_append_left hlt]
          exact hm
      · simp only [step, h1, hi]; exact hm
  | write j =>
    cases h1 : w.procs[j]? with
    | none => simp only [step, h1]; exact hm
    | some p' =>
      by_cases hi : p'.live = true
      · simp only [step, h1, hi, if_true, key]
        rcases writeFile_well ⟨w.disk, p'⟩ inv.disk (inv.procs j p' h1) with h2 | ⟨k, f, r, -, h2, -⟩
        · rw [h2]; exact hm
        · rw [h2]; exact hmod k _ (fun _ h => h) (fun _ => rfl)
      · simp only [step, h1, hi]; exact hm
  | finish j =>
    cases h1 : w.procs[j]? with
    | none => simp only [step, h1]; exact hm
    | some p' =>
      by_cases hi : p'.live = true
      · simp only [step, h1, hi, if_true, key]
        rcases finishAdd_well ⟨w.disk, p'⟩ inv.disk (inv.procs j p' h1) with
          h2 | ⟨k, st, -, h2, h3, -⟩
        · rw [h2]; exact hm
        · rw [h2]
          simp only [h3]
          exact hmod k _ (fun _ _ => rfl) (fun _ => rfl)
      · simp only [step, h1, hi]; exact hm
  | crash j =>
    cases h1 : w.procs[j]? with
    | none => simp only [step, h1]; exact hm
    | some p' => simp only [step, h1]; exact hm

/-- C79 in another way: a module that one process could not use is not seen by any process that starts
later, whatever that process could use. -/
theorem marked_unseen (steps : List Step) (fine : ∀ a ∈ steps, a.Fine) (h : Hash)
    (hm : isMarked (run steps).disk h = true) (more : List Step) (hmore : ∀ a ∈ more, a.Fine) :
    ¬ Clean (run (steps ++ more)).disk h := by
  intro hc
  have h1 : isMarked (run (steps ++ more)).disk h = true := by
    clear hc
    induction more generalizing steps with
    | nil => simpa using hm
    | cons a rest ih =>
      have ha := hmore a (by simp)
      have h2 := ih (steps ++ [a]) (by
        intro b hb
        rcases List.mem_append.mp hb with hb | hb
        · exact fine b hb
        · rw [List.mem_singleton.mp hb]; exact ha) (by
        have := marks_stay steps fine a ha h hm
        simpa [run, List.foldl_append] using this) (fun b hb => hmore b (by simp [hb]))
      simpa using h2
  have := (Clean.iff.mp hc).2.1
  rw [h1] at this
  cases this

end Verif.Cache
