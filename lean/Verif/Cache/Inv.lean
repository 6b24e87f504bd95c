import Verif.Cache.Names
/-
What holds of all processes and the disk they share, whatever happens.
-/
namespace Verif.Cache

/-- What holds of a process at all times. -/
structure ProcOk (d : Disk) (p : Proc) : Prop where
  index : IndexOk d p
  loaded : LoadedOk d p
  todo : ∀ h ∈ p.todo, isNamed d h = true
  fresh : p.todo ≠ [] → p.loaded = [] ∧ p.own = [] ∧ p.known = [] ∧ p.writing = none
  known : ∀ s ∈ p.known, (p.symLoaded s).isSome = true
  own : ∀ s ∈ p.own, ∃ hs h, p.symMods s = some hs ∧ h ∈ hs ∧ h ∈ p.loaded
  conv : ∀ s ∈ p.conv, s ∈ p.own ∨ s ∈ p.known ∨ (∃ h ∈ p.loaded, s ∈ (modOf d h).inlined) ∨
    ∃ h r, p.writing = some (h, r) ∧ s ∈ (modOf d h).defs
  has : ∀ s : Sym, s ∈ p.own ∨ s ∈ p.known → s ≠ globalsName → s ∈ p.conv
  writing : ∀ (h : Hash) (r : List File), p.writing = some (h, r) → ∃ dir, d[h]? = some dir ∧
    dir.named = false ∧ dir.files ++ r = allFiles ∧ (∀ s ∈ dir.mod.subs, s ∈ p.loaded) ∧
    ∀ s ∈ dir.mod.defs, s ∈ p.conv

theorem IndexOk.grow {d d' : Disk} {p : Proc} (ok : IndexOk d p) (g : Grow d d') : IndexOk d' p := by
  refine ⟨ok.mods, fun h l hl => ?_⟩
  obtain ⟨h1, h2, h3⟩ := ok.syms h l hl
  exact ⟨g.named h h1, by rw [g.mod h (isNamed_lt h1)]; exact h2, h3⟩

theorem LoadedOk.grow {d d' : Disk} {p : Proc} (ok : LoadedOk d p) (g : Grow d d') :
    LoadedOk d' p := by
  have hm : ∀ h ∈ p.loaded, modOf d' h = modOf d h := fun h hh =>
    g.mod h (isNamed_lt (ok.named h hh))
  constructor
  · exact fun h hh => g.named h (ok.named h hh)
  · exact ok.nodup
  · intro pre h post hl
    rw [hm h (by rw [hl]; simp)]
    exact ok.order pre h post hl
  · intro s h hs
    obtain ⟨h1, h2⟩ := ok.from_ s h hs
    exact ⟨h1, by rw [hm h h1]; exact h2⟩
  · intro h hh
    rw [hm h hh]
    exact ok.total h hh

theorem ProcOk.grow {d d' : Disk} {p : Proc} (ok : ProcOk d p) (g : Grow d d')
    (hw : ∀ (h : Hash) (r : List File), p.writing = some (h, r) →
      (d'[h]?).map Dir.core = (d[h]?).map Dir.core) : ProcOk d' p := by
  refine ⟨ok.index.grow g, ok.loaded.grow g, fun h hh => g.named h (ok.todo h hh), ok.fresh, ok.known,
    ok.own, ?_, ok.has, ?_⟩
  · intro s hs
    rcases ok.conv s hs with h1 | h1 | ⟨h, h1, h2⟩ | ⟨h, r, h1, h2⟩
    · exact .inl h1
    · exact .inr (.inl h1)
    · exact .inr (.inr (.inl ⟨h, h1, by rw [g.mod h (isNamed_lt (ok.loaded.named h h1))]; exact h2⟩))
    · refine .inr (.inr (.inr ⟨h, r, h1, ?_⟩))
      obtain ⟨dir, h3, -⟩ := ok.writing h r h1
      rw [g.mod h (List.getElem?_eq_some_iff.mp h3).1]
      exact h2
  · intro h r h1
    obtain ⟨dir, h2, h3, h4, h5, h6⟩ := ok.writing h r h1
    have := hw h r h1
    rw [h2] at this
    cases h7 : d'[h]? with
    | none => rw [h7] at this; cases this
    | some dir' =>
      rw [h7] at this
      simp only [Option.map_some, Option.some.injEq, Dir.core, Prod.mk.injEq] at this
      exact ⟨dir', rfl, this.1.trans h3, by rw [this.2.1]; exact h4, by rw [this.2.2]; exact h5,
        by rw [this.2.2]; exact h6⟩

theorem ProcOk.same {d d' : Disk} {p : Proc} (ok : ProcOk d p) (hs : Same d d') : ProcOk d' p :=
  ok.grow hs.grow (fun h _ _ => hs.core h)

/-- A process while modules are loaded. -/
theorem ProcOk.rel {st st' : St} (ok : ProcOk st.disk st.proc) (good : Good st')
    (r : Rel st st') (hf : st.proc.todo = []) : ProcOk st'.disk st'.proc := by
  have ht : st'.proc.todo = st.proc.todo := by rw [r.proc]
  have hk : st'.proc.known = st.proc.known := by rw [r.proc]
  have ho : st'.proc.own = st.proc.own := by rw [r.proc]
  have hc : st'.proc.conv = st.proc.conv := by rw [r.proc]
  have hw : st'.proc.writing = st.proc.writing := by rw [r.proc]
  have ok' := ok.same r.same
  refine ⟨good.index, good.loaded, ?_, ?_, ?_, ?_, ?_, ?_, ?_⟩
  · rw [ht]; exact ok'.todo
  · rw [ht]; exact fun h => absurd hf h
  · rw [hk]
    intro s hs
    obtain ⟨h, hh⟩ := isSome_of (ok.known s hs)
    rw [r.symLoaded s h hh]; rfl
  · rw [ho]
    intro s hs
    obtain ⟨l, h, h1, h2, h3⟩ := ok.own s hs
    obtain ⟨l', h4, h5⟩ := r.keep s l h h1 h2 h3
    exact ⟨l', h, h4, h5, r.loaded h h3⟩
  · rw [hc, ho, hk, hw]
    intro s hs
    rcases ok'.conv s hs with h1 | h1 | ⟨h, h1, h2⟩ | h1
    · exact .inl h1
    · exact .inr (.inl h1)
    · exact .inr (.inr (.inl ⟨h, r.loaded h h1, h2⟩))
    · exact .inr (.inr (.inr h1))
  · rw [hc, ho, hk]; exact ok.has
  · rw [hw, hc]
    intro h r' h1
    obtain ⟨dir, h2, h3, h4, h5, h6⟩ := ok'.writing h r' h1
    exact ⟨dir, h2, h3, h4, fun s hs => r.loaded s (h5 s hs), h6⟩

/-! ### Looking for symbols -/

theorem rounds_lt (st : St) (s : Sym) : ((st.proc.symMods s).getD []).length < rounds st s := by
  unfold rounds
  cases st.proc.symMods s <;> simp

/-- What `loadForSymbol` does. -/
theorem loadForSymbol_well (env : Hash → Bool) (s : Sym) (st : St) (good : Good st) :
    ∃ st' r, loadForSymbol env st s = (st', r) ∧ Good st' ∧ Rel st st' ∧
      (((st.proc.symLoaded s).isSome = true ∧ st' = st ∧ r = .ok none) ∨
        (st.proc.symLoaded s = none ∧ Looked env s st st' r)) := by
  unfold loadForSymbol
  cases hs : st.proc.symLoaded s with
  | some h => exact ⟨st, .ok none, by simp, good, Rel.refl _, .inl ⟨rfl, rfl, rfl⟩⟩
  | none =>
    obtain ⟨st', r, h1, h2, h3, h4⟩ := loadLoop_well env s (rounds st s) st good hs (rounds_lt st s)
    exact ⟨st', r, by simpa using h1, h2, h3, .inr ⟨rfl, h4⟩⟩

theorem not_contains {α : Type} [BEq α] [LawfulBEq α] {l : List α} {a : α} :
    l.contains a = false ↔ a ∉ l := by simp

/-- What `isFunctionDefined` does. -/
theorem isDefined_well (env : Hash → Bool) (s : Sym) (st : St) (dok : DiskOk st.disk)
    (ok : ProcOk st.disk st.proc) (ht : st.proc.todo = []) :
    ∃ st' r, isDefined env st s = (st', r) ∧ DiskOk st'.disk ∧ ProcOk st'.disk st'.proc ∧
      Same st.disk st'.disk ∧ st'.proc.writing = st.proc.writing ∧ st'.proc.live = st.proc.live ∧
      st'.proc.todo = st.proc.todo ∧
      (∀ e, r = .error e → e = .assertFailed) ∧
      (r = .error .assertFailed → st.proc.symLoaded s = none ∧ ¬ Closed st.disk env) ∧
      (∀ b, r = .ok b → (b = true ↔ s ∈ st'.proc.known)) ∧
      (r = .ok false → (st.proc.symLoaded s).isSome = true ∨
        ∀ hs, st.proc.symMods s = some hs → ∀ h ∈ hs, env h = false) := by
  have good : Good st := ⟨dok, ok.index, ok.loaded⟩
  unfold isDefined
  by_cases hk : s ∈ st.proc.known
  · rw [if_pos (by simpa using hk)]
    exact ⟨st, _, rfl, dok, ok, Same.refl _, rfl, rfl, rfl, by simp, by simp,
      fun b hb => by cases hb; simp [hk], by simp⟩
  · rw [if_neg (by simpa using hk)]
    cases hm : st.proc.symMods s with
    | none =>
      exact ⟨st, _, rfl, dok, ok, Same.refl _, rfl, rfl, rfl, by simp, by simp,
        fun b hb => by cases hb; simp [hk], fun _ => .inr (by simp)⟩
    | some hs =>
      obtain ⟨st1, r1, h1, g1, rel1, h2⟩ := loadForSymbol_well env s st good
      have ok1 := ok.rel g1 rel1 ht
      have hk1 : st1.proc.known = st.proc.known := by rw [rel1.proc]
      simp only [Option.isNone_some, Bool.false_eq_true, if_false, h1]
      rcases h2 with ⟨h2, rfl, rfl⟩ | ⟨h2, h3⟩
      · exact ⟨st1, _, rfl, dok, ok, Same.refl _, rfl, rfl, rfl, by simp, by simp,
          fun b hb => by cases hb; simp, fun _ => .inl h2⟩
      · cases h3 with
        | nothing h3 =>
          refine ⟨st1, _, rfl, g1.disk, ok1, rel1.same, by rw [rel1.proc], by rw [rel1.proc],
            by rw [rel1.proc], by simp, by simp,
            fun b hb => by cases hb; simp, fun _ => .inr ?_⟩
          rw [hm] at h3
          exact h3
        | failed h hs' h3 h4 h5 h6 =>
          exact ⟨st1, _, rfl, g1.disk, ok1, rel1.same, by rw [rel1.proc], by rw [rel1.proc],
            by rw [rel1.proc], by simp, fun _ => ⟨h2, h6⟩, by simp, by simp⟩
        | found f mid h hs' h3 h4 h5 h6 h7 h8 h9 =>
          have lok : (st1.proc.symLoaded = st1.proc.symLoaded) := rfl
          refine ⟨_, _, rfl, g1.disk, ?_, rel1.same, by rw [rel1.proc], by rw [rel1.proc],
            by rw [rel1.proc], by simp, by simp, fun b hb => by cases hb; simp, ?_⟩
          · refine ⟨⟨ok1.index.mods, ok1.index.syms⟩,
              ⟨ok1.loaded.named, ok1.loaded.nodup, ok1.loaded.order, ok1.loaded.from_,
                ok1.loaded.total⟩, ok1.todo, ?_, ?_, ok1.own, ?_, ?_, ?_⟩
            · intro h'
              exact absurd (by rw [rel1.proc]; exact ht) h'
            · intro x hx
              rcases List.mem_append.mp hx with hx | hx
              · exact ok1.known x hx
              · rcases h9.syms x hx with h10 | h10
                · cases h10
                · exact h10
            · intro x hx
              rcases List.mem_append.mp hx with hx | hx
              · rcases ok1.conv x hx with h10 | h10 | h10 | h10
                · exact .inl h10
                · exact .inr (.inl (by simp [h10]))
                · exact .inr (.inr (.inl h10))
                · exact .inr (.inr (.inr h10))
              · rcases h9.defs x hx with h10 | h10 | h10
                · cases h10
                · exact .inr (.inl (by simp [h10]))
                · exact .inr (.inr (.inl h10))
            · intro x hx hne
              rcases hx with hx | hx
              · exact List.mem_append_left _ (ok1.has x (.inl hx) hne)
              · rcases List.mem_append.mp hx with hx | hx
                · exact List.mem_append_left _ (ok1.has x (.inr hx) hne)
                · rcases h9.both x hx with h10 | h10 | h10
                  · cases h10
                  · exact absurd h10 hne
                  · exact List.mem_append_right _ h10
            · intro h' r' h10
              obtain ⟨dir, h11, h12, h13, h14, h15⟩ := ok1.writing h' r' h10
              exact ⟨dir, h11, h12, h13, h14, fun x hx => List.mem_append_left _ (h15 x hx)⟩
          · intro hb
            simp only [Except.ok.injEq, not_contains, List.mem_append, not_or] at hb
            exact absurd h7 hb.2

/-- What `functionPointerByName` does. -/
theorem pointer_well (env : Hash → Bool) (s : Sym) (st : St) (dok : DiskOk st.disk)
    (ok : ProcOk st.disk st.proc) (ht : st.proc.todo = []) :
    ∃ st' r, pointer env st s = (st', r) ∧ DiskOk st'.disk ∧ ProcOk st'.disk st'.proc ∧
      Same st.disk st'.disk ∧ st'.proc.writing = st.proc.writing ∧ st'.proc.live = st.proc.live ∧
      st'.proc.todo = st.proc.todo ∧
      (∀ e, r = .error e → (e = .assertFailed ∧ ¬ Closed st.disk env ∨
        e = .cantFind ∧ st.proc.symMods s ≠ none ∧ st.proc.symLoaded s = none)) ∧
      (∀ h, r = .ok (some h) → st'.proc.symLoaded s = some h) ∧
      (r = .ok none → st.proc.symMods s = none) ∧
      (∀ (x : Sym) (h : Hash), st.proc.symLoaded x = some h → st'.proc.symLoaded x = some h) := by
  have good : Good st := ⟨dok, ok.index, ok.loaded⟩
  unfold pointer
  cases hm : st.proc.symMods s with
  | none =>
    exact ⟨st, _, rfl, dok, ok, Same.refl _, rfl, rfl, rfl, by simp, by simp, by simp,
      fun _ _ h => h⟩
  | some hs =>
    obtain ⟨st1, r1, h1, g1, rel1, h2⟩ := loadForSymbol_well env s st good
    have ok1 := ok.rel g1 rel1 ht
    simp only [Option.isNone_some, Bool.false_eq_true, if_false, h1]
    have key : ∀ o : Option Found, r1 = .ok o → ∃ r, (match st1.proc.symLoaded s with
          | none => (st1, Except.error Fault.cantFind)
          | some h =>
            if st1.proc.loaded.contains h then
              if (modOf st1.disk h).syms.contains s then (st1, .ok (some h))
              else (st1, .error .keyError)
            else (st1, .error .cantFind)) = (st1, r) ∧
        (st1.proc.symLoaded s = none ∧ r = .error .cantFind ∨
          ∃ h, st1.proc.symLoaded s = some h ∧ r = .ok (some h)) := by
      intro o _
      cases h3 : st1.proc.symLoaded s with
      | none => exact ⟨_, rfl, .inl ⟨rfl, rfl⟩⟩
      | some h =>
        obtain ⟨h4, h5⟩ := ok1.loaded.from_ s h h3
        refine ⟨.ok (some h), ?_, .inr ⟨h, rfl, rfl⟩⟩
        simp only [List.contains_eq_mem, h4, h5, decide_true, if_true]
    cases r1 with
    | error e =>
      refine ⟨st1, _, rfl, g1.disk, ok1, rel1.same, by rw [rel1.proc], by rw [rel1.proc],
        by rw [rel1.proc], ?_, by simp, by simp, rel1.symLoaded⟩
      intro e' he
      cases he
      rcases h2 with ⟨_, _, h3⟩ | ⟨_, h3⟩
      · cases h3
      · cases h3 with
        | failed h hs' h3 h4 h5 h6 => exact .inl ⟨rfl, h6⟩
    | ok o =>
      obtain ⟨r, h3, h4⟩ := key o rfl
      refine ⟨st1, r, h3, g1.disk, ok1, rel1.same, by rw [rel1.proc], by rw [rel1.proc],
        by rw [rel1.proc], ?_, ?_, ?_, rel1.symLoaded⟩
      · intro e he
        rcases h4 with ⟨h4, h5⟩ | ⟨h, h4, h5⟩
        · rw [h5] at he
          cases he
          refine .inr ⟨rfl, by simp, ?_⟩
          cases h6 : st.proc.symLoaded s with
          | none => rfl
          | some h => rw [rel1.symLoaded s h h6] at h4; cases h4
        · rw [h5] at he; cases he
      · intro h he
        rcases h4 with ⟨_, h5⟩ | ⟨h', h4, h5⟩
        · rw [h5] at he; cases he
        · rw [h5] at he; cases he; exact h4
      · intro he
        rcases h4 with ⟨_, h5⟩ | ⟨h', h4, h5⟩
        · rw [h5] at he; cases he
        · rw [h5] at he; cases he

/-! ### Adding -/

theorem dependencies_ok (p : Proc) (l : List Sym) (hl : ∀ x ∈ l, (p.symLoaded x).isSome = true) :
    ∃ hs, dependencies p l = .ok hs ∧ (∀ x ∈ l, ∃ h ∈ hs, p.symLoaded x = some h) ∧
      ∀ h ∈ hs, ∃ x ∈ l, p.symLoaded x = some h := by
  induction l with
  | nil => exact ⟨[], rfl, by simp, by simp⟩
  | cons a rest ih =>
    obtain ⟨hs, h1, h2, h3⟩ := ih (fun x hx => hl x (by simp [hx]))
    obtain ⟨h, ha⟩ := isSome_of (hl a (by simp))
    rw [dependencies, ha, h1]
    refine ⟨_, rfl, ?_, ?_⟩
    · have hsub : ∀ k, k ∈ hs ∨ k = h → k ∈ (if hs.contains h then hs else h :: hs) := by
        intro k hk
        split
        · rename_i hc
          rcases hk with hk | rfl
          · exact hk
          · simpa using hc
        · rcases hk with hk | rfl <;> simp [*]
      intro x hx
      rcases List.mem_cons.mp hx with rfl | hx
      · exact ⟨h, hsub h (.inr rfl), ha⟩
      · obtain ⟨k, h4, h5⟩ := h2 x hx
        exact ⟨k, hsub k (.inl h4), h5⟩
    · intro k hk
      split at hk
      · obtain ⟨x, h4, h5⟩ := h3 k hk
        exact ⟨x, by simp [h4], h5⟩
      · rcases List.mem_cons.mp hk with rfl | hk
        · exact ⟨a, by simp, ha⟩
        · obtain ⟨x, h4, h5⟩ := h3 k hk
          exact ⟨x, by simp [h4], h5⟩

/-- What adding functions does, up to the first file. -/
theorem beginAdd_well (st : St) (defs inlined calls : List Sym) (dok : DiskOk st.disk)
    (ok : ProcOk st.disk st.proc) (ht : st.proc.todo = []) (hw : st.proc.writing = none)
    (hadd : st.proc.mayAdd defs inlined calls = true)
    (fine : defs.Nodup ∧ globalsName ∉ defs ∧ globalsName ∉ calls) :
    (beginAdd st defs inlined calls = (st, .error .defineTwice) ∧
      ∃ s ∈ defs, ∃ h ∈ st.proc.loaded, s ∈ (modOf st.disk h).inlined) ∨
    ∃ m st', beginAdd st defs inlined calls = (st', .ok ()) ∧
      st'.disk = st.disk ++ [⟨false, [], m, false⟩] ∧ m.defs = defs ∧ m.inlined = inlined ∧
      (∀ x ∈ calls, x ∈ defs ∨ x ∈ inlined ∨ x ∈ m.ext) ∧
      DiskOk st'.disk ∧ ProcOk st'.disk st'.proc ∧
      st'.proc.writing = some (st.disk.length, allFiles) := by
  unfold Proc.mayAdd at hadd
  simp only [Bool.and_eq_true, List.all_eq_true, Bool.or_eq_true, Bool.not_eq_true',
    List.contains_eq_mem, decide_eq_false_iff_not, decide_eq_true_eq] at hadd
  obtain ⟨⟨hdefs, hinl⟩, hcalls⟩ := hadd
  unfold beginAdd
  by_cases htwice : defs.any (fun s => st.proc.conv.contains s) = true
  · left
    rw [if_pos htwice]
    refine ⟨rfl, ?_⟩
    simp only [List.any_eq_true, List.contains_eq_mem, decide_eq_true_eq] at htwice
    obtain ⟨s, h1, h2⟩ := htwice
    obtain ⟨⟨h3, h4⟩, -⟩ := hdefs s h1
    rcases ok.conv s h2 with h5 | h5 | h5 | ⟨h, r, h5, -⟩
    · exact absurd h5 h3
    · exact absurd h5 h4
    · exact ⟨s, h1, h5⟩
    · rw [hw] at h5; cases h5
  · right
    rw [if_neg htwice]
    have hext : ∀ x ∈ calls.filter (fun s => !(defs.contains s || inlined.contains s)),
        x ∈ calls ∧ x ∉ defs ∧ x ∉ inlined := by
      intro x hx
      simpa using hx
    have hall : ∀ x ∈ calls, x ∈ defs ∨ x ∈ inlined ∨
        x ∈ calls.filter (fun s => !(defs.contains s || inlined.contains s)) := by
      intro x hx
      by_cases h1 : x ∈ defs
      · exact .inl h1
      · by_cases h2 : x ∈ inlined
        · exact .inr (.inl h2)
        · exact .inr (.inr (by simp [hx, h1, h2]))
    generalize calls.filter (fun s => !(defs.contains s || inlined.contains s)) = ext at hext hall ⊢
    have hok : ∀ x ∈ ext, (x ∈ st.proc.own ∨ x ∈ st.proc.known) ∧ x ≠ globalsName := by
      intro x hx
      obtain ⟨h1, h2, h3⟩ := hext x hx
      refine ⟨?_, fun e => fine.2.2 (e ▸ h1)⟩
      rcases hcalls x h1 with ((h4 | h4) | h4) | h4
      · exact absurd h4 h2
      · exact absurd h4 h3
      · exact .inl h4
      · exact .inr h4
    have hsome : ∀ x ∈ ext, (st.proc.symLoaded x).isSome = true := by
      intro x hx
      rcases (hok x hx).1 with h1 | h1
      · obtain ⟨l, h, h2, h3, h4⟩ := ok.own x h1
        obtain ⟨-, -, h5⟩ := ok.index.mods x l h2
        obtain ⟨l', h6, h7⟩ := h5 h h3
        obtain ⟨-, h8, -⟩ := ok.index.syms h l' h6
        exact ok.loaded.total h h4 x (h8 ▸ h7)
      · exact ok.known x h1
    have hconv : ext.any (fun s => !(st.proc.conv ++ defs).contains s) = false := by
      simp only [List.any_eq_false, Bool.not_eq_true', Bool.not_eq_false, List.contains_eq_mem,
        decide_eq_true_eq]
      intro x hx
      exact List.mem_append_left _ (ok.has x (hok x hx).1 (hok x hx).2)
    simp only [hconv, Bool.false_eq_true, if_false]
    obtain ⟨subs, h1, h2, h3⟩ := dependencies_ok
      { st.proc with conv := st.proc.conv ++ defs } ext hsome
    rw [h1]
    have hsubs : ∀ k ∈ subs, k ∈ st.proc.loaded := by
      intro k hk
      obtain ⟨x, -, h5⟩ := h3 k hk
      exact (ok.loaded.from_ x k h5).1
    have dok' : DiskOk (st.disk ++ [⟨false, [], ⟨defs, inlined, ext, subs⟩, false⟩]) := by
      refine dok.snoc _ (fun k hk => ok.loaded.named k (hsubs k hk)) ?_ ?_
      · intro x hx
        obtain ⟨k, h4, h5⟩ := h2 x hx
        exact ⟨k, h4, (ok.loaded.from_ x k h5).2⟩
      · refine List.nodup_append.mpr ⟨fine.1, by simp, ?_⟩
        intro a ha b hb
        rw [List.mem_singleton.mp hb]
        exact fun e => fine.2.1 (e ▸ ha)
    have ok' : ProcOk (st.disk ++ [⟨false, [], ⟨defs, inlined, ext, subs⟩, false⟩]) st.proc :=
      ok.grow (grow_snoc _ _) (fun h r h4 => by rw [hw] at h4; cases h4)
    have hget : (st.disk ++ [⟨false, [], ⟨defs, inlined, ext, subs⟩, false⟩])[st.disk.length]? =
        some ⟨false, [], ⟨defs, inlined, ext, subs⟩, false⟩ := by simp
    have hmod : modOf (st.disk ++ [⟨false, [], ⟨defs, inlined, ext, subs⟩, false⟩]) st.disk.length =
        ⟨defs, inlined, ext, subs⟩ := by simp [modOf]
    refine ⟨⟨defs, inlined, ext, subs⟩, _, rfl, rfl, rfl, rfl, hall, dok', ?_, rfl⟩
    refine ⟨⟨ok'.index.mods, ok'.index.syms⟩, ⟨ok'.loaded.named, ok'.loaded.nodup, ok'.loaded.order,
      ok'.loaded.from_, ok'.loaded.total⟩, ok'.todo, fun h4 => absurd ht h4, ok'.known, ok'.own,
      ?_, ?_, ?_⟩
    · intro x hx
      rcases List.mem_append.mp hx with hx | hx
      · rcases ok'.conv x hx with h4 | h4 | h4 | ⟨h, r, h4, -⟩
        · exact .inl h4
        · exact .inr (.inl h4)
        · exact .inr (.inr (.inl h4))
        · rw [hw] at h4; cases h4
      · exact .inr (.inr (.inr ⟨st.disk.length, allFiles, rfl, by rw [hmod]; exact hx⟩))
    · intro x hx hne
      exact List.mem_append_left _ (ok'.has x hx hne)
    · intro h r h4
      simp only [Option.some.injEq, Prod.mk.injEq] at h4
      obtain ⟨rfl, rfl⟩ := h4
      exact ⟨_, hget, rfl, rfl, hsubs, fun x hx => List.mem_append_right _ hx⟩

/-- Writing a file. -/
theorem writeFile_well (st : St) (dok : DiskOk st.disk) (ok : ProcOk st.disk st.proc) :
    writeFile st = st ∨ ∃ h f rest, st.proc.writing = some (h, f :: rest) ∧
      writeFile st = ⟨st.disk.modify h (fun dir => { dir with files := dir.files ++ [f] }),
        { st.proc with writing := some (h, rest) }⟩ ∧
      DiskOk (writeFile st).disk ∧ ProcOk (writeFile st).disk (writeFile st).proc ∧
      Grow st.disk (writeFile st).disk := by
  unfold writeFile
  cases hw : st.proc.writing with
  | none => exact .inl rfl
  | some w =>
    obtain ⟨h, r⟩ := w
    cases r with
    | nil => exact .inl rfl
    | cons f rest =>
      right
      obtain ⟨dir, h1, h2, h3, h4, h5⟩ := ok.writing h _ hw
      have hn : isNamed st.disk h = false := by simp [isNamed, h1, h2]
      have g := grow_write st.disk h (fun dir => dir.files ++ [f])
      refine ⟨h, f, rest, rfl, rfl, dok.write _ hn, ?_, g⟩
      have hloaded := ok.loaded.grow g
      have hindex := ok.index.grow g
      refine ⟨⟨hindex.mods, hindex.syms⟩, ⟨hloaded.named, hloaded.nodup, hloaded.order,
        hloaded.from_, hloaded.total⟩, fun k hk => g.named k (ok.todo k hk),
        fun ht => ?_, ok.known, ok.own, ?_, ok.has, ?_⟩
      · have := (ok.fresh ht).2.2.2
        rw [hw] at this; cases this
      · intro x hx
        rw [modOf_write]
        rcases ok.conv x hx with h6 | h6 | h6 | ⟨k, r, h6, h7⟩
        · exact .inl h6
        · exact .inr (.inl h6)
        · exact .inr (.inr (.inl h6))
        · rw [hw] at h6
          cases h6
          exact .inr (.inr (.inr ⟨h, rest, rfl, h7⟩))
      · intro k r h6
        simp only [Option.some.injEq, Prod.mk.injEq] at h6
        obtain ⟨rfl, rfl⟩ := h6
        refine ⟨{ dir with files := dir.files ++ [f] }, ?_, h2, ?_, h4, h5⟩
        · simp [List.getElem?_modify, h1]
        · simp only [List.append_assoc, List.singleton_append]
          exact h3

/-- Renaming and loading. -/
theorem finishAdd_well (st : St) (dok : DiskOk st.disk) (ok : ProcOk st.disk st.proc)  :
    finishAdd st = (st, .ok ()) ∨ ∃ h st', st.proc.writing = some (h, []) ∧
      finishAdd st = (st', .ok ()) ∧
      st'.disk = st.disk.modify h (fun dir => { dir with named := true }) ∧
      st'.proc.writing = none ∧ h ∈ st'.proc.loaded ∧
      (∀ s ∈ (modOf st.disk h).defs, s ∈ st'.proc.own) ∧
      DiskOk st'.disk ∧ ProcOk st'.disk st'.proc ∧ Grow st.disk st'.disk := by
  unfold finishAdd
  cases hw : st.proc.writing with
  | none => exact .inl rfl
  | some w =>
    obtain ⟨h, r⟩ := w
    cases r with
    | cons f rest => exact .inl rfl
    | nil =>
      right
      obtain ⟨dir, h1, h2, h3, h4, h5⟩ := ok.writing h _ hw
      rw [List.append_nil] at h3
      have hlt : h < st.disk.length := (List.getElem?_eq_some_iff.mp h1).1
      have hmod : modOf st.disk h = dir.mod := by simp [modOf, h1]
      have g := grow_rename st.disk h
      have dok' := dok.rename h1 h3
      have hn' : isNamed (st.disk.modify h (fun dir => { dir with named := true })) h = true := by
        rw [isNamed_rename]; simp [hlt]
      have hopen : canOpen (st.disk.modify h (fun dir => { dir with named := true })) h .so = true :=
        canOpen_renamed h1 h3 .so
      simp only [hopen, Bool.not_true, Bool.false_eq_true, if_false]
      have hloaded := ok.loaded.grow g
      have hindex := ok.index.grow g
      have hnew : h ∉ st.proc.loaded := fun hl => by
        have := ok.loaded.named h hl
        simp [isNamed, h1, h2] at this
      refine ⟨h, _, rfl, rfl, rfl, rfl, by simp, ?_, dok', ?_, g⟩
      · intro s hs
        rw [modOf_rename]
        exact List.mem_append_right _ hs
      have lok := loaded_snoc hloaded hn' hnew (by rw [modOf_rename, hmod]; exact h4)
        { st.proc with
          writing := none
          loaded := st.proc.loaded ++ [h]
          symLoaded := setLoaded h (modOf (st.disk.modify h
            (fun dir => { dir with named := true })) h).syms st.proc.symLoaded
          symMods := indexSyms h (modOf (st.disk.modify h
            (fun dir => { dir with named := true })) h).syms st.proc.symMods
          modSyms := upd st.proc.modSyms h (some (modOf (st.disk.modify h
            (fun dir => { dir with named := true })) h).syms)
          own := st.proc.own ++ (modOf (st.disk.modify h
            (fun dir => { dir with named := true })) h).defs } rfl rfl
      refine ⟨indexSyms_index hindex hn' _ rfl rfl, lok, fun k hk => g.named k (ok.todo k hk),
        fun ht => ?_, ?_, ?_, ?_, ?_, fun k r h6 => by cases h6⟩
      · have := (ok.fresh ht).2.2.2
        rw [hw] at this; cases this
      · intro s hs
        obtain ⟨k, hk⟩ := isSome_of (ok.known s hs)
        simp only [setLoaded_get, hk]
        rfl
      · intro s hs
        rcases List.mem_append.mp hs with hs | hs
        · obtain ⟨l, k, h6, h7, h8⟩ := ok.own s hs
          obtain ⟨l', h9, h10⟩ := (indexSyms_mem h (modOf (st.disk.modify h
            (fun dir => { dir with named := true })) h).syms st.proc.symMods s k).mpr
            (.inl ⟨l, h6, h7⟩)
          exact ⟨l', k, h9, h10, by simp [h8]⟩
        · obtain ⟨l', h9, h10⟩ := (indexSyms_mem h (modOf (st.disk.modify h
            (fun dir => { dir with named := true })) h).syms st.proc.symMods s h).mpr
            (.inr ⟨by simp [Module.syms, hs], rfl⟩)
          exact ⟨l', h, h9, h10, by simp⟩
      · intro s hs
        rcases ok.conv s hs with h6 | h6 | ⟨k, h6, h7⟩ | ⟨k, r, h6, h7⟩
        · exact .inl (by simp [h6])
        · exact .inr (.inl h6)
        · exact .inr (.inr (.inl ⟨k, by simp [h6], by rw [modOf_rename]; exact h7⟩))
        · rw [hw] at h6
          cases h6
          exact .inl (List.mem_append_right _ (by rw [modOf_rename]; exact h7))
      · intro s hs hne
        rcases hs with hs | hs
        · rcases List.mem_append.mp hs with hs | hs
          · exact ok.has s (.inl hs) hne
          · rw [modOf_rename, hmod] at hs
            exact h5 s hs
        · exact ok.has s (.inr hs) hne

/-! ### All processes -/

/-- What holds at all times. -/
structure Inv (w : World) : Prop where
  disk : DiskOk w.disk
  procs : ∀ (i : Nat) (p : Proc), w.procs[i]? = some p → ProcOk w.disk p
  distinct : ∀ (i j : Nat) (p q : Proc) (h : Hash) (r r' : List File), w.procs[i]? = some p →
    w.procs[j]? = some q → p.writing = some (h, r) → q.writing = some (h, r') → i = j
  faults : ∀ f ∈ w.faults, f.2 = .assertFailed ∨ f.2 = .cantFind ∨ f.2 = .defineTwice

/-- What a step of one process must keep. -/
theorem Inv.put {w : World} (inv : Inv w) {i : Nat} {p : Proc} (hp : w.procs[i]? = some p)
    {α : Type} {st : St} {r : Except Fault α} (hd : DiskOk st.disk) (hok : ProcOk st.disk st.proc)
    (hoth : ∀ (j : Nat) (q : Proc), j ≠ i → w.procs[j]? = some q → ProcOk st.disk q)
    (hw : ∀ (h : Hash) (r : List File), st.proc.writing = some (h, r) →
      (∃ r', p.writing = some (h, r')) ∨ w.disk.length ≤ h)
    (hf : ∀ e, r = .error e → e = .assertFailed ∨ e = .cantFind ∨ e = .defineTwice) :
    Inv (put w i (st, r)) := by
  have hlt : i < w.procs.length := (List.getElem?_eq_some_iff.mp hp).1
  have hget : ∀ (j : Nat) (q : Proc), (w.procs.set i st.proc)[j]? = some q →
      (j = i ∧ q = st.proc) ∨ (j ≠ i ∧ w.procs[j]? = some q) := by
    intro j q hq
    by_cases hji : j = i
    · subst hji
      rw [List.getElem?_set_self hlt] at hq
      cases hq
      exact .inl ⟨rfl, rfl⟩
    · rw [List.getElem?_set_ne (Ne.symm hji)] at hq
      exact .inr ⟨hji, hq⟩
  have hprocs : ∀ (j : Nat) (q : Proc), (w.procs.set i st.proc)[j]? = some q → ProcOk st.disk q := by
    intro j q hq
    rcases hget j q hq with ⟨_, rfl⟩ | ⟨h1, h2⟩
    · exact hok
    · exact hoth j q h1 h2
  have hclash : ∀ (j : Nat) (q : Proc) (h : Hash) (r r' : List File), w.procs[j]? = some q →
      q.writing = some (h, r) → st.proc.writing = some (h, r') → j = i := by
    intro j q h r r' h1 h2 h3
    rcases hw h r' h3 with ⟨r2, h4⟩ | h4
    · exact inv.distinct j i q p h r r2 h1 hp h2 h4
    · obtain ⟨dir, h5, -⟩ := (inv.procs j q h1).writing h r h2
      have := (List.getElem?_eq_some_iff.mp h5).1
      exact absurd this (Nat.not_lt.mpr h4)
  have hdist : ∀ (j k : Nat) (q q' : Proc) (h : Hash) (r r' : List File),
      (w.procs.set i st.proc)[j]? = some q → (w.procs.set i st.proc)[k]? = some q' →
      q.writing = some (h, r) → q'.writing = some (h, r') → j = k := by
    intro j k q q' h r r' h1 h2 h3 h4
    rcases hget j q h1 with ⟨rfl, rfl⟩ | ⟨h5, h6⟩
    · rcases hget k q' h2 with ⟨rfl, rfl⟩ | ⟨h7, h8⟩
      · rfl
      · exact absurd (hclash k q' h r' r h8 h4 h3) h7
    · rcases hget k q' h2 with ⟨rfl, rfl⟩ | ⟨h7, h8⟩
      · exact absurd (hclash j q h r r' h6 h3 h4) h5
      · exact inv.distinct j k q q' h r r' h6 h8 h3 h4
  cases r with
  | ok a => exact ⟨hd, hprocs, hdist, inv.faults⟩
  | error e =>
    refine ⟨hd, hprocs, hdist, ?_⟩
    intro f hf'
    rcases List.mem_append.mp hf' with hf' | hf'
    · exact inv.faults f hf'
    · rw [List.mem_singleton.mp hf']
      exact hf e rfl

theorem Inv.init : Inv {} := by
  constructor
  · constructor
    · intro h hn; simp [isNamed] at hn
    · intro h s hs; simp [modOf] at hs
    · intro h s hs; simp [modOf] at hs
    · intro h; simp [modOf, Module.syms]
  · intro i p hp; simp at hp
  · intro i j p q h r r' hp; simp at hp
  · intro f hf; cases hf

theorem idle_todo {p : Proc} (h : p.idle = true) : p.live = true ∧ p.todo = [] ∧ p.writing = none := by
  unfold Proc.idle at h
  simp only [Bool.and_eq_true, List.isEmpty_iff, Option.isNone_iff_eq_none] at h
  exact ⟨h.1.1, h.1.2, h.2⟩

theorem new_ok (d : Disk) :
    ProcOk d { todo := (List.range d.length).filter (isNamed d) } := by
  refine ⟨⟨?_, ?_⟩, ⟨?_, ?_, ?_, ?_, ?_⟩, ?_, ?_, ?_, ?_, ?_, ?_, ?_⟩
  · intro s hs h; cases h
  · intro s hs h; cases h
  · intro h hh; cases hh
  · exact List.nodup_nil
  · intro pre h post hh
    simp at hh
  · intro s h hh; cases hh
  · intro h hh; cases hh
  · intro h hh
    exact (List.mem_filter.mp hh).2
  · intro _; exact ⟨rfl, rfl, rfl, rfl⟩
  · intro s hs; cases hs
  · intro s hs; cases hs
  · intro s hs; cases hs
  · intro s hs; rcases hs with hs | hs <;> cases hs
  · intro h r hh; cases hh

theorem scan_ok {w : World} (inv : Inv w) {i : Nat} {p : Proc} (hp : w.procs[i]? = some p)
    {h : Hash} {rest : List Hash} (ht : p.todo = h :: rest) :
    ∃ st b, loadNames (h + 1) ⟨w.disk, { p with todo := rest }⟩ h = (st, .ok b) ∧
      DiskOk st.disk ∧ ProcOk st.disk st.proc ∧
      NamesRel ⟨w.disk, { p with todo := rest }⟩ st ∧ (b = true → h ∈ st.proc.valid) ∧
      (ValidClean ⟨w.disk, p⟩ → (b = true ↔ Clean w.disk h) ∧ ValidClean st ∧
        ∀ k : Hash, Clean st.disk k ↔ Clean w.disk k) := by
  have ok := inv.procs i p hp
  have hn : isNamed w.disk h = true := ok.todo h (by rw [ht]; simp)
  obtain ⟨st, b, h1, h2, h3, h4, h5, h6⟩ := loadNames_well (h + 1) ⟨w.disk, { p with todo := rest }⟩ h
    inv.disk ⟨ok.index.mods, ok.index.syms⟩ hn (Nat.lt_succ_self _)
  obtain ⟨f1, f2, f3, f4⟩ := ok.fresh (by rw [ht]; simp)
  refine ⟨st, b, h1, h2, ?_, h4, h5, ?_⟩
  · have e1 : st.proc.loaded = p.loaded := by rw [h4.proc]
    have e2 : st.proc.own = p.own := by rw [h4.proc]
    have e3 : st.proc.known = p.known := by rw [h4.proc]
    have e4 : st.proc.writing = p.writing := by rw [h4.proc]
    have e5 : st.proc.todo = rest := by rw [h4.proc]
    have e6 : st.proc.conv = p.conv := by rw [h4.proc]
    have e7 : st.proc.symLoaded = p.symLoaded := by rw [h4.proc]
    have ok' := ok.same h4.same
    refine ⟨h3, ok.loaded.same h4.same e1 e7, ?_, ?_, ?_, ?_, ?_, ?_, ?_⟩
    · rw [e5]
      exact fun k hk => ok'.todo k (by rw [ht]; simp [hk])
    · rw [e1, e2, e3, e4]
      exact fun _ => ⟨f1, f2, f3, f4⟩
    · rw [e3, e7]; exact ok.known
    · rw [e2, f2]; intro s hs; cases hs
    · rw [e6, e2, e3, e1, e4]; exact ok'.conv
    · rw [e6, e2, e3]; exact ok.has
    · rw [e4, f4]; intro k r hk; cases hk
  · intro v
    exact h6 ⟨v.clean, v.index⟩

/-- A step keeps it so. -/
theorem Inv.step {w : World} (inv : Inv w) {a : Step} (fine : a.Fine) : Inv (step w a) := by
  cases a with
  | start =>
    have hget : ∀ (j : Nat) (q : Proc), (w.procs ++
        [{ todo := (List.range w.disk.length).filter (isNamed w.disk) }])[j]? = some q →
        w.procs[j]? = some q ∨ q.writing = none ∧ ProcOk w.disk q := by
      intro j q hq
      rcases Nat.lt_trichotomy j w.procs.length with hj | hj | hj
      · rw [List.getElem?_append_left hj] at hq; exact .inl hq
      · subst hj
        simp at hq
        subst hq
        exact .inr ⟨rfl, new_ok _⟩
      · rw [List.getElem?_eq_none (by simp; omega)] at hq; cases hq
    refine ⟨inv.disk, ?_, ?_, inv.faults⟩
    · intro j q hq
      rcases hget j q hq with h1 | h1
      · exact inv.procs j q h1
      · exact h1.2
    · intro j k q q' h r r' h1 h2 h3 h4
      rcases hget j q h1 with h5 | ⟨h5, -⟩
      · rcases hget k q' h2 with h6 | ⟨h6, -⟩
        · exact inv.distinct j k q q' h r r' h5 h6 h3 h4
        · rw [h6] at h4; cases h4
      · rw [h5] at h3; cases h3
  | scan i =>
    rw [Cache.step]
    cases hp : w.procs[i]? with
    | none => exact inv
    | some p =>
      simp only
      split
      · rename_i h rest hl ht
        obtain ⟨st, b, h1, h2, h3, h4, -⟩ := scan_ok inv hp ht
        rw [h1]
        refine inv.put hp h2 h3 (fun j q _ hq => (inv.procs j q hq).same h4.same) ?_ (by simp)
        intro k r hk
        rw [h4.proc] at hk
        exact .inl ⟨r, hk⟩
      · exact inv
  | ask i env s =>
    rw [Cache.step]
    cases hp : w.procs[i]? with
    | none => exact inv
    | some p =>
      simp only
      split
      · rename_i hidle
        obtain ⟨-, ht, -⟩ := idle_todo hidle
        obtain ⟨st, r, h1, h2, h3, h4, h5, -, -, h6, -⟩ := isDefined_well env s ⟨w.disk, p⟩ inv.disk
          (inv.procs i p hp) ht
        rw [h1]
        refine inv.put hp h2 h3 (fun j q _ hq => (inv.procs j q hq).same h4) ?_
          (fun e he => .inl (h6 e he))
        intro k r hk
        rw [h5] at hk
        exact .inl ⟨r, hk⟩
      · exact inv
  | fetch i env s =>
    rw [Cache.step]
    cases hp : w.procs[i]? with
    | none => exact inv
    | some p =>
      simp only
      split
      · rename_i hidle
        obtain ⟨-, ht, -⟩ := idle_todo hidle
        obtain ⟨st, r, h1, h2, h3, h4, h5, -, -, h6, -⟩ := pointer_well env s ⟨w.disk, p⟩ inv.disk
          (inv.procs i p hp) ht
        rw [h1]
        refine inv.put hp h2 h3 (fun j q _ hq => (inv.procs j q hq).same h4) ?_ ?_
        · intro k r hk
          rw [h5] at hk
          exact .inl ⟨r, hk⟩
        · intro e he
          rcases h6 e he with h7 | h7
          · exact .inl h7.1
          · exact .inr (.inl h7.1)
      · exact inv
  | add i defs inlined calls =>
    rw [Cache.step]
    cases hp : w.procs[i]? with
    | none => exact inv
    | some p =>
      simp only
      split
      · rename_i hidle
        simp only [Bool.and_eq_true] at hidle
        obtain ⟨-, ht, hwr⟩ := idle_todo hidle.1
        have ok := inv.procs i p hp
        rcases beginAdd_well ⟨w.disk, p⟩ defs inlined calls inv.disk ok ht hwr hidle.2 fine with
          ⟨h1, -⟩ | ⟨m, st, h1, h2, h3, h4, h5, h6, h7, h8⟩
        · rw [h1]
          refine inv.put hp inv.disk ok (fun j q _ hq => inv.procs j q hq) ?_ ?_
          · intro k r hk
            exact .inl ⟨r, hk⟩
          · intro e he; cases he; exact .inr (.inr rfl)
        · rw [h1]
          refine inv.put hp h6 h7 ?_ ?_ (by simp)
          · intro j q _ hq
            rw [h2]
            refine (inv.procs j q hq).grow (grow_snoc _ _) ?_
            intro k r hk
            obtain ⟨dir, h9, -⟩ := (inv.procs j q hq).writing k r hk
            have hlt := (List.getElem?_eq_some_iff.mp h9).1
            rw [List.getElem?_append_left hlt]
          · intro k r hk
            rw [h8] at hk
            cases hk
            exact .inr (Nat.le_refl _)
      · exact inv
  | write i =>
    rw [Cache.step]
    cases hp : w.procs[i]? with
    | none => exact inv
    | some p =>
      simp only
      split
      · have ok := inv.procs i p hp
        rcases writeFile_well ⟨w.disk, p⟩ inv.disk ok with h1 | ⟨h, f, rest, h1, h2, h3, h4, h5⟩
        · rw [h1]
          refine inv.put hp inv.disk ok (fun j q _ hq => inv.procs j q hq) ?_ (by simp)
          intro k r hk
          exact .inl ⟨r, hk⟩
        · refine inv.put hp h3 h4 ?_ ?_ (by simp)
          · intro j q hji hq
            refine (inv.procs j q hq).grow h5 ?_
            intro k r hk
            have hkh : h ≠ k := by
              rintro rfl
              exact hji (inv.distinct j i q p h r _ hq hp hk h1)
            rw [h2]
            simp [List.getElem?_modify, hkh]
          · intro k r hk
            rw [h2] at hk
            cases hk
            exact .inl ⟨_, h1⟩
      · exact inv
  | finish i =>
    rw [Cache.step]
    cases hp : w.procs[i]? with
    | none => exact inv
    | some p =>
      simp only
      split
      · have ok := inv.procs i p hp
        rcases finishAdd_well ⟨w.disk, p⟩ inv.disk ok with
          h1 | ⟨h, st, h1, h2, h3, h4, h5, h6, h7, h8, h9⟩
        · rw [h1]
          refine inv.put hp inv.disk ok (fun j q _ hq => inv.procs j q hq) ?_ (by simp)
          intro k r hk
          exact .inl ⟨r, hk⟩
        · rw [h2]
          refine inv.put hp h7 h8 ?_ ?_ (by simp)
          · intro j q hji hq
            refine (inv.procs j q hq).grow h9 ?_
            intro k r hk
            have hkh : h ≠ k := by
              rintro rfl
              exact hji (inv.distinct j i q p h r _ hq hp hk h1)
            rw [h3]
            simp [List.getElem?_modify, hkh]
          · intro k r hk
            rw [h4] at hk
            cases hk
      · exact inv
  | crash i =>
    rw [Cache.step]
    cases hp : w.procs[i]? with
    | none => exact inv
    | some p =>
      have ok := inv.procs i p hp
      have : Inv (Cache.put w i (⟨w.disk, { p with live := false }⟩, (.ok () : Except Fault Unit))) := by
        refine inv.put hp inv.disk ?_ (fun j q _ hq => inv.procs j q hq) ?_ (by simp)
        · exact ⟨⟨ok.index.mods, ok.index.syms⟩, ⟨ok.loaded.named, ok.loaded.nodup, ok.loaded.order,
            ok.loaded.from_, ok.loaded.total⟩, ok.todo, ok.fresh, ok.known, ok.own, ok.conv, ok.has,
            ok.writing⟩
        · intro k r hk
          exact .inl ⟨r, hk⟩
      exact this

theorem Inv.foldl {w : World} (inv : Inv w) {steps : List Step} (fine : ∀ a ∈ steps, a.Fine) :
    Inv (steps.foldl Cache.step w) := by
  induction steps generalizing w with
  | nil => exact inv
  | cons a rest ih =>
    exact ih (inv.step (fine a (by simp))) (fun b hb => fine b (by simp [hb]))

theorem inv_run {steps : List Step} (fine : ∀ a ∈ steps, a.Fine) : Inv (run steps) :=
  Inv.init.foldl fine

end Verif.Cache
