import Verif.Cache.Index
/-
Loading modules and reading their names never fails where the disk is right, and what is loaded is right.
-/
namespace Verif.Cache

/-- What loading does to a process. -/
structure LoadRel (st st' : St) (acc acc' : Found) : Prop where
  same : Same st.disk st'.disk
  proc : st'.proc = { st.proc with
    loaded := st'.proc.loaded, symLoaded := st'.proc.symLoaded
    modSyms := st'.proc.modSyms, symMods := st'.proc.symMods }
  loaded : ∃ more, st'.proc.loaded = st.proc.loaded ++ more
  symLoaded : ∀ (s : Sym) (h : Hash), st.proc.symLoaded s = some h → st'.proc.symLoaded s = some h
  mods : ∀ (s : Sym) (hs' : List Hash), st'.proc.symMods s = some hs' →
    ∃ hs, st.proc.symMods s = some hs ∧ hs'.Sublist hs
  keep : ∀ (s : Sym) (hs : List Hash) (k : Hash), st.proc.symMods s = some hs → k ∈ hs →
    k ∈ st.proc.loaded → ∃ hs', st'.proc.symMods s = some hs' ∧ k ∈ hs'
  gone : ∀ h : Hash, st.proc.modSyms h = none → st'.proc.modSyms h = none
  accSyms : ∀ x ∈ acc.syms, x ∈ acc'.syms
  accDefs : ∀ x ∈ acc.defs, x ∈ acc'.defs
  syms : ∀ x ∈ acc'.syms, x ∈ acc.syms ∨ (st'.proc.symLoaded x).isSome = true
  defs : ∀ x ∈ acc'.defs, x ∈ acc.defs ∨ x ∈ acc'.syms ∨
    ∃ h ∈ st'.proc.loaded, x ∈ (modOf st'.disk h).inlined
  both : ∀ x ∈ acc'.syms, x ∈ acc.syms ∨ x = globalsName ∨ x ∈ acc'.defs
  new : ∀ h ∈ st'.proc.loaded, h ∈ st.proc.loaded ∨ ∀ s ∈ (modOf st'.disk h).syms, s ∈ acc'.syms

theorem LoadRel.refl (st : St) (acc : Found) : LoadRel st st acc acc :=
  ⟨Same.refl _, rfl, ⟨[], by simp⟩, fun _ _ h => h, fun s hs h => ⟨hs, h, List.Sublist.refl _⟩,
    fun s hs k h1 h2 _ => ⟨hs, h1, h2⟩, fun _ h => h, fun _ h => h, fun _ h => h,
    fun x hx => .inl hx, fun x hx => .inl hx, fun x hx => .inl hx, fun h hh => .inl hh⟩

theorem LoadRel.mem {st st' : St} {acc acc' : Found} (r : LoadRel st st' acc acc') {h : Hash}
    (hh : h ∈ st.proc.loaded) : h ∈ st'.proc.loaded := by
  obtain ⟨m, hm⟩ := r.loaded
  rw [hm]; simp [hh]

theorem isSome_of {α : Type} {a : Option α} (h : a.isSome = true) : ∃ x, a = some x := by
  cases a with
  | none => cases h
  | some x => exact ⟨x, rfl⟩

theorem LoadRel.trans {a b c : St} {x y z : Found} (r : LoadRel a b x y) (q : LoadRel b c y z) :
    LoadRel a c x z := by
  obtain ⟨m1, h1⟩ := r.loaded
  obtain ⟨m2, h2⟩ := q.loaded
  constructor
  · exact r.same.trans q.same
  · rw [q.proc, r.proc]
  · exact ⟨m1 ++ m2, by rw [h2, h1]; simp⟩
  · exact fun s h hs => q.symLoaded s h (r.symLoaded s h hs)
  · intro s hs hc
    obtain ⟨hb, h3, h4⟩ := q.mods s hs hc
    obtain ⟨ha, h5, h6⟩ := r.mods s hb h3
    exact ⟨ha, h5, h4.trans h6⟩
  · intro s hs k h3 h4 h5
    obtain ⟨hs', h6, h7⟩ := r.keep s hs k h3 h4 h5
    exact q.keep s hs' k h6 h7 (r.mem h5)
  · exact fun h hh => q.gone h (r.gone h hh)
  · exact fun s hs => q.accSyms s (r.accSyms s hs)
  · exact fun s hs => q.accDefs s (r.accDefs s hs)
  · intro s hs
    rcases q.syms s hs with h3 | h3
    · rcases r.syms s h3 with h4 | h4
      · exact .inl h4
      · obtain ⟨k, hk⟩ := isSome_of h4
        right; rw [q.symLoaded s k hk]; rfl
    · exact .inr h3
  · intro s hs
    rcases q.defs s hs with h3 | h3 | h3
    · rcases r.defs s h3 with h4 | h4 | ⟨k, h4, h5⟩
      · exact .inl h4
      · exact .inr (.inl (q.accSyms s h4))
      · exact .inr (.inr ⟨k, q.mem h4, by rw [q.same.modOf]; exact h5⟩)
    · exact .inr (.inl h3)
    · exact .inr (.inr h3)
  · intro s hs
    rcases q.both s hs with h3 | h3 | h3
    · rcases r.both s h3 with h4 | h4 | h4
      · exact .inl h4
      · exact .inr (.inl h4)
      · exact .inr (.inr (q.accDefs s h4))
    · exact .inr (.inl h3)
    · exact .inr (.inr h3)
  · intro h hh
    rcases q.new h hh with h3 | h3
    · rcases r.new h h3 with h4 | h4
      · exact .inl h4
      · exact .inr (fun s hs => q.accSyms s (h4 s (by rw [← q.same.modOf]; exact hs)))
    · exact .inr h3

theorem Marked.loadRel {st st' : St} {h : Hash} (m : Marked st st' h) (acc : Found)
    (hn : h ∉ st.proc.loaded) : LoadRel st st' acc acc := by
  have hl : st'.proc.loaded = st.proc.loaded := by rw [m.proc]
  have hsl : st'.proc.symLoaded = st.proc.symLoaded := by rw [m.proc]
  refine ⟨m.same, ?_, ⟨[], by simp [hl]⟩, fun s h hs => by rw [hsl]; exact hs, ?_, ?_, ?_,
    fun _ h => h, fun _ h => h, fun x hx => .inl hx, fun x hx => .inl hx, fun x hx => .inl hx,
    fun h hh => .inl (hl ▸ hh)⟩
  · rw [m.proc]
  · intro s hs h1
    obtain ⟨hs0, h2, h3⟩ := m.mods s hs h1
    exact ⟨hs0, h2, h3 ▸ List.filter_sublist⟩
  · intro s hs k h1 h2 h3
    exact m.keep s hs k h1 h2 (fun e => hn (e ▸ h3))
  · intro k hk
    rw [m.gone]
    by_cases hkh : k = h
    · simp [upd, hkh]
    · simp [upd, hkh, hk]

/-- The disk, the index and what is loaded are right. -/
structure Good (st : St) : Prop where
  disk : DiskOk st.disk
  index : IndexOk st.disk st.proc
  loaded : LoadedOk st.disk st.proc

theorem LoadedOk.same {d d' : Disk} {p p' : Proc} (ok : LoadedOk d p) (hs : Same d d')
    (h1 : p'.loaded = p.loaded) (h2 : p'.symLoaded = p.symLoaded) : LoadedOk d' p' := by
  constructor
  · rw [h1, hs.isNamed]; exact ok.named
  · rw [h1]; exact ok.nodup
  · rw [h1, hs.modOf]; exact ok.order
  · rw [h1, h2, hs.modOf]; exact ok.from_
  · rw [h1, h2, hs.modOf]; exact ok.total

/-- What loading one module, given as a function, does. -/
def LoadsWell (env : Hash → Bool) (f : St → Found → Hash → St × Found × Except Fault Bool)
    (n : Nat) : Prop :=
  ∀ (st : St) (acc : Found) (h : Hash), Good st → isNamed st.disk h = true → h < n →
    ∃ st' acc' b, f st acc h = (st', acc', .ok b) ∧ Good st' ∧ LoadRel st st' acc acc' ∧
      (b = true → h ∈ st'.proc.loaded) ∧
      (∀ k ∈ st'.proc.loaded, k ∈ st.proc.loaded ∨ (k ≤ h ∧ env k = true)) ∧
      (h ∉ st.proc.loaded → env h = false → b = false ∧ st'.proc.modSyms h = none ∧
        st'.proc.loaded = st.proc.loaded ∧ st'.proc.symLoaded = st.proc.symLoaded ∧
        ∀ k : Hash, k ≠ h → st'.proc.modSyms k = st.proc.modSyms k) ∧
      (∀ k : Hash, (h < k ∨ k = h ∧ env h = true) → st'.proc.modSyms k = st.proc.modSyms k) ∧
      ((∀ k : Hash, isNamed st.disk k = true → env k = true →
          ∀ s ∈ (modOf st.disk k).subs, env s = true) → env h = true → b = true)

theorem loadSubs_well {env : Hash → Bool}
    {f : St → Found → Hash → St × Found × Except Fault Bool} {n : Nat} (hf : LoadsWell env f n)
    (l : List Hash) (st : St) (acc : Found) (good : Good st)
    (hl : ∀ s ∈ l, isNamed st.disk s = true ∧ s < n) :
    ∃ st' acc' b, loadSubs f l st acc = (st', acc', .ok b) ∧ Good st' ∧ LoadRel st st' acc acc' ∧
      (b = true → ∀ s ∈ l, s ∈ st'.proc.loaded) ∧
      (∀ k ∈ st'.proc.loaded, k ∈ st.proc.loaded ∨ ((∃ s ∈ l, k ≤ s) ∧ env k = true)) ∧
      (∀ k : Hash, (∀ s ∈ l, s < k) → st'.proc.modSyms k = st.proc.modSyms k) ∧
      ((∀ k : Hash, isNamed st.disk k = true → env k = true →
          ∀ s ∈ (modOf st.disk k).subs, env s = true) → (∀ s ∈ l, env s = true) → b = true) := by
  induction l generalizing st acc with
  | nil => exact ⟨st, acc, true, rfl, good, LoadRel.refl _ _, by simp, fun k hk => .inl hk,
      fun _ _ => rfl, by simp⟩
  | cons a rest ih =>
    obtain ⟨ha1, ha2⟩ := hl a (by simp)
    obtain ⟨st1, acc1, b1, h1, g1, r1, l1, k1, -, m1, e1⟩ := hf st acc a good ha1 ha2
    rw [loadSubs, h1]
    cases b1 with
    | false =>
      refine ⟨st1, acc1, false, rfl, g1, r1, by simp, ?_,
        fun k hk => m1 k (.inl (hk a (by simp))), ?_⟩
      · intro k hk
        rcases k1 k hk with h2 | ⟨h2, h3⟩
        · exact .inl h2
        · exact .inr ⟨⟨a, by simp, h2⟩, h3⟩
      intro hc he
      exact e1 hc (he a (by simp))
    | true =>
      obtain ⟨st2, acc2, b2, h2, g2, r2, l2, k2, m2, e2⟩ := ih st1 acc1 g1 (fun s hs => by
        rw [r1.same.isNamed]; exact hl s (by simp [hs]))
      refine ⟨st2, acc2, b2, h2, g2, r1.trans r2, ?_, ?_,
        fun k hk => (m2 k (fun s hs => hk s (by simp [hs]))).trans (m1 k (.inl (hk a (by simp)))), ?_⟩
      · intro hb s hs
        rcases List.mem_cons.mp hs with rfl | hs
        · exact r2.mem (l1 rfl)
        · exact l2 hb s hs
      · intro k hk
        rcases k2 k hk with h3 | ⟨⟨s, h3, h4⟩, h6⟩
        · rcases k1 k h3 with h5 | ⟨h5, h6⟩
          · exact .inl h5
          · exact .inr ⟨⟨a, by simp, h5⟩, h6⟩
        · exact .inr ⟨⟨s, by simp [h3], h4⟩, h6⟩
      · intro hc he
        refine e2 ?_ (fun s hs => he s (by simp [hs]))
        rw [r1.same.isNamed, r1.same.modOf]
        exact hc

theorem loadModule_well (env : Hash → Bool) (n : Nat) : LoadsWell env (loadModule env n) n := by
  induction n with
  | zero => intro st acc h _ _ hlt; exact absurd hlt (Nat.not_lt_zero _)
  | succ n ih =>
    intro st acc h good hn hlt
    rw [loadModule]
    by_cases hl : h ∈ st.proc.loaded
    · rw [if_pos (by simpa using hl)]
      exact ⟨st, acc, true, rfl, good, LoadRel.refl _ _, fun _ => hl, fun k hk => .inl hk,
        fun h' => absurd hl h', fun _ _ => rfl, fun _ _ => rfl⟩
    · rw [if_neg (by simpa using hl)]
      have hopen := good.disk.files h hn
      by_cases he : env h = true
      · rw [if_neg (by simp [hopen, he])]
        have hsubs := good.disk.subs h
        obtain ⟨st1, acc1, b1, h1, g1, r1, l1, k1, m1, e1⟩ := loadSubs_well ih (modOf st.disk h).subs st acc
          good (fun s hs => ⟨(hsubs s hs).2, Nat.lt_of_lt_of_le (hsubs s hs).1 (Nat.le_of_lt_succ hlt)⟩)
        have k1' : ∀ k ∈ st1.proc.loaded, k ∈ st.proc.loaded ∨ (k < h ∧ env k = true) := by
          intro k hk
          rcases k1 k hk with h2 | ⟨⟨s, h2, h3⟩, h4⟩
          · exact .inl h2
          · exact .inr ⟨Nat.lt_of_le_of_lt h3 (hsubs s h2).1, h4⟩
        have m1' : ∀ k : Hash, (h < k ∨ k = h ∧ env h = true) →
            st1.proc.modSyms k = st.proc.modSyms k := by
          intro k hk
          refine m1 k (fun s hs => ?_)
          have h2 := (hsubs s hs).1
          rcases hk with hk | ⟨hk, _⟩
          · exact Nat.lt_trans h2 hk
          · rw [hk]; exact h2
        rw [h1]
        cases b1 with
        | false =>
          refine ⟨st1, acc1, false, rfl, g1, r1, by simp,
            fun k hk => (k1' k hk).imp id (fun h2 => ⟨Nat.le_of_lt h2.1, h2.2⟩),
            fun _ h' => by simp [he] at h', m1', ?_⟩
          intro hc _
          exact e1 hc (hc h hn he)
        | true =>
          have hopen1 := g1.disk.files h (by rw [r1.same.isNamed]; exact hn)
          simp only [hopen1, Bool.not_true, Bool.false_eq_true, if_false]
          by_cases hl1 : h ∈ st1.proc.loaded
          · -- its submodules have smaller names, and were loaded before it
            exact (k1' h hl1).elim (fun h' => absurd h' hl) (fun h' => absurd h'.1 (Nat.lt_irrefl _))
          · have lok := loaded_snoc g1.loaded (by rw [r1.same.isNamed]; exact hn) hl1
              (by rw [r1.same.modOf]; exact l1 rfl)
              { st1.proc with
                loaded := st1.proc.loaded ++ [h]
                symLoaded := setLoaded h (modOf st1.disk h).syms st1.proc.symLoaded } rfl rfl
            refine ⟨_, _, true, rfl, ⟨g1.disk, ⟨g1.index.mods, g1.index.syms⟩, lok⟩, ?_,
              fun _ => by simp, ?_, fun _ h' => by simp [he] at h', m1', fun _ _ => rfl⟩
            rotate_left
            · intro k hk
              rcases List.mem_append.mp hk with hk | hk
              · exact (k1' k hk).imp id (fun h2 => ⟨Nat.le_of_lt h2.1, h2.2⟩)
              · have hk := List.mem_singleton.mp hk
                exact .inr ⟨Nat.le_of_eq hk, hk ▸ he⟩
            refine r1.trans ?_
            refine ⟨Same.refl _, rfl, ⟨[h], rfl⟩, ?_, fun s hs hh => ⟨hs, hh, List.Sublist.refl _⟩,
              fun s hs k h1 h2 _ => ⟨hs, h1, h2⟩, fun _ hh => hh, ?_, ?_, ?_, ?_, ?_, ?_⟩
            · intro s k hk
              simp only [setLoaded_get, hk]
              rfl
            · intro x hx; simp [hx]
            · intro x hx; simp [hx]
            · intro x hx
              rcases List.mem_append.mp hx with hx | hx
              · exact .inl hx
              · exact .inr (lok.total h (by simp) x hx)
            · intro x hx
              rcases List.mem_append.mp hx with hx | hx
              · exact .inl hx
              · rcases List.mem_append.mp hx with hx | hx
                · exact .inr (.inl (by simp [Module.syms, hx]))
                · exact .inr (.inr ⟨h, by simp, hx⟩)
            · intro x hx
              rcases List.mem_append.mp hx with hx | hx
              · exact .inl hx
              · simp only [Module.syms, List.mem_append, List.mem_singleton] at hx
                rcases hx with hx | hx
                · exact .inr (.inr (by simp [hx]))
                · exact .inr (.inl hx)
            · intro k hk
              rcases List.mem_append.mp hk with hk | hk
              · exact .inl hk
              · simp only [List.mem_singleton] at hk
                subst hk
                exact .inr (fun s hs => by simp [hs])
      · rw [if_pos (by simp [he])]
        obtain ⟨st1, h1, m1, i1⟩ := markInvalid_ok good.disk good.index hn
        rw [h1]
        refine ⟨st1, acc, false, rfl, ⟨good.disk.same m1.same, i1, ?_⟩, m1.loadRel acc hl,
          by simp, fun k hk => .inl (by rw [m1.proc] at hk; exact hk),
          fun _ _ => ⟨rfl, by rw [m1.gone]; simp [upd], by rw [m1.proc], by rw [m1.proc],
            fun k hk => by rw [m1.gone]; simp [upd, hk]⟩, ?_, fun _ h' => absurd h' he⟩
        · exact good.loaded.same m1.same (by rw [m1.proc]) (by rw [m1.proc])
        · intro k hk
          rw [m1.gone]
          have : k ≠ h := by
            rcases hk with hk | ⟨_, hk⟩
            · exact Nat.ne_of_gt hk
            · exact absurd hk he
          simp [upd, this]

/-! ### The loop -/

/-- What a process keeps while modules are loaded, whatever is found. -/
structure Rel (st st' : St) : Prop where
  same : Same st.disk st'.disk
  proc : st'.proc = { st.proc with
    loaded := st'.proc.loaded, symLoaded := st'.proc.symLoaded
    modSyms := st'.proc.modSyms, symMods := st'.proc.symMods }
  loaded : ∀ h ∈ st.proc.loaded, h ∈ st'.proc.loaded
  symLoaded : ∀ (s : Sym) (h : Hash), st.proc.symLoaded s = some h → st'.proc.symLoaded s = some h
  keep : ∀ (s : Sym) (hs : List Hash) (k : Hash), st.proc.symMods s = some hs → k ∈ hs →
    k ∈ st.proc.loaded → ∃ hs', st'.proc.symMods s = some hs' ∧ k ∈ hs'

theorem Rel.refl (st : St) : Rel st st :=
  ⟨Same.refl _, rfl, fun _ h => h, fun _ _ h => h, fun _ hs _ h1 h2 _ => ⟨hs, h1, h2⟩⟩

theorem Rel.trans {a b c : St} (r : Rel a b) (q : Rel b c) : Rel a c := by
  refine ⟨r.same.trans q.same, by rw [q.proc, r.proc], fun h hh => q.loaded h (r.loaded h hh),
    fun s h hh => q.symLoaded s h (r.symLoaded s h hh), ?_⟩
  intro s hs k h1 h2 h3
  obtain ⟨hs', h4, h5⟩ := r.keep s hs k h1 h2 h3
  exact q.keep s hs' k h4 h5 (r.loaded k h3)

theorem LoadRel.rel {st st' : St} {a b : Found} (r : LoadRel st st' a b) : Rel st st' :=
  ⟨r.same, r.proc, fun _ h => r.mem h, r.symLoaded, r.keep⟩

/-- What can come of looking for a symbol that is not loaded. -/
inductive Looked (env : Hash → Bool) (s : Sym) (st st' : St) :
    Except Fault (Option Found) → Prop
  | nothing : (∀ hs, st.proc.symMods s = some hs → ∀ h ∈ hs, env h = false) →
      Looked env s st st' (.ok none)
  | found (found : Found) (mid : St) (h : Hash) (hs : List Hash) : st.proc.symMods s = some hs →
      h ∈ hs → env h = true → h ∈ st'.proc.loaded → s ∈ found.syms → Rel st mid →
      LoadRel mid st' {} found → Looked env s st st' (.ok (some found))
  | failed (h : Hash) (hs : List Hash) : st.proc.symMods s = some hs → h ∈ hs → env h = true →
      ¬ (∀ k : Hash, isNamed st.disk k = true → env k = true →
          ∀ s ∈ (modOf st.disk k).subs, env s = true) →
      Looked env s st st' (.error .assertFailed)

theorem loadLoop_well (env : Hash → Bool) (s : Sym) (n : Nat) (st : St) (good : Good st)
    (hs : st.proc.symLoaded s = none) (hn : ((st.proc.symMods s).getD []).length < n) :
    ∃ st' r, loadLoop env s n st = (st', r) ∧ Good st' ∧ Rel st st' ∧ Looked env s st st' r := by
  induction n generalizing st with
  | zero => exact absurd hn (Nat.not_lt_zero _)
  | succ n ih =>
    rw [loadLoop]
    cases hm : st.proc.symMods s with
    | none => exact ⟨st, _, rfl, good, Rel.refl _, .nothing (by simp [hm])⟩
    | some l =>
      obtain ⟨hne, hnd, hin⟩ := good.index.mods s l hm
      cases l with
      | nil => exact absurd rfl hne
      | cons h rest =>
        obtain ⟨ls, hls, hsl⟩ := hin h (by simp)
        obtain ⟨hname, hsyms, -⟩ := good.index.syms h ls hls
        have hsh : s ∈ (modOf st.disk h).syms := hsyms ▸ hsl
        have hnl : h ∉ st.proc.loaded := fun hl => by
          have := good.loaded.total h hl s hsh
          simp [hs] at this
        obtain ⟨st1, acc1, b1, h1, g1, r1, l1, k1, m1, n1, e1⟩ :=
          loadModule_well env (h + 1) st {} h good hname (Nat.lt_succ_self _)
        simp only [h1]
        cases b1 with
        | true =>
          have he : env h = true := by
            rcases k1 h (l1 rfl) with h2 | h2
            · exact absurd h2 hnl
            · exact h2.2
          refine ⟨st1, _, rfl, g1, r1.rel, .found acc1 st h _ hm (by simp) he (l1 rfl) ?_
            (Rel.refl _) r1⟩
          rcases r1.new h (l1 rfl) with h2 | h2
          · exact absurd h2 hnl
          · exact h2 s (by rw [r1.same.modOf]; exact hsh)
        | false =>
          by_cases he : env h = true
          · -- the module is still in the index
            have hk : st1.proc.modSyms h = some ls := by
              rw [n1 h (.inr ⟨rfl, he⟩)]; exact hls
            obtain ⟨-, -, h3⟩ := g1.index.syms h ls hk
            obtain ⟨hs1, h4, h5⟩ := h3 s hsl
            simp only [h4, List.contains_eq_mem, h5, decide_true, if_true]
            exact ⟨st1, _, rfl, g1, r1.rel, .failed h _ hm (by simp) he (fun hc => by
              have := e1 hc he; cases this)⟩
          · have he : env h = false := by simpa using he
            obtain ⟨-, h2, h3, h4, hoth⟩ := m1 hnl he
            have hgone : ∀ hs1, st1.proc.symMods s = some hs1 → h ∉ hs1 := by
              intro hs1 h5 h6
              obtain ⟨-, -, h7⟩ := g1.index.mods s hs1 h5
              obtain ⟨l', h8, -⟩ := h7 h h6
              rw [h2] at h8; cases h8
            have hlen : ((st1.proc.symMods s).getD []).length < n := by
              rw [hm] at hn
              simp only [Option.getD_some] at hn
              cases h5 : st1.proc.symMods s with
              | none => simp only [Option.getD_none, List.length_nil]; simp at hn; omega
              | some hs1 =>
                obtain ⟨hs0, h6, h7⟩ := r1.mods s hs1 h5
                rw [hm] at h6
                cases h6
                have h8 : hs1.Sublist rest := by
                  cases h7 with
                  | cons _ h9 => exact h9
                  | cons_cons _ h9 => exact absurd (List.mem_cons_self) (hgone _ h5)
                have := h8.length_le
                simp only [List.length_cons] at hn
                simp only [Option.getD_some]
                omega
            obtain ⟨st2, r2, h5, g2, rel2, look2⟩ := ih st1 g1 (by rw [h4]; exact hs) hlen
            have hgoal : Looked env s st st2 r2 := by
              cases look2 with
              | nothing h6 =>
                refine .nothing ?_
                intro hs' h7 k hk
                rw [hm] at h7
                cases h7
                rcases List.mem_cons.mp hk with rfl | hk
                · exact he
                · by_cases hek : env k = false
                  · exact hek
                  · exfalso
                    obtain ⟨l', h8, h9⟩ := hin k (by simp [hk])
                    have hkh : k ≠ h := fun e => hek (e ▸ he)
                    obtain ⟨-, -, h10⟩ := g1.index.syms k l' (by rw [hoth k hkh]; exact h8)
                    obtain ⟨hs1, h11, h12⟩ := h10 s h9
                    exact hek (h6 hs1 h11 k h12)
              | found f mid k hs1 h6 h7 h8 h9 h10 h11 h12 =>
                obtain ⟨hs0, h13, h14⟩ := r1.mods s hs1 h6
                exact .found f mid k hs0 h13 (h14.subset h7) h8 h9 h10 (r1.rel.trans h11) h12
              | failed k hs1 h6 h7 h8 h9 =>
                obtain ⟨hs0, h13, h14⟩ := r1.mods s hs1 h6
                refine .failed k hs0 h13 (h14.subset h7) h8 ?_
                rw [← r1.same.isNamed, ← r1.same.modOf]
                exact h9
            have hres : (match st1.proc.symMods s with
                | none => loadLoop env s n st1
                | some hs => if hs.contains h then (st1, .error .assertFailed)
                    else loadLoop env s n st1) = (st2, r2) := by
              cases h6 : st1.proc.symMods s with
              | none => exact h5
              | some hs1 =>
                have h7 := hgone hs1 h6
                simp only [List.contains_eq_mem, h7, decide_false, Bool.false_eq_true, if_false]
                exact h5
            exact ⟨st2, r2, hres, g2, r1.rel.trans rel2, hgoal⟩

end Verif.Cache
