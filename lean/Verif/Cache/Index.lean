import Verif.Cache.Disk
/-
What holds of a process at all times, and that marking modules, reading their names and loading them keep
it so.
-/
namespace Verif.Cache

/-- The index of a process is right. -/
structure IndexOk (d : Disk) (p : Proc) : Prop where
  mods : ∀ (s : Sym) (hs : List Hash), p.symMods s = some hs →
    hs ≠ [] ∧ hs.Nodup ∧ ∀ h ∈ hs, ∃ l, p.modSyms h = some l ∧ s ∈ l
  syms : ∀ (h : Hash) (l : List Sym), p.modSyms h = some l →
    isNamed d h = true ∧ l = (modOf d h).syms ∧ ∀ s ∈ l, ∃ hs, p.symMods s = some hs ∧ h ∈ hs

/-- What a process has loaded is right. -/
structure LoadedOk (d : Disk) (p : Proc) : Prop where
  named : ∀ h ∈ p.loaded, isNamed d h = true
  nodup : p.loaded.Nodup
  order : ∀ (pre : List Hash) (h : Hash) (post : List Hash), p.loaded = pre ++ h :: post →
    ∀ s ∈ (modOf d h).subs, s ∈ pre
  from_ : ∀ (s : Sym) (h : Hash), p.symLoaded s = some h → h ∈ p.loaded ∧ s ∈ (modOf d h).syms
  total : ∀ h ∈ p.loaded, ∀ s ∈ (modOf d h).syms, (p.symLoaded s).isSome = true

/-! ### Marking -/

/-- What `dropSyms` leaves. -/
def without (h : Hash) (hs : List Hash) : Option (List Hash) :=
  if hs.filter (· ≠ h) = [] then none else some (hs.filter (· ≠ h))

theorem dropSyms_eq (h : Hash) (l : List Sym) (m : Sym → Option (List Hash)) (hnd : l.Nodup)
    (hin : ∀ s ∈ l, ∃ hs, m s = some hs) :
    dropSyms h l m = (fun s => if s ∈ l then (m s).bind (without h) else m s, .ok ()) := by
  induction l generalizing m with
  | nil => simp [dropSyms]
  | cons a rest ih =>
    obtain ⟨hs, ha⟩ := hin a (by simp)
    have hnd' := List.nodup_cons.mp hnd
    rw [dropSyms, ha]
    simp only
    rw [ih _ hnd'.2]
    · congr 1
      funext s
      by_cases hsa : s = a
      · subst hsa
        simp [hnd'.1, upd, ha, without]
      · simp [hsa, upd]
    · intro s hs'
      obtain ⟨hs2, h2⟩ := hin s (by simp [hs'])
      refine ⟨hs2, ?_⟩
      have : s ≠ a := fun e => hnd'.1 (e ▸ hs')
      simp [upd, this, h2]

/-- What marking does. -/
structure Marked (st st' : St) (h : Hash) : Prop where
  same : Same st.disk st'.disk
  proc : st'.proc = { st.proc with modSyms := st'.proc.modSyms, symMods := st'.proc.symMods }
  gone : st'.proc.modSyms = upd st.proc.modSyms h none
  mods : ∀ (s : Sym) (hs : List Hash), st'.proc.symMods s = some hs →
    ∃ hs0, st.proc.symMods s = some hs0 ∧ hs = hs0.filter (· ≠ h)
  keep : ∀ (s : Sym) (hs : List Hash) (k : Hash), st.proc.symMods s = some hs → k ∈ hs → k ≠ h →
    ∃ hs', st'.proc.symMods s = some hs' ∧ k ∈ hs'
  marks : ∀ k : Hash, isMarked st'.disk k = true → isMarked st.disk k = true ∨ k = h

theorem marks_modify (d : Disk) (h k : Hash)
    (hm : isMarked (d.modify h (fun dir => { dir with invalid := true })) k = true) :
    isMarked d k = true ∨ k = h := by
  by_cases hk : h = k
  · exact .inr hk.symm
  · left
    simp only [isMarked, List.getElem?_modify] at hm ⊢
    cases hd : d[k]? with
    | none => simp [hd] at hm
    | some dir => simp [hd, hk] at hm ⊢; exact hm

theorem filter_ne_self {h : Hash} {hs : List Hash} (hn : h ∉ hs) : hs.filter (· ≠ h) = hs := by
  apply List.filter_eq_self.mpr
  intro a ha
  have : a ≠ h := fun e => hn (e ▸ ha)
  simp [this]

theorem markInvalid_ok {st : St} {h : Hash} (dok : DiskOk st.disk) (iok : IndexOk st.disk st.proc)
    (hn : isNamed st.disk h = true) :
    ∃ st', markInvalid st h = (st', .ok ()) ∧ Marked st st' h ∧ IndexOk st'.disk st'.proc := by
  have hsame := same_mark st.disk h
  unfold markInvalid
  rw [if_pos hn]
  simp only
  cases hms : st.proc.modSyms h with
  | none =>
    have hnot : ∀ (s : Sym) (hs : List Hash), st.proc.symMods s = some hs → h ∉ hs := by
      intro s hs h1 h2
      obtain ⟨_, _, h3⟩ := iok.mods s hs h1
      obtain ⟨l, hl, _⟩ := h3 h h2
      rw [hms] at hl; cases hl
    refine ⟨_, rfl, ⟨hsame, rfl, ?_, ?_, ?_, fun k => marks_modify _ _ _⟩, ?_⟩
    · funext k
      by_cases hk : k = h
      · simp [upd, hk, hms]
      · simp [upd, hk]
    · intro s hs h1
      exact ⟨hs, h1, (filter_ne_self (hnot s hs h1)).symm⟩
    · intro s hs k h1 h2 _
      exact ⟨hs, h1, h2⟩
    · constructor
      · exact iok.mods
      · intro k l hk
        simp only [hsame.isNamed, hsame.modOf]
        exact iok.syms k l hk
  | some l =>
    obtain ⟨_, hleq, hl⟩ := iok.syms h l hms
    have hnd : l.Nodup := hleq ▸ dok.nodup h
    have hd := dropSyms_eq h l st.proc.symMods hnd (fun s hs => by
      obtain ⟨hs', h1, _⟩ := hl s hs; exact ⟨hs', h1⟩)
    simp only [hd]
    have hmods : ∀ (s : Sym) (hs : List Hash),
        (if s ∈ l then (st.proc.symMods s).bind (without h) else st.proc.symMods s) = some hs →
        hs ≠ [] ∧ ∃ hs0, st.proc.symMods s = some hs0 ∧ hs = hs0.filter (· ≠ h) := by
      intro s hs h1
      split at h1
      · cases h2 : st.proc.symMods s with
        | none => simp [h2] at h1
        | some hs0 =>
          rw [h2] at h1
          simp only [Option.bind_some, without] at h1
          split at h1
          · cases h1
          · cases h1
            exact ⟨by assumption, hs0, rfl, rfl⟩
      · rename_i hsl
        obtain ⟨h2, h3, h4⟩ := iok.mods s hs h1
        refine ⟨h2, hs, h1, (filter_ne_self (fun hin => ?_)).symm⟩
        obtain ⟨l', h5, h6⟩ := h4 h hin
        rw [hms] at h5; cases h5; exact hsl h6
    have hkeep : ∀ (s : Sym) (hs : List Hash) (k : Hash), st.proc.symMods s = some hs → k ∈ hs →
        k ≠ h → ∃ hs',
          (if s ∈ l then (st.proc.symMods s).bind (without h) else st.proc.symMods s) = some hs' ∧
          k ∈ hs' := by
      intro s hs k h1 h2 h3
      by_cases hsl : s ∈ l
      · have hk : k ∈ hs.filter (· ≠ h) := by simp [h2, h3]
        refine ⟨hs.filter (· ≠ h), ?_, hk⟩
        rw [if_pos hsl, h1]
        simp only [Option.bind_some, without]
        rw [if_neg (List.ne_nil_of_mem hk)]
      · exact ⟨hs, by rw [if_neg hsl]; exact h1, h2⟩
    refine ⟨_, rfl, ⟨hsame, rfl, rfl, fun s hs h1 => (hmods s hs h1).2, hkeep,
      fun k => marks_modify _ _ _⟩, ?_⟩
    constructor
    · intro s hs h1
      obtain ⟨hne, hs0, h2, h3⟩ := hmods s hs h1
      obtain ⟨_, h4, h5⟩ := iok.mods s hs0 h2
      refine ⟨hne, h3 ▸ h4.filter _, ?_⟩
      intro k hk
      rw [h3] at hk
      simp only [List.mem_filter, decide_eq_true_eq] at hk
      obtain ⟨l', h6, h7⟩ := h5 k hk.1
      exact ⟨l', by simp [upd, hk.2, h6], h7⟩
    · intro k l' hk
      simp only [hsame.isNamed, hsame.modOf]
      have hkh : k ≠ h := by
        intro e; simp [upd, e] at hk
      simp only [upd, if_neg hkh] at hk
      obtain ⟨h1, h2, h3⟩ := iok.syms k l' hk
      refine ⟨h1, h2, ?_⟩
      intro s hs
      obtain ⟨hs', h4, h5⟩ := h3 s hs
      exact hkeep s hs' k h4 h5 hkh

/-! ### Putting in the index -/

theorem indexSyms_get (h : Hash) (l : List Sym) (m : Sym → Option (List Hash)) (s : Sym) :
    (s ∉ l → indexSyms h l m s = m s) ∧
    (s ∈ l → indexSyms h l m s =
      some (if ((m s).getD []).contains h then (m s).getD [] else (m s).getD [] ++ [h])) := by
  induction l generalizing m with
  | nil => simp [indexSyms]
  | cons a rest ih =>
    rw [indexSyms]
    obtain ⟨ih1, ih2⟩ := ih (upd m a (some (if ((m a).getD []).contains h then (m a).getD []
      else (m a).getD [] ++ [h])))
    constructor
    · intro hs
      simp only [List.mem_cons, not_or] at hs
      rw [ih1 hs.2]
      simp [upd, hs.1]
    · intro hs
      by_cases hr : s ∈ rest
      · rw [ih2 hr]
        by_cases ha : s = a
        · subst ha
          by_cases hc : ((m s).getD []).contains h = true
          · simp only [upd, if_true, Option.getD_some, hc]
          · have hc' : h ∉ (m s).getD [] := by simpa using hc
            simp [upd, hc']
        · simp [upd, ha]
      · have ha : s = a := by
          rcases List.mem_cons.mp hs with h1 | h1
          · exact h1
          · exact absurd h1 hr
        rw [ih1 hr]
        subst ha
        simp [upd]

theorem indexSyms_mem (h : Hash) (l : List Sym) (m : Sym → Option (List Hash)) (s : Sym) (k : Hash) :
    (∃ hs, indexSyms h l m s = some hs ∧ k ∈ hs) ↔
    (∃ hs, m s = some hs ∧ k ∈ hs) ∨ (s ∈ l ∧ k = h) := by
  obtain ⟨h1, h2⟩ := indexSyms_get h l m s
  by_cases hs : s ∈ l
  · rw [h2 hs]
    cases hm : m s with
    | none => simp [hs]
    | some hs0 =>
      simp only [Option.getD_some, Option.some.injEq, exists_eq_left', hs, true_and]
      split
      · rename_i hc
        constructor
        · exact fun hk => .inl hk
        · rintro (hk | rfl)
          · exact hk
          · simpa using hc
      · simp
  · rw [h1 hs]; simp [hs]

theorem indexSyms_index {d : Disk} {p : Proc} (iok : IndexOk d p) {h : Hash}
    (hn : isNamed d h = true) (p' : Proc)
    (hp1 : p'.symMods = indexSyms h (modOf d h).syms p.symMods)
    (hp2 : p'.modSyms = upd p.modSyms h (some (modOf d h).syms)) : IndexOk d p' := by
  constructor
  · intro s hs hs'
    rw [hp1] at hs'
    have hmem := indexSyms_mem h (modOf d h).syms p.symMods s
    obtain ⟨h1, h2⟩ := indexSyms_get h (modOf d h).syms p.symMods s
    have key : ∀ k ∈ hs, ∃ l, p'.modSyms k = some l ∧ s ∈ l := by
      intro k hk
      rw [hp2]
      rcases (hmem k).mp ⟨hs, hs', hk⟩ with ⟨hs0, h3, h4⟩ | ⟨h3, h4⟩
      · obtain ⟨_, _, h5⟩ := iok.mods s hs0 h3
        obtain ⟨l, h6, h7⟩ := h5 k h4
        by_cases hkh : k = h
        · subst hkh
          obtain ⟨_, h8, _⟩ := iok.syms k l h6
          exact ⟨_, by simp [upd], h8 ▸ h7⟩
        · exact ⟨l, by simp [upd, hkh, h6], h7⟩
      · subst h4
        exact ⟨_, by simp [upd], h3⟩
    by_cases hsl : s ∈ (modOf d h).syms
    · rw [h2 hsl] at hs'
      cases hs'
      refine ⟨?_, ?_, key⟩
      · split
        · rename_i hc
          intro he; rw [he] at hc; simp at hc
        · simp
      · cases hm : p.symMods s with
        | none => simp
        | some hs0 =>
          simp only [Option.getD_some]
          have h3 := (iok.mods s hs0 hm).2.1
          split
          · exact h3
          · rename_i hc
            refine List.nodup_append.mpr ⟨h3, by simp, ?_⟩
            intro a ha b hb
            simp only [List.mem_singleton] at hb
            subst hb
            intro e
            subst e
            exact hc (by simpa using ha)
    · rw [h1 hsl] at hs'
      obtain ⟨h3, h4, _⟩ := iok.mods s hs hs'
      exact ⟨h3, h4, key⟩
  · intro k l hk
    rw [hp2] at hk
    rw [hp1]
    by_cases hkh : k = h
    · subst hkh
      simp only [upd, if_true, Option.some.injEq] at hk
      subst hk
      exact ⟨hn, rfl, fun s hs => (indexSyms_mem _ _ _ _ _).mpr (.inr ⟨hs, rfl⟩)⟩
    · simp only [upd, if_neg hkh] at hk
      obtain ⟨h1, h2, h3⟩ := iok.syms k l hk
      exact ⟨h1, h2, fun s hs => (indexSyms_mem _ _ _ _ _).mpr (.inl (h3 s hs))⟩

/-! ### What symbols are loaded from -/

theorem setLoaded_get (h : Hash) (l : List Sym) (m : Sym → Option Hash) (s : Sym) :
    setLoaded h l m s = if (m s).isSome then m s else if s ∈ l then some h else none := by
  induction l generalizing m with
  | nil =>
    simp only [setLoaded]
    cases m s <;> simp
  | cons a rest ih =>
    rw [setLoaded, ih]
    by_cases ha : (m a).isSome = true
    · simp only [ha, if_true]
      cases hm : m s with
      | some x => simp
      | none =>
        have : s ≠ a := by rintro rfl; simp [hm] at ha
        simp [this]
    · simp only [ha]
      by_cases hsa : s = a
      · subst hsa
        simp [upd, ha]
      · simp [upd, hsa]

theorem loaded_snoc {d : Disk} {p : Proc} (lok : LoadedOk d p) {h : Hash} (hn : isNamed d h = true)
    (hnew : h ∉ p.loaded) (hsubs : ∀ s ∈ (modOf d h).subs, s ∈ p.loaded) (p' : Proc)
    (hp1 : p'.loaded = p.loaded ++ [h])
    (hp2 : p'.symLoaded = setLoaded h (modOf d h).syms p.symLoaded) : LoadedOk d p' := by
  constructor
  · rw [hp1]
    intro k hk
    rcases List.mem_append.mp hk with h1 | h1
    · exact lok.named k h1
    · simp only [List.mem_singleton] at h1; exact h1 ▸ hn
  · rw [hp1]
    refine List.nodup_append.mpr ⟨lok.nodup, by simp, ?_⟩
    intro a ha b hb
    simp only [List.mem_singleton] at hb
    subst hb
    rintro rfl
    exact hnew ha
  · intro pre k post hk
    rw [hp1] at hk
    rcases List.eq_nil_or_concat post with rfl | ⟨post', x, rfl⟩
    · have := List.append_inj' hk rfl
      simp only [List.cons.injEq, and_true] at this
      obtain ⟨h1, h2⟩ := this
      subst h1; subst h2
      exact hsubs
    · have : p.loaded ++ [h] = (pre ++ k :: post') ++ [x] := by simpa using hk
      have := List.append_inj' this rfl
      exact lok.order pre k post' this.1
  · intro s k hk
    rw [hp2, setLoaded_get] at hk
    rw [hp1]
    split at hk
    · obtain ⟨h1, h2⟩ := lok.from_ s k hk
      exact ⟨by simp [h1], h2⟩
    · split at hk
      · cases hk
        exact ⟨by simp, by assumption⟩
      · cases hk
  · rw [hp1, hp2]
    intro k hk s hs
    rw [setLoaded_get]
    split
    · assumption
    · rcases List.mem_append.mp hk with h1 | h1
      · exact absurd (lok.total k h1 s hs) (by assumption)
      · simp only [List.mem_singleton] at h1
        subst h1
        simp [hs]

end Verif.Cache
