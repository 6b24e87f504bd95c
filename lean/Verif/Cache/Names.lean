import Verif.Cache.Load
import Verif.Cache.Spec
/-
A process that starts finds the modules that are clean.
-/
namespace Verif.Cache

/-- What reading names does to a process. -/
structure NamesRel (st st' : St) : Prop where
  same : Same st.disk st'.disk
  proc : st'.proc = { st.proc with
    modSyms := st'.proc.modSyms, symMods := st'.proc.symMods, valid := st'.proc.valid }
  valid : ∀ h ∈ st.proc.valid, h ∈ st'.proc.valid

theorem NamesRel.refl (st : St) : NamesRel st st := ⟨Same.refl _, rfl, fun _ h => h⟩

theorem NamesRel.trans {a b c : St} (r : NamesRel a b) (q : NamesRel b c) : NamesRel a c :=
  ⟨r.same.trans q.same, by rw [q.proc, r.proc], fun h hh => q.valid h (r.valid h hh)⟩

/-- The modules in the index are those found valid, and they are clean. -/
structure ValidClean (st : St) : Prop where
  clean : ∀ h ∈ st.proc.valid, Clean st.disk h
  index : ∀ h : Hash, (st.proc.modSyms h).isSome = true ↔ h ∈ st.proc.valid

theorem Clean.mark {d d' : Disk} (hs : Same d d') {h k : Hash} (hn : ¬ Clean d h)
    (hm : ∀ k : Hash, isMarked d' k = true → isMarked d k = true ∨ k = h) :
    Clean d' k ↔ Clean d k := by
  constructor
  · intro hc
    induction hc with
    | mk k h1 h2 h3 ih =>
      refine .mk k (by rw [← hs.isNamed]; exact h1) ?_ (fun s hs' => ih s (by rw [hs.modOf]; exact hs'))
      cases hk : isMarked d k with
      | false => rfl
      | true => rw [hs.marks k hk] at h2; cases h2
  · intro hc
    induction hc with
    | mk k h1 h2 h3 ih =>
      refine .mk k (by rw [hs.isNamed]; exact h1) ?_ (fun s hs' => ih s (by rw [← hs.modOf]; exact hs'))
      cases hk : isMarked d' k with
      | false => rfl
      | true =>
        rcases hm k hk with h4 | rfl
        · rw [h4] at h2; cases h2
        · exact absurd (.mk _ h1 h2 h3) hn

/-- What reading the names of one module, given as a function, does. -/
def NamesWell (f : St → Hash → St × Except Fault Bool) (n : Nat) : Prop :=
  ∀ (st : St) (h : Hash), DiskOk st.disk → IndexOk st.disk st.proc → isNamed st.disk h = true →
    h < n → ∃ st' b, f st h = (st', .ok b) ∧ DiskOk st'.disk ∧ IndexOk st'.disk st'.proc ∧
      NamesRel st st' ∧ (b = true → h ∈ st'.proc.valid) ∧
      (ValidClean st → (b = true ↔ Clean st.disk h) ∧ ValidClean st' ∧
        ∀ k : Hash, Clean st'.disk k ↔ Clean st.disk k)

theorem Marked.namesRel {st st' : St} {h : Hash} (m : Marked st st' h) : NamesRel st st' :=
  ⟨m.same, by rw [m.proc], fun k hk => by rw [m.proc]; exact hk⟩

theorem namesOfSubs_well {f : St → Hash → St × Except Fault Bool} {n : Nat} (hf : NamesWell f n)
    (l : List Hash) (st : St) (dok : DiskOk st.disk) (iok : IndexOk st.disk st.proc)
    (hl : ∀ s ∈ l, isNamed st.disk s = true ∧ s < n) :
    ∃ st' b, namesOfSubs f l st = (st', .ok b) ∧ DiskOk st'.disk ∧ IndexOk st'.disk st'.proc ∧
      NamesRel st st' ∧
      (ValidClean st → (b = true ↔ ∀ s ∈ l, Clean st.disk s) ∧ ValidClean st' ∧
        ∀ k : Hash, Clean st'.disk k ↔ Clean st.disk k) := by
  induction l generalizing st with
  | nil => exact ⟨st, true, rfl, dok, iok, NamesRel.refl _, fun v => ⟨by simp, v, fun _ => Iff.rfl⟩⟩
  | cons a rest ih =>
    obtain ⟨ha1, ha2⟩ := hl a (by simp)
    obtain ⟨st1, b1, h1, d1, i1, r1, -, c1⟩ := hf st a dok iok ha1 ha2
    rw [namesOfSubs, h1]
    cases b1 with
    | false =>
      obtain ⟨st2, h2, m2, i2⟩ := markInvalid_ok d1 i1 (h := a) (by rw [r1.same.isNamed]; exact ha1)
      simp only [h2]
      refine ⟨st2, false, rfl, d1.same m2.same, i2, r1.trans m2.namesRel, fun v => ?_⟩
      obtain ⟨e1, v1, k1⟩ := c1 v
      have hna : ¬ Clean st.disk a := fun hc => by
        have := e1.mpr hc
        cases this
      have hna1 : ¬ Clean st1.disk a := fun hc => hna ((k1 a).mp hc)
      have k2 : ∀ k : Hash, Clean st2.disk k ↔ Clean st1.disk k := fun k =>
        Clean.mark m2.same hna1 m2.marks
      refine ⟨⟨by simp, fun hc => absurd (hc a (by simp)) hna⟩, ?_, fun k => (k2 k).trans (k1 k)⟩
      have hv : st2.proc.valid = st1.proc.valid := by rw [m2.proc]
      constructor
      · intro k hk
        rw [hv] at hk
        exact (k2 k).mpr (v1.clean k hk)
      · intro k
        rw [hv, m2.gone]
        by_cases hk : k = a
        · subst hk
          simp only [upd, if_true, Option.isSome_none, Bool.false_eq_true, false_iff]
          exact fun hk => hna1 (v1.clean k hk)
        · simp only [upd, if_neg hk]
          exact v1.index k
    | true =>
      obtain ⟨st2, b2, h2, d2, i2, r2, c2⟩ := ih st1 d1 i1 (fun s hs => by
        rw [r1.same.isNamed]; exact hl s (by simp [hs]))
      refine ⟨st2, b2, h2, d2, i2, r1.trans r2, fun v => ?_⟩
      obtain ⟨e1, v1, k1⟩ := c1 v
      obtain ⟨e2, v2, k2⟩ := c2 v1
      refine ⟨?_, v2, fun k => (k2 k).trans (k1 k)⟩
      rw [e2]
      constructor
      · intro hr s hs
        rcases List.mem_cons.mp hs with rfl | hs
        · exact e1.mp rfl
        · exact (k1 s).mp (hr s hs)
      · intro hr s hs
        exact (k1 s).mpr (hr s (by simp [hs]))

theorem Clean.iff {d : Disk} {h : Hash} : Clean d h ↔
    isNamed d h = true ∧ isMarked d h = false ∧ ∀ s ∈ (modOf d h).subs, Clean d s :=
  ⟨fun | .mk _ h1 h2 h3 => ⟨h1, h2, h3⟩, fun ⟨h1, h2, h3⟩ => .mk h h1 h2 h3⟩

theorem loadNames_well (n : Nat) : NamesWell (loadNames n) n := by
  induction n with
  | zero => intro st h _ _ _ hlt; exact absurd hlt (Nat.not_lt_zero _)
  | succ n ih =>
    intro st h dok iok hn hlt
    rw [loadNames]
    by_cases hv : h ∈ st.proc.valid
    · rw [if_pos (by simpa using hv)]
      exact ⟨st, true, rfl, dok, iok, NamesRel.refl _, fun _ => hv,
        fun v => ⟨by simp [v.clean h hv], v, fun _ => Iff.rfl⟩⟩
    · rw [if_neg (by simpa using hv)]
      by_cases hm : isMarked st.disk h = true
      · rw [if_pos hm]
        refine ⟨st, false, rfl, dok, iok, NamesRel.refl _, by simp,
          fun v => ⟨?_, v, fun _ => Iff.rfl⟩⟩
        rw [Clean.iff]
        simp [hm]
      · rw [if_neg hm, if_neg (by simp [dok.files h hn])]
        have hsubs := dok.subs h
        obtain ⟨st1, b1, h1, d1, i1, r1, c1⟩ := namesOfSubs_well ih (modOf st.disk h).subs st dok iok
          (fun s hs => ⟨(hsubs s hs).2, Nat.lt_of_lt_of_le (hsubs s hs).1 (Nat.le_of_lt_succ hlt)⟩)
        rw [h1]
        have hcl : (b1 = true ↔ ∀ s ∈ (modOf st.disk h).subs, Clean st.disk s) →
            (b1 = true ↔ Clean st.disk h) := by
          intro e
          rw [Clean.iff, e]
          simp [hn, hm]
        cases b1 with
        | false =>
          exact ⟨st1, false, rfl, d1, i1, r1, by simp, fun v =>
            ⟨hcl (c1 v).1, (c1 v).2.1, (c1 v).2.2⟩⟩
        | true =>
          have hn1 : isNamed st1.disk h = true := by rw [r1.same.isNamed]; exact hn
          simp only [d1.files h hn1, Bool.not_true, Bool.false_eq_true, if_false]
          refine ⟨_, true, rfl, d1, indexSyms_index i1 hn1 _ rfl rfl, ?_, fun _ => by simp, ?_⟩
          · refine r1.trans ⟨Same.refl _, rfl, fun k hk => by simp [hk]⟩
          · intro v
            obtain ⟨e1, v1, k1⟩ := c1 v
            have hc := (hcl e1).mp rfl
            refine ⟨hcl e1, ⟨?_, ?_⟩, k1⟩
            · intro k hk
              rcases List.mem_append.mp hk with hk | hk
              · exact v1.clean k hk
              · rw [List.mem_singleton.mp hk]
                exact (k1 h).mpr hc
            · intro k
              by_cases hk : k = h
              · simp [upd, hk]
              · simp only [upd, if_neg hk, List.mem_append, List.mem_singleton, hk, or_false]
                exact v1.index k

end Verif.Cache
