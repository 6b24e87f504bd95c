import Verif.TypeFn.Keys
/-
What one call does to the memo, the forwards and the record of which call made which type.
-/
namespace Verif.TypeFn

/-- What holds at any time. -/
structure Base (s : State) : Prop where
  fresh : ∀ j, s.forwards ≤ j → s.defined j = none
  nodup : s.ran.Nodup
  ran : ∀ k, k ∈ s.ran ↔ s.memo k ≠ none

/-- What a call leaves as it was. -/
structure Step (s s1 : State) : Prop where
  memo : ∀ k e, s.memo k = some e → s1.memo k = some e
  forwards : s.forwards ≤ s1.forwards
  defined : ∀ j, j < s.forwards → s1.defined j = s.defined j
  failed : s.failed = true → s1.failed = true

theorem Step.refl (s : State) : Step s s := ⟨fun _ _ h => h, Nat.le_refl _, fun _ _ => rfl, id⟩

theorem Step.trans {s s1 s2 : State} (a : Step s s1) (b : Step s1 s2) : Step s s2 :=
  ⟨fun k e h => b.memo k e (a.memo k e h), Nat.le_trans a.forwards b.forwards,
    fun j h => (b.defined j (Nat.lt_of_lt_of_le h a.forwards)).trans (a.defined j h), fun h => b.failed (a.failed h)⟩

/-- What the memo holds after a call that gave this. -/
def Outcome.entry : Outcome → Option Entry
  | .ty t => some (.ty t)
  | .raised e => some (.raised e)
  | .interrupted => none

theorem define_some {ct : State → Nat → Ty → Bool} {s s1 : State} {i : Nat} {t : Ty} (h : define ct s i t = some s1) :
    follow s t ≠ .fwd i ∧ s1 = { s with defined := fun j => if j = i then some (follow s t) else s.defined j } := by
  simp only [define] at h
  split at h
  · cases h
  · rename_i h1
    split at h
    · cases h
    · simp only [Option.some.injEq] at h
      exact ⟨h1, h.symm⟩

/-- What the end of a call changes. -/
structure Finish (k : Call) (i : Nat) (s s1 : State) (o : Outcome) : Prop where
  memo : ∀ k', k' ≠ k → s1.memo k' = s.memo k'
  kept : s.memo k ≠ none → s1.memo k ≠ none
  defined : ∀ j, j ≠ i → s1.defined j = s.defined j
  forwards : s1.forwards = s.forwards
  ran : s1.ran = s.ran
  failed : s.failed = true → s1.failed = true
  entry : o ≠ .interrupted → s1.memo k = o.entry

theorem finish_spec (w : World) (k c : Call) (i : Nat) (o : Outcome) (s : State) :
    Finish k i s (finish w k c i o s).2 (finish w k c i o s).1 := by
  cases o with
  | interrupted => exact ⟨fun _ _ => rfl, id, fun _ _ => rfl, rfl, rfl, fun _ => rfl, fun h => absurd rfl h⟩
  | raised e =>
    exact ⟨fun k' h => by simp [finish, fail, h], fun _ => by simp [finish, fail], fun _ _ => rfl, rfl, rfl, fun _ => rfl,
      fun _ => by simp [finish, fail, Outcome.entry]⟩
  | ty t =>
    simp only [finish]
    split
    · exact ⟨fun k' h => by simp [fail, h], fun _ => by simp [fail], fun _ _ => rfl, rfl, rfl, fun _ => rfl,
        fun _ => by simp [fail, Outcome.entry]⟩
    · rename_i s1 h1
      obtain ⟨_, rfl⟩ := define_some h1
      exact ⟨fun k' h => by simp [h], fun _ => by simp, fun j h => by simp [h], rfl, rfl, id,
        fun _ => by simp [Outcome.entry]⟩

theorem begin_base {s : State} {k c : Call} (hb : Base s) (hk : s.memo k = none) : Base (begin_ s k c) := by
  refine ⟨fun j hj => hb.fresh j ?_, ?_, fun k' => ?_⟩
  · simp only [begin_] at hj; omega
  · simp only [begin_, List.nodup_cons]
    exact ⟨fun h => (hb.ran k).mp h hk, hb.nodup⟩
  · simp only [begin_, List.mem_cons]
    by_cases h : k' = k
    · simp [h]
    · simp [h, hb.ran k']

theorem begin_step {s : State} {k c : Call} (hb : Base s) (hk : s.memo k = none) : Step s (begin_ s k c) := by
  refine ⟨fun k' e h => ?_, by simp [begin_], fun _ _ => rfl, id⟩
  have : k' ≠ k := by rintro rfl; simp [hk] at h
  simpa [begin_, this] using h

/-- What a way of calling does. -/
def Good (rec : Call → State → Option (Outcome × State)) : Prop :=
  ∀ c s o s1, rec c s = some (o, s1) → Base s → Base s1 ∧ Step s s1

theorem exec_good {rec : Call → State → Option (Outcome × State)} (hr : Good rec) :
    ∀ (p : Prog) (s : State) (o : Outcome) (s1 : State), exec rec p s = some (o, s1) → Base s → Base s1 ∧ Step s s1
  | .done o, s, o1, s1, h, hb => by
    simp only [exec, Option.some.injEq, Prod.mk.injEq] at h
    obtain ⟨rfl, rfl⟩ := h
    exact ⟨hb, .refl _⟩
  | .call c next, s, o1, s1, h, hb => by
    simp only [exec] at h
    split at h
    · cases h
    · rename_i o s2 h1
      have h2 := hr _ _ _ _ h1 hb
      have h3 := exec_good hr (next o) s2 o1 s1 h h2.1
      exact ⟨h3.1, h2.2.trans h3.2⟩

theorem finish_base {w : World} {k c : Call} {i : Nat} {o : Outcome} {s : State} (hb : Base s) (hk : s.memo k ≠ none)
    (hi : i < s.forwards) : Base (finish w k c i o s).2 := by
  have hf := finish_spec w k c i o s
  refine ⟨fun j hj => ?_, ?_, fun k' => ?_⟩
  · rw [hf.forwards] at hj
    rw [hf.defined j (by omega)]
    exact hb.fresh j hj
  · rw [hf.ran]; exact hb.nodup
  · rw [hf.ran, hb.ran k']
    by_cases h : k' = k
    · subst h; exact ⟨fun _ => hf.kept hk, fun _ => hk⟩
    · rw [hf.memo k' h]

theorem finish_step {w : World} {k c : Call} {o : Outcome} {s s2 : State} (hb : Base s) (hk : s.memo k = none)
    (hs : Step (begin_ s k c) s2) : Step s (finish w k c s.forwards o s2).2 := by
  have hf := finish_spec w k c s.forwards o s2
  have h0 := begin_step (c := c) hb hk
  have h1 := h0.trans hs
  refine ⟨fun k' e h => ?_, by rw [hf.forwards]; exact h1.forwards, fun j hj => ?_, fun h => hf.failed (h1.failed h)⟩
  · have : k' ≠ k := by rintro rfl; simp [hk] at h
    rw [hf.memo k' this]
    exact h1.memo k' e h
  · rw [hf.defined j (by omega)]
    exact h1.defined j hj

/-- The state in which the function itself is done. -/
theorem call_runs {w : World} {d : Nat} {c n : Call} {s s1 : State} {o : Outcome} (h : call w (d + 1) c s = some (o, s1))
    (hn : normal c = some n) (hk : s.memo (key n) = none) :
    ∃ o2 s2, exec (call w d) (w.body n.fn n.args n.kwargs) (begin_ s (key n) n) = some (o2, s2) ∧
      finish w (key n) n s.forwards o2 s2 = (o, s1) := by
  simp only [call, hn, hk] at h
  split at h
  · cases h
  · rename_i o2 s2 h1
    simp only [Option.some.injEq] at h
    exact ⟨o2, s2, h1, h⟩

theorem call_good (w : World) : ∀ d, Good (call w d)
  | 0 => by intro c s o s1 h; simp [call] at h
  | d + 1 => by
    intro c s o s1 h hb
    cases hn : normal c with
    | none =>
      simp only [call, hn, Option.some.injEq, Prod.mk.injEq] at h
      obtain ⟨_, rfl⟩ := h
      exact ⟨hb, .refl _⟩
    | some n =>
      cases hk : s.memo (key n) with
      | some e =>
        have : s1 = s := by
          cases e <;> simp only [call, hn, hk, Option.some.injEq, Prod.mk.injEq] at h <;> exact h.2.symm
        subst this
        exact ⟨hb, .refl _⟩
      | none =>
        obtain ⟨o2, s2, h1, h2⟩ := call_runs h hn hk
        have h3 := exec_good (call_good w d) _ _ _ _ h1 (begin_base hb hk)
        have e1 : s1 = (finish w (key n) n s.forwards o2 s2).2 := by rw [h2]
        subst e1
        have hm : s2.memo (key n) = some (.ty (.fwd s.forwards)) := h3.2.memo _ _ (by simp [begin_])
        have hf : s.forwards < s2.forwards := Nat.lt_of_lt_of_le (by simp [begin_]) h3.2.forwards
        exact ⟨finish_base h3.1 (by simp [hm]) hf, finish_step hb hk h3.2⟩

/-- After a call, the memo holds what it gave. -/
theorem call_entry {w : World} {d : Nat} {c n : Call} {s s1 : State} {o : Outcome} (h : call w d c s = some (o, s1))
    (hn : normal c = some n) (ho : o ≠ .interrupted) : s1.memo (key n) = o.entry := by
  cases d with
  | zero => simp [call] at h
  | succ d =>
    cases hk : s.memo (key n) with
    | some e =>
      cases e <;> simp only [call, hn, hk, Option.some.injEq, Prod.mk.injEq] at h <;> obtain ⟨rfl, rfl⟩ := h <;> exact hk
    | none =>
      obtain ⟨o2, s2, h1, h2⟩ := call_runs h hn hk
      have := (finish_spec w (key n) n s.forwards o2 s2).entry
      rw [h2] at this
      exact this ho

theorem initial_base : Base .initial := ⟨fun _ _ => rfl, List.nodup_nil, fun _ => by simp [State.initial]⟩

/-! ### Honest functions -/

/-- What holds at any time when functions are honest; `open_` are the forwards of calls under way. -/
structure Sound (s : State) (open_ : Nat → Prop) : Prop where
  base : Base s
  undefined : ∀ i, i < s.forwards → s.defined i = none → s.failed = true ∨ open_ i
  memo : ∀ k t, s.memo k = some (.ty t) → ∀ i ∈ t.fwds, i < s.forwards
  target : ∀ j t, s.defined j = some t → ∀ i ∈ t.fwds, i < s.forwards
  made : ∀ t c, s.made t = some c → normal c = some c ∧ (s.memo (key c) = some (.ty t) ∨ ∃ i, t = .fwd i ∧ i < s.forwards ∧ s.defined i = none)

theorem initial_sound (op : Nat → Prop) : Sound .initial op :=
  ⟨initial_base, fun i h => absurd h (by simp [State.initial]), fun _ _ h => by simp [State.initial] at h,
    fun _ _ h => by simp [State.initial] at h, fun _ _ h => by simp [State.initial] at h⟩

theorem begin_sound {s : State} {k c : Call} {op : Nat → Prop} (hs : Sound s op) (hk : s.memo k = none) (hc : normal c = some c)
    (hkc : key c = k) : Sound (begin_ s k c) (fun i => op i ∨ i = s.forwards) := by
  refine ⟨begin_base hs.base hk, fun i hi hd => ?_, fun k' t h i hi => ?_, fun j t h i hi => ?_, fun t c' h => ?_⟩
  · simp only [begin_] at hi hd ⊢
    by_cases e : i = s.forwards
    · exact Or.inr (Or.inr e)
    · exact (hs.undefined i (by omega) hd).imp id Or.inl
  · simp only [begin_] at h ⊢
    split at h
    · simp only [Option.some.injEq, Entry.ty.injEq] at h
      subst h
      simp only [Ty.fwds, List.mem_singleton] at hi
      omega
    · have := hs.memo k' t h i hi; omega
  · have := hs.target j t h i hi
    simp only [begin_]; omega
  · simp only [begin_] at h ⊢
    split at h
    · simp only [Option.some.injEq] at h
      subst h
      rename_i ht
      exact ⟨hc, Or.inl (by simp [hkc, ht])⟩
    · obtain ⟨h1, h2⟩ := hs.made t c' h
      refine ⟨h1, h2.imp (fun h2 => ?_) fun ⟨i, h3, h4, h5⟩ => ⟨i, h3, by omega, h5⟩⟩
      have : key c' ≠ k := by rintro e; rw [e, hk] at h2; cases h2
      simpa [this] using h2

theorem followN_fwds {s : State} (h : ∀ j t, s.defined j = some t → ∀ i ∈ t.fwds, i < s.forwards) :
    ∀ (n : Nat) (t : Ty), (∀ i ∈ t.fwds, i < s.forwards) → ∀ i ∈ (followN s n t).fwds, i < s.forwards
  | 0, t, ht => by simpa [followN] using ht
  | n + 1, .con _ _, ht => by simpa [followN] using ht
  | n + 1, .fwd j, ht => by
    simp only [followN]
    cases h1 : s.defined j with
    | none => simpa using ht
    | some t' => exact followN_fwds h n t' (h j t' h1)

theorem fail_sound {s : State} {k c : Call} {i : Nat} {op : Nat → Prop} {e : String} (hs : Sound s (fun j => op j ∨ j = i))
    (hk : s.memo k = some (.ty (.fwd i))) (hi : i < s.forwards) (hd : s.defined i = none) : Sound (fail s k e).2 op := by
  have hb : Base (fail s k e).2 := by
    refine ⟨hs.base.fresh, hs.base.nodup, fun k' => ?_⟩
    simp only [fail]
    rw [hs.base.ran k']
    by_cases h : k' = k
    · simp [h, hk]
    · simp [h]
  refine ⟨hb, fun _ _ _ => Or.inl rfl, fun k' t h => ?_, hs.target, fun t c' h => ?_⟩
  · simp only [fail] at h
    split at h
    · cases h
    · exact hs.memo k' t h
  · obtain ⟨h1, h2⟩ := hs.made t c' h
    refine ⟨h1, ?_⟩
    rcases h2 with h2 | h2
    · by_cases hkk : key c' = k
      · rw [hkk, hk] at h2
        simp only [Option.some.injEq, Entry.ty.injEq] at h2
        exact Or.inr ⟨i, h2.symm, hi, hd⟩
      · exact Or.inl (by simpa [fail, hkk] using h2)
    · exact Or.inr h2

theorem finish_sound {w : World} {k c : Call} {i : Nat} {o : Outcome} {s : State} {op : Nat → Prop}
    (hs : Sound s (fun j => op j ∨ j = i)) (hk : s.memo k = some (.ty (.fwd i))) (hi : i < s.forwards) (hd : s.defined i = none)
    (hc : normal c = some c) (hkc : key c = k) (ho : ∀ j ∈ o.fwds, j < s.forwards) :
    Sound (finish w k c i o s).2 op ∧ ∀ j ∈ (finish w k c i o s).1.fwds, j < (finish w k c i o s).2.forwards := by
  have hb := finish_base (w := w) (c := c) (o := o) hs.base (k := k) (by simp [hk]) hi
  cases o with
  | interrupted =>
    refine ⟨⟨hb, fun _ _ _ => Or.inl rfl, hs.memo, hs.target, hs.made⟩, fun j hj => ?_⟩
    simp [finish, Outcome.fwds] at hj
  | raised e => exact ⟨fail_sound (c := c) hs hk hi hd, fun j hj => by simp [finish, fail, Outcome.fwds] at hj⟩
  | ty t =>
    simp only [finish] at hb ⊢
    split
    · exact ⟨fail_sound (c := c) hs hk hi hd, fun j hj => by simp [fail, Outcome.fwds] at hj⟩
    · rename_i s1 h1
      simp only [h1] at hb
      obtain ⟨hne, rfl⟩ := define_some h1
      refine ⟨⟨hb, fun j hj hd' => ?_, fun k' t' h => ?_, fun j t' h => ?_, fun t' c' h => ?_⟩, ho⟩
      · simp only at hj hd' ⊢
        split at hd'
        · cases hd'
        · rename_i hji
          exact (hs.undefined j hj hd').imp id (fun h => h.resolve_right hji)
      · simp only at h ⊢
        split at h
        · simp only [Option.some.injEq, Entry.ty.injEq] at h
          subst h
          exact ho
        · exact hs.memo k' t' h
      · simp only at h ⊢
        split at h
        · simp only [Option.some.injEq] at h
          subst h
          exact followN_fwds hs.target _ t ho
        · exact hs.target j t' h
      · have old : t' ≠ .fwd i → s.made t' = some c' → normal c' = some c' ∧ ((if key c' = k then some (Entry.ty t) else s.memo (key c')) = some (.ty t') ∨
            ∃ j, t' = .fwd j ∧ j < s.forwards ∧ (if j = i then some (follow s t) else s.defined j) = none) := by
          intro hti h
          obtain ⟨h2, h3⟩ := hs.made t' c' h
          refine ⟨h2, ?_⟩
          rcases h3 with h3 | ⟨j, h3, h4, h5⟩
          · by_cases hkk : key c' = k
            · rw [hkk, hk] at h3
              simp only [Option.some.injEq, Entry.ty.injEq] at h3
              exact absurd h3.symm hti
            · exact Or.inl (by simpa [hkk] using h3)
          · have : j ≠ i := by rintro rfl; exact hti h3
            exact Or.inr ⟨j, h3, h4, by simpa [this] using h5⟩
        have pop : (if t' = .fwd i then none else s.made t') = some c' → t' ≠ .fwd i ∧ s.made t' = some c' := by
          intro h
          split at h
          · cases h
          · exact ⟨‹_›, h⟩
        simp only at h ⊢
        by_cases hp : (if t = Ty.fwd i then none else s.made t) = none
        · rw [if_pos hp] at h
          by_cases htt : t' = t
          · rw [if_pos htt] at h
            simp only [Option.some.injEq] at h
            subst h
            exact ⟨hc, Or.inl (by simp [hkc, htt])⟩
          · rw [if_neg htt] at h
            obtain ⟨h4, h5⟩ := pop h
            exact old h4 h5
        · rw [if_neg hp] at h
          obtain ⟨h4, h5⟩ := pop h
          exact old h4 h5

/-- What a way of calling does when functions are honest. -/
def Fine (rec : Call → State → Option (Outcome × State)) : Prop :=
  ∀ c s o s1 op, rec c s = some (o, s1) → Sound s op → c.Proper → (∀ i ∈ c.fwds, i < s.forwards) →
    Sound s1 op ∧ ∀ i ∈ o.fwds, i < s1.forwards

theorem exec_fine {rec : Call → State → Option (Outcome × State)} (hg : Good rec) (hr : Fine rec) :
    ∀ (p : Prog) (s : State) (o : Outcome) (s1 : State) (op known : Nat → Prop), exec rec p s = some (o, s1) → Sound s op →
      Honest known p → (∀ i, known i → i < s.forwards) → Sound s1 op ∧ ∀ i ∈ o.fwds, i < s1.forwards
  | .done o, s, o1, s1, op, known, h, hb, hh, hk => by
    simp only [exec, Option.some.injEq, Prod.mk.injEq] at h
    obtain ⟨rfl, rfl⟩ := h
    exact ⟨hb, fun i hi => hk i (hh i hi)⟩
  | .call c next, s, o1, s1, op, known, h, hb, hh, hk => by
    simp only [exec] at h
    split at h
    · cases h
    · rename_i o s2 h1
      obtain ⟨hp, hf, hn⟩ := hh
      have h2 := hr _ _ _ _ op h1 hb hp (fun i hi => hk i (hf i hi))
      have hs := (hg _ _ _ _ h1 hb.base).2
      exact exec_fine hg hr (next o) s2 o1 s1 op _ h h2.1 (hn o) (fun i hi => by
        rcases hi with hi | hi
        · exact Nat.lt_of_lt_of_le (hk i hi) hs.forwards
        · exact h2.2 i hi)

theorem call_fine {w : World} (hw : w.Honest) : ∀ d, Fine (call w d)
  | 0 => by intro c s o s1 op h; simp [call] at h
  | d + 1 => by
    intro c s o s1 op h hs hp hc
    cases hn : normal c with
    | none =>
      simp only [call, hn, Option.some.injEq, Prod.mk.injEq] at h
      obtain ⟨rfl, rfl⟩ := h
      exact ⟨hs, fun i hi => by simp [Outcome.fwds] at hi⟩
    | some n =>
      cases hk : s.memo (key n) with
      | some e =>
        cases e <;> simp only [call, hn, hk, Option.some.injEq, Prod.mk.injEq] at h <;> obtain ⟨rfl, rfl⟩ := h
        · exact ⟨hs, hs.memo _ _ hk⟩
        · exact ⟨hs, fun i hi => by simp [Outcome.fwds] at hi⟩
      | none =>
        obtain ⟨o2, s2, h1, h2⟩ := call_runs h hn hk
        have hnn := normal_normal hp hn
        have hb := exec_good (call_good w d) _ _ _ _ h1 (begin_base hs.base hk)
        have h3 := exec_fine (call_good w d) (call_fine hw d) _ _ _ _ _ _ h1 (begin_sound hs hk hnn rfl) (hw n.fn n.args n.kwargs)
          (fun i hi => by
            have := hc i (normal_fwds hn i (by simpa [Call.fwds] using hi))
            simp only [begin_]; omega)
        have hm : s2.memo (key n) = some (.ty (.fwd s.forwards)) := hb.2.memo _ _ (by simp [begin_])
        have hf : s.forwards < s2.forwards := Nat.lt_of_lt_of_le (by simp [begin_]) hb.2.forwards
        have hd : s2.defined s.forwards = none := by
          rw [hb.2.defined _ (by simp [begin_])]
          exact hs.base.fresh _ (Nat.le_refl _)
        have h4 := finish_sound (w := w) h3.1 hm hf hd hnn rfl h3.2
        rw [h2] at h4
        exact h4

end Verif.TypeFn
