import Verif.TypeGroup.Spec
/-
The order of a group: the walk from the root finds every object of the group once.
-/
namespace Verif.TypeGroup

variable {O H : Type}

theorem Sees.trans {W : World O H} {a b c : O} (h : Sees W a b) (h' : Sees W b c) : Sees W a c := by
  induction h' with
  | refl => exact h
  | step _ hc ih => exact .step ih hc

theorem Sees.one {W : World O H} {a b : O} (h : b ∈ W.succs a) : Sees W a b := .step .refl h

/-- A closed set keeps what it sees. -/
theorem Sees.closed {W : World O H} {P : O → Prop} (hP : ∀ x, P x → ∀ y ∈ W.succs x, P y) {a b : O}
    (h : Sees W a b) (ha : P a) : P b := by
  induction h with
  | refl => exact ha
  | step _ hc ih => exact hP _ ih _ hc

/-- A constant only sees itself. -/
theorem Sees.const {W : World O H} {a b : O} (h : Sees W a b) (ha : IsConst W a) : b = a := by
  induction h with
  | refl => rfl
  | step _ hc ih =>
    subst ih
    simp [World.succs, W.const_leaf _ ha] at hc

theorem Together.symm {W : World O H} {a b : O} (h : Together W a b) : Together W b a := ⟨h.2, h.1⟩

theorem Together.trans {W : World O H} {a b c : O} (h : Together W a b) (h' : Together W b c) :
    Together W a c := ⟨h.1.trans h'.1, h'.2.trans h.2⟩

variable [LinearOrder O]

/-- Number of objects of `topos` that are not ordered yet. -/
def left (topos ordering : List O) : Nat := (topos.filter (fun x => decide (x ∉ ordering))).length

theorem left_mono {topos a b : List O} (h : ∀ x ∈ a, x ∈ b) : left topos b ≤ left topos a := by
  induction topos with
  | nil => simp [left]
  | cons t ts ih =>
    simp only [left, List.filter_cons, decide_eq_true_eq] at ih ⊢
    by_cases h1 : t ∈ a
    · simp only [h1, h _ h1, not_true_eq_false, if_false]; exact ih
    · by_cases h2 : t ∈ b
      · simp only [h1, h2, not_true_eq_false, not_false_eq_true, if_true, if_false, List.length_cons]; omega
      · simp only [h1, h2, not_false_eq_true, if_true, List.length_cons]; omega

theorem left_lt {topos a : List O} {p : O} (hp : p ∈ topos) (ha : p ∉ a) :
    left topos (a ++ [p]) < left topos a := by
  induction topos with
  | nil => simp at hp
  | cons t ts ih =>
    simp only [left, List.filter_cons, decide_eq_true_eq] at ih ⊢
    by_cases h0 : t = p
    · subst h0
      have := left_mono (topos := ts) (a := a) (b := a ++ [t]) (by intro x hx; simp [hx])
      simp only [left] at this
      simp only [List.mem_append, List.mem_singleton, or_true, not_true_eq_false, if_false, ha,
        not_false_eq_true, if_true, List.length_cons]
      simp only [List.mem_append, List.mem_singleton] at this
      omega
    · have hp' : p ∈ ts := by
        rcases List.mem_cons.1 hp with h | h
        · exact absurd h.symm h0
        · exact h
      have := ih hp'
      have e : (t ∈ a ++ [p]) ↔ t ∈ a := by simp [h0]
      by_cases h1 : t ∈ a
      · simp only [e, h1, not_true_eq_false, if_false]; exact this
      · simp only [e, h1, not_false_eq_true, if_true, List.length_cons]; omega

/-- What a visit leaves: it keeps what was ordered, adds objects of the group once each, and orders what
the added objects mention. -/
structure Good (W : World O H) (topos before after : List O) : Prop where
  pre : ∃ new, after = before ++ new ∧ (∀ x ∈ new, x ∈ topos) ∧
    ∀ x ∈ new, ∀ y ∈ W.succs x, y ∈ topos → y ∈ after
  nodup : before.Nodup → after.Nodup

theorem Good.sub {W : World O H} {topos a b : List O} (h : Good W topos a b) : ∀ x ∈ a, x ∈ b := by
  obtain ⟨new, rfl, _⟩ := h.pre
  intro x hx; simp [hx]

theorem Good.rfl' (W : World O H) (topos a : List O) : Good W topos a a :=
  ⟨⟨[], by simp, by simp, by simp⟩, id⟩

theorem Good.trans {W : World O H} {topos a b c : List O} (h : Good W topos a b) (h' : Good W topos b c) :
    Good W topos a c := by
  refine ⟨?_, h'.nodup ∘ h.nodup⟩
  have hs := h'.sub
  obtain ⟨n1, rfl, m1, c1⟩ := h.pre
  obtain ⟨n2, rfl, m2, c2⟩ := h'.pre
  refine ⟨n1 ++ n2, by simp, ?_, ?_⟩
  · intro x hx
    rcases List.mem_append.1 hx with h | h
    · exact m1 _ h
    · exact m2 _ h
  · intro x hx y hy ht
    rcases List.mem_append.1 hx with h | h
    · exact hs _ (c1 _ h _ hy ht)
    · exact c2 _ h _ hy ht

theorem visit_good (W : World O H) (topos : List O) : ∀ (fuel : Nat) (ordering : List O) (p : O),
    left topos ordering < fuel →
    Good W topos ordering (visit W topos fuel ordering p) ∧
      (p ∈ topos → p ∈ visit W topos fuel ordering p)
  | 0, _, _, h => by omega
  | fuel + 1, ordering, p, h => by
    rw [visit]
    by_cases hp : p ∉ topos ∨ p ∈ ordering
    · rw [if_pos hp]
      refine ⟨.rfl' .., fun ht => ?_⟩
      rcases hp with h | h
      · exact absurd ht h
      · exact h
    · rw [if_neg hp]
      have hp1 : p ∈ topos := by by_contra h'; exact hp (.inl h')
      have hp2 : p ∉ ordering := fun h' => hp (.inr h')
      have hl := left_lt hp1 hp2
      have key : ∀ (l a : List O), left topos a < fuel → Good W topos a (l.foldl (visit W topos fuel) a) ∧
          ∀ y ∈ l, y ∈ topos → y ∈ l.foldl (visit W topos fuel) a := by
        intro l
        induction l with
        | nil => intro a _; exact ⟨.rfl' .., by simp⟩
        | cons y l ih =>
          intro a ha
          obtain ⟨g1, m1⟩ := visit_good W topos fuel a y ha
          obtain ⟨g2, m2⟩ := ih (visit W topos fuel a y) (lt_of_le_of_lt (left_mono g1.sub) ha)
          refine ⟨g1.trans g2, ?_⟩
          intro z hz ht
          rcases List.mem_cons.1 hz with rfl | hz
          · exact g2.sub _ (m1 ht)
          · exact m2 _ hz ht
      obtain ⟨g, m⟩ := key (W.succs p) (ordering ++ [p]) (by omega)
      refine ⟨⟨?_, ?_⟩, fun _ => g.sub _ (by simp)⟩
      · obtain ⟨new, e, mn, cn⟩ := g.pre
        refine ⟨p :: new, by rw [e]; simp, ?_, ?_⟩
        · intro x hx
          rcases List.mem_cons.1 hx with rfl | hx
          · exact hp1
          · exact mn _ hx
        · intro x hx y hy ht
          rcases List.mem_cons.1 hx with rfl | hx
          · exact m _ hy ht
          · exact cn _ hx _ hy ht
      · intro hn
        apply g.nodup
        rw [List.nodup_append]
        refine ⟨hn, by simp, ?_⟩
        intro a ha b hb
        simp only [List.mem_singleton] at hb
        subst hb
        intro h'; subst h'; exact hp2 ha

/-- The bound on the depth of `visit` is never reached: more makes no difference. -/
theorem visit_enough (W : World O H) (topos : List O) : ∀ (fuel more : Nat) (ordering : List O) (p : O),
    left topos ordering < fuel → fuel ≤ more →
    visit W topos more ordering p = visit W topos fuel ordering p
  | 0, _, _, _, h, _ => by omega
  | fuel + 1, 0, _, _, _, h => by omega
  | fuel + 1, more + 1, ordering, p, h, hm => by
    rw [visit, visit]
    by_cases hp : p ∉ topos ∨ p ∈ ordering
    · rw [if_pos hp, if_pos hp]
    · rw [if_neg hp, if_neg hp]
      have hp1 : p ∈ topos := by by_contra h'; exact hp (.inl h')
      have hp2 : p ∉ ordering := fun h' => hp (.inr h')
      have hl := left_lt hp1 hp2
      have key : ∀ (l a : List O), left topos a < fuel →
          l.foldl (visit W topos more) a = l.foldl (visit W topos fuel) a := by
        intro l
        induction l with
        | nil => intro a _; rfl
        | cons y l ih =>
          intro a ha
          simp only [List.foldl_cons]
          rw [visit_enough W topos fuel more a y ha (by omega)]
          exact ih _ (lt_of_le_of_lt (left_mono (visit_good W topos fuel a y ha).1.sub) ha)
      exact key _ _ (by omega)

/-- A group in which objects see each other without leaving it is ordered completely. -/
theorem visit_all {W : World O H} {topos : List O} {root : O} (hr : root ∈ topos)
    (full : ∀ x ∈ topos, ∀ y, Together W x y → y ∈ topos)
    (conn : ∀ x ∈ topos, ∀ y ∈ topos, Sees W x y) :
    (visit W topos (topos.length + 1) [] root).Nodup ∧
      ∀ x, x ∈ visit W topos (topos.length + 1) [] root ↔ x ∈ topos := by
  have hf : left topos [] < topos.length + 1 :=
    Nat.lt_succ_of_le (List.length_filter_le _ _)
  obtain ⟨g, m⟩ := visit_good W topos (topos.length + 1) [] root hf
  refine ⟨g.nodup (by simp), ?_⟩
  obtain ⟨new, e, mn, cn⟩ := g.pre
  rw [List.nil_append] at e
  rw [e] at cn m ⊢
  intro x
  refine ⟨mn x, fun hx => ?_⟩
  have : ∀ y, Sees W root y → Sees W y root → y ∈ new := by
    intro y hy
    induction hy with
    | refl => intro _; exact m hr
    | step h1 hc ih =>
      rename_i b c
      intro hback
      have hb := ih ((Sees.one hc).trans hback)
      exact cn _ hb _ hc (full _ hr _ ⟨h1.step hc, hback⟩)
  exact this x (conn _ hr _ hx) (conn _ hx _ hr)

theorem visit_length {W : World O H} {topos : List O} {root : O} (hr : root ∈ topos) (hn : topos.Nodup)
    (full : ∀ x ∈ topos, ∀ y, Together W x y → y ∈ topos)
    (conn : ∀ x ∈ topos, ∀ y ∈ topos, Sees W x y) :
    (visit W topos (topos.length + 1) [] root).length = topos.length := by
  obtain ⟨h1, h2⟩ := visit_all hr full conn
  exact ((List.perm_ext_iff_of_nodup h1 hn).2 h2).length_eq

end Verif.TypeGroup
