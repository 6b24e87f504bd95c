import Verif.TypeGroup.Order
/-
The root of a group: the choice does not depend on the order of the addresses.
-/
namespace Verif.TypeGroup

variable {O H K : Type} [LinearOrder K] [DecidableEq O]

/-- The objects under a key. -/
def get (m : List (K × List O)) (k : K) : List O :=
  match m with
  | [] => []
  | (k', ts) :: rest => if k' = k then ts else get rest k

/-- The keys increase and no entry is empty. -/
def Ordered (m : List (K × List O)) : Prop :=
  m.Pairwise (fun a b => a.1 < b.1) ∧ ∀ q ∈ m, q.2 ≠ []

theorem mem_insertKey {k : K} {t : O} {m : List (K × List O)} {q : K × List O}
    (h : q ∈ insertKey k t m) : q.1 = k ∨ q ∈ m := by
  induction m with
  | nil => simp only [insertKey, List.mem_singleton] at h; subst h; exact .inl rfl
  | cons a m ih =>
    obtain ⟨k', ts⟩ := a
    simp only [insertKey] at h
    split at h
    · rename_i he
      rcases List.mem_cons.1 h with rfl | h
      · exact .inl he.symm
      · exact .inr (by simp [h])
    · split at h
      · rcases List.mem_cons.1 h with rfl | h
        · exact .inl rfl
        · exact .inr h
      · rcases List.mem_cons.1 h with rfl | h
        · exact .inr (by simp)
        · rcases ih h with h | h
          · exact .inl h
          · exact .inr (by simp [h])

theorem Ordered.insertKey {k : K} {t : O} {m : List (K × List O)} (h : Ordered m) :
    Ordered (insertKey k t m) := by
  induction m with
  | nil => simp [TypeGroup.insertKey, Ordered]
  | cons a m ih =>
    obtain ⟨k', ts⟩ := a
    obtain ⟨hp, hn⟩ := h
    rw [List.pairwise_cons] at hp
    have ih := ih ⟨hp.2, fun q hq => hn q (by simp [hq])⟩
    simp only [TypeGroup.insertKey]
    split
    · exact ⟨List.pairwise_cons.2 ⟨hp.1, hp.2⟩, by
        intro q hq
        rcases List.mem_cons.1 hq with rfl | hq
        · simp
        · exact hn q (by simp [hq])⟩
    · rename_i hne
      split
      · rename_i hlt
        refine ⟨List.pairwise_cons.2 ⟨?_, List.pairwise_cons.2 hp⟩, ?_⟩
        · intro q hq
          rcases List.mem_cons.1 hq with rfl | hq
          · exact hlt
          · exact hlt.trans (hp.1 _ hq)
        · intro q hq
          rcases List.mem_cons.1 hq with rfl | hq
          · simp
          · exact hn q hq
      · rename_i hnl
        refine ⟨List.pairwise_cons.2 ⟨?_, ih.1⟩, ?_⟩
        · intro q hq
          rcases mem_insertKey hq with h | h
          · rw [h]; exact lt_of_le_of_ne (not_lt.1 hnl) (Ne.symm hne)
          · exact hp.1 _ h
        · intro q hq
          rcases List.mem_cons.1 hq with rfl | hq
          · exact hn _ (by simp)
          · exact ih.2 _ hq

theorem get_none {m : List (K × List O)} {k : K} (h : ∀ q ∈ m, q.1 ≠ k) : get m k = [] := by
  induction m with
  | nil => rfl
  | cons a m ih =>
    obtain ⟨k', ts⟩ := a
    rw [get, if_neg (h (k', ts) (by simp))]
    exact ih fun q hq => h q (by simp [hq])

theorem get_insertKey {k k0 : K} {t : O} {m : List (K × List O)} (h : Ordered m) :
    get (insertKey k t m) k0 = get m k0 ++ if k = k0 then [t] else [] := by
  induction m with
  | nil => simp [TypeGroup.insertKey, get]
  | cons a m ih =>
    obtain ⟨k', ts⟩ := a
    obtain ⟨hp, hn⟩ := h
    rw [List.pairwise_cons] at hp
    have ih := ih ⟨hp.2, fun q hq => hn q (by simp [hq])⟩
    simp only [TypeGroup.insertKey]
    split
    · rename_i he
      subst he
      by_cases h0 : k = k0
      · simp [get, h0]
      · simp [get, h0]
    · rename_i hne
      split
      · rename_i hlt
        by_cases h0 : k = k0
        · subst h0
          have : get ((k', ts) :: m) k = [] := by
            apply get_none
            intro q hq
            rcases List.mem_cons.1 hq with rfl | hq
            · exact fun h => hne h.symm
            · exact fun h => absurd (hlt.trans (hp.1 _ hq)) (by rw [h]; exact lt_irrefl _)
          rw [this]; simp [get]
        · rw [get, if_neg h0]; simp [h0]
      · by_cases h1 : k' = k0
        · subst h1
          rw [get, if_pos rfl, get, if_pos rfl, if_neg hne]; simp
        · rw [get, if_neg h1, get, if_neg h1, ih]

omit [DecidableEq O] in
theorem mem_get {m : List (K × List O)} (h : Ordered m) {q : K × List O} (hq : q ∈ m) : get m q.1 = q.2 := by
  induction m with
  | nil => simp at hq
  | cons a m ih =>
    obtain ⟨k', ts⟩ := a
    obtain ⟨hp, hn⟩ := h
    rw [List.pairwise_cons] at hp
    rcases List.mem_cons.1 hq with rfl | hq
    · simp [get]
    · have := hp.1 _ hq
      rw [get, if_neg (ne_of_lt this)]
      exact ih ⟨hp.2, fun q hq => hn q (by simp [hq])⟩ hq

omit [DecidableEq O] in
theorem get_mem {m : List (K × List O)} {k : K} (h : get m k ≠ []) : (k, get m k) ∈ m := by
  induction m with
  | nil => simp [get] at h
  | cons a m ih =>
    obtain ⟨k', ts⟩ := a
    by_cases h1 : k' = k
    · simp [get, h1]
    · simp only [get, if_neg h1] at h ⊢
      exact List.mem_cons_of_mem _ (ih h)

/-- The objects of `S` with key `k`. -/
def having (key : O → Option K) (S : List O) (k : K) : List O := S.filter (fun t => decide (key t = some k))

theorem byKey_spec (key : O → Option K) (S : List O) :
    Ordered (byKey key S) ∧ ∀ k, get (byKey key S) k = having key S k := by
  have : ∀ (S : List O) (m : List (K × List O)), Ordered m →
      Ordered (S.foldl (fun m t => match key t with | some k => insertKey k t m | none => m) m) ∧
      ∀ k, get (S.foldl (fun m t => match key t with | some k => insertKey k t m | none => m) m) k
        = get m k ++ having key S k := by
    intro S
    induction S with
    | nil => intro m hm; exact ⟨hm, by simp [having]⟩
    | cons t S ih =>
      intro m hm
      simp only [List.foldl_cons]
      cases hk : key t with
      | none =>
        refine ⟨(ih m hm).1, fun k => ?_⟩
        rw [(ih m hm).2 k]
        simp [having, hk]
      | some k1 =>
        refine ⟨(ih _ hm.insertKey).1, fun k => ?_⟩
        rw [(ih _ hm.insertKey).2 k, get_insertKey hm]
        by_cases h : k1 = k
        · simp [having, hk, h]
        · simp [having, hk, h]
  have h := this S [] ⟨by simp, by simp⟩
  exact ⟨h.1, fun k => (h.2 k).trans (by simp [get])⟩

omit [LinearOrder K] [DecidableEq O] in
theorem single_some {l : List (K × List O)} {t : O} (h : single l = some t) :
    ∃ pre k post, l = pre ++ (k, [t]) :: post ∧ ∀ q ∈ pre, q.2.length ≠ 1 := by
  induction l with
  | nil => simp [single] at h
  | cons a l ih =>
    obtain ⟨k, ts⟩ := a
    match ts with
    | [t'] =>
      simp only [single, Option.some.injEq] at h
      subst h
      exact ⟨[], k, l, rfl, by simp⟩
    | [] =>
      obtain ⟨pre, k', post, e, hp⟩ := ih (by simpa [single] using h)
      exact ⟨(k, []) :: pre, k', post, by simp [e], by
        intro q hq
        rcases List.mem_cons.1 hq with rfl | hq
        · simp
        · exact hp q hq⟩
    | a :: b :: ts =>
      obtain ⟨pre, k', post, e, hp⟩ := ih (by simpa [single] using h)
      exact ⟨(k, a :: b :: ts) :: pre, k', post, by simp [e], by
        intro q hq
        rcases List.mem_cons.1 hq with rfl | hq
        · simp
        · exact hp q hq⟩

omit [LinearOrder K] [DecidableEq O] in
theorem single_none {l : List (K × List O)} (h : single l = none) : ∀ q ∈ l, q.2.length ≠ 1 := by
  induction l with
  | nil => simp
  | cons a l ih =>
    obtain ⟨k, ts⟩ := a
    intro q hq
    match ts with
    | [t'] => simp [single] at h
    | [] =>
      rcases List.mem_cons.1 hq with rfl | hq
      · simp
      · exact ih (by simpa [single] using h) q hq
    | a :: b :: ts =>
      rcases List.mem_cons.1 hq with rfl | hq
      · simp
      · exact ih (by simpa [single] using h) q hq

/-- `t` is the only object with its key, and every key above has none or several. -/
def IsMax (key : O → Option K) (S : List O) (t : O) : Prop :=
  ∃ k, having key S k = [t] ∧ ∀ k', k < k' → (having key S k').length ≠ 1

/-- `t` is the only object with its key, and every key below has none or several. -/
def IsMin (key : O → Option K) (S : List O) (t : O) : Prop :=
  ∃ k, having key S k = [t] ∧ ∀ k', k' < k → (having key S k').length ≠ 1

/-- No key has exactly one object. -/
def NoSingle (key : O → Option K) (S : List O) : Prop := ∀ k, (having key S k).length ≠ 1

theorem single_byKey_max {key : O → Option K} {S : List O} {t : O}
    (h : single (byKey key S).reverse = some t) : IsMax key S t := by
  obtain ⟨ho, hg⟩ := byKey_spec key S
  obtain ⟨pre, k, post, e, hp⟩ := single_some h
  have hmem : (k, [t]) ∈ byKey key S := by rw [← List.mem_reverse, e]; simp
  refine ⟨k, by rw [← hg, mem_get ho hmem], fun k' hk' hl => ?_⟩
  rw [← hg] at hl
  have hm : (k', get (byKey key S) k') ∈ byKey key S := get_mem (by intro h; rw [h] at hl; simp at hl)
  have hpw : ((byKey key S).reverse).Pairwise (fun a b => b.1 < a.1) := List.pairwise_reverse.2 ho.1
  rw [e] at hpw
  rw [← List.mem_reverse, e] at hm
  rcases List.mem_append.1 hm with hm | hm
  · exact hp _ hm hl
  · rcases List.mem_cons.1 hm with hm | hm
    · rw [Prod.mk.injEq] at hm; exact absurd hk' (by rw [hm.1]; exact lt_irrefl _)
    · have := (List.pairwise_cons.1 (List.pairwise_append.1 hpw).2.1).1 _ hm
      exact absurd (hk'.trans this) (lt_irrefl _)

theorem single_byKey_min {key : O → Option K} {S : List O} {t : O}
    (h : single (byKey key S) = some t) : IsMin key S t := by
  obtain ⟨ho, hg⟩ := byKey_spec key S
  obtain ⟨pre, k, post, e, hp⟩ := single_some h
  have hmem : (k, [t]) ∈ byKey key S := by rw [e]; simp
  refine ⟨k, by rw [← hg, mem_get ho hmem], fun k' hk' hl => ?_⟩
  rw [← hg] at hl
  have hm : (k', get (byKey key S) k') ∈ byKey key S := get_mem (by intro h; rw [h] at hl; simp at hl)
  have hpw := ho.1
  rw [e] at hpw
  rw [e] at hm
  rcases List.mem_append.1 hm with hm | hm
  · rw [← e] at hm; exact hp _ hm hl
  · rcases List.mem_cons.1 hm with hm | hm
    · rw [Prod.mk.injEq] at hm; exact absurd hk' (by rw [hm.1]; exact lt_irrefl _)
    · have := (List.pairwise_cons.1 (List.pairwise_append.1 hpw).2.1).1 _ hm
      exact absurd (hk'.trans this) (lt_irrefl _)

theorem single_byKey_none {key : O → Option K} {S : List O} (h : single (byKey key S) = none) :
    NoSingle key S := by
  obtain ⟨ho, hg⟩ := byKey_spec key S
  intro k hl
  rw [← hg] at hl
  exact single_none h _ (get_mem (k := k) (by intro h; rw [h] at hl; simp at hl)) hl

theorem single_byKey_reverse_none {key : O → Option K} {S : List O}
    (h : single (byKey key S).reverse = none) : NoSingle key S := by
  obtain ⟨ho, hg⟩ := byKey_spec key S
  intro k hl
  rw [← hg] at hl
  exact single_none h _ (List.mem_reverse.2 (get_mem (k := k) (by intro h; rw [h] at hl; simp at hl))) hl

theorem having_mem {key : O → Option K} {S : List O} {k : K} {t : O} (h : having key S k = [t]) : t ∈ S :=
  (List.mem_filter.1 (by rw [← having, h]; simp : t ∈ S.filter (fun t => decide (key t = some k)))).1

theorem IsMax.mem {key : O → Option K} {S : List O} {t : O} (h : IsMax key S t) : t ∈ S := by
  obtain ⟨k, h, _⟩ := h; exact having_mem h

theorem IsMin.mem {key : O → Option K} {S : List O} {t : O} (h : IsMin key S t) : t ∈ S := by
  obtain ⟨k, h, _⟩ := h; exact having_mem h

theorem anyRoot_byKey {key : O → K} {S : List O} (hS : S ≠ []) :
    ∃ t ∈ S, anyRoot (byKey (fun t => some (key t)) S) = .ok (t, true) := by
  obtain ⟨ho, hg⟩ := byKey_spec (fun t => some (key t)) S
  match hm : byKey (fun t => some (key t)) S with
  | [] =>
    exfalso
    obtain ⟨s, S', rfl⟩ := List.exists_cons_of_ne_nil hS
    have := hg (key s)
    rw [hm] at this
    simp [get, having] at this
  | (k, []) :: rest => exact absurd rfl (ho.2 (k, []) (by rw [hm]; simp))
  | (k, t :: ts) :: rest =>
    refine ⟨t, ?_, rfl⟩
    have := hg k
    rw [hm] at this
    simp only [get, if_true] at this
    have ht : t ∈ having (fun t => some (key t)) S k := by rw [← this]; simp
    exact (List.mem_filter.1 ht).1

/-! ### Renaming objects -/

section Rename

variable {O' : Type} [DecidableEq O']

theorem having_map {key : O → Option K} {key' : O' → Option K} {f : O → O'} {S : List O}
    (hk : ∀ x ∈ S, key' (f x) = key x) (k : K) :
    having key' (S.map f) k = (having key S k).map f := by
  induction S with
  | nil => rfl
  | cons s S ih =>
    have ih := ih fun x hx => hk x (by simp [hx])
    have h0 := hk s (by simp)
    simp only [having, List.map_cons, List.filter_cons, h0] at ih ⊢
    split
    · rw [ih]; rfl
    · exact ih

theorem having_perm {key : O → Option K} {S S' : List O} (h : S.Perm S') (k : K) :
    (having key S k).Perm (having key S' k) := h.filter _

theorem having_rename {key : O → Option K} {key' : O' → Option K} {f : O → O'} {S : List O} {S' : List O'}
    (hk : ∀ x ∈ S, key' (f x) = key x) (h : S'.Perm (S.map f)) (k : K) :
    (having key' S' k).Perm ((having key S k).map f) := by
  rw [← having_map hk]; exact having_perm h k

theorem having_rename_one {key : O → Option K} {key' : O' → Option K} {f : O → O'} {S : List O}
    {S' : List O'} (hk : ∀ x ∈ S, key' (f x) = key x) (h : S'.Perm (S.map f)) {k : K} {t : O}
    (ht : having key S k = [t]) : having key' S' k = [f t] := by
  have := having_rename hk h k
  rw [ht] at this
  exact List.perm_singleton.1 this

theorem having_rename_length {key : O → Option K} {key' : O' → Option K} {f : O → O'} {S : List O}
    {S' : List O'} (hk : ∀ x ∈ S, key' (f x) = key x) (h : S'.Perm (S.map f)) (k : K) :
    (having key' S' k).length = (having key S k).length := by
  rw [(having_rename hk h k).length_eq, List.length_map]

theorem IsMax.unique {key : O → Option K} {S : List O} {t t' : O} (h : IsMax key S t) (h' : IsMax key S t') :
    t = t' := by
  obtain ⟨k, h1, h2⟩ := h
  obtain ⟨k', h1', h2'⟩ := h'
  rcases lt_trichotomy k k' with hl | rfl | hl
  · exact absurd (by rw [h1']; rfl) (h2 _ hl)
  · rw [h1] at h1'; simpa using h1'
  · exact absurd (by rw [h1]; rfl) (h2' _ hl)

theorem IsMin.unique {key : O → Option K} {S : List O} {t t' : O} (h : IsMin key S t) (h' : IsMin key S t') :
    t = t' := by
  obtain ⟨k, h1, h2⟩ := h
  obtain ⟨k', h1', h2'⟩ := h'
  rcases lt_trichotomy k k' with hl | rfl | hl
  · exact absurd (by rw [h1]; rfl) (h2' _ hl)
  · rw [h1] at h1'; simpa using h1'
  · exact absurd (by rw [h1']; rfl) (h2 _ hl)

theorem single_max_rename {key : O → Option K} {key' : O' → Option K} {f : O → O'} {S : List O}
    {S' : List O'} (hk : ∀ x ∈ S, key' (f x) = key x) (h : S'.Perm (S.map f)) :
    single (byKey key' S').reverse = (single (byKey key S).reverse).map f := by
  cases h1 : single (byKey key S).reverse with
  | none =>
    have hn := single_byKey_reverse_none h1
    cases h2 : single (byKey key' S').reverse with
    | none => rfl
    | some t' =>
      obtain ⟨k, hk', _⟩ := single_byKey_max h2
      exact absurd (by rw [← having_rename_length hk h, hk']; rfl) (hn k)
  | some t =>
    have hm := single_byKey_max h1
    obtain ⟨k, ht, hab⟩ := hm
    cases h2 : single (byKey key' S').reverse with
    | none =>
      exact absurd (by rw [having_rename_length hk h, ht]; rfl) (single_byKey_reverse_none h2 k)
    | some t' =>
      have : IsMax key' S' (f t) :=
        ⟨k, having_rename_one hk h ht, fun k' hl => by rw [having_rename_length hk h]; exact hab k' hl⟩
      rw [(single_byKey_max h2).unique this]; rfl

theorem single_min_rename {key : O → Option K} {key' : O' → Option K} {f : O → O'} {S : List O}
    {S' : List O'} (hk : ∀ x ∈ S, key' (f x) = key x) (h : S'.Perm (S.map f)) :
    single (byKey key' S') = (single (byKey key S)).map f := by
  cases h1 : single (byKey key S) with
  | none =>
    have hn := single_byKey_none h1
    cases h2 : single (byKey key' S') with
    | none => rfl
    | some t' =>
      obtain ⟨k, hk', _⟩ := single_byKey_min h2
      exact absurd (by rw [← having_rename_length hk h, hk']; rfl) (hn k)
  | some t =>
    have hm := single_byKey_min h1
    obtain ⟨k, ht, hab⟩ := hm
    cases h2 : single (byKey key' S') with
    | none =>
      exact absurd (by rw [having_rename_length hk h, ht]; rfl) (single_byKey_none h2 k)
    | some t' =>
      have : IsMin key' S' (f t) :=
        ⟨k, having_rename_one hk h ht, fun k' hl => by rw [having_rename_length hk h]; exact hab k' hl⟩
      rw [(single_byKey_min h2).unique this]; rfl

end Rename

end Verif.TypeGroup
