import Verif.ModuleOf.Spec
/-
C121: modules of types.
-/
namespace Verif.ModuleOf

open TypeFn (Ty)

variable {contains : Contains}

/-! ### The dictionary -/

theorem lookup_store (x y : String) (t : Ty) : ∀ items, (store x t items).lookup y = if y = x then some t else items.lookup y
  | [] => by
    simp only [store, List.lookup_cons, List.lookup_nil]
    by_cases h : y = x
    · simp [h]
    · simp [h, beq_false_of_ne h]
  | (z, u) :: rest => by
    simp only [store]
    split
    · next h =>
      subst h
      simp only [List.lookup_cons]
      by_cases h' : y = x
      · simp [h']
      · simp [h', beq_false_of_ne h']
    · next h =>
      simp only [List.lookup_cons, lookup_store x y t rest]
      by_cases h' : y = z
      · subst h'
        simp [show y ≠ x from fun e => h e.symm]
      · simp [beq_false_of_ne h']

theorem store_mem {x : String} {t : Ty} {items : List (String × Ty)} {p : String × Ty} (h : p ∈ store x t items) : p.2 = t ∨ p ∈ items := by
  induction items with
  | nil => simp only [store, List.mem_singleton] at h; subst h; exact .inl rfl
  | cons q rest ih =>
    obtain ⟨y, u⟩ := q
    simp only [store] at h
    split at h
    · rcases List.mem_cons.mp h with rfl | h
      · exact .inl rfl
      · exact .inr (.tail _ h)
    · rcases List.mem_cons.mp h with rfl | h
      · exact .inr (.head _)
      · exact (ih h).imp_right (.tail _)

theorem mem_of_lookup {x : String} {t : Ty} : ∀ {items : List (String × Ty)}, items.lookup x = some t → (x, t) ∈ items
  | [], h => by simp at h
  | (y, u) :: rest, h => by
    simp only [List.lookup_cons] at h
    by_cases e : x = y
    · subst e; simp at h; subst h; exact .head _
    · simp only [beq_false_of_ne e] at h; exact .tail _ (mem_of_lookup h)

/-! ### Steps -/

theorem define_state {s s' : State} {i : Nat} {t u : Ty} (h : define contains s i t = some (s', u)) :
    u = follow s t ∧ s' = { s with defined := s'.defined } ∧ s'.defined i = some u ∧ ∀ j, j ≠ i → s'.defined j = s.defined j := by
  simp only [define] at h
  split at h
  · cases h
  · split at h
    · next hd => cases h; exact ⟨rfl, rfl, hd, fun _ _ => rfl⟩
    · split at h
      · next hf => cases h; exact ⟨rfl, rfl, by simp, fun j hj => by simp [hj]⟩
      · next hf =>
        split at h
        · cases h
        · cases h; exact ⟨rfl, rfl, by simp, fun j hj => by simp [hj]⟩

/-- What a step can do. -/
inductive Does (contains : Contains) (s : State) : State → Prop
  | nothing : Does contains s s
  | newMember (x : String) (h : s.items.lookup x = none) : Does contains s { s with
        items := store x (.fwd s.forwards) s.items
        forwards := s.forwards + 1
        owner := fun j => if j = s.forwards then some x else s.owner j }
  | firstSet (x : String) (t : Ty) (h : s.items.lookup x = none) (hf : s.frozen = false) : Does contains s { s with items := store x t s.items }
  | defines (x : String) (t : Ty) (i : Nat) (s' : State) (u : Ty) (h : s.items.lookup x = some (.fwd i)) (hf : s.frozen = false)
      (hd : define contains s i t = some (s', u)) : Does contains s { s' with items := store x u s'.items }
  | freezes (h : s.items.any (fun p => isForward p.2) = false) : Does contains s { s with frozen := true }
  | foreign : Does contains s { s with forwards := s.forwards + 1 }
  | resolves (i : Nat) (t : Ty) (s' : State) (u : Ty) (hd : define contains s i t = some (s', u)) : Does contains s s'

theorem get_does {s s' : State} {x : String} {t : Ty} (h : get s x = some (s', t)) : Does contains s s' := by
  simp only [get] at h
  split at h
  · cases h
  · split at h
    · cases h; exact .nothing
    · next hl => cases h; exact .newMember x hl

theorem set_does {s s' : State} {x : String} {t : Ty} (h : set contains s x t = some s') : Does contains s s' := by
  simp only [set] at h
  split at h
  · cases h
  · split at h
    · cases h
    · next hf =>
      have hf : s.frozen = false := by simpa using hf
      split at h
      · next hl => cases h; exact .firstSet x t hl hf
      · cases h
      · next i hl =>
        split at h
        · cases h
        · next s1 u hd => cases h; exact .defines x t i s1 u hl hf hd

/-- After an assignment the member is there. -/
theorem set_lookup {s s' : State} {x : String} {t : Ty} (h : set contains s x t = some s') : s'.items.lookup x ≠ none := by
  simp only [set] at h
  split at h
  · cases h
  · split at h
    · cases h
    · split at h
      · cases h; simp [lookup_store]
      · cases h
      · split at h
        · cases h
        · cases h; simp [lookup_store]

theorem get_known {s : State} {x : String} {t : Ty} (h : s.items.lookup x = some t) : get s x = none ∨ get s x = some (s, t) := by
  simp only [get, h]
  split <;> simp

/-- Every step does one of these. -/
theorem step_does (contains : Contains) (s : State) (op : Op) : Does contains s (step contains s op) := by
  cases op with
  | get x =>
    simp only [step]
    split
    · next s' t h => exact get_does h
    · exact .nothing
  | set x t =>
    simp only [step]
    cases h : set contains s x t with
    | none => exact .nothing
    | some s' => exact set_does h
  | define x t =>
    simp only [step]
    split
    · exact .nothing
    · next s' h =>
      obtain ⟨u, hu⟩ := Option.ne_none_iff_exists'.mp (set_lookup h)
      rcases get_known hu with hg | hg <;> rw [hg] <;> exact set_does h
  | freeze =>
    simp only [step, freeze]
    split
    · exact .nothing
    · next h => exact .freezes (by simpa using h)
  | forward => exact .foreign
  | resolve i t =>
    simp only [step]
    split
    · next s' u h => exact .resolves i t s' u h
    · exact .nothing

/-! ### Invariants -/

/-- Forwards are numbered; each that the module made is defined, or its member is still this forward. -/
structure Inv (s : State) : Prop where
  new : ∀ i, s.forwards ≤ i → s.owner i = none
  waits : ∀ i x, s.owner i = some x → s.defined i ≠ none ∨ s.items.lookup x = some (.fwd i)

theorem does_inv {s s' : State} (h : Does contains s s') (hi : Inv s) : Inv s' := by
  cases h with
  | nothing => exact hi
  | newMember x h =>
    refine ⟨fun i hl => ?_, fun i y ho => ?_⟩
    · have : i ≠ s.forwards := by simp at hl; omega
      simp only [this, if_false]
      exact hi.new i (by simp at hl; omega)
    · simp only at ho ⊢
      split at ho
      · next e => cases ho; subst e; right; simp [lookup_store]
      · rcases hi.waits i y ho with hd | hl
        · exact .inl hd
        · right
          rw [lookup_store, if_neg, hl]
          rintro rfl; rw [h] at hl; cases hl
  | firstSet x t h hf =>
    refine ⟨hi.new, fun i y ho => (hi.waits i y ho).imp_right fun hl => ?_⟩
    show (store x t s.items).lookup y = _
    rw [lookup_store, if_neg, hl]
    rintro rfl; rw [h] at hl; cases hl
  | defines x t i s1 u h hf hd =>
    obtain ⟨_, hs, hdi, hdj⟩ := define_state hd
    refine ⟨fun k hk => ?_, fun k y ho => ?_⟩
    · rw [hs] at hk ⊢; exact hi.new k hk
    · have ho' : s.owner k = some y := by rw [hs] at ho; exact ho
      have hit : s1.items = s.items := by rw [hs]
      by_cases e : k = i
      · subst e; left; show s1.defined k ≠ none; rw [hdi]; simp
      · rcases hi.waits k y ho' with hd' | hl
        · left; show s1.defined k ≠ none; rw [hdj k e]; exact hd'
        · right
          show (store x u s1.items).lookup y = _
          rw [lookup_store, hit, if_neg, hl]
          rintro rfl; rw [h] at hl; cases hl; exact e rfl
  | freezes h => exact ⟨hi.new, hi.waits⟩
  | foreign => exact ⟨fun i hl => hi.new i (by simp at hl; omega), hi.waits⟩
  | resolves i t s1 u hd =>
    obtain ⟨_, hs, hdi, hdj⟩ := define_state hd
    refine ⟨fun k hk => ?_, fun k y ho => ?_⟩
    · rw [hs] at hk ⊢; exact hi.new k hk
    · have ho' : s.owner k = some y := by rw [hs] at ho; exact ho
      have hit : s'.items = s.items := by rw [hs]
      by_cases e : k = i
      · subst e; left; rw [hdi]; simp
      · rw [hdj k e, hit]; exact hi.waits k y ho'

theorem initial_inv : Inv .initial := ⟨fun _ _ => rfl, fun _ _ h => by cases h⟩

theorem run_cons (s : State) (op : Op) (ops : List Op) : run contains s (op :: ops) = run contains (step contains s op) ops := rfl

theorem run_inv : ∀ (ops : List Op) (s : State), Inv s → Inv (run contains s ops)
  | [], _, h => h
  | op :: ops, s, h => run_inv ops _ (does_inv (step_does contains s op) h)

theorem freeze_some {s s' : State} (h : freeze s = some s') : s' = { s with frozen := true } ∧ ∀ p ∈ s.items, isForward p.2 = false := by
  simp only [freeze] at h
  split at h
  · cases h
  · next hn => cases h; exact ⟨rfl, fun p hp => by simp only [Bool.not_eq_true] at hn; simpa using List.any_eq_false.mp hn p hp⟩

/-- C121: if a module can be frozen, then no member is a forward, and every forward that the module has ever given out is defined. -/
theorem freeze_sound (ops : List Op) (s' : State) (h : freeze (run contains .initial ops) = some s') :
    (∀ p ∈ s'.items, isForward p.2 = false) ∧ ∀ i x, s'.owner i = some x → s'.defined i ≠ none := by
  obtain ⟨rfl, hn⟩ := freeze_some h
  refine ⟨hn, fun i x ho => ?_⟩
  rcases (run_inv ops _ initial_inv).waits i x ho with hd | hl
  · exact hd
  · have := hn _ (mem_of_lookup hl); cases this

/-- All forwards that are mentioned exist, and if the program makes none itself, the module made them. -/
structure Known (s : State) : Prop where
  items : ∀ p ∈ s.items, ∀ j ∈ p.2.fwds, j < s.forwards
  defs : ∀ i t, s.defined i = some t → ∀ j ∈ t.fwds, j < s.forwards

theorem followN_fwds {defined : Nat → Option Ty} {n : Nat} (hd : ∀ i t, defined i = some t → ∀ j ∈ t.fwds, j < n) :
    ∀ (k : Nat) (t : Ty), (∀ j ∈ t.fwds, j < n) → ∀ j ∈ (followN defined k t).fwds, j < n
  | 0, _, h => h
  | k + 1, t, h => by
    simp only [followN]
    split
    · split
      · next hj => exact followN_fwds hd k _ (hd _ _ hj)
      · exact h
    · exact h

theorem define_known {s s' : State} {i : Nat} {t u : Ty} (h : define contains s i t = some (s', u)) (hk : Known s) (ht : ∀ j ∈ t.fwds, j < s.forwards) :
    Known s' ∧ s'.forwards = s.forwards ∧ ∀ j ∈ u.fwds, j < s.forwards := by
  obtain ⟨hu, hs, hdi, hdj⟩ := define_state h
  have hu' : ∀ j ∈ u.fwds, j < s.forwards := by rw [hu]; exact followN_fwds hk.defs _ _ ht
  have hfw : s'.forwards = s.forwards := by rw [hs]
  have hit : s'.items = s.items := by rw [hs]
  refine ⟨⟨by rw [hit, hfw]; exact hk.items, fun k t' hkt => ?_⟩, hfw, hu'⟩
  rw [hfw]
  by_cases e : k = i
  · subst e; rw [hdi] at hkt; cases hkt; exact hu'
  · rw [hdj k e] at hkt; exact hk.defs k t' hkt

theorem get_known_state {s s' : State} {x : String} {t : Ty} (h : get s x = some (s', t)) (hk : Known s) : Known s' := by
  simp only [get] at h
  split at h
  · cases h
  · split at h
    · cases h; exact hk
    · cases h
      refine ⟨fun p hp j hj => ?_, fun i t hi j hj => Nat.lt_succ_of_lt (hk.defs i t hi j hj)⟩
      rcases store_mem hp with e | hp
      · rw [e] at hj; simp [Ty.fwds] at hj; subst hj; exact Nat.lt_succ_self _
      · exact Nat.lt_succ_of_lt (hk.items p hp j hj)

theorem set_known_state {s s' : State} {x : String} {t : Ty} (h : set contains s x t = some s') (hk : Known s) (ht : ∀ j ∈ t.fwds, j < s.forwards) :
    Known s' := by
  simp only [set] at h
  split at h
  · cases h
  · split at h
    · cases h
    · split at h
      · cases h
        refine ⟨fun p hp j hj => ?_, hk.defs⟩
        rcases store_mem hp with e | hp
        · rw [e] at hj; exact ht j hj
        · exact hk.items p hp j hj
      · cases h
      · split at h
        · cases h
        · next s1 u hd =>
          cases h
          obtain ⟨h1, h2, h3⟩ := define_known hd hk ht
          refine ⟨fun p hp j hj => ?_, h1.defs⟩
          rcases store_mem hp with e | hp
          · rw [e] at hj; show j < s1.forwards; rw [h2]; exact h3 j hj
          · exact h1.items p hp j hj

theorem step_known {s : State} {op : Op} (hk : Known s) (ht : ∀ t ∈ op.types, ∀ j ∈ t.fwds, j < s.forwards) : Known (step contains s op) := by
  cases op with
  | get x =>
    simp only [step]
    split
    · next h => exact get_known_state h hk
    · exact hk
  | set x t =>
    simp only [step]
    cases h : set contains s x t with
    | none => exact hk
    | some s' => exact set_known_state h hk (ht t (by simp [Op.types]))
  | define x t =>
    simp only [step]
    split
    · exact hk
    · next s' h =>
      have h1 := set_known_state h hk (ht t (by simp [Op.types]))
      split
      · next hg => exact get_known_state hg h1
      · exact h1
  | freeze =>
    simp only [step, freeze]
    split
    · exact hk
    · exact ⟨hk.items, hk.defs⟩
  | forward => exact ⟨fun p hp j hj => Nat.lt_succ_of_lt (hk.items p hp j hj), fun i t hi j hj => Nat.lt_succ_of_lt (hk.defs i t hi j hj)⟩
  | resolve i t =>
    simp only [step]
    split
    · next h => exact (define_known h hk (ht t (by simp [Op.types]))).1
    · exact hk

theorem run_known : ∀ (ops : List Op) (s : State), Known s → Honest contains s ops → Known (run contains s ops)
  | [], _, h, _ => h
  | op :: ops, s, h, hh => run_known ops _ (step_known h hh.1) hh.2.2

/-- Only the module makes forwards. -/
def AllOwned (s : State) : Prop := ∀ i, i < s.forwards → s.owner i ≠ none

theorem step_owned {s : State} {op : Op} (h : AllOwned s) (ho : op ≠ .forward) : AllOwned (step contains s op) := by
  have hget : ∀ {s s' : State} {x : String} {t : Ty}, get s x = some (s', t) → AllOwned s → AllOwned s' := by
    intro s s' x t hg h
    simp only [get] at hg
    split at hg
    · cases hg
    · split at hg
      · cases hg; exact h
      · cases hg
        intro i hi
        simp only at hi ⊢
        split
        · simp
        · exact h i (by omega)
  have hdef : ∀ {s s' : State} {i : Nat} {t u : Ty}, define contains s i t = some (s', u) → AllOwned s → AllOwned s' := by
    intro s s' i t u hd h
    obtain ⟨_, hs, _⟩ := define_state hd
    rw [hs]; exact h
  have hset : ∀ {s s' : State} {x : String} {t : Ty}, set contains s x t = some s' → AllOwned s → AllOwned s' := by
    intro s s' x t hg h
    simp only [set] at hg
    split at hg
    · cases hg
    · split at hg
      · cases hg
      · split at hg
        · cases hg; exact h
        · cases hg
        · split at hg
          · cases hg
          · next hd => cases hg; have := hdef hd h; exact this
  cases op with
  | get x =>
    simp only [step]
    split
    · next hg => exact hget hg h
    · exact h
  | set x t =>
    simp only [step]
    cases hs : set contains s x t with
    | none => exact h
    | some s' => exact hset hs h
  | define x t =>
    simp only [step]
    split
    · exact h
    · next hs =>
      split
      · next hg => exact hget hg (hset hs h)
      · exact hset hs h
  | freeze =>
    simp only [step, freeze]
    split <;> exact h
  | forward => exact absurd rfl ho
  | resolve i t =>
    simp only [step]
    split
    · next hd => exact hdef hd h
    · exact h

theorem run_owned : ∀ (ops : List Op) (s : State), AllOwned s → OnlyModule ops → AllOwned (run contains s ops)
  | [], _, h, _ => h
  | op :: ops, s, h, hh => run_owned ops _ (step_owned h (hh op (.head _))) fun o ho => hh o (.tail _ ho)

/-- C121: if a program makes no forwards but through the module, then in a module that can be frozen everything is defined: all members, all that
they mention, and so on. -/
theorem frozen_complete_partial (ops : List Op) (hh : Honest contains .initial ops) (ho : OnlyModule ops) (s' : State)
    (h : freeze (run contains .initial ops) = some s') :
    (∀ p ∈ s'.items, ∀ j ∈ p.2.fwds, s'.defined j ≠ none) ∧ ∀ i t, s'.defined i = some t → ∀ j ∈ t.fwds, s'.defined j ≠ none := by
  obtain ⟨_, h2⟩ := freeze_sound ops s' h
  obtain ⟨rfl, _⟩ := freeze_some h
  have hk := run_known (contains := contains) ops .initial ⟨(fun _ hp => by cases hp), (fun _ _ hi => by cases hi)⟩ hh
  have hw := run_owned (contains := contains) ops .initial (fun i hi => by simp [State.initial] at hi) ho
  have hd : ∀ j, j < (run contains .initial ops).forwards → (run contains .initial ops).defined j ≠ none := by
    intro j hj
    obtain ⟨x, hx⟩ := Option.ne_none_iff_exists'.mp (hw j hj)
    exact h2 j x hx
  exact ⟨fun p hp j hj => hd j (hk.items p hp j hj), fun i t hi j hj => hd j (hk.defs i t hi j hj)⟩

/-! ### Members stay -/

theorem does_member {s s' : State} (h : Does contains s s') {x : String} {n : String} {as : List Ty} (hx : s.items.lookup x = some (.con n as)) :
    s'.items.lookup x = some (.con n as) := by
  cases h with
  | nothing => exact hx
  | newMember y h => show (store _ _ _).lookup x = _; rw [lookup_store, if_neg, hx]; rintro rfl; rw [h] at hx; cases hx
  | firstSet y t h hf => show (store _ _ _).lookup x = _; rw [lookup_store, if_neg, hx]; rintro rfl; rw [h] at hx; cases hx
  | defines y t i s1 u h hf hd =>
    obtain ⟨_, hs, _⟩ := define_state hd
    have hit : s1.items = s.items := by rw [hs]
    show (store _ _ _).lookup x = _
    rw [lookup_store, hit, if_neg, hx]; rintro rfl; rw [h] at hx; cases hx
  | freezes h => exact hx
  | foreign => exact hx
  | resolves i t s1 u hd =>
    obtain ⟨_, hs, _⟩ := define_state hd
    rw [hs]; exact hx

/-- C121: a member that is a type, and no forward, stays this type whatever happens, and reading it gives this type. -/
theorem member_stays (ops : List Op) (s : State) (x n : String) (as : List Ty) (hn : named x = true) (hx : s.items.lookup x = some (.con n as)) :
    get (run contains s ops) x = some (run contains s ops, .con n as) := by
  have : ∀ (ops : List Op) (s : State), s.items.lookup x = some (.con n as) → (run contains s ops).items.lookup x = some (.con n as) := by
    intro ops
    induction ops with
    | nil => intro s h; exact h
    | cons op ops ih => intro s h; exact ih _ (does_member (step_does contains s op) h)
  simp [get, hn, this ops s hx]

/-- C121: assigning a type to a member that was read before defines the forward that was given out: it and the member are the type. -/
theorem set_defines (s s' : State) (x n : String) (as : List Ty) (i : Nat) (hx : s.items.lookup x = some (.fwd i))
    (h : set contains s x (.con n as) = some s') : s'.defined i = some (.con n as) ∧ s'.items.lookup x = some (.con n as) := by
  have hf : follow s (.con n as) = .con n as := by
    unfold follow
    cases s.forwards <;> rfl
  simp only [set, hx] at h
  split at h
  · cases h
  · split at h
    · cases h
    · split at h
      · cases h
      · next s1 u hd =>
        cases h
        obtain ⟨hu, _, hdi, _⟩ := define_state hd
        rw [hf] at hu
        subst hu
        exact ⟨hdi, by simp [lookup_store]⟩

/-- Assigning to another member leaves a member as it is, and so do all other steps once it is there. -/
theorem step_other {s : State} {op : Op} {x : String} {t : Ty} (hx : s.items.lookup x = some t) (ho : ¬ Assigns x op) :
    (step contains s op).items.lookup x = some t := by
  have hget : ∀ {s s' : State} {y : String} {u : Ty}, get s y = some (s', u) → s.items.lookup x = some t → s'.items.lookup x = some t := by
    intro s s' y u hg hx
    simp only [get] at hg
    split at hg
    · cases hg
    · split at hg
      · cases hg; exact hx
      · next hl =>
        cases hg
        show (store _ _ _).lookup x = _
        rw [lookup_store, if_neg, hx]; rintro rfl; rw [hl] at hx; cases hx
  have hset : ∀ {s s' : State} {y : String} {u : Ty}, x ≠ y → set contains s y u = some s' → s.items.lookup x = some t → s'.items.lookup x = some t := by
    intro s s' y u hne hg hx
    simp only [set] at hg
    split at hg
    · cases hg
    · split at hg
      · cases hg
      · split at hg
        · cases hg; show (store _ _ _).lookup x = _; rw [lookup_store, if_neg hne, hx]
        · cases hg
        · split at hg
          · cases hg
          · next s1 u1 hd =>
            cases hg
            obtain ⟨_, hs, _⟩ := define_state hd
            have hit : s1.items = s.items := by rw [hs]
            show (store _ _ _).lookup x = _; rw [lookup_store, if_neg hne, hit, hx]
  cases op with
  | get y =>
    simp only [step]
    split
    · next hg => exact hget hg hx
    · exact hx
  | set y u =>
    simp only [step]
    cases hs : set contains s y u with
    | none => exact hx
    | some s' => exact hset ho hs hx
  | define y u =>
    simp only [step]
    split
    · exact hx
    · next hs =>
      split
      · next hg => exact hget hg (hset ho hs hx)
      · exact hset ho hs hx
  | freeze =>
    simp only [step, freeze]
    split <;> exact hx
  | forward => exact hx
  | resolve i u =>
    simp only [step]
    split
    · next hd =>
      obtain ⟨_, hs, _⟩ := define_state hd
      rw [hs]; exact hx
    · exact hx

theorem run_other : ∀ (ops : List Op) (s : State) {x : String} {t : Ty}, s.items.lookup x = some t → (∀ op ∈ ops, ¬ Assigns x op) →
    (run contains s ops).items.lookup x = some t
  | [], _, _, _, h, _ => h
  | op :: ops, _, _, _, h, ho => run_other ops _ (step_other h (ho op (.head _))) fun o hm => ho o (.tail _ hm)

/-- C121: the forward that reading a member gives is the one that a later assignment defines, whatever happens in between. -/
theorem forward_kept (ops : List Op) (s s1 s2 : State) (x n : String) (as : List Ty) (f : Ty) (hl : s.items.lookup x = none) (hg : get s x = some (s1, f))
    (ho : ∀ op ∈ ops, ¬ Assigns x op) (h : set contains (run contains s1 ops) x (.con n as) = some s2) :
    ∃ i, f = .fwd i ∧ s2.defined i = some (.con n as) ∧ s2.items.lookup x = some (.con n as) := by
  simp only [get, hl] at hg
  split at hg
  · cases hg
  · cases hg
    refine ⟨_, rfl, set_defines _ _ _ _ _ _ (run_other ops _ ?_ ho) h⟩
    simp [lookup_store]

/-- C121: nothing can be assigned in a frozen module, and it stays frozen. -/
theorem frozen_stays (ops : List Op) (s : State) (hf : s.frozen = true) :
    (run contains s ops).frozen = true ∧ (∀ x t, set contains (run contains s ops) x t = none) ∧
      ∀ x t, s.items.lookup x = some t → (run contains s ops).items.lookup x = some t := by
  have hset : ∀ (s : State), s.frozen = true → ∀ x t, set contains s x t = none := by
    intro s hf x t
    simp [set, hf]
  have hdoes : ∀ (s s' : State), Does contains s s' → s.frozen = true → s'.frozen = true ∧ ∀ x t, s.items.lookup x = some t → s'.items.lookup x = some t := by
    intro s s' h hf
    cases h with
    | nothing => exact ⟨hf, fun _ _ h => h⟩
    | newMember y h =>
      refine ⟨hf, fun x t hx => ?_⟩
      show (store _ _ _).lookup x = _; rw [lookup_store, if_neg, hx]; rintro rfl; rw [h] at hx; cases hx
    | firstSet y t h hf' => rw [hf] at hf'; cases hf'
    | defines y t i s1 u h hf' hd => rw [hf] at hf'; cases hf'
    | freezes h => exact ⟨rfl, fun _ _ h => h⟩
    | foreign => exact ⟨hf, fun _ _ h => h⟩
    | resolves i t s1 u hd =>
      obtain ⟨_, hs, _⟩ := define_state hd
      rw [hs]; exact ⟨hf, fun _ _ h => h⟩
  have : ∀ (ops : List Op) (s : State), s.frozen = true → (run contains s ops).frozen = true ∧
      ∀ x t, s.items.lookup x = some t → (run contains s ops).items.lookup x = some t := by
    intro ops
    induction ops with
    | nil => intro s hf; exact ⟨hf, fun _ _ h => h⟩
    | cons op ops ih =>
      intro s hf
      obtain ⟨h1, h2⟩ := hdoes s _ (step_does contains s op) hf
      obtain ⟨h3, h4⟩ := ih _ h1
      exact ⟨h3, fun x t hx => h4 x t (h2 x t hx)⟩
  exact ⟨(this ops s hf).1, hset _ (this ops s hf).1, (this ops s hf).2⟩

/-! ### Cases -/

/-- Nothing contains itself. -/
def never : Contains := fun _ _ _ => false

/-- Two classes with members of each other's type. -/
def classes : List Op := [.get "Y", .define "X" (.con "X" [.fwd 0]), .get "X", .define "Y" (.con "Y" [.con "X" [.fwd 0]])]

example : Honest never .initial classes ∧ OnlyModule classes := by
  refine ⟨?_, by simp [OnlyModule, classes]⟩
  have h0 : (step never .initial (.get "Y")).forwards = 1 := by decide +kernel
  have h1 : (step never (step never .initial (.get "Y")) (.define "X" (.con "X" [.fwd 0]))).forwards = 1 := by decide +kernel
  have h2 : (step never (step never (step never .initial (.get "Y")) (.define "X" (.con "X" [.fwd 0]))) (.get "X")).forwards = 1 := by decide +kernel
  simp [classes, Honest, Op.types, Ty.fwds, TypeFn.Ty.fwdsAll, h0, h1, h2]

example : (freeze (run never .initial classes)).isSome = true := by decide +kernel
example : ((run never .initial classes).items.lookup "Y") = some (.con "Y" [.con "X" [.fwd 0]]) := by decide +kernel
example : (run never .initial classes).defined 0 = some (.con "Y" [.con "X" [.fwd 0]]) := by decide +kernel
example : (run never .initial (classes ++ [.freeze, .set "Z" (.con "int" [])])).frozen = true ∧
    (run never .initial (classes ++ [.freeze, .set "Z" (.con "int" [])])).items.length = 2 := by decide +kernel
/-- The hypotheses of `forward_kept`, with another class defined in between. -/
example : (get .initial "Y").isSome = true ∧
    (set never (run never (step never .initial (.get "Y")) [.define "X" (.con "X" [.fwd 0])]) "Y" (.con "Y" [])).isSome = true := by decide +kernel
/-- Names that are no members, and a forward that is assigned to itself. -/
example : (get .initial "y").isNone = true ∧ (get .initial "_Y").isNone = true ∧ (set never .initial "y" (.con "int" [])).isNone = true ∧
    (set never (step never .initial (.get "Y")) "Y" (.fwd 0)).isNone = true := by decide +kernel
/-- A member that is a type cannot be assigned again. -/
example : (set never (run never .initial classes) "X" (.con "int" [])).isNone = true := by decide +kernel
/-- A chain of forwards: B is assigned C's forward, and after C is defined A is assigned B's. -/
example : (run never .initial [.get "A", .get "B", .get "C", .set "B" (.fwd 2), .set "C" (.con "int" []), .set "A" (.fwd 1)]).items.lookup "A" = some (.con "int" []) := by
  decide +kernel
/-- A class that would contain itself is refused. -/
example : (set (fun _ i t => i ∈ t.fwds) (step never .initial (.get "Y")) "Y" (.con "Y" [.fwd 0])).isNone = true := by decide +kernel

/-- Names that do not begin with a capital letter, the empty one among them, are no members: they can be neither read nor assigned, whatever
happened before. -/
theorem not_member (contains : Contains) (s : State) (x : String) (t : Ty) (hx : ∀ c cs, x.toList = c :: cs → c.isUpper = false) :
    get s x = none ∧ set contains s x t = none := by
  have hn : named x = false := by
    unfold named
    split
    · next c cs h => exact hx c cs h
    · rfl
  exact ⟨by simp [get, hn], by simp [set, hn]⟩

example : (get .initial "").isNone = true := by decide +kernel

end Verif.ModuleOf
