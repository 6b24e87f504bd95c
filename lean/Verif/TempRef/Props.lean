import Verif.TempRef.Model
/-
Specification and proofs for C128.
-/
namespace Verif.TempRef

/-! ### Specification -/

/-- What ends a reference that was made in frame `f` on line `ℓ`: the frame is left, an exception arrives in it, or it goes on to another line where a
statement begins. -/
def Ends (starts : Frame → Line → Bool) (f : Frame) (ℓ : Line) (e : Event) : Prop :=
  e.frame = f ∧ (e.what = .ret ∨ e.what = .exception ∨ (starts f e.line = true ∧ e.line ≠ ℓ))

/-- The operation makes the object `o`. -/
def Makes (o : Obj) : Op → Prop
  | .create _ _ _ o' _ _ => o' = o
  | _ => False

/-- The operation is no `sys.settrace`, and if it belongs to a thread it belongs to `t`. -/
def Quiet (t : Thread) : Op → Prop
  | .create t' _ _ _ _ _ => t' = t
  | .event e => e.thread = t
  | .settrace _ _ => False
  | _ => True

/-- The operation, if it belongs to a thread, belongs to `t`; `sys.settrace` is allowed. -/
def InThread (t : Thread) : Op → Prop
  | .create t' _ _ _ _ _ => t' = t
  | .event e => e.thread = t
  | .settrace t' _ => t' = t
  | _ => True

/-- What a program's trace functions are given if there are no temporary references: every event goes to the function that was set last. -/
def specSeen : Option Fun → List Op → List (Fun × Event)
  | _, [] => []
  | _, .settrace _ g' :: ops => specSeen g' ops
  | some g, .event e :: ops => (g, e) :: specSeen (some g) ops
  | g, _ :: ops => specSeen g ops

/-! ### Proofs -/

theorem run_append (starts) (s : State) (as bs : List Op) : run starts s (as ++ bs) = run starts (run starts s as) bs := by simp [run]
theorem run_cons (starts) (s : State) (a : Op) (bs : List Op) : run starts s (a :: bs) = run starts (step starts s a) bs := rfl

@[simp] theorem tell_objs (g e s) : (tell g e s).objs = s.objs := by cases g <;> rfl
@[simp] theorem tell_mem (g e s) : (tell g e s).mem = s.mem := by cases g <;> rfl
@[simp] theorem tell_pending (g e s) : (tell g e s).pending = s.pending := by cases g <;> rfl
@[simp] theorem tell_cfun (g e s) : (tell g e s).cfun = s.cfun := by cases g <;> rfl
@[simp] theorem tell_prior (g e s) : (tell g e s).prior = s.prior := by cases g <;> rfl
@[simp] theorem install_objs (t s) : (install t s).objs = s.objs := by unfold install; split <;> rfl
@[simp] theorem install_pending (t s) : (install t s).pending = s.pending := by unfold install; split <;> rfl
@[simp] theorem install_seen (t s) : (install t s).seen = s.seen := by unfold install; split <;> rfl
@[simp] theorem install_cfun (t s) : (install t s).cfun t = .tracer := by
  unfold install
  split
  · assumption
  · simp [setFun]
@[simp] theorem act_mem (starts e s) : (act starts e s).mem = s.mem := by unfold act; split <;> rfl
@[simp] theorem act_cfun (starts e s) : (act starts e s).cfun = s.cfun := by unfold act; split <;> rfl
@[simp] theorem act_prior (starts e s) : (act starts e s).prior = s.prior := by unfold act; split <;> rfl
@[simp] theorem act_seen (starts e s) : (act starts e s).seen = s.seen := by unfold act; split <;> rfl

/-- What an event does to objects and to what is to be done. -/
theorem event_objs (starts e) (s : State) : (event starts e s).objs = if s.cfun e.thread = .tracer then (act starts e s).objs else s.objs := by
  unfold event
  split
  · next h => simp [h]
  · next h =>
    simp only [h, if_true]
    split <;> simp [setFun]

theorem event_pending (starts e) (s : State) : (event starts e s).pending = if s.cfun e.thread = .tracer then (act starts e s).pending else s.pending := by
  unfold event
  split
  · next h => simp [h]
  · next h =>
    simp only [h, if_true]
    split <;> simp [setFun]

theorem event_mem (starts e) (s : State) : (event starts e s).mem = s.mem := by
  unfold event
  split
  · simp
  · dsimp only
    split <;> simp [setFun]

@[simp] theorem assign_pending (o v s) : (assign o v s).pending = s.pending := by unfold assign; split <;> rfl
@[simp] theorem assign_cfun (o v s) : (assign o v s).cfun = s.cfun := by unfold assign; split <;> rfl
@[simp] theorem assign_prior (o v s) : (assign o v s).prior = s.prior := by unfold assign; split <;> rfl
@[simp] theorem assign_seen (o v s) : (assign o v s).seen = s.seen := by unfold assign; split <;> rfl

/-- The object refers to a place in a container. -/
def IsTemp (s : State) (o : Obj) : Prop := ∃ p, s.objs o = some (.temp p)

/-- Assigning does not change what is a reference. -/
theorem assign_temp (o v) (s : State) (o' : Obj) (p : Slot) : (assign o v s).objs o' = some (.temp p) ↔ s.objs o' = some (.temp p) := by
  unfold assign
  split
  · exact Iff.rfl
  · next w h =>
    dsimp only
    by_cases ho : o' = o
    · subst ho; simp [h]
    · simp [ho]
  · exact Iff.rfl

/-- As long as an object refers to a container, it is to be converted and the container to be released, both together. -/
theorem act_keeps {starts e} {s : State} {o c : Obj} {f : Frame} {ℓ : Line}
    (h : IsTemp s o → ⟨f, o, true, ℓ⟩ ∈ s.pending ∧ ⟨f, c, false, ℓ⟩ ∈ s.pending) (ht : IsTemp (act starts e s) o) :
    ⟨f, o, true, ℓ⟩ ∈ (act starts e s).pending ∧ ⟨f, c, false, ℓ⟩ ∈ (act starts e s).pending := by
  unfold act at ht ⊢
  split
  · next hc =>
    rw [if_pos hc] at ht
    obtain ⟨p, hp⟩ := ht
    simp only [process] at hp
    split at hp
    · cases ho : s.objs o with
      | none => simp [ho] at hp
      | some r => cases r <;> simp [ho, resolve] at hp
    · next hany =>
      obtain ⟨h1, h2⟩ := h ⟨p, hp⟩
      have hn : hit e.frame e.line (force e.what) ⟨f, o, true, ℓ⟩ = false := by
        cases hh : hit e.frame e.line (force e.what) ⟨f, o, true, ℓ⟩ with
        | false => rfl
        | true => exact absurd (List.any_eq_true.mpr ⟨_, h1, by simp [hh]⟩) hany
      have hn' : hit e.frame e.line (force e.what) ⟨f, c, false, ℓ⟩ = false := hn
      simp only [process, List.mem_filter]
      exact ⟨⟨h1, by simp [hn]⟩, h2, by simp [hn']⟩
  · next hc =>
    rw [if_neg hc] at ht
    exact h ht

theorem step_keeps {starts} {s : State} {o c : Obj} {f : Frame} {ℓ : Line} {op : Op} (hop : ¬ Makes o op)
    (h : IsTemp s o → ⟨f, o, true, ℓ⟩ ∈ s.pending ∧ ⟨f, c, false, ℓ⟩ ∈ s.pending) (ht : IsTemp (step starts s op) o) :
    ⟨f, o, true, ℓ⟩ ∈ (step starts s op).pending ∧ ⟨f, c, false, ℓ⟩ ∈ (step starts s op).pending := by
  cases op with
  | create t f' l' o' c' p =>
    have hne : o ≠ o' := fun h => hop h.symm
    obtain ⟨q, hq⟩ := ht
    simp only [step, create, install_objs, hne, if_false] at hq
    obtain ⟨h1, h2⟩ := h ⟨q, hq⟩
    simp only [step, create, install_pending, List.mem_append]
    exact ⟨.inl h1, .inl h2⟩
  | write p v => exact h ht
  | assign o' v =>
    obtain ⟨q, hq⟩ := ht
    simp only [step, assign_pending]
    exact h ⟨q, (assign_temp ..).mp hq⟩
  | event e =>
    obtain ⟨q, hq⟩ := ht
    simp only [step, event_objs, event_pending] at hq ⊢
    split
    · next hc => rw [if_pos hc] at hq; exact act_keeps h ⟨q, hq⟩
    · next hc => rw [if_neg hc] at hq; exact h ⟨q, hq⟩
  | settrace t g => exact h ht

theorem run_keeps {starts} {o c : Obj} {f : Frame} {ℓ : Line} (ops : List Op) : ∀ (s : State), (∀ op ∈ ops, ¬ Makes o op) →
    (IsTemp s o → ⟨f, o, true, ℓ⟩ ∈ s.pending ∧ ⟨f, c, false, ℓ⟩ ∈ s.pending) → IsTemp (run starts s ops) o →
    ⟨f, o, true, ℓ⟩ ∈ (run starts s ops).pending ∧ ⟨f, c, false, ℓ⟩ ∈ (run starts s ops).pending := by
  induction ops with
  | nil => intro s _ h ht; exact h ht
  | cons op ops ih =>
    intro s hops h ht
    exact ih _ (fun a ha => hops a (.tail _ ha)) (fun h' => step_keeps (hops op (.head _)) h h') ht

/-- C128: whatever happens after a reference was made, the container is kept alive for as long as the object refers to it. -/
theorem kept_alive (starts) (s : State) (t : Thread) (f : Frame) (ℓ : Line) (o c : Obj) (p : Slot) (ops : List Op) (hops : ∀ op ∈ ops, ¬ Makes o op)
    (ht : IsTemp (run starts s (.create t f ℓ o c p :: ops)) o) : ⟨f, c, false, ℓ⟩ ∈ (run starts s (.create t f ℓ o c p :: ops)).pending := by
  rw [run_cons] at ht ⊢
  refine (run_keeps (c := c) (f := f) (ℓ := ℓ) ops _ hops (fun _ => ?_) ht).2
  simp [step, create]

/-- While something is to be done, the tracer is installed. -/
theorem quiet_installed {starts} {t : Thread} (ops : List Op) : ∀ (s : State), (∀ op ∈ ops, Quiet t op) → (s.pending ≠ [] → s.cfun t = .tracer) →
    (run starts s ops).pending ≠ [] → (run starts s ops).cfun t = .tracer := by
  induction ops with
  | nil => intro s _ h; exact h
  | cons op ops ih =>
    intro s hops h
    refine ih _ (fun a ha => hops a (.tail _ ha)) ?_
    have hq := hops op (.head _)
    cases op with
    | create t' f l o c p =>
      have hq : t' = t := hq
      subst hq
      intro _
      simp [step, create]
    | write p v => exact h
    | assign o v => simpa [step] using h
    | event e =>
      have hq : e.thread = t := hq
      subst hq
      intro hp
      simp only [step] at hp ⊢
      rw [event_pending] at hp
      by_cases hc : s.cfun e.thread = .tracer
      · rw [if_pos hc] at hp
        unfold event
        rw [hc]
        have hne : (tell s.prior e (act starts e s)).pending.isEmpty = false := by simpa using hp
        simp only [hne, Bool.false_eq_true, if_false, tell_cfun, act_cfun, hc]
      · rw [if_neg hc] at hp
        exact absurd (h hp) hc
    | settrace t' g => exact hq.elim

/-- C128: in every history without threads and without `sys.settrace`, what was made in a frame is no reference any more once the frame is left, an
exception arrives in it or it goes on to a statement on another line. -/
theorem ended_partial (starts) (users : Thread → Option Fun) (t : Thread) (f : Frame) (ℓ : Line) (o c : Obj) (p : Slot) (pre mid : List Op) (e : Event)
    (hpre : ∀ op ∈ pre, Quiet t op) (hmid : ∀ op ∈ mid, Quiet t op ∧ ¬ Makes o op) (he : e.thread = t) (hend : Ends starts f ℓ e) :
    ¬ IsTemp (run starts (init users) (pre ++ .create t f ℓ o c p :: mid ++ [.event e])) o := by
  intro ht
  rw [run_append] at ht
  generalize hs : run starts (init users) (pre ++ .create t f ℓ o c p :: mid) = s at ht
  have hinst : s.pending ≠ [] → s.cfun t = .tracer := by
    rw [← hs]
    refine quiet_installed _ _ ?_ (fun h => absurd rfl h)
    intro op hop
    simp only [List.mem_append, List.mem_cons] at hop
    rcases hop with hop | rfl | hop
    · exact hpre op hop
    · rfl
    · exact (hmid op hop).1
  have hkeep : IsTemp s o → ⟨f, o, true, ℓ⟩ ∈ s.pending ∧ ⟨f, c, false, ℓ⟩ ∈ s.pending := by
    rw [← hs, run_append, run_cons]
    refine run_keeps mid _ (fun op hop => (hmid op hop).2) fun _ => ?_
    simp [step, create]
  obtain ⟨q, hq⟩ := ht
  simp only [run, List.foldl, step, event_objs] at hq
  subst he
  by_cases hc : s.cfun e.thread = .tracer
  · rw [if_pos hc] at hq
    obtain ⟨hf, hend⟩ := hend
    have hmust : (starts e.frame e.line || force e.what) = true := by
      rcases hend with h | h | h
      · simp [h, force]
      · simp [h, force]
      · simp [hf, h.1]
    have hhit : hit e.frame e.line (force e.what) ⟨f, o, true, ℓ⟩ = true := by
      rcases hend with h | h | h
      · simp [hit, hf, h, force]
      · simp [hit, hf, h, force]
      · simp [hit, hf, Ne.symm h.2]
    unfold act at hq
    by_cases hany : (s.pending.any (fun a => a.frame = e.frame) && (starts e.frame e.line || force e.what)) = true
    · rw [if_pos hany] at hq
      simp only [process] at hq
      split at hq
      · cases ho : s.objs o with
        | none => simp [ho] at hq
        | some r => cases r <;> simp [ho, resolve] at hq
      · next hn =>
        exact hn (List.any_eq_true.mpr ⟨_, (hkeep ⟨q, hq⟩).1, by simp [hhit]⟩)
    · rw [if_neg hany] at hq
      exact hany (by rw [hmust, Bool.and_true]; exact List.any_eq_true.mpr ⟨_, (hkeep ⟨q, hq⟩).1, by simp [hf]⟩)
  · rw [if_neg hc] at hq
    exact hc (hinst (List.ne_nil_of_mem (hkeep ⟨q, hq⟩).1))

/-- What is to be converted was made. -/
theorem pending_made {starts} {o : Obj} (ops : List Op) : ∀ (s : State), (∀ op ∈ ops, ¬ Makes o op) → (∀ a ∈ s.pending, a.convert = true → a.obj ≠ o) →
    ∀ a ∈ (run starts s ops).pending, a.convert = true → a.obj ≠ o := by
  induction ops with
  | nil => intro s _ h; exact h
  | cons op ops ih =>
    intro s hops h
    refine ih _ (fun a ha => hops a (.tail _ ha)) ?_
    have hop := hops op (.head _)
    cases op with
    | create t f l o' c p =>
      intro a ha hc
      simp only [step, create, install_pending, List.mem_append, List.mem_cons, List.not_mem_nil, or_false] at ha
      rcases ha with ha | rfl | rfl
      · exact h a ha hc
      · exact absurd hc (by simp)
      · exact fun hh => hop hh
    | write p v => exact h
    | assign o v => simpa [step] using h
    | event e =>
      intro a ha
      simp only [step, event_pending] at ha
      split at ha
      · unfold act at ha
        split at ha
        · exact h a ((List.mem_filter.mp ha).1)
        · exact h a ha
      · exact h a ha
    | settrace t g => exact h

theorem stays_aux {starts} {o : Obj} {f : Frame} {ℓ : Line} {p : Slot} (ops : List Op) : ∀ (s : State),
    (∀ op ∈ ops, ¬ Makes o op ∧ ∀ e, op = .event e → ¬ Ends starts f ℓ e) → (∀ a ∈ s.pending, a.convert = true → a.obj = o → a.frame = f ∧ a.line = ℓ) →
    s.objs o = some (.temp p) → (run starts s ops).objs o = some (.temp p) := by
  induction ops with
  | nil => intro s _ _ h; exact h
  | cons op ops ih =>
    intro s hops hp h
    obtain ⟨hmk, hev⟩ := hops op (.head _)
    refine ih _ (fun a ha => hops a (.tail _ ha)) ?_ ?_
    · cases op with
      | create t f' l o' c q =>
        intro a ha hc ho
        simp only [step, create, install_pending, List.mem_append, List.mem_cons, List.not_mem_nil, or_false] at ha
        rcases ha with ha | rfl | rfl
        · exact hp a ha hc ho
        · exact absurd hc (by simp)
        · exact absurd ho hmk
      | write q v => exact hp
      | assign o' v => simpa [step] using hp
      | event e =>
        intro a ha
        simp only [step, event_pending] at ha
        split at ha
        · unfold act at ha
          split at ha
          · exact hp a ((List.mem_filter.mp ha).1)
          · exact hp a ha
        · exact hp a ha
      | settrace t g => exact hp
    · cases op with
      | create t f' l o' c q =>
        have hne : o ≠ o' := fun h => hmk h.symm
        simpa [step, create, hne] using h
      | write q v => exact h
      | assign o' v => exact (assign_temp ..).mpr h
      | event e =>
        simp only [step, event_objs]
        split
        · unfold act
          split
          · next hc =>
            simp only [process]
            split
            · next hany =>
              exfalso
              obtain ⟨a, ha, hh⟩ := List.any_eq_true.mp hany
              simp only [Bool.and_eq_true, decide_eq_true_eq] at hh
              obtain ⟨⟨hhit, hcv⟩, ho⟩ := hh
              obtain ⟨hf, hl⟩ := hp a ha hcv ho
              simp only [hit, hf, hl, Bool.and_eq_true, Bool.or_eq_true, decide_eq_true_eq] at hhit
              refine hev e rfl ⟨hhit.1.symm, ?_⟩
              cases hw : e.what with
              | ret => exact .inl rfl
              | exception => exact .inr (.inl rfl)
              | call =>
                simp only [hw, force, Bool.or_false, Bool.and_eq_true, Bool.false_eq_true, or_false] at hc hhit
                exact .inr (.inr ⟨hhit.1 ▸ hc.2, Ne.symm hhit.2⟩)
              | line =>
                simp only [hw, force, Bool.or_false, Bool.and_eq_true, Bool.false_eq_true, or_false] at hc hhit
                exact .inr (.inr ⟨hhit.1 ▸ hc.2, Ne.symm hhit.2⟩)
            · exact h
          · exact h
        · exact h
      | settrace t g => exact h

/-- C128: until then it is a reference to its place in the container, whatever happens, in other frames and threads too. -/
theorem reference_until (starts) (users : Thread → Option Fun) (t : Thread) (f : Frame) (ℓ : Line) (o c : Obj) (p : Slot) (pre mid : List Op)
    (hpre : ∀ op ∈ pre, ¬ Makes o op) (hmid : ∀ op ∈ mid, ¬ Makes o op ∧ ∀ e, op = .event e → ¬ Ends starts f ℓ e) :
    (run starts (init users) (pre ++ .create t f ℓ o c p :: mid)).objs o = some (.temp p) := by
  rw [run_append, run_cons]
  refine stays_aux mid _ hmid ?_ (by simp [step, create])
  have hm := pending_made (starts := starts) pre (init users) hpre (by simp [init])
  intro a ha hc ho
  simp only [step, create, install_pending, List.mem_append, List.mem_cons, List.not_mem_nil, or_false] at ha
  rcases ha with ha | rfl | rfl
  · exact absurd ho (hm a ha hc)
  · exact absurd hc (by simp)
  · exact ⟨rfl, rfl⟩

/-- An event leaves an object or makes it a copy. -/
theorem event_obj (starts e) (s : State) (o : Obj) : (event starts e s).objs o = s.objs o ∨ (event starts e s).objs o = (s.objs o).map (resolve s.mem) := by
  rw [event_objs]
  split
  · unfold act
    split
    · simp only [process]
      split
      · exact .inr rfl
      · exact .inl rfl
    · exact .inl rfl
  · exact .inl rfl

/-- C128: the event that ends a reference changes nothing that can be read: the object has a copy of what was in the container then. -/
theorem copy_right (starts) (s : State) (e : Event) (o : Obj) : read (step starts s (.event e)) o = read s o := by
  simp only [read, step, event_mem]
  rcases event_obj starts e s o with h | h
  · rw [h]
  · rw [h]
    cases s.objs o with
    | none => rfl
    | some r => cases r <;> rfl

theorem own_step {starts} {s : State} {o : Obj} {v : Val} {op : Op} (hop : ¬ Makes o op) (hne : ∀ w, op ≠ .assign o w) (h : s.objs o = some (.own v)) :
    (step starts s op).objs o = some (.own v) := by
  cases op with
  | create t f l o' c p =>
    have hne : o ≠ o' := fun h => hop h.symm
    simpa [step, create, hne] using h
  | write p w => exact h
  | assign o' w =>
    have hne : o ≠ o' := fun hh => hne w (by rw [hh])
    simp only [step, assign]
    split
    · exact h
    · simpa [hne] using h
    · exact h
  | event e =>
    simp only [step, event_objs]
    split
    · unfold act
      split
      · simp only [process]
        split
        · simp [h, resolve]
        · exact h
      · exact h
    · exact h
  | settrace t g => exact h

/-- C128: afterwards the copy is the object's own: nothing that happens to the container or to other objects changes it. -/
theorem copy_stays (starts) (o : Obj) (v : Val) (ops : List Op) (hops : ∀ op ∈ ops, ¬ Makes o op ∧ ∀ w, op ≠ .assign o w) :
    ∀ (s : State), s.objs o = some (.own v) → read (run starts s ops) o = some v := by
  induction ops with
  | nil => intro s h; simp [run, read, h]
  | cons op ops ih =>
    intro s h
    exact ih (fun a ha => hops a (.tail _ ha)) _ (own_step (hops op (.head _)).1 (hops op (.head _)).2 h)

/-- C128: as long as it is a reference, a change of the object is a change of the container. -/
theorem reference_right (starts) (s : State) (o : Obj) (p : Slot) (v : Val) (h : s.objs o = some (.temp p)) :
    (step starts s (.assign o v)).mem p = v ∧ read (step starts s (.write p v)) o = some v := by
  simp [step, assign, h, write, read]

/-- The function that gets the events of a thread. -/
def effective (t : Thread) (s : State) : Option Fun := match s.cfun t with
  | .tracer => s.prior
  | .user g => g

/-- C128: a debugger or another trace function is given exactly the events it would be given if there were no temporary references, in every history of
one thread. -/
theorem user_sees_partial (starts) (users : Thread → Option Fun) (t : Thread) (ops : List Op) (hops : ∀ op ∈ ops, InThread t op) :
    (run starts (init users) ops).seen = specSeen (users t) ops := by
  suffices h : ∀ (ops : List Op) (s : State), (∀ op ∈ ops, InThread t op) → (run starts s ops).seen = s.seen ++ specSeen (effective t s) ops by
    simpa [init, effective] using h ops (init users) hops
  intro ops
  induction ops with
  | nil => intro s _; simp [run, specSeen]
  | cons op ops ih =>
    intro s hops
    rw [run_cons, ih _ fun a ha => hops a (.tail _ ha)]
    have hq := hops op (.head _)
    cases op with
    | create t' f l o c p =>
      have hq : t' = t := hq
      subst hq
      have he : effective t' (step starts s (.create t' f l o c p)) = effective t' s := by
        unfold effective
        simp only [step, create, install_cfun]
        unfold install
        split
        · next h => rw [show s.cfun t' = .tracer from h]
        · next g h => rw [show s.cfun t' = .user g from h]
      rw [he]
      simp [step, create, specSeen]
    | write p v => rw [show effective t (step starts s (.write p v)) = effective t s from rfl]; simp [step, write, specSeen]
    | assign o v =>
      rw [show effective t (step starts s (.assign o v)) = effective t s by simp [effective, step]]
      simp [step, specSeen]
    | event e =>
      have hq : e.thread = t := hq
      subst hq
      have he : effective e.thread (step starts s (.event e)) = effective e.thread s := by
        simp only [step, event]
        split
        · next g h => simp [effective, h]
        · next h =>
          split
          · simp [effective, setFun, h]
          · simp [effective, h]
      have hs : (step starts s (.event e)).seen = s.seen ++ (match effective e.thread s with | some g => [(g, e)] | none => []) := by
        simp only [step, event]
        split
        · next g h => cases g <;> simp [effective, h, tell]
        · next h =>
          cases hp : s.prior <;> split <;> simp [effective, h, tell, setFun, hp]
      rw [he, hs]
      cases effective e.thread s <;> simp [specSeen]
    | settrace t' g =>
      have hq : t' = t := hq
      subst hq
      rw [show effective t' (step starts s (.settrace t' g)) = g by simp [effective, step, setFun]]
      simp [step, setFun, specSeen]

/-! ### Where it is not -/

/-- C128: a following statement on the same line does not end a reference, whatever the lines on which statements begin: the object still refers to the
container. -/
theorem same_line (starts) (users : Thread → Option Fun) (t : Thread) (f : Frame) (ℓ : Line) (o c : Obj) (p : Slot) (v : Val) :
    read (run starts (init users) [.create t f ℓ o c p, .event ⟨t, f, .line, ℓ⟩, .write p v]) o = some v := by
  have h := reference_until starts users t f ℓ o c p [] [.event ⟨t, f, .line, ℓ⟩, .write p v] (by simp) (by
    intro op hop
    simp only [List.mem_cons, List.not_mem_nil, or_false] at hop
    rcases hop with rfl | rfl
    · refine ⟨id, ?_⟩
      rintro e he ⟨_, h | h | h⟩ <;> cases he
      · cases h
      · cases h
      · exact h.2 rfl
    · exact ⟨id, fun e he => by cases he⟩)
  have hm : (run starts (init users) [.create t f ℓ o c p, .event ⟨t, f, .line, ℓ⟩, .write p v]).mem p = v := by
    simp [run, step, write]
  have h : (run starts (init users) [.create t f ℓ o c p, .event ⟨t, f, .line, ℓ⟩, .write p v]).objs o = some (.temp p) := h
  simp only [read, h, hm]

/-- C128: where no lines are known to begin statements, as in the code of a module and in lambdas (internals.py:638-643), a reference lasts until the
frame is left, however many lines are executed. -/
theorem no_statements (starts) (users : Thread → Option Fun) (t : Thread) (f : Frame) (ℓ : Line) (o c : Obj) (p : Slot) (ls : List Line)
    (hf : ∀ l, starts f l = false) :
    (run starts (init users) (.create t f ℓ o c p :: ls.map fun l => .event ⟨t, f, .line, l⟩)).objs o = some (.temp p) := by
  refine reference_until starts users t f ℓ o c p [] _ (by simp) ?_
  intro op hop
  obtain ⟨l, _, rfl⟩ := List.mem_map.mp hop
  refine ⟨id, ?_⟩
  rintro e he ⟨_, h | h | h⟩ <;> cases he
  · cases h
  · cases h
  · rw [hf] at h; cases h.1

/-- C128: in a statement over several lines, a reference that is made on a later line is lost when Python goes back to the first line to do the call or
the assignment, so that a change of it does not reach the container. -/
theorem back_to_first_line (starts) (users : Thread → Option Fun) (t : Thread) (f : Frame) (first later : Line) (o c : Obj) (p : Slot) (v : Val)
    (hs : starts f first = true) (hl : first ≠ later) :
    (run starts (init users) [.create t f later o c p, .event ⟨t, f, .line, first⟩, .assign o v]).mem p = 0 := by
  simp [run, step, create, install, init, setFun, event, act, process, hit, force, hs, Ne.symm hl, tell, assign, resolve]
  cases users t <;> simp

/-- C128: after `sys.settrace` the reference is not ended even when the frame is left. -/
theorem settrace_forgets (starts) (users : Thread → Option Fun) (t : Thread) (f : Frame) (ℓ ℓ' : Line) (o c : Obj) (p : Slot) (g : Option Fun) :
    (run starts (init users) [.create t f ℓ o c p, .settrace t g, .event ⟨t, f, .ret, ℓ'⟩]).objs o = some (.temp p) := by
  simp only [run, List.foldl, step, event_objs]
  rw [if_neg (by simp [setFun])]
  simp [setFun, create]

/-- C128: when a second thread makes a reference, the trace function of the first is lost: it is given none of the events any more. -/
theorem thread_loses (starts) (users : Thread → Option Fun) (f f' : Frame) (ℓ ℓ' l : Line) (o o' c c' : Obj) (p p' : Slot) (h1 : users 1 = none) :
    (run starts (init users) [.create 0 f ℓ o c p, .create 1 f' ℓ' o' c' p', .event ⟨0, f, .line, l⟩]).seen = [] := by
  simp [run, step, create, install, init, setFun, event, h1, tell]
  split <;> simp

/-- Statements begin on lines 10 and 12 of frame 1. -/
def lines : Frame → Line → Bool := fun f l => f = 1 && (l = 10 || l = 12)
/-- A method of an object in a list changes it, and after the statement the variable has a copy; the debugger 7 sees everything. -/
def story : List Op := [.create 0 1 10 5 6 100, .event ⟨0, 2, .call, 3⟩, .assign 5 42, .event ⟨0, 2, .ret, 4⟩, .event ⟨0, 1, .line, 11⟩, .event ⟨0, 1, .line, 12⟩,
  .write 100 43]
example : read (run lines (init fun _ => some 7) story) 5 = some 42 ∧ (run lines (init fun _ => some 7) story).mem 100 = 43 ∧
    (run lines (init fun _ => some 7) story).pending = [] ∧ (run lines (init fun _ => some 7) story).cfun 0 = .user (some 7) ∧
    (run lines (init fun _ => some 7) story).seen.length = 4 := by decide +kernel
/-- The hypotheses of `ended_partial`. -/
example : Ends lines 1 10 ⟨0, 1, .line, 12⟩ ∧ ¬ Ends lines 1 10 ⟨0, 1, .line, 11⟩ ∧ ¬ Ends lines 1 10 ⟨0, 2, .ret, 4⟩ := by
  simp [Ends, lines]
/-- With a debugger in the first thread, it should have seen the event. -/
example : specSeen (some 7) [.create 0 1 10 5 6 100, .event ⟨0, 1, .line, 11⟩] = [(7, ⟨0, 1, .line, 11⟩)] := by decide +kernel

end Verif.TempRef
