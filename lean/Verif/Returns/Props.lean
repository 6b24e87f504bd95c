import Verif.Returns.Spec
/-
C118: what an overriding method returns has the type that the overridden methods promise.
C119: the compiler expects the type that the interpreter enforces.
-/
namespace Verif.Returns

variable {sub : Nat → Nat → Bool}

/-! ### Trivial conversions -/

theorem trivialAtom_sound (ht : Transitive sub) {a b : Atom} (h : trivialAtom sub a b = true)
    (hs : ∀ c d, a = .subclassOf c → b ≠ .named d) {v : Val} (hv : OfAtom sub v a) : OfAtom sub v b := by
  unfold trivialAtom at h
  split at h
  · rename_i e; exact e ▸ hv
  · rename_i hne
    clear hne
    cases a <;> cases b <;> simp only [Bool.false_eq_true, Bool.or_eq_true, decide_eq_true_eq] at h
    · cases v with
      | inst e k =>
        simp only [OfAtom] at hv ⊢
        rcases hv with rfl | hv
        · exact .inr h
        · exact .inr (ht _ _ _ hv h)
      | cls e => exact hv.elim
    · cases v with
      | inst e k =>
        simp only [OfAtom] at hv ⊢
        obtain ⟨rfl, rfl⟩ := hv
        exact h
      | cls e => exact hv.elim
    · exact absurd rfl (hs _ _ rfl)
    · cases v with
      | inst e k => exact hv.elim
      | cls e =>
        simp only [OfAtom] at hv ⊢
        rcases hv with rfl | hv
        · exact .inr h
        · exact .inr (ht _ _ _ hv h)

theorem any_sound (ht : Transitive sub) {c : Nat} {bs : List Atom} (h : bs.any (trivialAtom sub (.named c)) = true) {v : Val} (hv : OfAtom sub v (.named c)) :
    ∃ a ∈ bs, OfAtom sub v a := by
  obtain ⟨b, hb, h⟩ := List.any_eq_true.mp h
  exact ⟨b, hb, trivialAtom_sound ht h (fun _ _ e => by cases e) hv⟩

theorem value_named {v : Val} {k c : Nat} (h : OfAtom sub v (.value k c)) : OfAtom sub v (.named c) := by
  cases v with
  | inst e j => exact .inl h.1
  | cls e => exact h.elim

/-- C118.  A type that is trivially another has only values of the other. -/
theorem trivial_sound_partial (ht : Transitive sub) {a b : Ty} (hs : Safe a b) (h : trivial sub a b = true) {v : Val} (hv : Of sub v a) : Of sub v b := by
  unfold trivial at h
  split at h
  · rename_i e; exact e ▸ hv
  · rename_i hne
    split at h
    · rename_i a b
      exact trivialAtom_sound ht h (fun c d e1 e2 => by subst e1 e2; exact hs) hv
    · exact any_sound ht h hv
    · exact any_sound ht h (value_named hv)
    · cases h
    · rename_i c as bs
      rcases hs with hs | hs
      · exact absurd (by rw [hs]) hne
      · obtain ⟨a, ha, hv⟩ := hv
        have : as = [] := by simpa using hs
        subst this
        simp only [List.mem_singleton] at ha
        subst ha
        exact any_sound ht h hv
    · rename_i k c as bs
      rcases hs with hs | hs
      · exact absurd (by rw [hs]) hne
      · obtain ⟨a, ha, hv⟩ := hv
        have : as = [] := by simpa using hs
        subst this
        simp only [List.mem_singleton] at ha
        subst ha
        exact any_sound ht h (value_named hv)
    · cases h

/-! ### The interpreter's check -/

/-- The result type is the nearest one that is stated. -/
theorem narrow_type : ∀ (L : List (Option Ty)) (t : Ty), narrow sub L = .type t → L.findSome? id = some t
  | [], t, h => by cases h
  | x :: L, t, h => by
    simp only [narrow] at h
    split at h
    · cases h
    · split at h
      · cases h
      · cases h; rfl
    · rename_i u hu
      split at h
      · cases h
        simpa using narrow_type L _ hu
      · split at h
        · cases h; rfl
        · cases h

theorem narrow_anything : ∀ (L : List (Option Ty)), narrow sub L = .anything ↔ ∀ x ∈ L, x = none
  | [] => by simp [narrow]
  | x :: L => by
    have ih := narrow_anything L
    simp only [narrow, List.mem_cons, forall_eq_or_imp]
    cases h : narrow sub L with
    | error =>
      simp only [h, reduceCtorEq, false_iff] at ih ⊢
      exact fun hx => ih hx.2
    | anything =>
      have := ih.mp h
      cases x with
      | none => simpa using this
      | some t => simp
    | type u =>
      simp only [h, reduceCtorEq, false_iff] at ih
      cases x with
      | none => simpa using ih
      | some t =>
        simp only [reduceCtorEq, false_and, iff_false]
        split <;> simp

/-- C118.  What a method returns has the type that every class above states for these arguments, as long as the types are ones for which `trivial`
is to be trusted. -/
theorem promised_partial (ht : Transitive sub) {o : Overload} {bs : List Block} {t : Ty} (h : interpreted sub o bs = .type t)
    (hs : ∀ a b, some a ∈ o.stated :: statedAbove bs → some b ∈ o.stated :: statedAbove bs → Safe a b) {u : Ty} (hu : some u ∈ o.stated :: statedAbove bs)
    {v : Val} (hv : Of sub v t) : Of sub v u := by
  unfold interpreted at h
  generalize o.stated :: statedAbove bs = L at *
  induction L generalizing t with
  | nil => cases hu
  | cons x L ih =>
    have ih' : ∀ {t : Ty}, narrow sub L = .type t → some u ∈ L → Of sub v t → Of sub v u := fun {t} h hu hv =>
      ih hv h (fun a b ha hb => hs a b (.tail _ ha) (.tail _ hb)) hu
    simp only [narrow] at h
    split at h
    · cases h
    · rename_i hn
      have hall := (narrow_anything L).mp hn
      split at h
      · cases h
      · cases h
        rcases List.mem_cons.mp hu with e | hu
        · cases e; exact hv
        · exact absurd (hall _ hu) (by simp)
    · rename_i w hw
      split at h
      · cases h
        rcases List.mem_cons.mp hu with e | hu
        · cases e
        · exact ih' hw hu hv
      · split at h
        · rename_i t' htr
          cases h
          rcases List.mem_cons.mp hu with e | hu
          · cases e; exact hv
          · refine ih' hw hu (trivial_sound_partial ht (hs _ _ (.head _) (.tail _ ?_)) htr hv)
            obtain ⟨y, hy, e⟩ := List.exists_of_findSome?_eq_some (narrow_type L w hw)
            simp only [id] at e
            exact e ▸ hy
        · cases h

/-- C118.  The result type is the nearest that is stated, the method's own first. -/
theorem nearest {o : Overload} {bs : List Block} {t : Ty} (h : interpreted sub o bs = .type t) : (o.stated :: statedAbove bs).findSome? id = some t :=
  narrow_type _ t h

/-- C118.  The result is left as it is exactly if no class states a type. -/
theorem open_iff {o : Overload} {bs : List Block} : interpreted sub o bs = .anything ↔ ∀ x ∈ o.stated :: statedAbove bs, x = none := narrow_anything _

/-- C118.  There is no error if every stated type is trivially all those above it. -/
theorem accepted {o : Overload} {bs : List Block} (h : ((o.stated :: statedAbove bs).filterMap id).Pairwise fun a b => trivial sub a b = true) :
    interpreted sub o bs ≠ .error := by
  unfold interpreted
  generalize o.stated :: statedAbove bs = L at *
  induction L with
  | nil => simp [narrow]
  | cons x L ih =>
    cases x with
    | none =>
      simp only [List.filterMap_cons, id] at h
      have := ih h
      simp only [narrow]
      cases hn : narrow sub L <;> simp_all
    | some t =>
      simp only [List.filterMap_cons, id, List.pairwise_cons] at h
      have := ih h.2
      simp only [narrow]
      cases hn : narrow sub L with
      | error => exact absurd hn this
      | anything => simp
      | type u =>
        obtain ⟨y, hy, e⟩ := List.exists_of_findSome?_eq_some (narrow_type L u hn)
        simp only [id] at e
        have := h.1 u (List.mem_filterMap.mpr ⟨y, hy, e⟩)
        simp [this]

/-! ### The compiler's pathways -/

theorem firstMatch_tries (b : Block) : firstMatch b = ((tries b).find? fun p => p.2.matched p.1).map (·.2) := by
  unfold firstMatch tries
  generalize levels = ls
  induction ls with
  | nil => rfl
  | cons l ls ih =>
    rw [List.flatMap_cons, List.find?_append, List.findSome?_cons, List.find?_map]
    have : (fun p : Level × Overload => p.2.matched p.1) ∘ (fun o => (l, o)) = fun o => o.matched l := rfl
    rw [this]
    cases hb : b.find? fun o => o.matched l with
    | some o => rfl
    | none => simpa [hb] using ih

theorem mem_tries {b : Block} {l : Level} {o : Overload} : (l, o) ∈ tries b ↔ o ∈ b := by
  unfold tries levels
  cases l <;> simp

/-- The pathways of the overload that matches are among those of its class. -/
theorem scan_found (f : Overload → List Ret) : ∀ (ts : List (Level × Overload)), (∀ p ∈ ts, Honest p.2) → ∀ p, (ts.find? fun p => p.2.matched p.1) = some p →
    ∀ r ∈ f p.2, r ∈ (scan f ts).1
  | [], _, _, h, _, _ => by cases h
  | (l, o) :: ts, ho, p, h, r, hr => by
    rw [List.find?_cons] at h
    simp only [scan]
    cases hc : o.couldMatch l with
    | yes =>
      have : o.matched l = true := (ho _ (.head _)).yes l hc
      rw [this] at h
      cases h; exact hr
    | no =>
      have : o.matched l = false := (ho _ (.head _)).no l hc
      rw [this] at h
      exact scan_found f ts (fun p hp => ho p (.tail _ hp)) p h r hr
    | maybe =>
      simp only [List.mem_append]
      split at h
      · cases h; exact .inl hr
      · exact .inr (scan_found f ts (fun p hp => ho p (.tail _ hp)) p h r hr)

theorem scan_sure (f : Overload → List Ret) : ∀ (ts : List (Level × Overload)), (∀ p ∈ ts, Honest p.2) → (scan f ts).2 = true →
    (ts.find? fun p => p.2.matched p.1) ≠ none
  | [], _, h => by cases h
  | (l, o) :: ts, ho, h => by
    rw [List.find?_cons]
    simp only [scan] at h
    cases hm : o.matched l with
    | true => simp
    | false =>
      simp only
      have ih := scan_sure f ts (fun p hp => ho p (.tail _ hp))
      cases hc : o.couldMatch l with
      | yes =>
        have : o.matched l = true := (ho _ (.head _)).yes l hc
        rw [this] at hm; cases hm
      | no => simp only [hc] at h; exact ih h
      | maybe => simp only [hc] at h; exact ih h

theorem scan_yes (f : Overload → List Ret) : ∀ (ts : List (Level × Overload)) (p : Level × Overload), p ∈ ts → p.2.couldMatch p.1 = .yes → (scan f ts).2 = true
  | [], _, h, _ => nomatch h
  | (l, o) :: ts, p, h, hy => by
    simp only [scan]
    rcases List.mem_cons.mp h with rfl | h
    · simp [show o.couldMatch l = .yes from hy]
    · have := scan_yes f ts p h hy
      cases o.couldMatch l <;> simp [this]

theorem honest_tries {b : Block} (h : ∀ o ∈ b, Honest o) : ∀ p ∈ tries b, Honest p.2 := fun p hp => h p.2 (mem_tries.mp (show (p.1, p.2) ∈ tries b from hp))

theorem firstMatch_mem {b : Block} {o : Overload} (h : firstMatch b = some o) : o ∈ b := by
  rw [firstMatch_tries] at h
  cases hf : (tries b).find? fun p => p.2.matched p.1 with
  | none => rw [hf] at h; cases h
  | some p =>
    rw [hf] at h
    cases h
    exact mem_tries.mp (show (p.1, p.2) ∈ tries b from List.mem_of_find?_eq_some hf)

theorem says_stated {o : Overload} (ho : Honest o) (h : Says o) : o.stated ≠ none := by
  cases hk : o.known with
  | unspecified => exact absurd hk h
  | cannot => exact ho.cannot hk
  | type t => rw [ho.type t hk]; simp

theorem narrow_some_cons {t : Ty} {L : List (Option Ty)} : narrow sub (some t :: L) ≠ .anything := by
  intro h
  have := (narrow_anything _).mp h _ (.head _)
  cases this

theorem narrow_none_cons {L : List (Option Ty)} : narrow sub (none :: L) = narrow sub L := by
  simp only [narrow]
  cases narrow sub L <;> rfl

theorem decided_not_open : ∀ (bs : List Block), (∀ b ∈ bs, ∀ o ∈ b, Honest o) → Decided bs → narrow sub (statedAbove bs) ≠ .anything
  | [], _, h => h.elim
  | b :: bs, ho, h => by
    have ih := decided_not_open bs fun b hb => ho b (.tail _ hb)
    simp only [statedAbove]
    rcases h with ⟨hs, o, hob, l, hy⟩ | h
    · have hm := (ho b (.head _) o hob).yes l hy
      cases hf : firstMatch b with
      | none =>
        rw [firstMatch_tries] at hf
        have := List.find?_eq_none.mp (Option.map_eq_none_iff.mp hf) (l, o) (mem_tries.mpr hob)
        exact absurd hm this
      | some o' =>
        have hm' := firstMatch_mem hf
        have := says_stated (ho b (.head _) o' hm') (hs o' hm')
        simp only
        cases hst : o'.stated with
        | none => exact absurd hst this
        | some t => exact narrow_some_cons
    · intro hn
      have hall := (narrow_anything _).mp hn
      refine ih h ((narrow_anything _).mpr fun x hx => hall x ?_)
      cases firstMatch b
      · exact hx
      · exact .tail _ hx

/-- The pathways of one overload hold the type that the interpreter enforces. -/
theorem pathsOf_holds {o : Overload} {bs : List Block} {above : List Ret} {sure : Bool} (ho : Honest o)
    (ha : ∀ t, narrow sub (statedAbove bs) = .type t → Ret.type t ∈ above ∨ Ret.cannot ∈ above)
    (hsure : sure = true → narrow sub (statedAbove bs) ≠ .anything) {t : Ty} (h : interpreted sub o bs = .type t) :
    Ret.type t ∈ pathsOf sub o above sure ∨ Ret.cannot ∈ pathsOf sub o above sure := by
  unfold interpreted at h
  unfold pathsOf
  cases hk : o.known with
  | cannot => exact .inr (.head _)
  | unspecified =>
    rw [ho.unspecified hk, narrow_none_cons] at h
    simp only [unstatedPaths]
    split
    · exact .inr (.head _)
    · rename_i hc
      have hm : Ret.type t ∈ above := (ha t h).resolve_right hc
      have hg : Ret.type t ∈ above.filter (· ≠ .invalid) := List.mem_filter.mpr ⟨hm, by simp⟩
      split
      · rename_i hx
        rw [hx.2] at hg; cases hg
      · exact .inl hg
  | type u =>
    rw [ho.type u hk] at h
    have htu : t = u := by
      have := narrow_type _ _ h
      simpa using this.symm
    subst htu
    simp only
    split
    · exact .inl (.head _)
    · rename_i hs
      have hs : sure = true := by simpa using hs
      split
      · exact .inl (.head _)
      · rename_i hc
        split
        · rename_i hx
          simp only [narrow] at h
          cases hn : narrow sub (statedAbove bs) with
          | error => simp [hn] at h
          | anything => exact absurd hn (hsure hs)
          | type w =>
            simp only [hn] at h
            split at h
            · rename_i htr
              have hm := (ha w hn).resolve_right hc
              have := List.any_eq_false.mp hx.2 _ hm
              simp [goodAbove, htr] at this
            · cases h
        · exact .inl (.head _)

/-- The pathways of all classes above hold the type that the interpreter gets there, and a class that matches for certain gives one. -/
theorem pathsAbove_holds : ∀ (bs : List Block), (∀ b ∈ bs, ∀ o ∈ b, Honest o) → NothingOpen bs →
    (∀ t, narrow sub (statedAbove bs) = .type t → Ret.type t ∈ (pathsAbove sub bs).1 ∨ Ret.cannot ∈ (pathsAbove sub bs).1) ∧
    ((pathsAbove sub bs).2 = true → narrow sub (statedAbove bs) ≠ .anything)
  | [], _, _ => ⟨fun _ h => (by cases h), fun h => (by cases h)⟩
  | b :: bs, ho, hn => by
    obtain ⟨ih1, ih2⟩ := pathsAbove_holds bs (fun b hb => ho b (.tail _ hb)) hn.2
    have hb := ho b (.head _)
    have hh := honest_tries hb
    simp only [pathsAbove, statedAbove]
    generalize hf : (fun o => pathsOf sub o (pathsAbove sub bs).1 (pathsAbove sub bs).2) = f
    have hfm := firstMatch_tries b
    cases hx : (tries b).find? fun p => p.2.matched p.1 with
    | none =>
      rw [hx] at hfm
      have hs : (scan f (tries b)).2 = false := by
        cases h : (scan f (tries b)).2 with
        | false => rfl
        | true => exact absurd hx (scan_sure f _ hh h)
      simp only [hfm, Option.map_none, hs, Bool.false_eq_true, if_false, List.mem_append]
      exact ⟨fun t h => (ih1 t h).imp .inr .inr, ih2⟩
    | some p =>
      rw [hx] at hfm
      have hpb : p.2 ∈ b := firstMatch_mem hfm
      have hin : ∀ r ∈ f p.2, r ∈ (scan f (tries b)).1 := scan_found f _ hh p hx
      have hin' : ∀ r ∈ f p.2, r ∈ (if (scan f (tries b)).2 = true then scan f (tries b) else ((scan f (tries b)).1 ++ (pathsAbove sub bs).1, (pathsAbove sub bs).2)).1 := by
        intro r hr
        split
        · exact hin r hr
        · exact List.mem_append_left _ (hin r hr)
      simp only [hfm, Option.map_some]
      constructor
      · intro t h
        have := pathsOf_holds (hb _ hpb) ih1 ih2 (show interpreted sub p.2 bs = .type t from h)
        rw [show pathsOf sub p.2 (pathsAbove sub bs).1 (pathsAbove sub bs).2 = f p.2 by rw [← hf]] at this
        exact this.imp (hin' _) (hin' _)
      · intro _ hany
        rcases hn.1 with hs | hd
        · have := says_stated (hb _ hpb) (hs _ hpb)
          exact this ((narrow_anything _).mp hany _ (.head _))
        · refine decided_not_open (sub := sub) bs (fun b hb => ho b (.tail _ hb)) hd ((narrow_anything _).mpr fun x hx => ?_)
          exact (narrow_anything _).mp hany x (.tail _ hx)

/-! ### No pathway is without a type -/

theorem pathsOf_specified {o : Overload} {above : List Ret} {sure : Bool} (h : Ret.unspecified ∉ above) : Ret.unspecified ∉ pathsOf sub o above sure := by
  unfold pathsOf
  cases o.known with
  | cannot => simp
  | unspecified =>
    simp only [unstatedPaths]
    split
    · simp
    · split
      · simp
      · simp [h]
  | type t =>
    simp only
    split
    · simp
    · split
      · simp
      · split <;> simp

theorem scan_specified (f : Overload → List Ret) (hf : ∀ o, Ret.unspecified ∉ f o) : ∀ ts, Ret.unspecified ∉ (scan f ts).1
  | [] => by simp [scan]
  | (l, o) :: ts => by
    have ih := scan_specified f hf ts
    simp only [scan]
    cases o.couldMatch l <;> simp [hf o, ih]

theorem pathsAbove_specified : ∀ bs : List Block, Ret.unspecified ∉ (pathsAbove sub bs).1
  | [] => by simp [pathsAbove]
  | b :: bs => by
    have ih := pathsAbove_specified bs
    have := scan_specified (fun o => pathsOf sub o (pathsAbove sub bs).1 (pathsAbove sub bs).2) (fun o => pathsOf_specified ih) (tries b)
    simp only [pathsAbove]
    split
    · exact this
    · simp [this, ih]

/-- No pathway ever says that no type is stated: overloads that state none leave no trace beside others that do. -/
theorem never_unspecified (o : Overload) (bs : List Block) : Ret.unspecified ∉ pathsOf sub o (pathsAbove sub bs).1 (pathsAbove sub bs).2 :=
  pathsOf_specified (pathsAbove_specified bs)

/-! ### Where a class decides there is a pathway -/

theorem says_paths {o : Overload} (h : Says o) (above : List Ret) (sure : Bool) : pathsOf sub o above sure ≠ [] := by
  unfold pathsOf
  cases hk : o.known with
  | cannot => simp
  | unspecified => exact absurd hk h
  | type t =>
    simp only
    split
    · simp
    · split
      · simp
      · split <;> simp

theorem unstated_paths {above : List Ret} (h : above ≠ []) : unstatedPaths above ≠ [] := by
  unfold unstatedPaths
  split
  · simp
  · simp only
    split
    · simp
    · rename_i hx
      intro hg
      obtain ⟨r, hr⟩ := List.exists_mem_of_ne_nil above h
      by_cases e : r = .invalid
      · exact hx ⟨List.ne_nil_of_mem (List.mem_filter.mpr ⟨hr, by simpa using e⟩), hg⟩
      · have : r ∈ above.filter (· ≠ .invalid) := List.mem_filter.mpr ⟨hr, by simpa using e⟩
        rw [hg] at this; cases this

theorem any_paths {o : Overload} {above : List Ret} (h : above ≠ []) (sure : Bool) : pathsOf sub o above sure ≠ [] := by
  by_cases hs : Says o
  · exact says_paths hs above sure
  · unfold pathsOf
    rw [show o.known = .unspecified from Classical.not_not.mp hs]
    exact unstated_paths h

theorem scan_nonempty (f : Overload → List Ret) : ∀ ts : List (Level × Overload), (∀ p ∈ ts, f p.2 ≠ []) → (scan f ts).2 = true → (scan f ts).1 ≠ []
  | [], _, h => by cases h
  | (l, o) :: ts, hf, h => by
    have ih := scan_nonempty f ts fun p hp => hf p (.tail _ hp)
    have ho : f o ≠ [] := hf _ (.head _)
    simp only [scan] at h ⊢
    cases hc : o.couldMatch l with
    | yes => exact ho
    | maybe => simp [ho]
    | no => simp only [hc] at h; exact ih h

theorem decided_paths : ∀ bs : List Block, Decided bs → (pathsAbove sub bs).1 ≠ []
  | [], h => h.elim
  | b :: bs, h => by
    have ih := decided_paths bs
    simp only [pathsAbove]
    generalize hf : (fun o => pathsOf sub o (pathsAbove sub bs).1 (pathsAbove sub bs).2) = f
    rcases h with ⟨hs, o, ho, l, hy⟩ | h
    · have h1 := scan_yes f (tries b) (l, o) (mem_tries.mpr ho) hy
      rw [if_pos h1]
      refine scan_nonempty f _ (fun p hp => ?_) h1
      subst hf
      exact says_paths (hs p.2 (mem_tries.mp (show (p.1, p.2) ∈ tries b from hp))) _ _
    · split
      · rename_i h1
        refine scan_nonempty f _ (fun p hp => ?_) h1
        subst hf
        exact any_paths (ih h) _
      · simp [ih h]

/-! ### What the compiler expects -/

theorem mem_typesIn {paths : List Ret} {t : Ty} : t ∈ typesIn paths ↔ Ret.type t ∈ paths := by
  simp only [typesIn, List.mem_filterMap]
  constructor
  · rintro ⟨p, hp, h⟩
    cases p <;> simp at h
    exact h ▸ hp
  · exact fun h => ⟨_, h, rfl⟩

/-- C119.  If no overload leaves its result open where another says something, then: the type that the compiler expects has all values of the type
that the interpreter enforces, and the interpreter enforces one or raises; if the compiler expects an error the interpreter raises one; and the
compiler does not think that nothing is stated. -/
theorem expected_right_partial {merge : List Ty → Ty} (hm : Covers sub merge) {o : Overload} {bs : List Block} (hb : ∀ b ∈ bs, ∀ o ∈ b, Honest o)
    (ho : Honest o) (hn : NothingOpen ([o] :: bs)) :
    match expected sub merge o bs with
    | .type u => interpreted sub o bs ≠ .anything ∧ ∀ t, interpreted sub o bs = .type t → ∀ v, Of sub v t → Of sub v u
    | .invalid => interpreted sub o bs = .error
    | .cannot => True
    | .unspecified => False := by
  obtain ⟨h1, h2⟩ := pathsAbove_holds (sub := sub) bs hb hn.2
  have hholds := fun {t} => pathsOf_holds (t := t) ho h1 h2
  have hspec := never_unspecified (sub := sub) o bs
  have hopen : interpreted sub o bs ≠ .anything := by
    intro hany
    have hall := (narrow_anything _).mp hany
    rcases hn.1 with hs | hd
    · exact says_stated ho (hs o (.head _)) (hall _ (.head _))
    · exact decided_not_open (sub := sub) bs hb hd ((narrow_anything _).mpr fun x hx => hall x (.tail _ hx))
  have hne : pathsOf sub o (pathsAbove sub bs).1 (pathsAbove sub bs).2 ≠ [] := by
    rcases hn.1 with hs | hd
    · exact says_paths (hs o (.head _)) _ _
    · exact any_paths (decided_paths bs hd) _
  unfold expected mergeReturns
  generalize pathsOf sub o (pathsAbove sub bs).1 (pathsAbove sub bs).2 = paths at *
  cases hf : paths.find? (fun p => p = .unspecified || p = .cannot) with
  | some p =>
    have hp := List.find?_some hf
    have hmem := List.mem_of_find?_eq_some hf
    simp only [Bool.or_eq_true, decide_eq_true_eq] at hp
    rcases hp with rfl | rfl
    · exact absurd hmem hspec
    · trivial
  | none =>
    have hnc : Ret.cannot ∉ paths := by
      intro hc
      have := List.find?_eq_none.mp hf _ hc
      simp at this
    have hty : ∀ t, interpreted sub o bs = .type t → t ∈ typesIn paths := fun t h => mem_typesIn.mpr ((hholds h).resolve_right hnc)
    simp only
    split
    · rename_i heq
      split at heq
      · cases heq
      · split at heq
        · cases heq
          exact ⟨hopen, fun t h v hv => hm _ t (hty t h) v hv⟩
        · cases heq
    · rename_i heq
      split at heq
      · cases heq
      · split at heq
        · cases heq
        · rename_i hne
          have hnil : typesIn paths = [] := by simpa using hne
          cases hi : interpreted sub o bs with
          | error => rfl
          | anything => exact absurd hi hopen
          | type t => have := hty t hi; rw [hnil] at this; cases this
    · trivial
    · rename_i heq
      split at heq
      · rename_i hnil
        exact hne hnil
      · split at heq <;> cases heq

/-- C119.  If no overload says anything the compiler knows that nothing is stated, and the interpreter leaves the result as it is. -/
theorem nothing_said {merge : List Ty → Ty} {o : Overload} {bs : List Block} (hb : ∀ b ∈ bs, ∀ o ∈ b, Honest o ∧ ¬ Says o) (ho : Honest o ∧ ¬ Says o) :
    expected sub merge o bs = .unspecified ∧ interpreted sub o bs = .anything := by
  have hk : ∀ o, ¬ Says o → o.known = .unspecified := fun o h => Classical.not_not.mp h
  have hscan : ∀ ts : List (Level × Overload), (∀ p ∈ ts, p.2.known = .unspecified) → (scan (fun o => pathsOf sub o [] false) ts).1 = [] ∧
      (scan (fun o => pathsOf sub o [] true) ts).1 = [] := by
    intro ts hts
    induction ts with
    | nil => exact ⟨rfl, rfl⟩
    | cons p ts ih =>
      have h0 := hts p (.head _)
      have ih := ih fun q hq => hts q (.tail _ hq)
      have h1 : ∀ b, pathsOf sub p.2 [] b = [] := fun b => by simp [pathsOf, h0, unstatedPaths]
      simp only [scan]
      cases p.2.couldMatch p.1 <;> simp [h1, ih]
  have hall : ∀ bs : List Block, (∀ b ∈ bs, ∀ o ∈ b, Honest o ∧ ¬ Says o) → (pathsAbove sub bs).1 = [] := by
    intro bs h
    induction bs with
    | nil => rfl
    | cons b bs ih =>
      have ih := ih fun b hb => h b (.tail _ hb)
      have ht : ∀ p ∈ tries b, p.2.known = .unspecified := fun p hp =>
        hk _ (h b (.head _) p.2 (mem_tries.mp (show (p.1, p.2) ∈ tries b from hp))).2
      have := hscan (tries b) ht
      simp only [pathsAbove, ih]
      cases (pathsAbove sub bs).2
      · split
        · exact this.1
        · simp [this.1]
      · split
        · exact this.2
        · simp [this.2]
  constructor
  · simp [expected, pathsOf, hk o ho.2, hall bs hb, unstatedPaths, mergeReturns]
  · refine (narrow_anything _).mpr fun x hx => ?_
    rcases List.mem_cons.mp hx with rfl | hx
    · exact ho.1.unspecified (hk o ho.2)
    · have habove : ∀ bs : List Block, (∀ b ∈ bs, ∀ o ∈ b, Honest o ∧ ¬ Says o) → ∀ x ∈ statedAbove bs, x = none := by
        intro bs hb x hx
        induction bs with
        | nil => cases hx
        | cons b bs ih =>
          have ih := ih fun b h => hb b (.tail _ h)
          simp only [statedAbove] at hx
          cases hf : firstMatch b with
          | none => rw [hf] at hx; exact ih hx
          | some o' =>
            rw [hf] at hx
            rcases List.mem_cons.mp hx with rfl | hx
            · have := hb b (.head _) o' (firstMatch_mem hf)
              exact this.1.unspecified (hk o' this.2)
            · exact ih hx
      exact habove bs hb x hx

end Verif.Returns
