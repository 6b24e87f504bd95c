import Verif.CConv.AgreeSpec
import Verif.CConv.Refuse
/-
Compiled code converts as the interpreter does, where no odd pair of types is met.
-/
namespace Verif.CConv

open Verif.Conv

theorem Usual.not_odd {a : Pair} (h : Usual a) : ¬ Odd a := h a .here
theorem Usual.step {a b : Pair} (h : Usual a) (hs : Step a b) : Usual b := fun c hc => h c (.next hs hc)

/-- The same level, or two of the levels at which numbers are converted freely. -/
def Near (l l' : Level) : Prop := l = l' ∨ (.implicit ≤ l ∧ l < .new ∧ .implicit ≤ l' ∧ l' < .new)

theorem near_new {l l' : Level} (h : Near l l') (hl : l < .new) : l' < .new := by
  rcases h with rfl | ⟨_, _, _, h⟩
  · exact hl
  · exact h

theorem near_cases {l l' : Level} (h : Near l l') : l = l' ∨ (l = .implicit ∧ l' = .implicitContainers) ∨ (l = .implicitContainers ∧ l' = .implicit) := by
  rcases h with h | ⟨h1, h2, h3, h4⟩
  · exact .inl h
  · rw [Level.le_iff] at h1 h3
    rw [Level.lt_iff] at h2 h4
    cases l <;> cases l' <;> simp_all [Level.toInt]

theorem near_elem {l l' : Level} (hl : l < .new) (h : Near l l') : Near l (elemLevel l') := by
  rcases near_cases h with rfl | ⟨rfl, rfl⟩ | ⟨rfl, rfl⟩
  · cases l <;> simp_all [Near, elemLevel, Level.le_iff, Level.lt_iff, Level.toInt]
  · exact h
  · exact .inl (by decide)

theorem near_field {l l' : Level} (hl : l < .new) (h : Near l l') : Near l (fieldLevel l') := by
  rcases near_cases h with rfl | ⟨rfl, rfl⟩ | ⟨rfl, rfl⟩
  · cases l <;> simp_all [Near, fieldLevel, Level.le_iff, Level.lt_iff, Level.toInt]
  · exact .inl (by decide)
  · exact h

theorem valid_near {r r' : Reg} {l l' : Level} (h : Near l l') : isValidConversion r r' l = isValidConversion r r' l' := by
  rcases near_cases h with rfl | ⟨rfl, rfl⟩ | ⟨rfl, rfl⟩
  · rfl
  · simp [isValidConversion, Level.le_iff, Level.toInt]
  · simp [isValidConversion, Level.le_iff, Level.toInt]

/-! ### Refusals -/

theorem hasLists_false {ts : List Ty} (h : hasLists ts = false) : ∀ t ∈ ts, hasList t = false := by
  induction ts with
  | nil => simp
  | cons t ts ih =>
    rw [hasLists, Bool.or_eq_false_iff] at h
    intro u hu
    rcases List.mem_cons.mp hu with rfl | hu
    · exact h.1
    · exact ih h.2 u hu

theorem verdict_near {s t : Ty} {a : Verdict} : verdict s t .implicit a = verdict s t .implicitContainers a := by
  have : canTo s t .implicit = canTo s t .implicitContainers := by
    cases s <;> simp only [canTo]
    cases t <;> simp [isValidConversion, Level.le_iff, Level.toInt]
  rw [verdict, verdict, this]

theorem canFrom_near {t : Ty} : hasList t = false → ∀ s, canFrom t s .implicit = canFrom t s .implicitContainers := by
  induction t using Ty.ind with
  | none => intro _ s; rfl
  | reg r => intro _ s; rfl
  | str => intro _ s; rfl
  | bytes => intro _ s; rfl
  | value c => intro _ s; rfl
  | oneOf ts ih => intro _ s; rfl
  | listOf u ih => intro h; simp [hasList] at h
  | tupleOf u ih =>
    intro h s
    rw [hasList] at h
    rw [canFrom, canFrom, if_neg (by decide), if_neg (by decide)]
    congr 1
    funext v
    rw [verdict_near, ih h v]
  | tuple ts ih =>
    intro h s
    rw [hasList] at h
    have hz : ∀ (ts : List Ty), (∀ t ∈ ts, ∀ s, canFrom t s .implicit = canFrom t s .implicitContainers) → ∀ ss : List Ty,
        canZip ts ss .implicit = canZip ts ss .implicitContainers := by
      intro ts
      induction ts with
      | nil => intro _ ss; simp [canZip]
      | cons t ts iht =>
        intro h ss
        cases ss with
        | nil => simp [canZip]
        | cons s ss =>
          rw [canZip, canZip, h t (by simp), verdict_near, iht (fun t ht => h t (by simp [ht]))]
    have := hz ts (fun t ht => ih t ht (hasLists_false h t ht))
    cases s <;> simp [canFrom, this, Level.lt_iff, Level.toInt]
  | named ns ts ih =>
    intro h s
    rw [hasList] at h
    have hz : ∀ (ts : List Ty), (∀ t ∈ ts, ∀ s, canFrom t s .implicit = canFrom t s .implicitContainers) → ∀ ss : List Ty,
        canZip ts ss .implicit = canZip ts ss .implicitContainers := by
      intro ts
      induction ts with
      | nil => intro _ ss; simp [canZip]
      | cons t ts iht =>
        intro h ss
        cases ss with
        | nil => simp [canZip]
        | cons s ss =>
          rw [canZip, canZip, h t (by simp), verdict_near, iht (fun t ht => h t (by simp [ht]))]
    have hf : ∀ (ts : List Ty), (∀ t ∈ ts, ∀ s, canFrom t s .implicit = canFrom t s .implicitContainers) → ∀ ns get,
        canFields ns ts get .implicit = canFields ns ts get .implicitContainers := by
      intro ts
      induction ts with
      | nil => intro _ ns get; simp [canFields]
      | cons t ts iht =>
        intro h ns get
        rw [canFields, canFields, iht (fun t ht => h t (by simp [ht]))]
        cases get (ns.headD "") with
        | none => rfl
        | some s => simp only [h t (by simp), verdict_near]
    have h1 := hz ts (fun t ht => ih t ht (hasLists_false h t ht))
    have h2 := hf ts (fun t ht => ih t ht (hasLists_false h t ht))
    cases s <;> simp [canFrom, h1, h2, Level.lt_iff, Level.toInt]

/-- What the compiler refuses the interpreter refuses. -/
theorem refused_near {e : Env} {s t : Ty} {d : Data} {l l' : Level} {g : Bool} (hg : Good e t) (hs : Has e s d) (hn : Near l l') (hl : l < .new)
    (h : canConvert s t l = .no) (ho : ¬ Odd ⟨l, l', g, s, t⟩) : conv e t (extract s d) l' = none := by
  have hst := (canConvert_no.mp h).1
  by_cases hi : l = .implicit
  · subst hi
    have hl' : l' ≤ .implicitContainers := by
      rcases near_cases hn with rfl | ⟨_, rfl⟩ | ⟨h, _⟩
      · decide
      · decide
      · cases h
    by_cases hlist : ∃ u, t = .listOf u
    · obtain ⟨u, rfl⟩ := hlist
      have : Level.implicit = l' := by
        by_contra hne
        exact ho (.list hst hne)
      subst this
      have hp : s.plain = true := by
        have := (canConvert_no.mp h).2.1
        cases s <;> simp_all [canTo, Ty.plain]
      rw [conv, copyOr_other (extract_other hs hp hst), convTo, seqChild_list_low (by decide)]
    · have hnl : hasList t = false := by
        cases hh : hasList t with
        | false => rfl
        | true => exact absurd (Odd.inner hst hh (fun u hu => hlist ⟨u, hu⟩)) ho
      refine refused_all t hg s d .implicitContainers l' ?_ (by decide) (by decide) hl' hs
      rw [canConvert, ← canFrom_near hnl, ← verdict_near]
      exact h
  · refine refused_all t hg s d l l' h hi hl ?_ hs
    rcases near_cases hn with rfl | ⟨h, _⟩ | ⟨rfl, rfl⟩
    · exact Level.le_refl _
    · exact absurd h hi
    · decide

/-! ### The type itself -/

theorem noChoices_mem {ts : List Ty} (h : noChoices ts = true) : ∀ t ∈ ts, noChoice t = true := by
  induction ts with
  | nil => simp
  | cons t ts ih =>
    rw [noChoices, Bool.and_eq_true] at h
    intro u hu
    rcases List.mem_cons.mp hu with rfl | hu
    · exact h.1
    · exact ih h.2 u hu

theorem each_self {α : Type} {f : α → Out} {k : List Data → Out} : ∀ {xs : List α} {ds : List Data}, xs.length = ds.length →
    (∀ (i : Nat) (x : α) (d : Data), xs[i]? = some x → ds[i]? = some d → f x = .ok d) → each f xs k = k ds := by
  intro xs
  induction xs generalizing k with
  | nil => intro ds hlen _; cases ds <;> simp_all [each]
  | cons x xs ih =>
    intro ds hlen h
    cases ds with
    | nil => simp at hlen
    | cons d ds =>
      rw [each, h 0 x d rfl rfl, Out.bind]
      exact ih (by simpa using hlen) (fun i x d hx hd => h (i + 1) x d (by simpa using hx) (by simpa using hd))

theorem promised_ok {v : Verdict} {d : Data} : promised v (.ok d) = .ok d := by simp [promised]

/-- A value without choices is converted to its own type unchanged. -/
theorem into_self {e : Env} {p : Fp} {t : Ty} : noChoice t = true → Good e t → ∀ d l, Has e t d → into e p t t d l = .ok d := by
  induction t using Ty.ind with
  | none => intro _ _ d l h; cases h; rw [into, own_none (by simp) (by simp), resolve_plain rfl]; simp
  | reg r =>
    intro _ _ d l h
    cases h with
    | @reg _ n hn =>
    rw [into, resolve_plain rfl]
    simp only [own, isValid_self, if_true]
    rw [numTo.eq_def]
    have hc := cast_fits hn
    cases n with
    | int n => simp [hc]
    | flt x =>
      simp only
      rw [if_neg (by rintro rfl; simp [Fits] at hn), if_neg (by cases r <;> simp [Reg.isFloat]), hc]
  | str => intro _ _ d l h; cases h; rw [into, resolve_plain rfl]; simp [own]
  | bytes => intro _ _ d l h; cases h; rw [into, own_none (by simp) (by simp), resolve_plain rfl]; simp
  | value c => intro h; simp [noChoice] at h
  | oneOf ts ih => intro h; simp [noChoice] at h
  | tupleOf u ih =>
    intro hn hg d l h
    rw [noChoice] at hn
    cases hg with
    | tupleOf hu =>
    cases h with
    | @tupleOf _ ds hd =>
    rw [into, own_none (by simp) (by simp), resolve_plain rfl]
    simp only [seqSelf, if_true, elements]
    split
    · rfl
    · rw [each_self (ds := ds) (by simp) ?_, promised_ok]
      intro i x d hx hd'
      rw [List.getElem?_map, Option.map_eq_some_iff] at hx
      obtain ⟨d', hd1, rfl⟩ := hx
      rw [hd1] at hd'
      cases hd'
      exact ih hn hu _ l (hd _ (List.mem_of_getElem? hd1))
  | listOf u ih =>
    intro hn hg d l h
    rw [noChoice] at hn
    cases hg with
    | listOf hu =>
    cases h with
    | @listOf _ ds hd =>
    rw [into, own_none (by simp) (by simp), resolve_plain rfl]
    simp only [seqSelf, if_true, elements]
    split
    · rfl
    · rw [each_self (ds := ds) (by simp) ?_, promised_ok]
      intro i x d hx hd'
      rw [List.getElem?_map, Option.map_eq_some_iff] at hx
      obtain ⟨d', hd1, rfl⟩ := hx
      rw [hd1] at hd'
      cases hd'
      exact ih hn hu _ l (hd _ (List.mem_of_getElem? hd1))
  | tuple ts ih =>
    intro hn hg d l h
    rw [noChoice] at hn
    cases hg with
    | tuple hg =>
    cases h with
    | @tuple _ ds hlen hd =>
    rw [into, own_none (by simp) (by simp), resolve_plain rfl]
    simp only [ne_eq, not_true, if_false]
    rw [intoZip_each, each_self (ds := ds) (by simp; omega) ?_, promised_ok]
    intro i x d hx hd'
    simp only [List.getElem?_zip_eq_some] at hx
    obtain ⟨h1, h2, h3⟩ := hx
    rw [h1] at h2
    rw [hd'] at h3
    have h2' : x.1 = x.2.1 := by simpa using h2
    have h3' : d = x.2.2 := by simpa using h3
    subst h3'
    have hm := List.mem_of_getElem? h1
    have := ih x.1 hm (noChoices_mem hn _ hm) (hg _ hm) x.2.2 l (hd i _ _ h1 hd')
    rw [← h2']
    exact this
  | named ns ts ih =>
    intro hn hg d l h
    rw [noChoice] at hn
    cases hg with
    | named hnd hnl hg =>
    cases h with
    | @named _ _ ds hlen hd =>
    rw [into, own_none (by simp) (by simp), resolve_plain rfl]
    simp only
    rw [if_pos (by simp), intoFields_each, each_self (ds := ds) (by rw [slots_length]; exact hlen) ?_, promised_ok]
    intro i x d hx hd'
    have hil : i < ts.length := by
      have := (List.getElem?_eq_some_iff.mp hd').1
      omega
    have hti : ts[i]? = some ts[i] := List.getElem?_eq_getElem hil
    rw [slots_get hti] at hx
    have hin : i < ns.length := by omega
    rw [List.getElem?_eq_getElem hin, Option.getD_some, fieldNamed_self hnd (List.getElem?_eq_getElem hin) hti hd'] at hx
    cases hx
    have hm := List.mem_of_getElem? hti
    exact ih _ hm (noChoices_mem hn _ hm) (hg _ hm) d l (hd i _ _ hti hd')

/-- So does the interpreter. -/
theorem conv_self {e : Env} {t : Ty} {d : Data} {l : Level} (h : Has e t d) (hp : t.plain = true) : conv e t (extract t d) l = some d :=
  conversion_monotone (restore_signature h (plain_cases hp).2) (by rw [Level.le_iff]; exact Nat.zero_le _)

/-! ### Parts -/

/-- Elements, one after the other. -/
theorem each_conv {α : Type} {f : α → Out} {g : α → Option Data} : ∀ {xs : List α} {k : List Data → Out}, (∀ x ∈ xs, f x = toOut (g x)) →
    each f xs k = (xs.mapM g).elim .fail k := by
  intro xs
  induction xs with
  | nil => intro k _; rfl
  | cons x xs ih =>
    intro k h
    rw [each, h x (by simp), List.mapM_cons]
    cases hg : g x with
    | none => rfl
    | some d =>
      simp only [toOut, Out.bind]
      rw [ih (fun x hx => h x (by simp [hx]))]
      cases xs.mapM g <;> rfl

/-- Fields, position by position. -/
theorem zip_conv {e : Env} {p : Fp} {l l' : Level} : ∀ {ts ss : List Ty} {ds : List Data} {k : List Data → Out}, ss.length = ts.length →
    ss.length = ds.length →
    (∀ (i : Nat) (t s : Ty) (d : Data), ts[i]? = some t → ss[i]? = some s → ds[i]? = some d →
      into e p t s d l = toOut (conv e t (extract s d) l')) →
    intoZip e p ts (ss.zip ds) l k = (convZip e ts (List.zipWith extract ss ds) l').elim .fail k := by
  intro ts
  induction ts with
  | nil =>
    intro ss ds k h1 h2 _
    cases ss with
    | nil => cases ds <;> simp_all [intoZip, convZip]
    | cons => simp at h1
  | cons t ts ih =>
    intro ss ds k h1 h2 h
    cases ss with
    | nil => simp at h1
    | cons s ss =>
      cases ds with
      | nil => simp at h2
      | cons d ds =>
        rw [List.zip_cons_cons, List.zipWith_cons_cons, intoZip, convZip, h 0 t s d rfl rfl rfl]
        change _ = ((conv e t (extract s d) l').bind _).elim .fail k
        cases conv e t (extract s d) l' with
        | none => rfl
        | some d' =>
          simp only [toOut, Out.bind, Option.bind_some]
          rw [ih (by simpa using h1) (by simpa using h2)
            (fun i t s d ht hs hd => h (i + 1) t s d (by simpa using ht) (by simpa using hs) (by simpa using hd))]
          cases convZip e ts (List.zipWith extract ss ds) l' <;> rfl

/-- Fields, name by name. -/
theorem names_conv {e : Env} {p : Fp} {l l' : Level} {get : String → Option (Ty × Data)} {get' : String → Option Py}
    (hget : ∀ n, get' n = (get n).map fun x => extract x.1 x.2) :
    ∀ {ts : List Ty} {ns : List String} {k : List Data → Out}, ns.length = ts.length →
    (∀ (i : Nat) (n : String) (t : Ty) (x : Ty × Data), ns[i]? = some n → ts[i]? = some t → get n = some x →
      into e p t x.1 x.2 l = toOut (conv e t (extract x.1 x.2) l')) →
    intoFields e p ns ts get l k = (convFields e ns ts get' l').elim .fail k := by
  intro ts
  induction ts with
  | nil => intro ns k _ _; simp [intoFields, convFields]
  | cons t ts ih =>
    intro ns k hlen h
    cases ns with
    | nil => simp at hlen
    | cons n ns =>
      rw [intoFields, convFields]
      simp only [List.headD_cons, List.tail_cons, hget n]
      have rest : ∀ k, intoFields e p ns ts get l k = (convFields e ns ts get' l').elim .fail k := fun k =>
        ih (by simpa using hlen) (fun i n t x hn ht hx => h (i + 1) n t x (by simpa using hn) (by simpa using ht) hx)
      cases hg : get n with
      | none =>
        simp only [Option.map_none]
        cases dflt t with
        | none => rfl
        | some d =>
          simp only [Out.bind, Option.bind_some]
          rw [rest]
          cases convFields e ns ts get' l' <;> rfl
      | some x =>
        simp only [Option.map_some]
        rw [h 0 n t x rfl rfl hg]
        change _ = ((conv e t (extract x.1 x.2) l').bind _).elim .fail k
        cases conv e t (extract x.1 x.2) l' with
        | none => rfl
        | some d' =>
          simp only [toOut, Out.bind, Option.bind_some]
          rw [rest]
          cases convFields e ns ts get' l' <;> rfl

/-- One round of a choice. -/
theorem any_conv {e : Env} {p : Fp} {s : Ty} {d : Data} {l l' : Level} (hl' : l' < .new) : ∀ {ts : List Ty} {k : Nat},
    (∀ t ∈ ts, (t = s → conv e t (extract s d) l' = some d) ∧ (t ≠ s → canConvert s t l = .no → conv e t (extract s d) l' = none) ∧
      (t ≠ s → canConvert s t l ≠ .no → into e p t s d l = toOut (conv e t (extract s d) l'))) →
    intoAny e p ts s d l k = toOut (convAny e ts (extract s d) l' k) := by
  intro ts
  induction ts with
  | nil => intro k _; simp [intoAny, convAny, toOut]
  | cons t ts ih =>
    intro k h
    have step : convAny e (t :: ts) (extract s d) l' k = match conv e t (extract s d) l' with
        | some d => some (.tag k d)
        | none => convAny e ts (extract s d) l' (k + 1) := by
      rw [convAny]
      change (if couldBe e t (extract s d) l' = true then (match conv e t (extract s d) l' with
        | some d => some (.tag k d)
        | none => convAny e ts (extract s d) l' (k + 1)) else convAny e ts (extract s d) l' (k + 1)) = _
      cases hc : conv e t (extract s d) l' with
      | none => simp
      | some d' => rw [if_pos (couldBe_of_conv hl' hc)]
    obtain ⟨h1, h2, h3⟩ := h t (by simp)
    rw [intoAny, step]
    have rest := ih (k := k + 1) (fun t ht => h t (by simp [ht]))
    by_cases hts : t = s
    · rw [if_pos hts, h1 hts]
      rfl
    · rw [if_neg hts]
      by_cases hc : canConvert s t l = .no
      · rw [if_pos (show verdict s t l (canFrom t s l) = .no from hc), h2 hts hc, rest]
      · rw [if_neg (show ¬ verdict s t l (canFrom t s l) = .no from hc), h3 hts hc]
        cases conv e t (extract s d) l' with
        | none => simpa [toOut] using rest
        | some d' => rfl

theorem toOut_inj {a b : Option Data} (h : toOut a = toOut b) : a = b := by
  cases a <;> cases b <;> simp_all [toOut]

theorem rounds_conv {f : Level → Out} {g : Level → Option Data} {ls : List Level} (h : ∀ l ∈ ls, f l = toOut (g l)) :
    rounds f ls = toOut (ls.findSome? g) := by
  induction ls with
  | nil => rfl
  | cons l ls ih =>
    rw [rounds, List.foldr_cons, h l (by simp), List.findSome?_cons]
    cases g l with
    | none => exact ih (fun l hl => h l (by simp [hl]))
    | some d => rfl

/-- The rounds of a choice. -/
theorem rounds_near {f : Level → Out} {g : Level → Option Data} {l l' : Level} (hn : Near l l') (h : ∀ m, m ≤ l → m ≤ l' → f m = toOut (g m))
    (h' : f l = toOut (g l')) :
    rounds f (oneOfLevels.filter (· ≤ l)) = toOut ((oneOfLevels.filter (· ≤ l')).findSome? g) := by
  rcases near_cases hn with rfl | ⟨rfl, rfl⟩ | ⟨rfl, rfl⟩
  · refine rounds_conv (fun m hm => ?_)
    have : m ≤ l := by simpa using (List.mem_filter.mp hm).2
    exact h m this this
  · have e1 : oneOfLevels.filter (· ≤ Level.implicit) = [.signature, .upcast, .upcastContainers, .implicit] := rfl
    have e2 : oneOfLevels.filter (· ≤ Level.implicitContainers) = [.signature, .upcast, .upcastContainers, .implicit, .implicitContainers] := rfl
    rw [rounds_conv (g := g) (fun m hm => ?_), e1, e2]
    · have := toOut_inj ((h .implicit (by decide) (by decide)).symm.trans h')
      simp only [List.findSome?_cons, List.findSome?_nil]
      cases g .signature <;> cases g .upcast <;> cases g .upcastContainers <;> simp only []
      rw [← this]
      cases g .implicit <;> rfl
    · have : m ≤ Level.implicit := by simpa using (List.mem_filter.mp hm).2
      exact h m this (Level.le_trans this (by decide))
  · have e1 : oneOfLevels.filter (· ≤ Level.implicit) = [.signature, .upcast, .upcastContainers, .implicit] := rfl
    have e2 : oneOfLevels.filter (· ≤ Level.implicitContainers) = [.signature, .upcast, .upcastContainers, .implicit, .implicitContainers] := rfl
    rw [e1, e2]
    simp only [rounds, List.foldr_cons, List.foldr_nil, List.findSome?_cons, List.findSome?_nil]
    rw [h .signature (by decide) (by decide), h .upcast (by decide) (by decide), h .upcastContainers (by decide) (by decide),
      h .implicit (by decide) (by decide), h']
    cases g .signature <;> cases g .upcast <;> cases g .upcastContainers <;> cases g .implicit <;> rfl

theorem not_junk {v : Verdict} {o : Out} (h : promised v o ≠ .junk) : promised v o = o := by
  rw [promised] at h ⊢
  split
  · rename_i hc
    rw [if_pos hc] at h
    exact absurd rfl h
  · rfl

/-! ### Numbers and constants -/

theorem num_conv {e : Env} {p : Fp} {r r' : Reg} {n : Num} {l l' : Level} {g : Bool} (hn : Near l l') (hl : l < .new) (hf : Fits e r n) (hr : r ≠ r')
    (ho : ¬ Odd ⟨l, l', g, .reg r, .reg r'⟩) (hv : isValidConversion r r' l = true) :
    numTo e p r n r' = toOut (convReg e r' (extract (.reg r) (.num n)) l') := by
  have hv' : isValidConversion r r' l' = true := by rw [← valid_near hn]; exact hv
  have hfr : r.isFloat = true → r'.isFloat = true := by
    intro h
    cases h' : r'.isFloat with
    | true => rfl
    | false =>
      exfalso
      refine ho (.fraction ?_ h h')
      cases l <;> first | decide | skip
      all_goals (revert hv h h' hr; cases r <;> cases r' <;> decide)
  have hround : ¬ (r = .i64 ∧ r' = .f32) := by
    rintro ⟨rfl, rfl⟩
    refine ho (.rounded ?_)
    cases l <;> first | decide | skip
    all_goals (revert hv; decide)
  have hconv : convReg e r' (extract (.reg r) (.num n)) l' = some (.num (Conv.cast e r' n)) := by
    simp only [extract]
    cases r <;> cases n <;> simp only [Fits] at hf <;> simp only [numToPy, convReg, hv', if_true]
    · rcases hf with rfl | rfl <;> rfl
    · rename_i n
      simp only [fromInt, longBits_fits hf]
      split
      · cases r' <;> simp_all [Reg.isFloat, Conv.cast]
      · rfl
  rw [hconv, numTo.eq_def]
  cases n with
  | int n => rfl
  | flt x =>
    have hrf : r.isFloat = true := by cases r <;> simp_all [Fits, Reg.isFloat]
    have := hfr hrf
    dsimp only
    rw [if_neg (by rintro rfl; simp [Reg.isFloat] at this), if_neg (by simp [this])]
    rfl

theorem const_conv {e : Env} {c : Const} {s : Ty} {d : Data} {l l' : Level} {g : Bool} (hl : l' < .new) (hs : Has e s d) (hp : s.plain = true)
    (ho : ¬ Odd ⟨l, l', g, s, .value c⟩) (hc : c.ok e) : isConst e c s d = constEq e c (extract s d) (!decide (.new ≤ l')) := by
  have hnew : ¬ Level.new ≤ l' := Nat.not_le.mpr hl
  have hd : (!decide (Level.new ≤ l')) = true := by simp [hnew]
  rw [hd]
  cases c with
  | str a =>
    cases hs <;> simp only [isConst, extract, constEq]
    case reg r n _ => cases r <;> cases n <;> rfl
    case value => simp [Ty.plain] at hp
    case oneOf => simp [Ty.plain] at hp
  | bytes a =>
    cases hs <;> simp only [isConst, extract, constEq]
    case reg r n _ => cases r <;> cases n <;> rfl
    case value => simp [Ty.plain] at hp
    case oneOf => simp [Ty.plain] at hp
  | num r' n' =>
    cases hs <;> simp only [isConst, extract, constEq]
    case value => simp [Ty.plain] at hp
    case oneOf => simp [Ty.plain] at hp
    case reg r n hf =>
      by_cases hr : r = r'
      · subst hr
        cases r <;> simp only [Const.ok] at hc <;> cases n <;> simp only [Fits] at hf
        · rcases hf with rfl | rfl <;> simp [numToPy, exactNum, eqNumPy]
        · simp [numToPy, exactNum, eqNumPy, inInt64_iff.mpr hf]
        · simp [numToPy, exactNum, eqNumPy]
      · by_cases hb : r = .bool ∧ r' = .i64
        · obtain ⟨rfl, rfl⟩ := hb
          cases n <;> simp only [Fits] at hf
          rcases hf with rfl | rfl <;> simp [numToPy, exactNum, eqNumPy]
        · exact absurd (Odd.constant hr hb) ho
    all_goals (cases r' <;> simp [exactNum, eqNumPy])

/-! ### Containers -/

theorem elements_items {e : Env} {s : Ty} {d : Data} {xs : List (Ty × Data)} (hs : Has e s d) (h : elements s d = some xs) :
    items (extract s d) = some (xs.map fun x => extract x.1 x.2) := by
  cases hs <;> simp only [elements] at h <;> cases h <;> simp only [extract, items, List.map_map]
  · rfl
  · rfl
  · rfl
  · rfl
  · rw [List.map_zip_eq_zipWith]
    rfl
  · rw [List.map_zip_eq_zipWith]
    rfl

/-- The types of what a loop yields are those that are met. -/
theorem elements_type {e : Env} {s : Ty} {d : Data} {xs : List (Ty × Data)} (hs : Has e s d) (h : elements s d = some xs) :
    ∀ x ∈ xs, yields s = some x.1 ∨ ∃ ss, fieldsOf s = some ss ∧ x.1 ∈ ss := by
  cases hs <;> simp only [elements] at h <;> cases h
  · intro x hx
    obtain ⟨c, _, rfl⟩ := List.mem_map.mp hx
    exact .inl rfl
  · intro x hx
    obtain ⟨c, _, rfl⟩ := List.mem_map.mp hx
    exact .inl rfl
  · intro x hx
    obtain ⟨c, _, rfl⟩ := List.mem_map.mp hx
    exact .inl rfl
  · intro x hx
    obtain ⟨c, _, rfl⟩ := List.mem_map.mp hx
    exact .inl rfl
  · intro x hx
    exact .inr ⟨_, rfl, (List.of_mem_zip hx).1⟩
  · intro x hx
    exact .inr ⟨_, rfl, (List.of_mem_zip hx).1⟩

/-- Bytes for a container of bytes are taken as they are, which is what converting them one by one makes. -/
theorem raw_conv {e : Env} {u s : Ty} {d d' : Data} {xs : List (Ty × Data)} {l : Level} (hs : Has e s d) (hx : elements s d = some xs)
    (hl : .implicit ≤ l) (h : rawBytes u (extract s d) = some d') :
    (xs.mapM fun x => conv e u (extract x.1 x.2) l).map .seq = some d' := by
  have hb : ∃ b, extract s d = .bytes b ∧ u = .reg .u8 := by
    rw [rawBytes.eq_def] at h
    split at h
    · exact ⟨_, by assumption, rfl⟩
    · cases h
  obtain ⟨b, hb, rfl⟩ := hb
  cases hs with
  | bytes hbb =>
    simp only [elements, Option.some.injEq] at hx
    subst hx
    simp only [extract, rawBytes, Option.some.injEq] at h
    subst h
    rename_i b'
    clear hb
    have : ∀ b : List Nat, (∀ n ∈ b, n < 256) →
        (b.map fun n : Nat => ((Ty.reg .i64, Data.num (.int n)) : Ty × Data)).mapM (fun x => conv e (.reg .u8) (extract x.1 x.2) l) =
          some (b.map fun n : Nat => Data.num (.int (n : Int))) := by
      intro b
      induction b with
      | nil => intro _; rfl
      | cons n b ih =>
        intro hb
        rw [List.map_cons, List.mapM_cons, ih (fun m hm => hb m (by simp [hm]))]
        have hn := hb n (by simp)
        have : conv e (.reg .u8) (extract (.reg .i64) (.num (.int n))) l = some (.num (.int n)) := by
          have h64 : InInt64 (n : Int) := by
            constructor <;> omega
          simp only [extract, numToPy, conv, copyOr, convTo, convReg]
          rw [if_pos (by simp [isValidConversion, hl])]
          simp only [fromInt, longBits_fits h64, Reg.isFloat, Bool.false_eq_true, if_false]
          have : Conv.cast e .u8 (.int (n : Int)) = .int n := cast_fits (by simp only [Fits]; omega)
          rw [this]
        rw [this]
        rfl
    rw [this b' hbb]
    rfl
  | reg hf => simp only [extract] at hb; rw [numToPy.eq_def] at hb; split at hb <;> cases hb
  | _ => first
    | (simp [extract] at hb; done)
    | (simp [elements] at hx; done)

/-- What the interpreter makes of the elements. -/
def built (e : Env) (u : Ty) (v : Py) (child : Level) : Option Data :=
  match rawBytes u v with
  | some d => some d
  | none => match items v with
    | none => none
    | some xs => (xs.mapM fun x => copyOr u x (convTo e u x child)).map .seq

theorem built_conv {e : Env} {p : Fp} {u s t : Ty} {d : Data} {l l' : Level} {v : Verdict} {xs : List (Ty × Data)} (hs : Has e s d)
    (hx : elements s d = some xs) (hv : v ≠ .no) (hraw : (rawBytes u (extract s d)).isSome = true → .implicit ≤ l')
    (hj : seqSelf t s d v (fun x => into e p u x.1 x.2 l) ≠ .junk)
    (h : ∀ x ∈ xs, into e p u x.1 x.2 l = toOut (conv e u (extract x.1 x.2) l')) :
    seqSelf t s d v (fun x => into e p u x.1 x.2 l) = toOut (built e u (extract s d) l') := by
  rw [seqSelf, if_neg hv, hx] at hj ⊢
  simp only at hj ⊢
  rw [not_junk hj, each_conv h, built]
  have hm : (xs.mapM fun x => conv e u (extract x.1 x.2) l').elim Out.fail (fun ds => .ok (.seq ds)) =
      toOut ((xs.mapM fun x => conv e u (extract x.1 x.2) l').map .seq) := by
    cases xs.mapM fun x => conv e u (extract x.1 x.2) l' <;> rfl
  rw [hm]
  cases hr : rawBytes u (extract s d) with
  | some d' => rw [raw_conv hs hx (hraw (by rw [hr]; rfl)) hr]
  | none =>
    simp only
    rw [elements_items hs hx]
    simp only [List.mapM_map]
    rfl

/-! ### The induction -/

/-- What the induction is about. -/
def Agrees (e : Env) (p : Fp) (t : Ty) : Prop := Good e t → ∀ s d l l' g, Has e s d → Near l l' → l < .new → Usual ⟨l, l', g, s, t⟩ →
  (s.plain = true ∨ .upcast ≤ l) → (g = true → canConvert s t l ≠ .no) → (g = false → .upcast ≤ l) →
  into e p t s d l = toOut (conv e t (extract s d) l')

theorem resolve_usual {e : Env} {s t : Ty} {d : Data} {l l' : Level} (hs : Has e s d) : ∀ {g : Bool}, Usual ⟨l, l', g, s, t⟩ → s.plain = false →
    Usual ⟨l, l', false, (resolve s d).1, t⟩ := by
  induction hs with
  | value hc =>
    intro g h _
    rw [resolve_value]
    exact h.step .constant
  | @oneOf ts k a d hk _ ih =>
    intro g h _
    rw [resolve_oneOf hk]
    have := h.step (.alternative (List.mem_of_getElem? hk))
    by_cases hp : a.plain = true
    · rw [resolve_plain hp]
      exact this
    · exact ih this (by simpa using hp)
  | _ => intro g h hp; simp [Ty.plain] at hp

/-- Sources that are not OneOfs or constants, and not of the type itself, are enough. -/
theorem agrees_of {e : Env} {p : Fp} {t : Ty}
    (h : Good e t → ∀ s d l l' g, Has e s d → Near l l' → l < .new → Usual ⟨l, l', g, s, t⟩ → s.plain = true → s ≠ t →
      (g = true → canConvert s t l ≠ .no) → (g = false → .upcast ≤ l) → into e p t s d l = toOut (conv e t (extract s d) l')) :
    Agrees e p t := by
  have hplain : Good e t → ∀ s d l l' g, Has e s d → Near l l' → l < .new → Usual ⟨l, l', g, s, t⟩ → s.plain = true →
      (g = true → canConvert s t l ≠ .no) → (g = false → .upcast ≤ l) → into e p t s d l = toOut (conv e t (extract s d) l') := by
    intro hg s d l l' g hs hn hl hu hp h1 h2
    by_cases hst : s = t
    · subst hst
      have hnc : noChoice s = true := by
        cases hc : noChoice s with
        | true => rfl
        | false => exact absurd (Odd.copied hp hc) hu.not_odd
      rw [into_self hnc hg d l hs, conv_self hs hp]
      rfl
    · exact h hg s d l l' g hs hn hl hu hp hst h1 h2
  intro hg s d l l' g hs hn hl hu hps h1 h2
  by_cases hp : s.plain = true
  · exact hplain hg s d l l' g hs hn hl hu hp h1 h2
  · have hup : Level.upcast ≤ l := hps.resolve_left hp
    rw [into_resolve hs, ← extract_resolve hs]
    exact hplain hg _ _ l l' false (resolve_has hs).1 hn hl (resolve_usual hs hu (by simpa using hp)) (resolve_has hs).2 nofun (fun _ => hup)

theorem near_upcast {l l' : Level} (h : Near l l') (hl : .upcast ≤ l) : .upcast ≤ l' := by
  rcases near_cases h with rfl | ⟨rfl, rfl⟩ | ⟨rfl, rfl⟩
  · exact hl
  · decide
  · decide

theorem seqChild_near {v : Py} {l l' : Level} (h : Near l l') (hl : l < .new) (hu : .upcastContainers ≤ l)
    (hv : isSequence v = true ∨ .implicitContainers ≤ l') : seqChild false v l' = some (elemLevel l') := by
  have hl' := near_new h hl
  have hu' : .upcastContainers ≤ l' := by
    rcases near_cases h with rfl | ⟨rfl, rfl⟩ | ⟨rfl, rfl⟩
    · exact hu
    · decide
    · decide
  clear h hu hl
  cases l' <;> simp_all [seqChild, elemLevel, Level.lt_iff, Level.le_iff, Level.toInt]

theorem compChild_near {v : Py} {l' : Level} (hl' : l' < .new) (hu : .upcast ≤ l') (hv : isSequence v = true) :
    compChild v l' = some (fieldLevel l') := by
  cases l' <;> simp_all [compChild, fieldLevel, Level.lt_iff, Level.le_iff, Level.toInt]

theorem sequence_or_text {e : Env} {s : Ty} {d : Data} {xs : List (Ty × Data)} (hs : Has e s d) (h : elements s d = some xs) :
    isSequence (extract s d) = true ∨ s = .str ∨ s = .bytes := by
  cases hs <;> simp_all [elements, extract, isSequence]

theorem raw_bytes {e : Env} {u s : Ty} {d : Data} (hs : Has e s d) (hp : s.plain = true) (h : (rawBytes u (extract s d)).isSome = true) : s = .bytes := by
  cases hs with
  | reg hf =>
    simp only [extract] at h
    rw [rawBytes.eq_def] at h
    split at h
    · rename_i hb
      rw [numToPy.eq_def] at hb
      split at hb <;> cases hb
    · cases h
  | bytes => rfl
  | value => simp [Ty.plain] at hp
  | oneOf => simp [Ty.plain] at hp
  | _ => rw [rawBytes.eq_def] at h; split at h <;> simp_all [extract]

theorem usual_field {l l' : Level} {g : Bool} {s t v u : Ty} {ss ts : List Ty} {i : Nat} (h : Usual ⟨l, l', g, s, t⟩) (hs : fieldsOf s = some ss)
    (ht : fieldsOf t = some ts) (hv : ss[i]? = some v) (hu : ts[i]? = some u) (hl : .upcast ≤ l) : Usual ⟨l, fieldLevel l', g, v, u⟩ :=
  h.step (.field hs ht hv hu hl)

theorem level_total {a b : Level} (h : ¬ a < b) : b ≤ a := by
  rw [Level.lt_iff] at h
  rw [Level.le_iff]
  omega

/-- Containers. -/
theorem seq_agrees {e : Env} {p : Fp} (he : Laws e) {u t : Ty} (ih : Agrees e p u) (hgu : Good e u) (hgt : Good e t) (htu : eltOf t = some u)
    {s : Ty} {d : Data} {l l' : Level} {g : Bool}
    (hs : Has e s d) (hn : Near l l') (hl : l < .new) (hus : Usual ⟨l, l', g, s, t⟩) (hp : s.plain = true) (hst : s ≠ t)
    (hu : .upcastContainers ≤ l) (hin : into e p t s d l = seqSelf t s d (canItems s fun v => canConvert v u l) fun x => into e p u x.1 x.2 l)
    (hcan : canFrom t s l = canItems s fun v => canConvert v u l) (hto : canTo s t l = .no)
    (hconv : ∀ c, (isSequence (extract s d) = true ∨ .implicitContainers ≤ l') → c = elemLevel l' →
      convTo e t (extract s d) l' = built e u (extract s d) c) :
    into e p t s d l = toOut (conv e t (extract s d) l') := by
  by_cases hv : (canItems s fun v => canConvert v u l) = .no
  · have hno : canConvert s t l = .no := canConvert_no.mpr ⟨hst, hto, by rw [hcan, hv]⟩
    rw [refused_near hgt hs hn hl hno hus.not_odd, hin, seqSelf, if_pos hv, if_neg hst]
    rfl
  · obtain ⟨xs, hx⟩ := elements_some hs hp hv
    have hseq : isSequence (extract s d) = true ∨ .implicitContainers ≤ l' := by
      rcases sequence_or_text hs hx with h | h
      · exact .inl h
      · right
        by_contra hc
        refine hus.not_odd (.text h (by rw [htu]; rfl) ?_ hu)
        rw [Level.le_iff] at hc
        rw [Level.lt_iff]
        omega
    rw [conv, copyOr_other (extract_other hs hp hst), hconv _ hseq rfl, hin]
    have hj := (sure he p t hgt s d l hs hl).1
    rw [hin] at hj
    refine built_conv hs hx hv ?_ hj ?_
    · intro hr
      have := raw_bytes hs hp hr
      have hic : .implicitContainers ≤ l' := by
        rcases hseq with h | h
        · subst this
          cases hs
          simp [extract, isSequence] at h
        · exact h
      have hl' := near_new hn hl
      cases l' <;> simp_all [elemLevel, Level.le_iff, Level.lt_iff, Level.toInt]
    · intro x hxm
      have hup : Level.upcast ≤ l := Level.le_trans (by decide) hu
      rcases elements_type hs hx x hxm with h | ⟨ss, h, hm⟩
      · exact ih hgu _ _ l _ false (elements_has hs hx x hxm) (near_elem hl hn) hl (hus.step (.element h htu hu)) (.inr hup) nofun (fun _ => hup)
      · refine ih hgu _ _ l _ true (elements_has hs hx x hxm) (near_elem hl hn) hl (hus.step (.item h hm htu hu)) (.inr hup) (fun _ hc => hv ?_) nofun
        cases s <;> simp only [fieldsOf, Option.some.injEq, reduceCtorEq] at h
        all_goals
          subst h
          simp only [canItems]
          clear hx hs hus hp hst hin hcan hto hconv hv hseq hxm hj
          rename_i ss
          induction ss with
          | nil => simp at hm
          | cons a ss ih' =>
            rw [List.foldr_cons, both_no]
            rcases List.mem_cons.mp hm with h | h
            · exact .inl (h ▸ hc)
            · exact .inr (ih' h)

/-- Tuples, field by field. -/
theorem fields_agree {e : Env} {p : Fp} {ts : List Ty} (ih : ∀ t ∈ ts, Agrees e p t) (hg : ∀ t ∈ ts, Good e t) {t s : Ty} {ss : List Ty} {ds : List Data}
    {l l' : Level} {g : Bool} (ht : fieldsOf t = some ts) (hss : fieldsOf s = some ss) (hlen : ss.length = ts.length) (hlen' : ss.length = ds.length)
    (hd : ∀ (i : Nat) (t : Ty) (d : Data), ss[i]? = some t → ds[i]? = some d → Has e t d)
    (hn : Near l l') (hl : l < .new) (hus : Usual ⟨l, l', g, s, t⟩) (hup : .upcast ≤ l) (hask : g = true → canZip ts ss l ≠ .no)
    (k : List Data → Out) :
    intoZip e p ts (ss.zip ds) l k = (convZip e ts (List.zipWith extract ss ds) (fieldLevel l')).elim .fail k := by
  refine zip_conv hlen hlen' (fun i u v d hu hv hdi => ?_)
  refine ih u (List.mem_of_getElem? hu) (hg u (List.mem_of_getElem? hu)) v d l _ g (hd i v d hv hdi) (near_field hl hn) hl
    (usual_field hus hss ht hv hu hup) (.inr hup) (fun hgt hc => hask hgt ?_) (fun _ => hup)
  clear hus hask hd ih hg ht hss hlen' hdi
  induction ts generalizing ss i with
  | nil => simp at hu
  | cons t ts iht =>
    cases ss with
    | nil => simp at hv
    | cons s ss =>
      rw [canZip, both_no]
      cases i with
      | zero =>
        simp only [List.getElem?_cons_zero, Option.some.injEq] at hu hv
        subst hu hv
        exact .inl hc
      | succ i =>
        simp only [List.getElem?_cons_succ] at hu hv
        exact .inr (iht (by simpa using hlen) i hu hv)

theorem canFields_no_of {l : Level} {get : String → Option Ty} : ∀ {ts : List Ty} {ns : List String} {i : Nat} {n : String} {t s : Ty},
    ns[i]? = some n → ts[i]? = some t → get n = some s → canConvert s t l = .no → canFields ns ts get l = .no := by
  intro ts
  induction ts with
  | nil => intro ns i n t s _ h; simp at h
  | cons u ts ih =>
    intro ns i n t s hn ht hs hc
    cases ns with
    | nil => simp at hn
    | cons m ns =>
      rw [canFields, both_no]
      cases i with
      | zero =>
        simp only [List.getElem?_cons_zero, Option.some.injEq] at hn ht
        subst hn ht
        left
        simp only [List.headD_cons, hs]
        exact hc
      | succ i =>
        simp only [List.getElem?_cons_succ] at hn ht
        exact .inr (ih hn ht hs hc)

/-- A single value for a tuple. -/
theorem tuple_refused {s t : Ty} {e : Env} {d : Data} {l' : Level} (hs : Has e s d) (hp : s.plain = true) (hf : fieldsOf s = none)
    (hel : eltOf s = none) (hl' : l' < .new) (ht : (fieldsOf t).isSome = true) : convTo e t (extract s d) l' = none := by
  have hq : isSequence (extract s d) = false := by
    cases hs with
    | reg hn => exact (extract_num (e := e) (.reg hn)).1
    | value => simp [Ty.plain] at hp
    | oneOf => simp [Ty.plain] at hp
    | _ => simp_all [extract, isSequence, fieldsOf, eltOf]
  have hd : (∀ ks vs, extract s d ≠ .dict ks vs) ∧ ∀ ns ts ds, extract s d ≠ .inst (.named ns ts) (.seq ds) := by
    cases hs with
    | reg hf => simp only [extract]; rw [numToPy.eq_def]; split <;> simp
    | value => simp [Ty.plain] at hp
    | oneOf => simp [Ty.plain] at hp
    | _ => simp_all [extract, fieldsOf, eltOf]
  cases t <;> simp only [fieldsOf, Option.isSome_none, Bool.false_eq_true] at ht
  · rw [convTo, compChild_single hq hl']
  · rw [convTo.eq_def]
    simp only
    split
    · exact absurd (by assumption) (hd.1 _ _)
    · exact absurd (by assumption) (hd.2 _ _ _)
    · rw [compChild_single hq hl']

theorem agrees {e : Env} (he : Laws e) (p : Fp) (t : Ty) : Agrees e p t := by
  induction t using Ty.ind with
  | none =>
    refine agrees_of (fun hg s d l l' g hs hn hl hus hp hst h1 h2 => ?_)
    rw [into, own_none (by simp) (by simp), resolve_plain hp]
    simp only
    have hne : extract s d ≠ .none := by
      cases hs with
      | none => exact absurd rfl hst
      | reg hf => simp only [extract]; rw [numToPy.eq_def]; split <;> simp
      | value => simp [Ty.plain] at hp
      | oneOf => simp [Ty.plain] at hp
      | _ => simp [extract]
    rw [if_neg hst, conv, copyOr_other (extract_other hs hp hst), convTo.eq_def]
    simp only
    rfl
  | reg r =>
    refine agrees_of (fun hg s d l l' g hs hn hl hus hp hst h1 h2 => ?_)
    have hnew : ¬ Level.new ≤ l' := Nat.not_le.mpr (near_new hn hl)
    have hno : canTo s (.reg r) l = .no → g = false := by
      intro h
      cases g with
      | false => rfl
      | true => exact absurd (canConvert_no.mpr ⟨hst, h, by simp [canFrom]⟩) (h1 rfl)
    have key : own e p s d (.reg r) l = none → conv e (.reg r) (extract s d) l' = none →
        into e p (.reg r) s d l = toOut (conv e (.reg r) (extract s d) l') := by
      intro h3 h4
      rw [into, resolve_plain hp]
      simp only [h3]
      rw [if_neg hst, h4]
      rfl
    have hcv : conv e (.reg r) (extract s d) l' = convReg e r (extract s d) l' := by
      rw [conv, copyOr_other (extract_other hs hp hst), convTo]
    cases hs with
    | @reg r' n hf =>
      have hr : r' ≠ r := fun h => hst (by rw [h])
      by_cases hv : isValidConversion r' r l = true
      · rw [hcv, into, resolve_plain hp]
        simp only [own, if_pos hv]
        exact num_conv hn hl hf hr hus.not_odd hv
      · refine key (by simp [own, hv]) ?_
        rw [hcv]
        exact convReg_num (near_new hn hl) (.reg hf) (by rw [← valid_near hn]; simpa using hv)
    | value => simp [Ty.plain] at hp
    | oneOf => simp [Ty.plain] at hp
    | none =>
      have := hno (by simp [canTo])
      subst this
      refine key ?_ (by rw [hcv]; simp [extract, convReg, hnew])
      cases r <;> simp [own]
      exact hus.not_odd .noneTruth
    | str => exact key (by cases r <;> simp [own]) (by rw [hcv]; simp [extract, convReg, hnew])
    | bytes hb =>
      have := hno (by simp [canTo])
      subst this
      refine key ?_ (by rw [hcv]; simp [extract, convReg, hnew])
      cases r <;> simp [own]
      · exact hus.not_odd (.bytesNumber (by simp))
      · exact hus.not_odd (.bytesNumber (by simp))
      · exact hus.not_odd (.bytesNumber (by simp))
    | _ =>
      have := hno (by simp [canTo])
      subst this
      refine key ?_ (by rw [hcv]; simp [extract, convReg, hnew])
      cases r <;> simp [own]
      exact hus.not_odd (.truth rfl (by simp [fieldsOf, eltOf]))
  | str =>
    refine agrees_of (fun hg s d l l' g hs hn hl hus hp hst h1 h2 => ?_)
    have hnew : ¬ Level.new ≤ l' := Nat.not_le.mpr (near_new hn hl)
    have hcv : conv e .str (extract s d) l' = none := by
      rw [conv, copyOr_other (extract_other hs hp hst), convTo]
      cases hs with
      | str => exact absurd rfl hst
      | reg hf => simp only [extract]; rw [numToPy.eq_def]; split <;> simp [convStr, hnew]
      | value => simp [Ty.plain] at hp
      | oneOf => simp [Ty.plain] at hp
      | _ => simp [extract, convStr, hnew]
    have hown : own e p s d .str l = none := by
      cases hs with
      | none =>
        exfalso
        cases g with
        | false => exact hus.not_odd .noneText
        | true => exact h1 rfl (canConvert_no.mpr ⟨hst, by simp [canTo], by simp [canFrom]⟩)
      | str => exact absurd rfl hst
      | value => simp [Ty.plain] at hp
      | oneOf => simp [Ty.plain] at hp
      | _ => simp [own]
    rw [into, resolve_plain hp, hcv]
    simp only [hown]
    rw [if_neg hst]
    rfl
  | bytes =>
    refine agrees_of (fun hg s d l l' g hs hn hl hus hp hst h1 h2 => ?_)
    have hnew : ¬ Level.new ≤ l' := Nat.not_le.mpr (near_new hn hl)
    rw [into, own_none (by simp) (by simp), resolve_plain hp]
    simp only
    rw [if_neg hst, conv, copyOr_other (extract_other hs hp hst), convTo]
    cases hs with
    | bytes => exact absurd rfl hst
    | reg hf => simp only [extract]; rw [numToPy.eq_def]; split <;> simp [convBytes, hnew, toOut]
    | value => simp [Ty.plain] at hp
    | oneOf => simp [Ty.plain] at hp
    | _ => simp [extract, convBytes, hnew, toOut]
  | value c =>
    refine agrees_of (fun hg s d l l' g hs hn hl hus hp hst h1 h2 => ?_)
    cases hg with
    | value hc =>
    rw [into, own_none (by simp) (by simp), resolve_plain hp]
    simp only
    rw [conv, copyOr_other (extract_other hs hp hst), convTo, const_conv (near_new hn hl) hs hp hus.not_odd hc]
    split <;> rfl
  | tupleOf u ih =>
    refine agrees_of (fun hg s d l l' g hs hn hl hus hp hst h1 h2 => ?_)
    have hto : canTo s (.tupleOf u) l = .no := by cases s <;> simp_all [canTo, Ty.plain]
    have hin : into e p (.tupleOf u) s d l = seqSelf (.tupleOf u) s d (canFrom (.tupleOf u) s l) fun x => into e p u x.1 x.2 l := by
      rw [into, own_none (by simp) (by simp), resolve_plain hp]
    by_cases hu : l < .upcastContainers
    · have hno : canFrom (.tupleOf u) s l = .no := by rw [canFrom, if_pos hu]
      rw [refused_near hg hs hn hl (canConvert_no.mpr ⟨hst, hto, hno⟩) hus.not_odd, hin, hno, seqSelf, if_pos rfl, if_neg hst]
      rfl
    · have hcan : canFrom (.tupleOf u) s l = canItems s fun v => canConvert v u l := by
        rw [canFrom, if_neg hu]
        rfl
      rw [hcan] at hin
      refine seq_agrees he ih (by cases hg; assumption) hg rfl hs hn hl hus hp hst (level_total hu) hin hcan hto (fun c hc hce => ?_)
      subst hce
      rw [convTo, seqChild_near hn hl (level_total hu) hc]
      rfl
  | listOf u ih =>
    refine agrees_of (fun hg s d l l' g hs hn hl hus hp hst h1 h2 => ?_)
    have hto : canTo s (.listOf u) l = .no := by cases s <;> simp_all [canTo, Ty.plain]
    have hin : into e p (.listOf u) s d l = seqSelf (.listOf u) s d (canFrom (.listOf u) s l) fun x => into e p u x.1 x.2 l := by
      rw [into, own_none (by simp) (by simp), resolve_plain hp]
    by_cases hu : l < .implicitContainers
    · have hno : canFrom (.listOf u) s l = .no := by rw [canFrom, if_pos hu]
      rw [refused_near hg hs hn hl (canConvert_no.mpr ⟨hst, hto, hno⟩) hus.not_odd, hin, hno, seqSelf, if_pos rfl, if_neg hst]
      rfl
    · have hll : l = l' := by
        by_contra hne
        exact hus.not_odd (.list hst hne)
      subst hll
      have hcan : canFrom (.listOf u) s l = canItems s fun v => canConvert v u l := by
        rw [canFrom, if_neg hu]
        rfl
      rw [hcan] at hin
      have hic : l = .implicitContainers := by cases l <;> simp_all [Level.lt_iff, Level.toInt]
      subst hic
      refine seq_agrees he ih (by cases hg; assumption) hg rfl hs hn hl hus hp hst (by decide) hin hcan hto (fun c hc hce => ?_)
      subst hce
      rw [convTo]
      rfl
  | tuple ts ih =>
    refine agrees_of (fun hg s d l l' g hs hn hl hus hp hst h1 h2 => ?_)
    have hto : canTo s (.tuple ts) l = .no := by cases s <;> simp_all [canTo, Ty.plain]
    have hl' := near_new hn hl
    have hcv : conv e (.tuple ts) (extract s d) l' = convTo e (.tuple ts) (extract s d) l' := by
      rw [conv, copyOr_other (extract_other hs hp hst)]
    have hj := (sure he p (.tuple ts) hg s d l hs hl).1
    cases hg with
    | tuple hg =>
    have single : fieldsOf s = none → eltOf s = none → into e p (.tuple ts) s d l = toOut (conv e (.tuple ts) (extract s d) l') := by
      intro hf hel
      rw [hcv, tuple_refused hs hp hf hel hl' rfl, into, own_none (by simp) (by simp), resolve_plain hp]
      cases hs <;> simp_all [fieldsOf, eltOf, toOut]
    have hup : fieldsOf s ≠ none → .upcast ≤ l := by
      intro hf
      cases g with
      | false => exact h2 rfl
      | true =>
        refine level_total (fun hlt => h1 rfl (canConvert_no.mpr ⟨hst, hto, ?_⟩))
        cases s <;> simp_all [fieldsOf, canFrom]
    rw [into, own_none (by simp) (by simp), resolve_plain hp] at hj
    cases hs with
    | @tuple ss ds hlen hd =>
      have hup := hup (by simp [fieldsOf])
      rw [hcv, into, own_none (by simp) (by simp), resolve_plain hp, convTo, compChild_near hl' (near_upcast hn hup) rfl]
      simp only [extract, length, items, Option.map_some, List.length_zipWith] at hj ⊢
      by_cases hle : ss.length = ts.length
      · rw [if_neg (by simpa using hle)] at hj ⊢
        rw [if_pos (by omega), not_junk hj, fields_agree ih hg (t := .tuple ts) (s := .tuple ss) rfl rfl hle hlen hd hn hl hus hup]
        · cases convZip e ts (List.zipWith extract ss ds) (fieldLevel l') <;> rfl
        · intro hgt hz
          refine h1 hgt (canConvert_no.mpr ⟨hst, hto, ?_⟩)
          rw [canFrom]
          simp only [hz, ite_self]
      · rw [if_pos hle, if_neg (by omega)]
        rfl
    | @named ns ss ds hlen hd =>
      have hup := hup (by simp [fieldsOf])
      rw [hcv, into, own_none (by simp) (by simp), resolve_plain hp, convTo, compChild_near hl' (near_upcast hn hup) rfl]
      simp only [extract, length, items, Option.map_some, List.length_zipWith] at hj ⊢
      by_cases hle : ss.length = ts.length
      · rw [if_neg (by simpa using hle)] at hj ⊢
        rw [if_pos (by omega), not_junk hj, fields_agree ih hg (t := .tuple ts) (s := .named ns ss) rfl rfl hle hlen hd hn hl hus hup]
        · cases convZip e ts (List.zipWith extract ss ds) (fieldLevel l') <;> rfl
        · intro hgt hz
          refine h1 hgt (canConvert_no.mpr ⟨hst, hto, ?_⟩)
          rw [canFrom]
          simp only [hz, ite_self]
      · rw [if_pos hle, if_neg (by omega)]
        rfl
    | tupleOf => exact absurd (Odd.shape rfl rfl) hus.not_odd
    | listOf => exact absurd (Odd.shape rfl rfl) hus.not_odd
    | value => simp [Ty.plain] at hp
    | oneOf => simp [Ty.plain] at hp
    | _ => exact single rfl rfl
  | named ns ts ih =>
    refine agrees_of (fun hg s d l l' g hs hn hl hus hp hst h1 h2 => ?_)
    have hto : canTo s (.named ns ts) l = .no := by cases s <;> simp_all [canTo, Ty.plain]
    have hl' := near_new hn hl
    have hcv : conv e (.named ns ts) (extract s d) l' = convTo e (.named ns ts) (extract s d) l' := by
      rw [conv, copyOr_other (extract_other hs hp hst)]
    have hj := (sure he p (.named ns ts) hg s d l hs hl).1
    cases hg with
    | named hnd hnl hg =>
    have single : fieldsOf s = none → eltOf s = none → into e p (.named ns ts) s d l = toOut (conv e (.named ns ts) (extract s d) l') := by
      intro hf hel
      rw [hcv, tuple_refused hs hp hf hel hl' rfl, into, own_none (by simp) (by simp), resolve_plain hp]
      cases hs <;> simp_all [fieldsOf, eltOf, toOut]
    have hup : fieldsOf s ≠ none → .upcast ≤ l := by
      intro hf
      cases g with
      | false => exact h2 rfl
      | true =>
        refine level_total (fun hlt => h1 rfl (canConvert_no.mpr ⟨hst, hto, ?_⟩))
        cases s <;> simp_all [fieldsOf, canFrom]
    rw [into, own_none (by simp) (by simp), resolve_plain hp] at hj
    cases hs with
    | @tuple ss ds hlen hd =>
      have hup := hup (by simp [fieldsOf])
      rw [hcv, into, own_none (by simp) (by simp), resolve_plain hp]
      simp only [extract, convTo, length, items, Option.map_some, List.length_zipWith] at hj ⊢
      rw [compChild_near hl' (near_upcast hn hup) rfl]
      by_cases hle : ss.length = ts.length
      · rw [if_neg (by simpa using hle)] at hj ⊢
        simp only
        rw [if_pos (by omega), not_junk hj, fields_agree ih hg (t := .named ns ts) (s := .tuple ss) rfl rfl hle hlen hd hn hl hus hup]
        · cases convZip e ts (List.zipWith extract ss ds) (fieldLevel l') <;> rfl
        · intro hgt hz
          refine h1 hgt (canConvert_no.mpr ⟨hst, hto, ?_⟩)
          rw [canFrom]
          simp only [hz, ite_self]
      · rw [if_pos hle]
        simp only
        rw [if_neg (by omega)]
        rfl
    | @named ns' ss ds hlen hd =>
      have hup := hup (by simp [fieldsOf])
      rw [hcv, into, own_none (by simp) (by simp), resolve_plain hp]
      simp only [extract, convTo] at hj ⊢
      rw [compChild_near hl' (near_upcast hn hup) rfl]
      simp only
      by_cases hall : ns'.all (fun n => ns.contains n) = true
      · rw [if_pos hall] at hj ⊢
        rw [if_pos hall, not_junk hj, names_conv (get' := fieldOf ns' ss ds) (l' := fieldLevel l') (fun n => fieldOf_fieldNamed) hnl ?_]
        · cases convFields e ns ts (fieldOf ns' ss ds) (fieldLevel l') <;> rfl
        · intro i n u x hni hui hx
          obtain ⟨j, _, hj1, hj2⟩ := fieldNamed_mem hx
          have hty : typeOf ns' ss n = some x.1 := by rw [typeOf_fieldNamed hlen, hx]; rfl
          refine ih u (List.mem_of_getElem? hui) (hg u (List.mem_of_getElem? hui)) x.1 x.2 l _ g (hd j _ _ hj1 hj2) (near_field hl hn) hl
            (hus.step (.name hni hui hty hup)) (.inr hup) (fun hgt hc => h1 hgt (canConvert_no.mpr ⟨hst, hto, ?_⟩)) (fun _ => hup)
          rw [canFrom]
          simp only [if_pos hall, canFields_no_of hni hui hty hc, ite_self]
      · rw [if_neg hall, if_neg hall]
        rfl
    | tupleOf => exact absurd (Odd.shape rfl rfl) hus.not_odd
    | listOf => exact absurd (Odd.shape rfl rfl) hus.not_odd
    | value => simp [Ty.plain] at hp
    | oneOf => simp [Ty.plain] at hp
    | _ => exact single rfl rfl
  | oneOf ts ih =>
    refine agrees_of (fun hg s d l l' g hs hn hl hus hp hst h1 h2 => ?_)
    have hl' := near_new hn hl
    have hj := (sure he p (.oneOf ts) hg s d l hs hl).1
    have hin : into e p (.oneOf ts) s d l = promised (canFrom (.oneOf ts) s l)
        (rounds (fun m => intoAny e p ts s d m 0) (oneOfLevels.filter (· ≤ l))) := by
      rw [into, own_none (by simp) (by simp), resolve_plain hp]
      rfl
    rw [hin] at hj
    rw [hin, not_junk hj, conv, copyOr_other (extract_other hs hp hst), convTo]
    cases hg with
    | oneOf hg hflat =>
    have round : ∀ m m', Near m m' → m < .new → (∀ b ∈ ts, Usual ⟨m, m', true, s, b⟩) →
        intoAny e p ts s d m 0 = toOut (convAny e ts (extract s d) m' 0) := by
      intro m m' hnm hm hub
      refine any_conv (near_new hnm hm) (fun b hb => ⟨?_, ?_, ?_⟩)
      · rintro rfl
        exact conv_self hs hp
      · intro hne hno
        exact refused_near (hg b hb) hs hnm hm hno (hub b hb).not_odd
      · intro hne hno
        exact ih b hb (hg b hb) s d m m' true hs hnm hm (hub b hb) (.inl hp) (fun _ => hno) nofun
    refine rounds_near (g := fun m => convAny e ts (extract s d) m 0) hn (fun m hm hm' => ?_) ?_
    · exact round m m (.inl rfl) (level_trans hm hl) (fun b hb => hus.step (.choice hp hb hm hm'))
    · exact round l l' hn hl (fun b hb => hus.step (.last hp hb))

/-- C110.  Where no odd pair of types is met, a conversion in compiled code makes what the same conversion makes in the interpreter, or
fails as it does. -/
theorem compiled_converts_as_interpreted_partial {e : Env} (p : Fp) (he : Laws e) {s t : Ty} {d : Data} {l : Level} (ht : Good e t)
    (hs : Has e s d) (hl : l < .new) (hst : s ≠ t) (hsig : s.plain = true ∨ .upcast ≤ l) (hu : Usual ⟨l, l, true, s, t⟩) :
    convertTo e p s t d l = toOut (conv e t (extract s d) l) := by
  rw [convertTo, if_neg hst]
  split
  · rename_i h
    rw [refused_near ht hs (.inl rfl) hl h hu.not_odd]
    rfl
  · rename_i h
    exact agrees he p t ht s d l l true hs (.inl rfl) hl hu hsig (fun _ => h) nofun

end Verif.CConv
