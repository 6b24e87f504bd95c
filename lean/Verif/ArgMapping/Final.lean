import Verif.ArgMapping.Lemmas
/-
The state after all arguments are pushed, and its relation to Python's calling convention.
-/
namespace Verif.ArgMapping
open Spec
variable {V T : Type}

theorem all_some {l : List (Option V)} (h : none ∉ l) : ∃ vals : List V, l = vals.map some := by
  induction l with
  | nil => exact ⟨[], rfl⟩
  | cons x l ih =>
    obtain ⟨vals, hv⟩ := ih (fun hh => h (by simp [hh]))
    cases x with
    | none => exact absurd (by simp) h
    | some v => exact ⟨v :: vals, by simp [hv]⟩

theorem pushArguments_self (s : St V T) (self : Option V) (pos : List V) (kws : List (String × V)) :
    pushArguments s self pos kws = finish (kws.foldl pushKw ((self.toList ++ pos).foldl pushPos s)) := by
  cases self <;> rfl

section
variable {args N : List (Param V T)} {S K : Option (Param V T)}

/-- The slots of the declared parameters at the end. -/
def finalSlots (N : List (Param V T)) (pos : List V) (kws : List (String × V)) : List (Option V) :=
  defSlots N (kwSlots (N.map (·.name)) (posSlots N.length pos) kws)

/-- All three phases succeed. -/
def Ok3 (N : List (Param V T)) (hs hk : Bool) (pos : List V) (kws : List (String × V)) : Prop :=
  (pos.length ≤ N.length ∨ hs = true) ∧ KwOk (N.map (·.name)) hk (posSlots N.length pos) kws ∧
  none ∉ finalSlots N pos kws

theorem final_state (h : Shape args N S K) (hnd : (N.map (·.name)).Nodup) (self : Option V) (pos : List V)
    (kws : List (String × V)) (hkn : (kws.map (·.1)).Nodup) :
    (Ok3 N S.isSome K.isSome (self.toList ++ pos) kws →
      pushArguments (St.init args) self pos kws = ⟨args, finalSlots N (self.toList ++ pos) kws
        ++ List.replicate (S.toList.length + K.toList.length) none, (self.toList ++ pos).drop N.length,
        kws.filter fun e => !(N.map (·.name)).contains e.1, true, min (self.toList ++ pos).length N.length⟩) ∧
    (¬ Ok3 N S.isSome K.isSome (self.toList ++ pos) kws →
      (pushArguments (St.init args) self pos kws).valid = false) := by
  rw [pushArguments_self]
  generalize self.toList ++ pos = P
  have h1 := pos_phase h P
  by_cases hp : P.length ≤ N.length ∨ S.isSome = true
  · rw [if_pos hp] at h1
    rw [h1]
    have h2 := kw_phase h hnd kws ⟨args, posSlots N.length P
        ++ List.replicate (S.toList.length + K.toList.length) none, P.drop N.length, [], true, min P.length N.length⟩
        (posSlots N.length P) (List.replicate (S.toList.length + K.toList.length) none) rfl rfl rfl
        (posSlots_len _ _) hkn
    by_cases hk : KwOk (N.map (·.name)) K.isSome (posSlots N.length P) kws
    · rw [h2.1 hk]
      have hfin : ∀ st : St V T, st.valid = true → finish st = finishLoop st.args 0 st := by
        intro st hv; simp [finish, hv]
      rw [hfin _ rfl]
      have h3 := finish_phase S K h.star h.kw N [] (kwSlots (N.map (·.name)) (posSlots N.length P) kws)
        (List.replicate (S.toList.length + K.toList.length) none)
        ⟨args, kwSlots (N.map (·.name)) (posSlots N.length P) kws
          ++ List.replicate (S.toList.length + K.toList.length) none, P.drop N.length,
          kws.filter fun e => !(N.map (·.name)).contains e.1, true, min P.length N.length⟩ h.normal rfl
        (by simp [kwSlots, posSlots_len])
      rw [← h.eq] at h3
      simp only [List.nil_append] at h3 ⊢
      by_cases hd : none ∈ finalSlots N P kws
      · exact ⟨fun hh => absurd hd hh.2.2, fun _ => h3.2 hd⟩
      · exact ⟨fun _ => h3.1 hd, fun hh => absurd ⟨hp, hk, hd⟩ hh⟩
    · refine ⟨fun hh => absurd hh.2.1 hk, fun _ => ?_⟩
      have := h2.2 hk
      simp only [finish, this, Bool.not_false, ↓reduceIte]
  · rw [if_neg hp] at h1
    refine ⟨fun hh => absurd hh.1 hp, fun _ => ?_⟩
    rw [foldl_pushKw_invalid _ h1]
    simp only [finish, h1, Bool.not_false, ↓reduceIte]

theorem finalSlots_len (N : List (Param V T)) (pos : List V) (kws : List (String × V)) :
    (finalSlots N pos kws).length = N.length := by
  simp [finalSlots, defSlots, kwSlots, posSlots_len]

theorem finalSlots_get (N : List (Param V T)) (pos : List V) (kws : List (String × V)) (i : Nat) (a : Param V T)
    (hi : N[i]? = some a) :
    (finalSlots N pos kws)[i]? = some ((pos[i]?.or (byKeyword kws a.name)).or a.default) := by
  have hl : i < N.length := (List.getElem?_eq_some_iff.1 hi).1
  unfold finalSlots defSlots kwSlots
  rw [List.getElem?_zipWith, List.getElem?_zipWith, hi, List.getElem?_map, hi, posSlots_get _ _ _ hl]
  rfl

end

/-! ### The signature the code builds -/

theorem normalArgs_names (s : PySig V T) : ∀ (l : List String) (i : Nat), (normalArgs s i l).map (·.name) = l
  | [], _ => rfl
  | n :: l, i => by simp [normalArgs, normalArgs_names s l (i + 1)]

theorem normalArgs_get (s : PySig V T) : ∀ (l : List String) (k i : Nat) (n : String), l[i]? = some n →
    (normalArgs s k l)[i]? = some ⟨n, s.anns n, getDefault s (k + i), false, false⟩
  | [], _, _, _, h => by simp at h
  | m :: l, k, 0, n, h => by
    have : m = n := by simpa using h
    subst this
    simp [normalArgs]
  | m :: l, k, i + 1, n, h => by
    have := normalArgs_get s l (k + 1) i n (by simpa using h)
    simp only [normalArgs, List.getElem?_cons_succ]
    rw [this]
    have e : k + 1 + i = k + (i + 1) := by omega
    rw [e]

theorem normalArgs_len (s : PySig V T) (l : List String) (i : Nat) : (normalArgs s i l).length = l.length := by
  have := congrArg List.length (normalArgs_names s l i)
  simpa using this

theorem normalArgs_normal (s : PySig V T) : ∀ (l : List String) (i : Nat), ∀ a ∈ normalArgs s i l,
    a.isKw = false ∧ a.isStar = false
  | [], _, a, h => by simp [normalArgs] at h
  | n :: l, i, a, h => by
    rcases List.mem_cons.1 (show a ∈ _ :: normalArgs s (i + 1) l from h) with rfl | h
    · exact ⟨rfl, rfl⟩
    · exact normalArgs_normal s l (i + 1) a h

def starOf (s : PySig V T) : Option (Param V T) := s.varargs.map fun n => ⟨n, s.anns n, none, true, false⟩
def kwOf (s : PySig V T) : Option (Param V T) := s.varkw.map fun n => ⟨n, s.anns n, none, false, true⟩

theorem makeArgs_shape {s : PySig V T} {args : List (Param V T)} (h : makeArgs s = .ok args) :
    Shape args (normalArgs s 0 s.args) (starOf s) (kwOf s) := by
  unfold makeArgs at h
  by_cases hk : s.kwonly ≠ []
  · rw [if_pos hk] at h; simp at h
  · rw [if_neg hk] at h
    injection h with h
    constructor
    · rw [← h]
      unfold starOf kwOf
      cases s.varargs <;> cases s.varkw <;> simp
    · exact normalArgs_normal s s.args 0
    · intro a ha
      unfold starOf at ha
      cases hv : s.varargs with
      | none => rw [hv] at ha; simp at ha
      | some n => rw [hv] at ha; simp at ha; subst ha; exact ⟨rfl, rfl⟩
    · intro a ha
      unfold kwOf at ha
      cases hv : s.varkw with
      | none => rw [hv] at ha; simp at ha
      | some n => rw [hv] at ha; simp at ha; subst ha; exact ⟨rfl, rfl⟩

theorem byKeyword_isSome {kws : List (String × V)} {n : String} :
    (byKeyword kws n).isSome = true ↔ ∃ e ∈ kws, e.1 = n := by
  unfold byKeyword
  rw [Option.isSome_map, List.find?_isSome]
  simp

/-- The three phases succeed exactly when Python accepts the call. -/
theorem ok3_iff {s : PySig V T} (wf : WellFormed s) (hpo : s.posOnly = 0) (pos : List V) (kws : List (String × V)) :
    Ok3 (normalArgs s 0 s.args) (starOf s).isSome (kwOf s).isSome pos kws ↔ Accepts s pos kws := by
  have hlen := normalArgs_len s s.args 0
  have hnames := normalArgs_names s s.args 0
  have hstar : (starOf s).isSome = s.varargs.isSome := by simp [starOf]
  have hkw : (kwOf s).isSome = s.varkw.isSome := by simp [kwOf]
  have hval : ∀ (i : Nat) (n : String), s.args[i]? = some n →
      (finalSlots (normalArgs s 0 s.args) pos kws)[i]? =
        some ((pos[i]?.or (byKeyword kws n)).or (getDefault s i)) := by
    intro i n hi
    have := finalSlots_get (normalArgs s 0 s.args) pos kws i _ (normalArgs_get s s.args 0 i n hi)
    rw [Nat.zero_add] at this
    exact this
  have uniq : ∀ (i j : Nat) (n : String), s.args[i]? = some n → s.args[j]? = some n → i = j := by
    intro i j n hi hj
    obtain ⟨h1, h2⟩ := List.getElem?_eq_some_iff.1 hi
    obtain ⟨h3, h4⟩ := List.getElem?_eq_some_iff.1 hj
    exact (List.Nodup.getElem_inj_iff wf.nodup).1 (h2.trans h4.symm)
  unfold Ok3
  rw [hlen, hnames, hstar, hkw]
  constructor
  · rintro ⟨h1, h2, h3⟩
    refine ⟨h1, ?_, ?_, ?_⟩
    · intro i n hi _ hip e he hen
      rcases h2 e he with ⟨j, hj, hx⟩ | ⟨hno, _⟩
      · rw [hen] at hj
        have := uniq i j n hi hj
        subst this
        rw [posSlots_get _ _ _ (List.getElem?_eq_some_iff.1 hi).1] at hx
        simp at hx
        omega
      · exact hno (by rw [hen]; exact List.mem_of_getElem? hi)
    · intro e he
      rcases h2 e he with ⟨j, hj, _⟩ | ⟨_, hh⟩
      · exact Or.inl ⟨j, by omega, hj⟩
      · exact Or.inr hh
    · intro i n hi hpi
      have hv := hval i n hi
      rw [List.getElem?_eq_none hpi] at hv
      cases hb : byKeyword kws n with
      | some v => exact Or.inl ⟨by omega, byKeyword_isSome.1 (by simp [hb])⟩
      | none =>
        rw [hb] at hv
        right
        cases hd : defaultOf s i with
        | some d => rfl
        | none =>
          have : getDefault s i = none := hd
          rw [this] at hv
          exact absurd (List.mem_of_getElem? hv) h3
  · rintro ⟨h1, h2, h3, h4⟩
    refine ⟨h1, ?_, ?_⟩
    · intro e he
      by_cases hm : e.1 ∈ s.args
      · obtain ⟨i, hi⟩ := List.getElem?_of_mem hm
        left
        refine ⟨i, hi, ?_⟩
        rw [posSlots_get _ _ _ (List.getElem?_eq_some_iff.1 hi).1, List.getElem?_eq_none]
        rcases Nat.lt_or_ge i pos.length with hlt | hge
        · exact absurd rfl (h2 i e.1 hi (by omega) hlt e he)
        · exact hge
      · right
        refine ⟨hm, ?_⟩
        rcases h3 e he with ⟨j, _, hj⟩ | hh
        · exact absurd (List.mem_of_getElem? hj) hm
        · exact hh
    · intro hno
      obtain ⟨i, hi⟩ := List.getElem?_of_mem hno
      have hil := (List.getElem?_eq_some_iff.1 hi).1
      rw [finalSlots_len, hlen] at hil
      have hn := hval i _ (List.getElem?_eq_getElem hil)
      rw [hi] at hn
      injection hn with hn
      rcases Nat.lt_or_ge i pos.length with hlt | hge
      · rw [List.getElem?_eq_getElem hlt] at hn; simp at hn
      · rw [List.getElem?_eq_none hge] at hn
        rcases h4 i _ (List.getElem?_eq_getElem hil) hge with ⟨_, hh⟩ | hh
        · have := byKeyword_isSome.2 hh
          cases hb : byKeyword kws s.args[i] with
          | none => rw [hb] at this; simp at this
          | some v => rw [hb] at hn; simp at hn
        · have hd : (getDefault s i).isSome = true := hh
          cases hb : getDefault s i with
          | none => rw [hb] at hd; simp at hd
          | some v =>
            rw [hb] at hn
            cases byKeyword kws s.args[i] <;> simp at hn

/-- The values in the slots are the ones Python passes. -/
theorem finalSlots_value {s : PySig V T} (hpo : s.posOnly = 0) (pos : List V) (kws : List (String × V)) (i : Nat)
    (n : String) (hi : s.args[i]? = some n) :
    (finalSlots (normalArgs s 0 s.args) pos kws)[i]? = some (valueOf s pos kws i n) := by
  have := finalSlots_get (normalArgs s 0 s.args) pos kws i _ (normalArgs_get s s.args 0 i n hi)
  rw [this]
  congr 1
  unfold valueOf
  simp only [Nat.zero_add]
  by_cases hp : i < pos.length
  · rw [if_pos hp, List.getElem?_eq_getElem hp]; simp
  · rw [if_neg hp, List.getElem?_eq_none (by omega)]
    cases hb : byKeyword kws n with
    | none => simp [hb]; rfl
    | some v => simp [hb, hpo]

end Verif.ArgMapping
