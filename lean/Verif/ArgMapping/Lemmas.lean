import Verif.ArgMapping.Spec
import Mathlib.Data.List.Nodup
import Mathlib.Data.List.Induction
/-
Lemmas about the argument mapping: its state after each of the three phases, in closed form.
-/
namespace Verif.ArgMapping
open Spec
variable {V T : Type}

/-- Declared parameters, then `*args`, then `**kwargs`. -/
structure Shape (args N : List (Param V T)) (S K : Option (Param V T)) : Prop where
  eq : args = N ++ (S.toList ++ K.toList)
  normal : ∀ a ∈ N, a.isKw = false ∧ a.isStar = false
  star : ∀ a ∈ S, a.isStar = true ∧ a.isKw = false
  kw : ∀ a ∈ K, a.isKw = true ∧ a.isStar = false

section
variable {args N : List (Param V T)} {S K : Option (Param V T)}

theorem Shape.len (h : Shape args N S K) : args.length = N.length + (S.toList.length + K.toList.length) := by
  rw [h.eq]; simp

/-- The slots after the positional arguments. -/
def posSlots (n : Nat) (pos : List V) : List (Option V) :=
  (pos.take n).map some ++ List.replicate (n - pos.length) none

theorem posSlots_len (n : Nat) (pos : List V) : (posSlots n pos).length = n := by
  simp [posSlots]; omega

theorem posSlots_get (n : Nat) (pos : List V) (i : Nat) (hi : i < n) : (posSlots n pos)[i]? = some pos[i]? := by
  unfold posSlots
  rcases Nat.lt_or_ge i pos.length with h | h
  · rw [List.getElem?_append_left (by simp; omega)]
    simp [List.getElem?_take, hi, h]
  · rw [List.getElem?_append_right (by simp; omega)]
    rw [List.getElem?_replicate, if_pos (by simp; omega), List.getElem?_eq_none h]

theorem foldl_pushPos_invalid (s : St V T) (hs : s.valid = false) (pos : List V) : pos.foldl pushPos s = s := by
  induction pos with
  | nil => rfl
  | cons v vs ih => rw [List.foldl_cons]; simp [pushPos, hs, ih]

/-- The state after the positional arguments. -/
theorem pos_phase (h : Shape args N S K) (pos : List V) :
    if pos.length ≤ N.length ∨ S.isSome = true then
      pos.foldl pushPos (St.init args) = ⟨args, posSlots N.length pos
        ++ List.replicate (S.toList.length + K.toList.length) none, pos.drop N.length, [], true, min pos.length N.length⟩
    else (pos.foldl pushPos (St.init args)).valid = false := by
  induction pos using List.reverseRecOn with
  | nil =>
    rw [if_pos (Or.inl (by simp))]
    unfold St.init posSlots
    rw [h.len, List.replicate_add]
    simp
  | append_singleton pos v ih =>
    rw [List.foldl_append, List.foldl_cons, List.foldl_nil]
    by_cases hc : pos.length ≤ N.length ∨ S.isSome = true
    · rw [if_pos hc] at ih
      rw [ih]
      unfold pushPos
      simp only [Bool.not_true, Bool.false_eq_true, ↓reduceIte]
      rcases Nat.lt_or_ge pos.length N.length with hlt | hge
      · rw [if_pos (Or.inl (by simp; omega)), Nat.min_eq_left (by omega)]
        have hg : args[pos.length]? = some N[pos.length] := by
          rw [h.eq, List.getElem?_append_left hlt, List.getElem?_eq_getElem hlt]
        have hn := h.normal N[pos.length] (List.getElem_mem _)
        rw [hg]
        simp only [Param.isNormal, hn, Bool.not_false, Bool.and_self, ↓reduceIte]
        have e1 : pos.drop N.length = [] := List.drop_eq_nil_of_le (by omega)
        have e2 : (pos ++ [v]).drop N.length = [] := List.drop_eq_nil_of_le (by simp; omega)
        have e3 : min (pos ++ [v]).length N.length = pos.length + 1 := by simp; omega
        rw [e1, e2, e3]
        congr 1
        unfold posSlots
        rw [List.take_of_length_le (by omega), List.take_of_length_le (by simp; omega)]
        have e4 : N.length - pos.length = (N.length - (pos ++ [v]).length) + 1 := by simp; omega
        rw [e4, List.replicate_succ]
        simp
      · rw [Nat.min_eq_right hge]
        have hg : args[N.length]? = (S.toList ++ K.toList)[0]? := by
          rw [h.eq, List.getElem?_append_right (by omega)]; simp
        rw [hg]
        cases S with
        | some a =>
          have ha := h.star a rfl
          simp only [Option.toList_some, List.cons_append, List.nil_append, List.length_cons,
            List.getElem?_cons_zero, Param.isNormal, ha, Bool.not_false, Bool.not_true, Bool.and_false,
            Bool.false_eq_true, ↓reduceIte, Option.isSome_some, or_true]
          have e3 : min (pos ++ [v]).length N.length = N.length := by simp; omega
          rw [e3]
          congr 1
          · congr 1
            unfold posSlots
            rw [List.take_append_of_le_length hge]
            congr 2
            simp; omega
          · rw [List.drop_append_of_le_length hge]
        | none =>
          rw [if_neg (by simp; omega)]
          cases K with
          | none => simp
          | some a =>
            have ha := h.kw a rfl
            simp [Param.isNormal, ha]
    · rw [if_neg hc] at ih
      rw [if_neg (by
        rintro (hh | hh)
        · exact hc (Or.inl (by simp at hh; omega))
        · exact hc (Or.inr hh))]
      simp [pushPos, ih]

/-- The keyword loop, for a declared name. -/
theorem kwLoop_declared (name : String) (v : V) (T' : List (Param V T)) : ∀ (N : List (Param V T)) (i k : Nat)
    (s : St V T), (∀ a ∈ N, a.isKw = false ∧ a.isStar = false) → (N.map (·.name)).Nodup →
    (N.map (·.name))[i]? = some name →
    kwLoop name v (N ++ T') k s = (match s.single[k + i]? with
      | some (some _) => { s with valid := false }
      | _ => { s with single := s.single.set (k + i) (some v) }) := by
  intro N
  induction N with
  | nil => intro i k s _ _ h; simp at h
  | cons a N ih =>
    intro i k s hN hd hi
    have ha := hN a (by simp)
    rw [List.cons_append]
    unfold kwLoop
    cases i with
    | zero =>
      have : a.name = name := by simpa using hi
      simp [Param.isNormal, ha, this]
      rfl
    | succ i =>
      have hi' : (N.map (·.name))[i]? = some name := by simpa using hi
      have hd' := List.nodup_cons.1 (show (a.name :: N.map (·.name)).Nodup from hd)
      have hne : (a.name == name) = false := by
        rw [beq_eq_false_iff_ne]
        rintro rfl
        exact hd'.1 (List.mem_of_getElem? hi')
      have := ih i (k + 1) s (fun b hb => hN b (by simp [hb])) hd'.2 hi'
      simp only [hne, Bool.and_false, Bool.false_eq_true, ↓reduceIte, ha.1, ha.2]
      rw [this]
      have e : k + 1 + i = k + (i + 1) := by omega
      rw [e]

/-- The keyword loop, for an unknown name. -/
theorem kwLoop_unknown (name : String) (v : V) (S K : Option (Param V T))
    (hS : ∀ a ∈ S, a.isStar = true ∧ a.isKw = false) (hK : ∀ a ∈ K, a.isKw = true ∧ a.isStar = false) :
    ∀ (N : List (Param V T)) (k : Nat)
    (s : St V T), (∀ a ∈ N, a.isKw = false ∧ a.isStar = false) → name ∉ N.map (·.name) →
    kwLoop name v (N ++ (S.toList ++ K.toList)) k s
      = if K.isSome then { s with kw := s.kw ++ [(name, v)] } else { s with valid := false } := by
  intro N
  induction N with
  | nil =>
    intro k s _ _
    cases S with
    | none =>
      cases K with
      | none => simp [kwLoop]
      | some b =>
        have hb := hK b rfl
        simp [kwLoop, Param.isNormal, hb]
    | some a =>
      have ha := hS a rfl
      cases K with
      | none => simp [kwLoop, Param.isNormal, ha]
      | some b =>
        have hb := hK b rfl
        simp [kwLoop, Param.isNormal, hb, ha]
  | cons a N ih =>
    intro k s hN hd
    have ha := hN a (by simp)
    have hne : (a.name == name) = false := by
      rw [beq_eq_false_iff_ne]
      rintro rfl
      exact hd (by simp)
    rw [List.cons_append]
    unfold kwLoop
    simp only [hne, Bool.and_false, Bool.false_eq_true, ↓reduceIte, ha.1, ha.2]
    exact ih (k + 1) s (fun b hb => hN b (by simp [hb])) (fun h => hd (by simp at h ⊢; exact Or.inr h))

/-- The slots after the keyword arguments. -/
def kwSlots (names : List String) (xs : List (Option V)) (kws : List (String × V)) : List (Option V) :=
  List.zipWith (fun n x => x.or (byKeyword kws n)) names xs

theorem foldl_pushKw_invalid (s : St V T) (hs : s.valid = false) (kws : List (String × V)) :
    kws.foldl pushKw s = s := by
  induction kws with
  | nil => rfl
  | cons v vs ih => rw [List.foldl_cons]; simp [pushKw, hs, ih]

/-- Every keyword has somewhere to go. -/
def KwOk (names : List String) (hk : Bool) (xs : List (Option V)) (kws : List (String × V)) : Prop :=
  ∀ e ∈ kws, (∃ i : Nat, names[i]? = some e.1 ∧ xs[i]? = some none) ∨ (e.1 ∉ names ∧ hk = true)

theorem byKeyword_none {kws : List (String × V)} {n : String} (h : n ∉ kws.map (·.1)) : byKeyword kws n = none := by
  unfold byKeyword
  rw [Option.map_eq_none_iff, List.find?_eq_none]
  intro e he hh
  exact h (by rw [List.mem_map]; exact ⟨e, he, by simpa using hh⟩)

theorem byKeyword_cons_ne {kws : List (String × V)} {n m : String} {v : V} (h : (n == m) = false) :
    byKeyword ((n, v) :: kws) m = byKeyword kws m := by
  unfold byKeyword
  rw [List.find?_cons_of_neg (by simp [h])]

theorem byKeyword_cons_ne' {kws : List (String × V)} {m : String} {e : String × V} (h : (e.1 == m) = false) :
    byKeyword (e :: kws) m = byKeyword kws m := byKeyword_cons_ne h

theorem kwSlots_nil (names : List String) (xs : List (Option V)) (h : names.length = xs.length) :
    kwSlots names xs [] = xs := by
  apply List.ext_getElem?
  intro i
  unfold kwSlots
  rw [List.getElem?_zipWith]
  rcases Nat.lt_or_ge i xs.length with hi | hi
  · rw [List.getElem?_eq_getElem hi, List.getElem?_eq_getElem (by omega)]
    simp [byKeyword]
  · rw [List.getElem?_eq_none hi]
    cases names[i]? <;> rfl

theorem kwSlots_set {names : List String} (hn : names.Nodup) {xs : List (Option V)} {i : Nat} {n : String} {v : V}
    (hi : names[i]? = some n) (hx : xs[i]? = some none) (kws : List (String × V)) :
    kwSlots names (xs.set i (some v)) kws = kwSlots names xs ((n, v) :: kws) := by
  apply List.ext_getElem?
  intro j
  unfold kwSlots
  rw [List.getElem?_zipWith, List.getElem?_zipWith]
  by_cases hij : i = j
  · subst hij
    have hl : i < xs.length := (List.getElem?_eq_some_iff.1 hx).1
    rw [List.getElem?_set_self (by simpa using hl), hi, hx]
    simp [byKeyword]
  · rw [List.getElem?_set_ne hij]
    cases hj : names[j]? with
    | none => rfl
    | some m =>
      have hne : (n == m) = false := by
        rw [beq_eq_false_iff_ne]
        rintro rfl
        obtain ⟨h1, h2⟩ := List.getElem?_eq_some_iff.1 hi
        obtain ⟨h3, h4⟩ := List.getElem?_eq_some_iff.1 hj
        exact hij ((List.Nodup.getElem_inj_iff hn).1 (h2.trans h4.symm))
      cases xs[j]? with
      | none => rfl
      | some x => simp only [byKeyword_cons_ne hne]

/-- The state after the keyword arguments. -/
theorem kw_phase (h : Shape args N S K) (hnd : (N.map (·.name)).Nodup) : ∀ (kws : List (String × V)) (s : St V T)
    (xs ys : List (Option V)), s.args = args → s.valid = true → s.single = xs ++ ys → xs.length = N.length →
    (kws.map (·.1)).Nodup →
    (KwOk (N.map (·.name)) K.isSome xs kws → kws.foldl pushKw s = { s with
      single := kwSlots (N.map (·.name)) xs kws ++ ys
      kw := s.kw ++ kws.filter fun e => !(N.map (·.name)).contains e.1 }) ∧
    (¬ KwOk (N.map (·.name)) K.isSome xs kws → (kws.foldl pushKw s).valid = false) := by
  intro kws
  induction kws with
  | nil =>
    intro s xs ys ha hv hs hl hn
    refine ⟨fun _ => ?_, fun hk => absurd (fun e he => by simp at he) hk⟩
    rw [List.foldl_nil, kwSlots_nil _ _ (by simp [hl])]
    simp [← hs]
  | cons e kws ih =>
    intro s xs ys ha hv hs hl hn
    have hn' := List.nodup_cons.1 (show (e.1 :: kws.map (·.1)).Nodup from hn)
    rw [List.foldl_cons]
    have hpush : pushKw s e = kwLoop e.1 e.2 args 0 s := by simp [pushKw, hv, ha]
    by_cases hmem : e.1 ∈ N.map (·.name)
    · obtain ⟨i, hi⟩ := List.getElem?_of_mem hmem
      have hil : i < xs.length := by
        have := (List.getElem?_eq_some_iff.1 hi).1
        simp at this; omega
      have hk := kwLoop_declared e.1 e.2 (S.toList ++ K.toList) N i 0 s h.normal hnd hi
      rw [← h.eq, Nat.zero_add] at hk
      have hsi : s.single[i]? = xs[i]? := by rw [hs, List.getElem?_append_left hil]
      have uniq : ∀ j : Nat, (N.map (·.name))[j]? = some e.1 → j = i := by
        intro j hj
        obtain ⟨h1, h2⟩ := List.getElem?_eq_some_iff.1 hi
        obtain ⟨h3, h4⟩ := List.getElem?_eq_some_iff.1 hj
        exact ((List.Nodup.getElem_inj_iff hnd).1 (h2.trans h4.symm)).symm
      cases hx : xs[i]? with
      | none => rw [List.getElem?_eq_none_iff] at hx; omega
      | some o =>
        rw [hsi, hx] at hk
        cases o with
        | some w =>
          constructor
          · intro hok
            rcases hok e (by simp) with ⟨j, hj, hxj⟩ | ⟨hno, _⟩
            · rw [uniq j hj, hx] at hxj; simp at hxj
            · exact absurd hmem hno
          · intro _
            rw [hpush, hk, foldl_pushKw_invalid _ rfl]
        | none =>
          have hpush' : pushKw s e = { s with single := xs.set i (some e.2) ++ ys } := by
            rw [hpush, hk, hs, List.set_append_left _ _ hil]
          rw [hpush']
          have ih' := ih { s with single := xs.set i (some e.2) ++ ys } (xs.set i (some e.2)) ys ha hv rfl
            (by simp [hl]) hn'.2
          have hiff : KwOk (N.map (·.name)) K.isSome xs (e :: kws) ↔
              KwOk (N.map (·.name)) K.isSome (xs.set i (some e.2)) kws := by
            have hne : ∀ (d : String × V) (j : Nat), d ∈ kws → (N.map (·.name))[j]? = some d.1 → i ≠ j := by
              intro d j hd hj hij
              subst hij
              rw [hi] at hj
              injection hj with hj
              exact hn'.1 (by rw [hj]; exact List.mem_map_of_mem hd)
            constructor
            · intro hok d hd
              rcases hok d (by simp [hd]) with ⟨j, hj, hxj⟩ | hh
              · left
                exact ⟨j, hj, by rw [List.getElem?_set_ne (hne d j hd hj)]; exact hxj⟩
              · exact Or.inr hh
            · intro hok d hd
              rcases List.mem_cons.1 hd with rfl | hd
              · exact Or.inl ⟨i, hi, hx⟩
              · rcases hok d hd with ⟨j, hj, hxj⟩ | hh
                · left
                  exact ⟨j, hj, by rw [List.getElem?_set_ne (hne d j hd hj)] at hxj; exact hxj⟩
                · exact Or.inr hh
          rw [hiff]
          refine ⟨fun hok => ?_, ih'.2⟩
          rw [ih'.1 hok, kwSlots_set hnd hi hx]
          have hc : (N.map (·.name)).contains e.1 = true := by simpa using hmem
          rw [List.filter_cons_of_neg (by rw [hc]; simp)]
    · have hk := kwLoop_unknown e.1 e.2 S K h.star h.kw N 0 s h.normal hmem
      rw [← h.eq] at hk
      have hslots : kwSlots (N.map (·.name)) xs (e :: kws) = kwSlots (N.map (·.name)) xs kws := by
        apply List.ext_getElem?
        intro j
        unfold kwSlots
        rw [List.getElem?_zipWith, List.getElem?_zipWith]
        cases hj : (N.map (·.name))[j]? with
        | none => rfl
        | some m =>
          have hne : (e.1 == m) = false := by
            rw [beq_eq_false_iff_ne]
            rintro rfl
            exact hmem (List.mem_of_getElem? hj)
          cases xs[j]? with
      | none => rfl
      | some x => simp only [byKeyword_cons_ne hne]
      cases hK : K.isSome with
      | false =>
        rw [hK] at hk
        simp only [Bool.false_eq_true, ↓reduceIte] at hk
        constructor
        · intro hok
          rcases hok e (by simp) with ⟨j, hj, hxj⟩ | ⟨_, hb⟩
          · exact absurd (List.mem_of_getElem? hj) hmem
          · simp at hb
        · intro _
          rw [hpush, hk, foldl_pushKw_invalid _ rfl]
      | true =>
        rw [hK] at hk
        simp only [↓reduceIte] at hk
        rw [hpush, hk]
        have ih' := ih { s with kw := s.kw ++ [(e.1, e.2)] } xs ys ha hv hs hl hn'.2
        rw [hK] at ih'
        have hiff : KwOk (N.map (·.name)) true xs (e :: kws) ↔ KwOk (N.map (·.name)) true xs kws := by
          constructor
          · intro hok d hd; exact hok d (by simp [hd])
          · intro hok d hd
            rcases List.mem_cons.1 hd with rfl | hd
            · exact Or.inr ⟨hmem, rfl⟩
            · exact hok d hd
        rw [hiff]
        refine ⟨fun hok => ?_, ih'.2⟩
        rw [ih'.1 hok, hslots]
        have hc : (N.map (·.name)).contains e.1 = false := by simpa using hmem
        rw [List.filter_cons_of_pos (by rw [hc]; rfl)]
        simp

/-- Slots after the defaults. -/
def defSlots (N : List (Param V T)) (xs : List (Option V)) : List (Option V) :=
  List.zipWith (fun (a : Param V T) x => x.or a.default) N xs

theorem finishLoop_tail (S K : Option (Param V T)) (hS : ∀ a ∈ S, a.isStar = true ∧ a.isKw = false)
    (hK : ∀ a ∈ K, a.isKw = true ∧ a.isStar = false) (k : Nat) (s : St V T) :
    finishLoop (S.toList ++ K.toList) k s = s := by
  cases S with
  | none =>
    cases K with
    | none => rfl
    | some b => simp [finishLoop, Param.isNormal, hK b rfl]
  | some a =>
    cases K with
    | none => simp [finishLoop, Param.isNormal, hS a rfl]
    | some b => simp [finishLoop, Param.isNormal, hS a rfl, hK b rfl]

/-- The state after the defaults. -/
theorem finish_phase (S K : Option (Param V T)) (hS : ∀ a ∈ S, a.isStar = true ∧ a.isKw = false)
    (hK : ∀ a ∈ K, a.isKw = true ∧ a.isStar = false) : ∀ (N : List (Param V T)) (pre xs ys : List (Option V))
    (s : St V T), (∀ a ∈ N, a.isKw = false ∧ a.isStar = false) → s.single = pre ++ xs ++ ys →
    xs.length = N.length →
    (none ∉ defSlots N xs → finishLoop (N ++ (S.toList ++ K.toList)) pre.length s
      = { s with single := pre ++ defSlots N xs ++ ys }) ∧
    (none ∈ defSlots N xs → (finishLoop (N ++ (S.toList ++ K.toList)) pre.length s).valid = false) := by
  intro N
  induction N with
  | nil =>
    intro pre xs ys s _ hs hl
    have : xs = [] := List.length_eq_zero_iff.1 (by simpa using hl)
    subst this
    refine ⟨fun _ => ?_, fun h => by simp [defSlots] at h⟩
    rw [List.nil_append, finishLoop_tail S K hS hK]
    simp [defSlots, ← hs] at hs ⊢
    rw [← hs]
  | cons a N ih =>
    intro pre xs ys s hN hs hl
    match xs, hl with
    | x :: xs, hl =>
      have ha := hN a (by simp)
      have hl' : xs.length = N.length := by simpa using hl
      have hget : s.single[pre.length]? = some x := by rw [hs]; simp
      rw [List.cons_append]
      unfold finishLoop
      rw [hget]
      cases x with
      | some v =>
        have ih' := ih (pre ++ [some v]) xs ys s (fun b hb => hN b (by simp [hb])) (by rw [hs]; simp) hl'
        simp only [List.length_append, List.length_singleton] at ih'
        simp only [Bool.and_false, Bool.false_eq_true, ↓reduceIte]
        have hd : defSlots (a :: N) (some v :: xs) = some v :: defSlots N xs := by simp [defSlots]
        rw [hd]
        constructor
        · intro hno
          rw [ih'.1 (fun hh => hno (by simp [hh]))]
          simp
        · intro hno
          exact ih'.2 (by simpa using hno)
      | none =>
        simp only [Param.isNormal, ha, Bool.not_false, Bool.and_self, ↓reduceIte]
        cases hd : a.default with
        | none =>
          refine ⟨fun hno => absurd (by simp [defSlots, hd]) hno, fun _ => rfl⟩
        | some d =>
          have ih' := ih (pre ++ [some d]) xs ys { s with single := s.single.set pre.length (some d) }
            (fun b hb => hN b (by simp [hb])) (by simp only [hs]; simp) hl'
          simp only [List.length_append, List.length_singleton] at ih'
          have hd' : defSlots (a :: N) (none :: xs) = some d :: defSlots N xs := by simp [defSlots, hd]
          rw [hd']
          simp only
          constructor
          · intro hno
            rw [ih'.1 (fun hh => hno (by simp [hh]))]
            simp
          · intro hno
            exact ih'.2 (by simpa using hno)

/-- Reading the final state. -/
theorem extract_phase (S K : Option (Param V T)) (hS : ∀ a ∈ S, a.isStar = true ∧ a.isKw = false)
    (hK : ∀ a ∈ K, a.isKw = true ∧ a.isStar = false) (s : St V T) : ∀ (N : List (Param V T)) (pre : List (Option V))
    (vals : List V) (ys : List (Option V)), (∀ a ∈ N, a.isKw = false ∧ a.isStar = false) →
    s.single = pre ++ vals.map some ++ ys → vals.length = N.length →
    extract s (N ++ (S.toList ++ K.toList)) pre.length = .ok (vals.map .one
      ++ (if S.isSome then [Arg.star s.star] else []) ++ (if K.isSome then [Arg.kw s.kw] else [])) := by
  intro N
  induction N with
  | nil =>
    intro pre vals ys _ hs hl
    have : vals = [] := List.length_eq_zero_iff.1 (by simpa using hl)
    subst this
    cases S with
    | none =>
      cases K with
      | none => rfl
      | some b => simp [extract, Param.isNormal, hK b rfl, Except.map]
    | some a =>
      cases K with
      | none => simp [extract, Param.isNormal, hS a rfl, Except.map]
      | some b => simp [extract, Param.isNormal, hS a rfl, hK b rfl, Except.map]
  | cons a N ih =>
    intro pre vals ys hN hs hl
    match vals, hl with
    | v :: vals, hl =>
      have ha := hN a (by simp)
      have hget : s.single[pre.length]? = some (some v) := by rw [hs]; simp
      rw [List.cons_append]
      unfold extract
      rw [hget]
      simp only [Param.isNormal, ha, Bool.not_false, Bool.and_self, ↓reduceIte]
      have := ih (pre ++ [some v]) vals ys (fun b hb => hN b (by simp [hb])) (by rw [hs]; simp) (by simpa using hl)
      simp only [List.length_append, List.length_singleton] at this
      rw [this]
      simp [Except.map]

/-- The flattened tuple likewise. -/
theorem buildPositional_phase (S K : Option (Param V T)) (hS : ∀ a ∈ S, a.isStar = true ∧ a.isKw = false)
    (hK : ∀ a ∈ K, a.isKw = true ∧ a.isStar = false) (s : St V T) : ∀ (N : List (Param V T)) (pre : List (Option V))
    (vals : List V) (ys : List (Option V)), (∀ a ∈ N, a.isKw = false ∧ a.isStar = false) →
    s.single = pre ++ vals.map some ++ ys → vals.length = N.length →
    buildPositional s (N ++ (S.toList ++ K.toList)) pre.length = .ok (vals
      ++ (if S.isSome then s.star else [])) := by
  intro N
  induction N with
  | nil =>
    intro pre vals ys _ hs hl
    have : vals = [] := List.length_eq_zero_iff.1 (by simpa using hl)
    subst this
    cases S with
    | none =>
      cases K with
      | none => rfl
      | some b => simp [buildPositional, Param.isNormal, hK b rfl]
    | some a =>
      cases K with
      | none => simp [buildPositional, Param.isNormal, hS a rfl, Except.map]
      | some b => simp [buildPositional, Param.isNormal, hS a rfl, hK b rfl, Except.map]
  | cons a N ih =>
    intro pre vals ys hN hs hl
    match vals, hl with
    | v :: vals, hl =>
      have ha := hN a (by simp)
      have hget : s.single[pre.length]? = some (some v) := by rw [hs]; simp
      rw [List.cons_append]
      unfold buildPositional
      rw [hget]
      simp only [Param.isNormal, ha, Bool.not_false, Bool.and_self, ↓reduceIte]
      have := ih (pre ++ [some v]) vals ys (fun b hb => hN b (by simp [hb])) (by rw [hs]; simp) (by simpa using hl)
      simp only [List.length_append, List.length_singleton] at this
      rw [this]
      simp [Except.map]

theorem buildKeyword_phase (h : Shape args N S K) (s : St V T) :
    buildKeyword s args = if K.isSome then some s.kw else none := by
  rw [h.eq]
  have go : ∀ N : List (Param V T), (∀ a ∈ N, a.isKw = false ∧ a.isStar = false) →
      buildKeyword s (N ++ (S.toList ++ K.toList)) = if K.isSome then some s.kw else none := by
    intro N
    induction N with
    | nil =>
      intro _
      have hS := h.star
      have hK := h.kw
      cases S with
      | none =>
        cases K with
        | none => rfl
        | some b => simp [buildKeyword, hK b rfl]
      | some a =>
        cases K with
        | none => simp [buildKeyword, hS a rfl]
        | some b => simp [buildKeyword, hS a rfl, hK b rfl]
    | cons a N ih =>
      intro hN
      rw [List.cons_append]
      unfold buildKeyword
      rw [(hN a (by simp)).1]
      simp only [Bool.false_eq_true, ↓reduceIte]
      exact ih (fun b hb => hN b (by simp [hb]))
  exact go N h.normal

end
end Verif.ArgMapping
