import Verif.SortedDict.Remove
import Mathlib.Tactic.Linarith
import Mathlib.Tactic.Ring
import Mathlib.Tactic.NormNum
/-
Property theorems C01 (finite map), C02 (no internal failure, termination), C03 (balance).
-/
namespace Verif.SortedDict
open Spec
variable {K V : Type} {lt : K → K → Bool}

/-! ### Helper lemmas -/

/-- Iterations the loop of `items` spends on a subtree. -/
def steps : T K V → Nat
  | .nil => 0
  | .node .nil _ _ _ r => 1 + steps r
  | .node (.node a b c d e) _ _ _ r => 2 + steps (.node a b c d e) + steps r

theorem steps_le (t : T K V) : steps t ≤ 2 * t.size := by
  induction t with
  | nil => simp [steps]
  | node l k v c r ihl ihr =>
    cases l with
    | nil => simp only [steps, T.size] at *; omega
    | node => simp only [steps, T.size] at *; omega

theorem itemsLoop_sub (t : T K V) : ∀ (f : Nat) (stack : List (T K V × Bool)) (out : List (K × V)), t ≠ .nil →
    itemsLoop (f + steps t) ((t, true) :: stack) out = itemsLoop f stack (out ++ t.toList) := by
  induction t with
  | nil => intro f s o h; exact absurd rfl h
  | node l k v c r ihl ihr =>
    intro f stack out _
    -- the right part, common to both cases
    have right : ∀ out', (match (generalizing := false) r with
        | .node .. => itemsLoop (f + steps r) ((r, true) :: stack) (out' ++ [(k, v)])
        | .nil => itemsLoop (f + steps r) stack (out' ++ [(k, v)])) =
        itemsLoop f stack (out' ++ ((k, v) :: r.toList)) := by
      intro out'
      cases r with
      | nil => simp [steps, T.toList]
      | node ra rb rc rd re =>
        rw [ihr f stack (out' ++ [(k, v)]) (by simp)]
        simp
    cases l with
    | nil =>
      have e : f + steps (T.node .nil k v c r) = (f + steps r) + 1 := by simp only [steps]; omega
      rw [e, itemsLoop.eq_def]
      simp only [if_true]
      exact right out
    | node la lb lc ld le =>
      have e : f + steps (T.node (.node la lb lc ld le) k v c r) =
          ((f + steps r + 1) + steps (.node la lb lc ld le)) + 1 := by simp only [steps]; omega
      rw [e, itemsLoop.eq_def]
      simp only [if_true]
      rw [ihl _ _ _ (by simp), itemsLoop.eq_def]
      simp only [Bool.false_eq_true, if_false]
      refine (right _).trans ?_
      simp [T.toList]

theorem items_ok {t : T K V} {f : Nat} (h : 2 * t.size ≤ f) : items f t = .ok t.toList := by
  unfold items
  cases t with
  | nil => rfl
  | node l k v c r =>
    have hs := steps_le (T.node l k v c r)
    obtain ⟨f', rfl⟩ : ∃ f', f = f' + steps (T.node l k v c r) := ⟨f - steps (T.node l k v c r), by omega⟩
    simp only
    rw [itemsLoop_sub _ _ _ _ (by simp)]
    cases f' <;> simp [itemsLoop]

/-- No two entries have the same key. -/
def Distinct (lt : K → K → Bool) (m : List (K × V)) : Prop := m.Pairwise (fun a b => same lt a.1 b.1 = false)

theorem distinct_of_asc {m : List (K × V)} (h : Ascending lt m) : Distinct lt m := by
  refine List.Pairwise.imp ?_ h
  intro a b hab
  simp [same, hab]

theorem same_comm (a b : K) : same lt a b = same lt b a := by
  simp [same, Bool.and_comm]

theorem same_trans (sw : StrictWeak lt) {a b c : K} (h1 : same lt a b = true) (h2 : same lt b c = true) :
    same lt a c = true := by
  simp only [same, Bool.and_eq_true, Bool.not_eq_true'] at *
  exact ⟨sw.ntrans _ _ _ h1.1 h2.1, sw.ntrans _ _ _ h2.2 h1.2⟩

theorem distinct_perm {m m' : List (K × V)} (p : m.Perm m') (h : Distinct lt m) : Distinct lt m' := by
  refine (p.pairwise_iff ?_).mp h
  intro a b hab
  rw [same_comm]; exact hab

theorem lookup_some_iff (sw : StrictWeak lt) {m : List (K × V)} (h : Distinct lt m) (k : K) (v : V) :
    lookup lt m k = some v ↔ ∃ e ∈ m, same lt e.1 k = true ∧ e.2 = v := by
  induction m with
  | nil => simp [lookup]
  | cons a m ih =>
    obtain ⟨h1, h2⟩ := List.pairwise_cons.mp h
    have ih := ih h2
    unfold lookup at *
    by_cases ha : same lt a.1 k = true
    · rw [List.find?_cons_of_pos (by simpa using ha)]
      simp only [Option.map_some, Option.some.injEq]
      constructor
      · intro h; exact ⟨a, by simp, ha, h⟩
      · rintro ⟨e, he, h3, h4⟩
        rcases List.mem_cons.mp he with rfl | he
        · exact h4
        · exfalso
          have := h1 e he
          rw [same_comm] at h3
          have := same_trans sw ha h3
          simp_all
    · rw [List.find?_cons_of_neg (by simpa using ha), ih]
      constructor
      · rintro ⟨e, he, h3⟩; exact ⟨e, by simp [he], h3⟩
      · rintro ⟨e, he, h3⟩
        rcases List.mem_cons.mp he with rfl | he
        · exact absurd h3.1 ha
        · exact ⟨e, he, h3⟩

theorem lookup_perm (sw : StrictWeak lt) {m m' : List (K × V)} (p : m.Perm m') (h : Distinct lt m) (k : K) :
    lookup lt m k = lookup lt m' k := by
  apply Option.ext
  intro v
  rw [lookup_some_iff sw h, lookup_some_iff sw (distinct_perm p h)]
  constructor
  · rintro ⟨e, he, h⟩; exact ⟨e, p.mem_iff.mp he, h⟩
  · rintro ⟨e, he, h⟩; exact ⟨e, p.mem_iff.mpr he, h⟩

theorem ins_absent {L : List (K × V)} {k : K} {v : V} (h : ∀ e ∈ L, same lt e.1 k = false) :
    (ins lt k v L).Perm (L ++ [(k, v)]) := by
  induction L with
  | nil => simp [ins]
  | cons a L ih =>
    obtain ⟨b, y⟩ := a
    simp only [ins]
    split
    · exact (List.perm_append_comm (l₁ := [(k, v)]) (l₂ := (b, y) :: L))
    · rename_i h1
      split
      · exact List.Perm.cons _ (ih (fun e he => h e (by simp [he])))
      · rename_i h2
        have := h (b, y) (by simp)
        simp only [same, Bool.and_eq_false_iff, Bool.not_eq_false'] at this
        rcases this with h | h <;> simp_all

theorem ins_present (sw : StrictWeak lt) {L : List (K × V)} (hs : Ascending lt L) {k : K} {v : V}
    (h : ∃ e ∈ L, same lt e.1 k = true) :
    ins lt k v L = L.map (fun e => if same lt e.1 k then (e.1, v) else e) := by
  induction L with
  | nil => simp at h
  | cons a L ih =>
    obtain ⟨b, y⟩ := a
    obtain ⟨s1, s2⟩ := List.pairwise_cons.mp hs
    simp only [ins]
    split
    · rename_i h1
      exfalso
      obtain ⟨e, he, h2⟩ := h
      simp only [same, Bool.and_eq_true, Bool.not_eq_true'] at h2
      rcases List.mem_cons.mp he with rfl | he
      · simp_all
      · have := sw_trans sw h1 (s1 e he); simp_all
    · rename_i h1
      split
      · rename_i h2
        have : same lt b k = false := by simp [same, h2]
        simp only [List.map_cons, this, Bool.false_eq_true, if_false]
        rw [ih s2]
        obtain ⟨e, he, h3⟩ := h
        rcases List.mem_cons.mp he with rfl | he
        · simp_all
        · exact ⟨e, he, h3⟩
      · rename_i h2
        have hb : same lt b k = true := by simp [same]; simp_all
        simp only [List.map_cons, hb, if_true]
        congr 1
        symm
        have : ∀ e ∈ L, (if same lt e.1 k = true then (e.1, v) else e) = e := by
          intro e he
          have h3 := s1 e he
          rw [if_neg]
          intro h4
          rw [same_comm] at h4
          have := same_trans sw hb h4
          simp [same, h3] at this
        conv_rhs => rw [← List.map_id L]
        exact List.map_congr_left this

theorem ins_assign (sw : StrictWeak lt) {L m : List (K × V)} (hs : Ascending lt L) (p : L.Perm m) (k : K) (v : V) :
    (ins lt k v L).Perm (assign lt m k v) := by
  have hd := distinct_of_asc hs
  unfold assign
  rw [← lookup_perm sw p hd]
  by_cases h : (lookup lt L k).isSome = true
  · rw [if_pos h]
    obtain ⟨x, hx⟩ := Option.isSome_iff_exists.mp h
    obtain ⟨e, he, h2, -⟩ := (lookup_some_iff sw hd k x).mp hx
    rw [ins_present sw hs ⟨e, he, h2⟩]
    exact p.map _
  · rw [if_neg h]
    have hn : lookup lt L k = none := by simpa using h
    refine (ins_absent ?_).trans (p.append_right _)
    intro e he
    by_contra hc
    have := (lookup_some_iff sw hd k e.2).mpr ⟨e, he, by simpa using hc, rfl⟩
    simp_all

/-- The tree represents the map. -/
def Rep (lt : K → K → Bool) (t : T K V) (m : List (K × V)) : Prop :=
  Good t ∧ Ascending lt t.toList ∧ t.toList.Perm m

theorem rep_set (sw : StrictWeak lt) {t : T K V} {m : List (K × V)} (h : Rep lt t m) (k : K) (v : V) {f : Nat}
    (hf : t.size + 5 ≤ f) : ∃ t', setitem lt f t k v = .ok t' ∧ Rep lt t' (assign lt m k v) ∧
      t'.size ≤ t.size + 1 ∧ t'.toList = ins lt k v t.toList := by
  obtain ⟨g, s, p⟩ := h
  cases t with
  | nil =>
    refine ⟨leaf k v, rfl, ⟨?_, ?_, ?_⟩, by simp [leaf, T.size], rfl⟩
    · simp [leaf, Good, T.size]
    · simp [leaf, T.toList, Ascending]
    · exact ins_assign sw s p k v
  | node l k' v' c r =>
    obtain ⟨t', b, h1, h2, h3, h4⟩ := set_ok sw k v _ f hf (by simp) g s
    refine ⟨t', ?_, ⟨h2, ?_, ?_⟩, ?_, h3⟩
    · simp [setitem, h1, bind, Except.bind]
    · rw [h3]; exact asc_ins sw s
    · rw [h3]; exact ins_assign sw s p k v
    · rw [h4]; split <;> omega

theorem rep_del (sw : StrictWeak lt) {t : T K V} {m : List (K × V)} (h : Rep lt t m) (k : K) {f : Nat}
    (hf : t.size + 5 ≤ f) :
    (lookup lt m k = none → removeF lt f t k = .error .keyError) ∧
    (∀ v, lookup lt m k = some v → ∃ t' e, removeF lt f t k = .ok (t', e) ∧
      Rep lt (if e then .nil else t') (erase lt m k) ∧ (if e then T.nil else t').size ≤ t.size) := by
  obtain ⟨g, s, p⟩ := h
  obtain ⟨h1, h2⟩ := remove_ok sw t k f hf g s
  rw [← lookup_perm sw p (distinct_of_asc s)]
  refine ⟨h1, ?_⟩
  intro v hv
  obtain ⟨t', e, q1, q2, q3, q4⟩ := h2 v hv
  refine ⟨t', e, q1, ⟨q2, ?_, ?_⟩, by omega⟩
  · rw [q3]; exact asc_erase s
  · rw [q3]; exact p.filter _

theorem erase_absent (sw : StrictWeak lt) {m : List (K × V)} (hd : Distinct lt m) {k : K}
    (h : lookup lt m k = none) : erase lt m k = m := by
  unfold erase
  rw [List.filter_eq_self]
  intro e he
  by_contra hc
  have : same lt e.1 k = true := by simpa using hc
  have := (lookup_some_iff sw hd k e.2).mpr ⟨e, he, this, rfl⟩
  simp_all

theorem lookup_ins_self (sw : StrictWeak lt) {L : List (K × V)} (hs : Ascending lt L) (k : K) (v : V) :
    lookup lt (ins lt k v L) k = some v := by
  rw [lookup_some_iff sw (distinct_of_asc (asc_ins sw hs))]
  by_cases h : ∃ e ∈ L, same lt e.1 k = true
  · obtain ⟨e, he, h2⟩ := h
    rw [ins_present sw hs ⟨e, he, h2⟩]
    refine ⟨(e.1, v), ?_, h2, rfl⟩
    rw [List.mem_map]
    exact ⟨e, he, by simp [h2]⟩
  · have : (k, v) ∈ ins lt k v L := by
      refine (ins_absent ?_).mem_iff.mpr (by simp)
      intro e he
      by_contra hc
      exact h ⟨e, he, by simpa using hc⟩
    exact ⟨(k, v), this, by simp [same, sw_irrefl sw], rfl⟩

/-- One method call answers as the map does and leaves a tree representing the resulting map. -/
theorem step_ok (sw : StrictWeak lt) {t : T K V} {m : List (K × V)} (h : Rep lt t m) (op : Op K V) {f : Nat}
    (hf : 2 * t.size + 5 ≤ f) :
    Rep lt (step lt f t op).1 (effect lt m op) ∧ (step lt f t op).1.size ≤ t.size + 1 ∧
    ∃ r, Answer lt m op r ∧ (step lt f t op).2 = (match r with | some x => .ok x | none => .error .keyError) := by
  have hR := h
  obtain ⟨g, s, p⟩ := h
  have hd := distinct_of_asc s
  have hdm := distinct_perm p hd
  have hget : ∀ k, t.get lt k = (match lookup lt m k with | some v => .ok v | none => .error .keyError) := by
    intro k; rw [(get_spec sw k t s).1, lookup_perm sw p hd]; cases lookup lt m k <;> rfl
  have hcon : ∀ k, t.contains lt k = (lookup lt m k).isSome := by
    intro k; rw [(get_spec sw k t s).2, lookup_perm sw p hd]
  have hnil : t = .nil → ∀ k, lookup lt m k = none := by
    rintro rfl k
    rw [← lookup_perm sw p hd]; rfl
  have hmnil : t = .nil → m = [] := by
    rintro rfl; exact List.perm_nil.mp p.symm
  cases op with
  | getitem k =>
    refine ⟨hR, by simp [step], (lookup lt m k).map .val, rfl, ?_⟩
    simp only [step, hget]
    cases lookup lt m k <;> rfl
  | contains k =>
    refine ⟨hR, by simp [step], _, rfl, ?_⟩
    simp [step, hcon]
  | setitem k v =>
    obtain ⟨t', h1, h2, h3, -⟩ := rep_set sw hR k v (f := f) (by omega)
    simp only [step, h1]
    exact ⟨h2, h3, _, rfl, rfl⟩
  | delitem k =>
    obtain ⟨h1, h2⟩ := rep_del sw hR k (f := f) (by omega)
    cases hl : lookup lt m k with
    | none =>
      have e : delitem lt f t k = .error .keyError := by
        cases t with
        | nil => rfl
        | node => simp [delitem, h1 hl, bind, Except.bind]
      simp only [step, e, effect]
      rw [erase_absent sw hdm hl]
      refine ⟨hR, by simp, none, ?_, rfl⟩
      simp [Answer, hl]
    | some v =>
      obtain ⟨t', e, q1, q2, q3⟩ := h2 v hl
      have e : delitem lt f t k = .ok (if e then .nil else t') := by
        cases t with
        | nil => have := hnil rfl k; simp_all
        | node => simp [delitem, q1, bind, Except.bind]
      simp only [step, e, effect]
      refine ⟨q2, by omega, some .unit, ?_, rfl⟩
      simp [Answer, hl]
  | pop k =>
    obtain ⟨h1, h2⟩ := rep_del sw hR k (f := f) (by omega)
    cases hl : lookup lt m k with
    | none =>
      have e : pop lt f t k = .error .keyError := by
        cases t with
        | nil => rfl
        | node => simp [pop, hget, hl, bind, Except.bind]
      simp only [step, e, effect]
      rw [erase_absent sw hdm hl]
      refine ⟨hR, by simp, none, ?_, rfl⟩
      simp [Answer, hl]
    | some v =>
      obtain ⟨t', e, q1, q2, q3⟩ := h2 v hl
      have e : pop lt f t k = .ok (if e then .nil else t', v) := by
        cases t with
        | nil => have := hnil rfl k; simp_all
        | node => simp [pop, hget, hl, q1, bind, Except.bind]
      simp only [step, e, effect]
      refine ⟨q2, by omega, some (.val v), ?_, rfl⟩
      simp [Answer, hl]
  | popD k v =>
    obtain ⟨h1, h2⟩ := rep_del sw hR k (f := f) (by omega)
    cases hl : lookup lt m k with
    | none =>
      have e : popD lt f t k v = .ok (t, v) := by
        simp [popD, hcon, hl]
      simp only [step, e, effect]
      rw [erase_absent sw hdm hl]
      refine ⟨hR, by simp, some (.val v), ?_, rfl⟩
      simp [Answer, hl]
    | some v' =>
      obtain ⟨t', e, q1, q2, q3⟩ := h2 v' hl
      have e : popD lt f t k v = .ok (if e then .nil else t', v') := by
        simp [popD, hcon, hget, hl, q1, bind, Except.bind]
      simp only [step, e, effect]
      refine ⟨q2, by omega, some (.val v'), ?_, rfl⟩
      simp [Answer, hl]
  | first =>
    cases ht : t with
    | nil =>
      rw [← ht]
      have e : step lt f t .first = (t, .ok (.key none)) := by rw [ht]; rfl
      rw [e]
      exact ⟨hR, by simp, some (.key none), Or.inl ⟨hmnil ht, rfl⟩, rfl⟩
    | node l k v c r =>
      rw [← ht]
      obtain ⟨x, L, h1, h2⟩ := first_spec t (by rw [ht]; simp)
      have e : step lt f t .first = (t, .ok (.key (some x.1))) := by
        rw [ht] at h2 ⊢; simp only [step, h2]; rfl
      rw [e]
      refine ⟨hR, by simp, some (.key (some x.1)), Or.inr ⟨x, ?_, ?_, rfl⟩, rfl⟩
      · exact p.mem_iff.mp (by rw [h1]; simp)
      · intro e' he'
        have := p.mem_iff.mpr he'
        rw [h1] at this s
        rcases List.mem_cons.mp this with rfl | h
        · exact sw_irrefl sw _
        · exact sw.asymm _ _ ((List.pairwise_cons.mp s).1 e' h)
  | last =>
    cases ht : t with
    | nil =>
      rw [← ht]
      have e : step lt f t .last = (t, .ok (.key none)) := by rw [ht]; rfl
      rw [e]
      exact ⟨hR, by simp, some (.key none), Or.inl ⟨hmnil ht, rfl⟩, rfl⟩
    | node l k v c r =>
      rw [← ht]
      obtain ⟨x, L, h1, h2⟩ := last_spec t (by rw [ht]; simp)
      have e : step lt f t .last = (t, .ok (.key (some x.1))) := by
        rw [ht] at h2 ⊢; simp only [step, h2]; rfl
      rw [e]
      refine ⟨hR, by simp, some (.key (some x.1)), Or.inr ⟨x, ?_, ?_, rfl⟩, rfl⟩
      · exact p.mem_iff.mp (by rw [h1]; simp)
      · intro e' he'
        have := p.mem_iff.mpr he'
        rw [h1] at this s
        rcases List.mem_append.mp this with h | h
        · exact sw.asymm _ _ ((List.pairwise_append.mp s).2.2 e' h x (by simp))
        · simp only [List.mem_singleton] at h; subst h; exact sw_irrefl sw _
  | getD k v =>
    cases hl : lookup lt m k with
    | none =>
      have e : step lt f t (.getD k v) = (t, .ok (.val v)) := by simp [step, hcon, hl]
      rw [e]
      exact ⟨hR, by simp, some (.val v), by simp [Answer, hl], rfl⟩
    | some w =>
      have e : step lt f t (.getD k v) = (t, .ok (.val w)) := by simp [step, hcon, hget, hl, Except.map]
      rw [e]
      exact ⟨hR, by simp, some (.val w), by simp [Answer, hl], rfl⟩
  | setdefault k v =>
    cases hl : lookup lt m k with
    | none =>
      obtain ⟨t', h1, h2, h3, h4⟩ := rep_set sw hR k v (f := f) (by omega)
      have e : step lt f t (.setdefault k v) = (t', .ok (.val v)) := by
        have hg : t'.get lt k = .ok v := by
          rw [(get_spec sw k t' h2.2.1).1, h4, lookup_ins_self sw s]
        simp [step, hcon, hl, h1, hg, Except.map]
      rw [e]
      refine ⟨?_, h3, some (.val v), by simp [Answer, hl], rfl⟩
      simpa [effect, hl] using h2
    | some w =>
      have e : step lt f t (.setdefault k v) = (t, .ok (.val w)) := by simp [step, hcon, hget, hl, Except.map]
      rw [e]
      refine ⟨?_, by simp, some (.val w), by simp [Answer, hl], rfl⟩
      simpa [effect, hl] using hR
  | len =>
    refine ⟨hR, by simp [step], _, rfl, ?_⟩
    simp only [step, g.cnt, t.size_eq, p.length_eq]
  | items =>
    refine ⟨hR, by simp [step], some (.list t.toList), ⟨_, rfl, p, s⟩, ?_⟩
    simp only [step, items_ok (show 2 * t.size ≤ f by omega)]
    rfl

theorem run_ok (sw : StrictWeak lt) (ops : List (Op K V)) : ∀ {t : T K V} {m : List (K × V)} {f : Nat}, Rep lt t m →
    2 * (t.size + ops.length) + 5 ≤ f →
    Rep lt (run lt f t ops).1 (ops.foldl (effect lt) m) ∧ Answers lt m ops (run lt f t ops).2 ∧
    (run lt f t ops).1.size ≤ t.size + ops.length := by
  induction ops with
  | nil => intro t m f h hf; exact ⟨h, rfl, by simp [run]⟩
  | cons op ops ih =>
    intro t m f h hf
    simp only [List.length_cons] at hf
    obtain ⟨h1, h2, r, h3, h4⟩ := step_ok sw h op (f := f) (by omega)
    obtain ⟨i1, i2, i3⟩ := ih (f := f) h1 (by omega)
    refine ⟨i1, ⟨_, _, rfl, ⟨r, h3, h4⟩, i2⟩, ?_⟩
    simp only [List.length_cons]
    exact le_trans i3 (by omega)

namespace Props

/-! ### C01 -/

/-- C01: after any history of calls on a fresh SortedDict, every call has answered exactly as the association list
does (`KeyError` included), and a further `items()` yields the association list sorted strictly by key. -/
theorem sorted_dict_is_map (sw : StrictWeak lt) (ops : List (Op K V)) (f : Nat) (hf : 2 * ops.length + 5 ≤ f) :
    Answers lt [] ops (run lt f .nil ops).2 := by
  refine (run_ok sw ops (t := .nil) (m := []) ⟨trivial, ?_, List.Perm.refl _⟩ ?_).2.1
  · simp [T.toList, Ascending]
  · simp only [T.size]; omega

/-- C01: iteration yields the keys of the items. -/
theorem iter_keys (sw : StrictWeak lt) (ops : List (Op K V)) (f : Nat) (hf : 2 * ops.length + 5 ≤ f) :
    ∃ l, iter f (run lt f .nil ops).1 = .ok (l.map (·.1)) ∧ l.Perm (ops.foldl (effect lt) []) ∧ Ascending lt l := by
  obtain ⟨⟨h1, h2, h3⟩, -, h4⟩ := run_ok sw ops (t := .nil) (m := []) (f := f)
    ⟨trivial, by simp [T.toList, Ascending], List.Perm.refl _⟩ (by simp only [T.size]; omega)
  simp only [T.size] at h4
  refine ⟨_, ?_, h3, h2⟩
  unfold iter
  rw [items_ok (by omega)]
  rfl

/-- Integers with `<` (the default comparator). -/
def ltInt (a b : Int) : Bool := decide (a < b)

theorem ltInt_sw : StrictWeak ltInt := by
  constructor
  · intro a b h; simp [ltInt] at *; omega
  · intro a b c h1 h2; simp [ltInt] at *; omega

example : (run ltInt 100 (.nil : T Int Int) [.setitem 3 30, .setitem 1 10, .setitem 2 20, .setitem 3 31, .len,
    .pop 1, .getitem 1, .items, .first, .last]).2 =
    [.ok .unit, .ok .unit, .ok .unit, .ok .unit, .ok (.int 3), .ok (.val 10), .error .keyError,
     .ok (.list [(2, 20), (3, 31)]), .ok (.key (some 2)), .ok (.key (some 3))] := by decide

/-- A comparator that compares only the tens digit satisfies the hypotheses too: keys 11 and 12 are one key. -/
example : StrictWeak (fun a b : Int => decide (a / 10 < b / 10)) := by
  constructor
  · intro a b h; simp at *; omega
  · intro a b c h1 h2; simp at *; omega

/-! ### C02 -/

/-- C02: no history makes a call fail with anything but `KeyError` - no attribute access on `None`, no failed
assertion, no unbounded recursion. -/
theorem sorted_dict_never_breaks (sw : StrictWeak lt) (ops : List (Op K V)) (f : Nat) (hf : 2 * ops.length + 5 ≤ f) :
    ∀ o ∈ (run lt f .nil ops).2, ∀ e, o = .error e → e = .keyError := by
  have h := sorted_dict_is_map sw ops f hf
  generalize (run lt f .nil ops).2 = os at h
  generalize ([] : List (K × V)) = m at h
  clear hf
  induction ops generalizing m os with
  | nil => simp [Answers] at h; simp [h]
  | cons op ops ih =>
    obtain ⟨o, os', rfl, ⟨r, h1, h2⟩, h3⟩ := h
    intro o' ho' e he
    rcases List.mem_cons.mp ho' with rfl | h
    · rw [h2] at he
      cases r with
      | none => simpa using he.symm
      | some x => simp at he
    · exact ih os' _ h3 o' h e he

/-- C02: recursion depth.  A fixed multiple of the history length is enough depth, so a deeper limit changes no
answer and not the tree. -/
theorem depth_irrelevant (sw : StrictWeak lt) (ops : List (Op K V)) (f : Nat) (hf : 2 * ops.length + 5 ≤ f) :
    ∀ o ∈ (run lt f .nil ops).2, o ≠ .error .fuel := by
  intro o ho he
  have := sorted_dict_never_breaks sw ops f hf o ho .fuel he
  cases this

/-- C02: the class's own `_checkInvariants` (`lib/sorted_dict.py:94-105`) holds after every history: counts are exact
and children are ordered around their parent. -/
def CheckInvariants (lt : K → K → Bool) : T K V → Prop
  | .nil => True
  | .node l k _ c r => c = 1 + l.cnt + r.cnt ∧
      (match l with | .nil => True | .node _ lk _ _ _ => lt lk k = true) ∧
      (match r with | .nil => True | .node _ rk _ _ _ => lt k rk = true) ∧
      CheckInvariants lt l ∧ CheckInvariants lt r

theorem invariants_hold (sw : StrictWeak lt) (ops : List (Op K V)) (f : Nat) (hf : 2 * ops.length + 5 ≤ f) :
    CheckInvariants lt (run lt f .nil ops).1 := by
  obtain ⟨⟨h1, h2, -⟩, -, -⟩ := run_ok sw ops (t := .nil) (m := []) (f := f)
    ⟨trivial, by simp [T.toList, Ascending], List.Perm.refl _⟩ (by simp only [T.size]; omega)
  generalize (run lt f .nil ops).1 = t at h1 h2
  induction t with
  | nil => trivial
  | node l k v c r ihl ihr =>
    obtain ⟨gl, gr, hc, -, -⟩ := h1
    obtain ⟨sl, sr, a1, a2, -⟩ := asc_append.mp h2
    refine ⟨?_, ?_, ?_, ihl gl sl, ihr gr sr⟩
    · rw [gl.cnt, gr.cnt]; omega
    · cases l with
      | nil => trivial
      | node _ lk lv _ _ => exact a1 (lk, lv) (by simp [T.toList])
    · cases r with
      | nil => trivial
      | node _ rk rv _ _ => exact a2 (rk, rv) (by simp [T.toList])

/-! ### C03 -/

/-- C03 (partial): after every history the height is at most half the number of keys plus one and a half.  Missing:
a logarithmic bound, which is false (`balance_refuted`). -/
theorem height_bound_partial (sw : StrictWeak lt) (ops : List (Op K V)) (f : Nat) (hf : 2 * ops.length + 5 ≤ f) :
    2 * (run lt f .nil ops).1.height ≤ (run lt f .nil ops).1.cnt + 3 := by
  obtain ⟨⟨h1, -, -⟩, -, -⟩ := run_ok sw ops (t := .nil) (m := []) (f := f)
    ⟨trivial, by simp [T.toList, Ascending], List.Perm.refl _⟩ (by simp only [T.size]; omega)
  rw [h1.cnt]
  generalize (run lt f .nil ops).1 = t at h1
  have small : ∀ t : T K V, t.height ≤ t.size := by
    intro t
    induction t with
    | nil => simp [T.height]
    | node l k v c r ihl ihr => simp only [T.height, T.size]; omega
  induction t with
  | nil => simp [T.height, T.size]
  | node l k v c r ihl ihr =>
    obtain ⟨gl, gr, hc, nl, nr⟩ := h1
    have il := ihl gl
    have ir := ihr gr
    have sl := small l
    have sr := small r
    have h0 : ∀ t : T K V, 0 ≤ t.height := by
      intro t; cases t <;> simp [T.height]
    have hl0 := h0 l
    have hr0 := h0 r
    simp only [T.height, T.size]
    by_cases c1 : l.size = 0
    · have := nl c1; omega
    · by_cases c2 : r.size = 0
      · have := nr c2; omega
      · omega

/-! The zig-zag family: inserting `a, b, a+1, b-1, a+2, b-2, ...` -/

def hist : Nat → Int → Int → List Int
  | 0, a, b => [a, b]
  | j + 1, a, b => a :: b :: (a + 1) :: (b - 1) :: hist j (a + 2) (b - 2)

def wrap (a b : Int) (X : T Int Int) : T Int Int :=
  .node (leaf a 0) (a + 1) 0 (X.cnt + 4) (.node X (b - 1) 0 (X.cnt + 2) (leaf b 0))

def zig : Nat → Int → Int → T Int Int
  | 0, a, b => .node .nil a 0 2 (leaf b 0)
  | j + 1, a, b => wrap a b (zig j (a + 2) (b - 2))

/-- A node with at most one key on its left. -/
def Slim : T Int Int → Prop
  | .nil => False
  | .node l _ _ c r => 0 ≤ l.cnt ∧ l.cnt ≤ 1 ∧ 0 ≤ r.cnt ∧ 0 ≤ c

/-- Inserting the keys one by one leads from `t` to `t'` through slim trees only. -/
def Path (f : Nat) : T Int Int → List Int → T Int Int → Prop
  | t, [], t' => t = t'
  | t, k :: ks, t' => ∃ t1, ((t = .nil ∧ t1 = leaf k 0) ∨ (t ≠ .nil ∧ setF ltInt f t k 0 = .ok (t1, true))) ∧
      t1.cnt = t.cnt + 1 ∧ Slim t1 ∧ Path f t1 ks t'

theorem cnt_nil : (T.nil : T K V).cnt = 0 := rfl
theorem cnt_node (l : T K V) (k : K) (v : V) (c : Int) (r : T K V) : (T.node l k v c r).cnt = c := rfl

theorem rebal_none (set : T K V → K → V → Except Err (T K V × Bool)) (ll lr rl rr : T K V) (lk k rk : K) (lv v rv : V)
    (lc c rc : Int) (h1 : ll.cnt ≤ (3 + lr.cnt + rl.cnt + rr.cnt) * 2)
    (h2 : rr.cnt ≤ (3 + rl.cnt + lr.cnt + ll.cnt) * 2) :
    rebalWith set (.node (.node ll lk lv lc lr) k v c (.node rl rk rv rc rr)) =
      .ok (.node (.node ll lk lv lc lr) k v c (.node rl rk rv rc rr)) := by
  simp only [rebalWith]
  rw [if_neg (by omega), if_neg (by omega)]

theorem setF_left {f : Nat} {l l' r t : T K V} {k k' : K} {v v' : V} {c : Int} (h : lt k k' = true) (hl : l ≠ .nil)
    (hs : setF lt f l k v = .ok (l', true))
    (hb : rebalWith (setF lt f) (.node l' k' v' (c + 1) r) = .ok t) :
    setF lt (f + 1) (.node l k' v' c r) k v = .ok (t, true) := by
  rw [setF.eq_def]
  simp only [h, if_true]
  cases l with
  | nil => exact absurd rfl hl
  | node => simp [hs, hb, bind, Except.bind]

theorem setF_right {f : Nat} {l r r' t : T K V} {k k' : K} {v v' : V} {c : Int} (h : lt k k' = false)
    (h' : lt k' k = true) (hl : r ≠ .nil) (hs : setF lt f r k v = .ok (r', true))
    (hb : rebalWith (setF lt f) (.node l k' v' (c + 1) r') = .ok t) :
    setF lt (f + 1) (.node l k' v' c r) k v = .ok (t, true) := by
  rw [setF.eq_def]
  simp only [h, h', if_true, Bool.false_eq_true, if_false]
  cases r with
  | nil => exact absurd rfl hl
  | node => simp [hs, hb, bind, Except.bind]

theorem wrap_step (a b k : Int) (X X1 : T Int Int) (f : Nat) (h1 : a + 1 < k) (h2 : k < b - 1)
    (hx : (X = .nil ∧ X1 = leaf k 0) ∨ (X ≠ .nil ∧ setF ltInt f X k 0 = .ok (X1, true)))
    (hc : X1.cnt = X.cnt + 1) (hl : Slim X1) :
    setF ltInt (f + 2) (wrap a b X) k 0 = .ok (wrap a b X1, true) := by
  have e1 : ltInt k (a + 1) = false := by simp [ltInt]; omega
  have e2 : ltInt (a + 1) k = true := by simp [ltInt]; omega
  have e3 : ltInt k (b - 1) = true := by simp [ltInt]; omega
  rcases hx with ⟨rfl, rfl⟩ | ⟨hX, hs⟩
  · simp [wrap, setF, e1, e2, e3, leaf, rebalWith, T.cnt, bind, Except.bind]
  · cases X1 with
    | nil => exact hl.elim
    | node yl yk yv yc yr =>
      obtain ⟨l0, l1, r0, c0⟩ := hl
      have w : wrap a b (.node yl yk yv yc yr) = .node (leaf a 0) (a + 1) 0 (X.cnt + 4 + 1)
          (.node (.node yl yk yv yc yr) (b - 1) 0 (X.cnt + 2 + 1) (leaf b 0)) := by
        rw [cnt_node] at hc
        have z1 : X.cnt + 4 + 1 = yc + 4 := by omega
        have z2 : X.cnt + 2 + 1 = yc + 2 := by omega
        rw [z1, z2]
        rfl
      rw [w]
      refine setF_right e1 e2 (by simp) (setF_left e3 hX hs (rebal_none _ _ _ _ _ _ _ _ _ _ _ _ _ _ ?_ ?_))
        (rebal_none _ _ _ _ _ _ _ _ _ _ _ _ _ _ ?_ ?_)
      all_goals simp only [cnt_nil, cnt_node, leaf]; omega

theorem wrap_path (a b : Int) (f : Nat) (ks : List Int) (hk : ∀ k ∈ ks, a + 1 < k ∧ k < b - 1) :
    ∀ (X Y : T Int Int), 0 ≤ X.cnt → Path f X ks Y → Path (f + 2) (wrap a b X) ks (wrap a b Y) := by
  induction ks with
  | nil => intro X Y _ h; simp only [Path] at h ⊢; rw [h]
  | cons k ks ih =>
    rintro X Y h0 ⟨X1, hx, hc, hl, hp⟩
    have hb := hk k (by simp)
    refine ⟨wrap a b X1, Or.inr ⟨by simp [wrap], wrap_step a b k X X1 f hb.1 hb.2 hx hc hl⟩, ?_, ?_, ?_⟩
    · simp only [wrap, cnt_node]; omega
    · simp only [wrap, leaf, Slim, cnt_node]; omega
    · exact ih (fun k h => hk k (by simp [h])) X1 Y (by omega) hp

theorem hist_bounds : ∀ (j : Nat) (a b : Int), a + 4 * j < b → ∀ k ∈ hist j a b, a ≤ k ∧ k ≤ b := by
  intro j
  induction j with
  | zero => intro a b h k hk; simp [hist] at hk; omega
  | succ j ih =>
    intro a b h k hk
    simp only [hist, List.mem_cons] at hk
    rcases hk with rfl | rfl | rfl | rfl | hk
    · omega
    · omega
    · omega
    · omega
    · have := ih (a + 2) (b - 2) (by omega) k hk; omega

theorem zig_path : ∀ (j : Nat) (a b : Int) (g : Nat), a + 4 * j < b →
    Path (2 * j + g + 6) .nil (hist j a b) (zig j a b) := by
  intro j
  induction j with
  | zero =>
    intro a b g h
    have e1 : ltInt b a = false := by simp [ltInt]; omega
    have e2 : ltInt a b = true := by simp [ltInt]; omega
    refine ⟨leaf a 0, Or.inl ⟨rfl, rfl⟩, rfl, by simp [Slim, leaf, T.cnt], .node .nil a 0 2 (leaf b 0), Or.inr ⟨by simp [leaf], ?_⟩,
      by simp [leaf, T.cnt], by simp [Slim, leaf, T.cnt], rfl⟩
    simp [setF, leaf, e1, e2]
  | succ j ih =>
    intro a b g h
    have ih := ih (a + 2) (b - 2) g (by push_cast at h; omega)
    have hw := wrap_path a b _ _ (fun k hk => by
      have := hist_bounds j (a + 2) (b - 2) (by push_cast at h; omega) k hk; omega) _ _ (by simp [T.cnt]) ih
    have ef : 2 * (j + 1) + g + 6 = 2 * j + g + 6 + 2 := by omega
    rw [ef]
    have eF : 2 * j + g + 6 + 2 = (2 * j + g + 2) + 6 := by omega
    generalize 2 * j + g + 6 = F at *
    generalize 2 * j + g + 2 = G at *
    push_cast at h
    have q1 : ltInt b a = false := by simp [ltInt]; omega
    have q2 : ltInt a b = true := by simp [ltInt]; omega
    have q3 : ltInt (a + 1) a = false := by simp [ltInt]
    have q4 : ltInt a (a + 1) = true := by simp [ltInt]
    have q5 : ltInt (a + 1) b = true := by simp [ltInt]; omega
    have q6 : ltInt (b - 1) a = false := by simp [ltInt]; omega
    have q7 : ltInt a (b - 1) = true := by simp [ltInt]; omega
    have q8 : ltInt (b - 1) b = true := by simp [ltInt]
    have q9 : ltInt (b - 1) (a + 1) = false := by simp [ltInt]; omega
    have q10 : ltInt (a + 1) (b - 1) = true := by simp [ltInt]; omega
    have q11 : ltInt b (a + 1) = false := by simp [ltInt]; omega
    have q12 : ltInt b (b - 1) = false := by simp [ltInt]
    refine ⟨leaf a 0, Or.inl ⟨rfl, rfl⟩, rfl, by simp [Slim, leaf, T.cnt],
      .node .nil a 0 2 (leaf b 0), Or.inr ⟨by simp [leaf], ?_⟩, by simp [leaf, T.cnt], by simp [Slim, leaf, T.cnt],
      .node .nil a 0 3 (.node (leaf (a + 1) 0) b 0 2 .nil), Or.inr ⟨by simp, ?_⟩, by simp [T.cnt],
        by simp [Slim, T.cnt],
      wrap a b .nil, Or.inr ⟨by simp, ?_⟩, by simp [wrap, T.cnt], by simp [Slim, leaf, wrap, T.cnt], hw⟩
    · rw [eF]; simp [setF, leaf, q1, q2]
    · rw [eF]; simp [setF, leaf, q3, q4, q5, rebalWith, bind, Except.bind]
    · rw [eF]
      simp [setF, leaf, wrap, T.cnt, rebalWith, bind, Except.bind, q1, q2, q3, q4, q5, q6, q7, q8, q9, q10, q11, q12]

theorem path_run (f : Nat) : ∀ (ks : List Int) (t t' : T Int Int), Path f t ks t' →
    (run ltInt f t (ks.map (fun k => .setitem k 0))).1 = t' := by
  intro ks
  induction ks with
  | nil => intro t t' h; exact h
  | cons k ks ih =>
    rintro t t' ⟨t1, h, -, -, hp⟩
    have e : step ltInt f t (.setitem k 0) = (t1, .ok .unit) := by
      rcases h with ⟨rfl, rfl⟩ | ⟨h1, h2⟩
      · rfl
      · cases t with
        | nil => exact absurd rfl h1
        | node => simp [step, setitem, h2, bind, Except.bind]
    simp only [List.map_cons, run, e]
    exact ih t1 t' hp

theorem zig_cnt : ∀ (j : Nat) (a b : Int), (zig j a b).cnt = 4 * j + 2 := by
  intro j
  induction j with
  | zero => intro a b; rfl
  | succ j ih => intro a b; simp only [zig, wrap, cnt_node, ih]; push_cast; omega

theorem zig_height : ∀ (j : Nat) (a b : Int), (zig j a b).height = 2 * j + 2 := by
  intro j
  induction j with
  | zero => intro a b; simp [zig, leaf, T.height]
  | succ j ih => intro a b; simp only [zig, wrap, leaf, T.height, ih]; push_cast; omega

theorem hist_length : ∀ (j : Nat) (a b : Int), (hist j a b).length = 4 * j + 2 := by
  intro j
  induction j with
  | zero => intro a b; rfl
  | succ j ih => intro a b; simp only [hist, List.length_cons, ih]; omega

/-- C03 refuted: for every `n` there are `4n+2` insertions into a fresh SortedDict (integer keys, default comparator)
after which the tree has height `2n+2`: half the number of keys. -/
theorem balance_refuted (n : Nat) : ∃ ks : List Int, ks.length = 4 * n + 2 ∧
    ∀ f, 2 * ks.length + 5 ≤ f →
      (run ltInt f .nil (ks.map (fun k => Op.setitem k (0 : Int)))).1.cnt = 4 * n + 2 ∧
      (run ltInt f .nil (ks.map (fun k => Op.setitem k (0 : Int)))).1.height = 2 * n + 2 := by
  refine ⟨hist n 0 (4 * n + 1), hist_length _ _ _, ?_⟩
  intro f hf
  rw [hist_length] at hf
  obtain ⟨g, rfl⟩ : ∃ g, f = 2 * n + g + 6 := ⟨f - 2 * n - 6, by omega⟩
  rw [path_run _ _ _ _ (zig_path n 0 (4 * n + 1) g (by omega))]
  exact ⟨zig_cnt _ _ _, zig_height _ _ _⟩

/-- C03 refuted: no constant makes the height logarithmic in the number of keys. -/
theorem no_logarithmic_bound (C : Nat) : ¬ ∀ (ks : List Int) (f : Nat), 2 * ks.length + 5 ≤ f →
    (run ltInt f .nil (ks.map (fun k => Op.setitem k (0 : Int)))).1.height ≤
      C * (Nat.log2 (run ltInt f .nil (ks.map (fun k => Op.setitem k (0 : Int)))).1.cnt.toNat + 1) := by
  intro h
  obtain ⟨ks, h1, h2⟩ := balance_refuted (2 ^ (2 * (C + 1)))
  obtain ⟨c1, c2⟩ := h2 _ (Nat.le_refl _)
  have := h ks _ (Nat.le_refl _)
  rw [c1, c2] at this
  have hp : C + 1 < 2 ^ (C + 1) := Nat.lt_two_pow_self
  have e : 2 ^ (2 * (C + 1)) = 2 ^ (C + 1) * 2 ^ (C + 1) := by rw [← pow_add]; congr 1; omega
  have hlog : Nat.log2 (4 * (2 ^ (2 * (C + 1)) : Nat) + 2 : Int).toNat < 2 * (C + 1) + 3 := by
    rw [Nat.log2_lt (by omega)]
    have : 2 ^ (2 * (C + 1) + 3) = 8 * 2 ^ (2 * (C + 1)) := by rw [pow_add]; ring
    have := Nat.one_le_two_pow (n := 2 * (C + 1))
    omega
  generalize Nat.log2 (4 * (2 ^ (2 * (C + 1)) : Nat) + 2 : Int).toNat = L at *
  rw [e] at this
  generalize 2 ^ (C + 1) = P at *
  have t1 : 2 * (P * P) + 2 ≤ C * (L + 1) := by exact_mod_cast this
  have t2 : C * (L + 1) ≤ C * (2 * C + 5) := Nat.mul_le_mul_left _ (by omega)
  have t3 : (C + 2) * (C + 2) ≤ P * P := Nat.mul_le_mul (by omega) (by omega)
  nlinarith

example : (run ltInt 100 .nil ((hist 2 0 9).map (fun k => Op.setitem k (0 : Int)))).1.height = 6 := by decide

end Props
end Verif.SortedDict
