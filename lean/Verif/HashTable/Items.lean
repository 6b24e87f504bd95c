import Verif.HashTable.Ops
import Verif.HashTable.Spec

/-!
# The item array and the table invariant
-/

namespace Verif.HashTable
open Spec

variable {K V : Type}

/-! ### Lists of optional items -/

theorem fm_none (l : List (Option (K × V))) : (none :: l).filterMap id = l.filterMap id := rfl
theorem fm_some (p : K × V) (l : List (Option (K × V))) :
    (some p :: l).filterMap id = p :: l.filterMap id := rfl

/-- The only item equal to `k` is at `s`. -/
def Hit (ko : KeyOps K) (items : List (Option (K × V))) (k : K) (s : Nat) : Prop :=
  ∀ (j : Nat) x w, items[j]? = some (some (x, w)) → (ko.eq k x = true ↔ j = s)

/-- No item is equal to `k`. -/
def Miss (ko : KeyOps K) (items : List (Option (K × V))) (k : K) : Prop :=
  ∀ (j : Nat) x w, items[j]? = some (some (x, w)) → ko.eq k x = false

theorem Hit.tail {ko : KeyOps K} {a : Option (K × V)} {l : List (Option (K × V))} {k : K} {s : Nat}
    (h : Hit ko (a :: l) k (s + 1)) : Hit ko l k s := by
  intro j x w e
  have := h (j + 1) x w (by simpa using e)
  rw [this]; omega

theorem Hit.rest {ko : KeyOps K} {a : Option (K × V)} {l : List (Option (K × V))} {k : K}
    (h : Hit ko (a :: l) k 0) : Miss ko l k := by
  intro j x w e
  have := h (j + 1) x w (by simpa using e)
  cases c : ko.eq k x
  · rfl
  · rw [c] at this; simp at this

theorem Miss.tail {ko : KeyOps K} {a : Option (K × V)} {l : List (Option (K × V))} {k : K}
    (h : Miss ko (a :: l) k) : Miss ko l k := fun j x w e => h (j + 1) x w (by simpa using e)

theorem Miss.spec {ko : KeyOps K} : ∀ {l : List (Option (K × V))} {k : K}, Miss ko l k →
    ∀ e ∈ l.filterMap id, ko.eq k e.1 = false := by
  intro l k h e he
  simp only [List.mem_filterMap, id] at he
  obtain ⟨a, ha, rfl⟩ := he
  obtain ⟨j, hj⟩ := List.getElem?_of_mem ha
  exact h j e.1 e.2 (by simpa using hj)

theorem Miss.lookup {ko : KeyOps K} {l : List (Option (K × V))} {k : K} (h : Miss ko l k) :
    lookup ko (l.filterMap id) k = none := by
  unfold Spec.lookup
  rw [Option.map_eq_none_iff, List.find?_eq_none]
  intro e he; simp [h.spec e he]

theorem Miss.erase {ko : KeyOps K} {l : List (Option (K × V))} {k : K} (h : Miss ko l k) :
    erase ko (l.filterMap id) k = l.filterMap id := by
  unfold Spec.erase
  rw [List.filter_eq_self]
  intro e he; simp [h.spec e he]

theorem Hit.lookup {ko : KeyOps K} : ∀ {l : List (Option (K × V))} {k : K} {s : Nat} {x : K} {v : V},
    Hit ko l k s → l[s]? = some (some (x, v)) → lookup ko (l.filterMap id) k = some v := by
  intro l
  induction l with
  | nil => intro k s x v _ e; simp at e
  | cons a l ih =>
    intro k s x v h e
    cases s with
    | zero =>
      simp at e; subst e
      have := (h 0 x v rfl).2 rfl
      simp [Spec.lookup, fm_some, this]
    | succ s =>
      have e' : l[s]? = some (some (x, v)) := by simpa using e
      cases a with
      | none => exact ih h.tail e'
      | some p =>
        have : ko.eq k p.1 = false := by
          have := h 0 p.1 p.2 rfl
          cases c : ko.eq k p.1
          · rfl
          · rw [c] at this; simp at this
        have r := ih h.tail e'
        unfold Spec.lookup at r ⊢
        simp only [fm_some, fm_none, List.find?_cons, this]
        exact r

theorem Hit.map {ko : KeyOps K} (v' : V) : ∀ {l : List (Option (K × V))} {k : K} {s : Nat} {x : K} {v : V},
    Hit ko l k s → l[s]? = some (some (x, v)) →
    (l.set s (some (x, v'))).filterMap id =
      (l.filterMap id).map (fun e => if ko.eq k e.1 then (e.1, v') else e) := by
  have miss : ∀ {l : List (Option (K × V))} {k : K}, Miss ko l k →
      (l.filterMap id).map (fun e => if ko.eq k e.1 then (e.1, v') else e) = l.filterMap id := by
    intro l k h
    conv => rhs; rw [← List.map_id (l.filterMap id)]
    apply List.map_congr_left
    intro e he; simp [h.spec e he]
  intro l
  induction l with
  | nil => intro k s x v _ e; simp at e
  | cons a l ih =>
    intro k s x v h e
    cases s with
    | zero =>
      simp at e; subst e
      have := (h 0 x v rfl).2 rfl
      have r := miss h.rest
      simp only [List.set_cons_zero, fm_some, fm_none, List.map_cons, this, if_true]
      rw [r]
    | succ s =>
      have e' : l[s]? = some (some (x, v)) := by simpa using e
      have r := ih h.tail e'
      cases a with
      | none => exact r
      | some p =>
        have : ko.eq k p.1 = false := by
          have := h 0 p.1 p.2 rfl
          cases c : ko.eq k p.1
          · rfl
          · rw [c] at this; simp at this
        simp only [List.set_cons_succ, fm_some, fm_none, List.map_cons, this]
        rw [r]; simp

theorem Hit.erase {ko : KeyOps K} : ∀ {l : List (Option (K × V))} {k : K} {s : Nat} {x : K} {v : V},
    Hit ko l k s → l[s]? = some (some (x, v)) →
    (l.set s none).filterMap id = erase ko (l.filterMap id) k := by
  intro l
  induction l with
  | nil => intro k s x v _ e; simp at e
  | cons a l ih =>
    intro k s x v h e
    cases s with
    | zero =>
      simp at e; subst e
      have := (h 0 x v rfl).2 rfl
      have r := h.rest.erase
      unfold Spec.erase at r ⊢
      simp only [List.set_cons_zero, fm_some, fm_none, List.filter_cons, this]
      exact r.symm
    | succ s =>
      have e' : l[s]? = some (some (x, v)) := by simpa using e
      have r := ih h.tail e'
      cases a with
      | none => exact r
      | some p =>
        have : ko.eq k p.1 = false := by
          have := h 0 p.1 p.2 rfl
          cases c : ko.eq k p.1
          · rfl
          · rw [c] at this; simp at this
        unfold Spec.erase at r ⊢
        simp only [List.set_cons_succ, fm_some, fm_none, List.filter_cons, this]
        rw [r]; simp

/-! ### Compression -/

/-- Position after compression. -/
def pos (items : List (Option (K × V))) (k : Nat) : Nat := (items.take k).countP Option.isSome

theorem pos_get : ∀ (l : List (Option (K × V))) (s : Nat) (e : K × V), l[s]? = some (some e) →
    (l.filter Option.isSome)[pos l s]? = some (some e)
  | [], s, e, h => by simp at h
  | a :: l, 0, e, h => by simp at h; subst h; simp [pos]
  | a :: l, s + 1, e, h => by
    have r := pos_get l s e (by simpa using h)
    cases a with
    | none => simpa [pos] using r
    | some p => simpa [pos] using r

theorem pos_surj : ∀ (l : List (Option (K × V))) (j : Nat) (e : Option (K × V)),
    (l.filter Option.isSome)[j]? = some e → ∃ s e', l[s]? = some (some e') ∧ e = some e' ∧ j = pos l s
  | [], j, e, h => by simp at h
  | none :: l, j, e, h => by
    obtain ⟨s, e', a, b, c⟩ := pos_surj l j e (by simpa using h)
    exact ⟨s + 1, e', by simpa using a, b, by simpa [pos] using c⟩
  | some p :: l, 0, e, h => ⟨0, p, rfl, by simp at h; exact h.symm, by simp [pos]⟩
  | some p :: l, j + 1, e, h => by
    obtain ⟨s, e', a, b, c⟩ := pos_surj l j e (by simpa using h)
    exact ⟨s + 1, e', by simpa using a, b, by simp [pos] at c ⊢; exact c⟩

theorem pos_inj : ∀ (l : List (Option (K × V))) (s s' : Nat) (e e' : K × V), l[s]? = some (some e) →
    l[s']? = some (some e') → pos l s = pos l s' → s = s'
  | [], s, _, e, _, h, _, _ => by simp at h
  | a :: l, 0, 0, _, _, _, _, _ => rfl
  | a :: l, 0, s' + 1, e, e', h, h', q => by
    simp at h; subst h; simp [pos] at q
  | a :: l, s + 1, 0, e, e', h, h', q => by
    simp at h'; subst h'; simp [pos] at q
  | a :: l, s + 1, s' + 1, e, e', h, h', q => by
    have := pos_inj l s s' e e' (by simpa using h) (by simpa using h') (by
      cases a <;> simpa [pos] using q)
    omega

theorem filterMap_filter (l : List (Option (K × V))) : (l.filter Option.isSome).filterMap id = l.filterMap id := by
  induction l with
  | nil => rfl
  | cons a l ih =>
    cases a with
    | none => exact ih
    | some p => exact congrArg (p :: ·) ih

theorem newPos_some {l : List (Option (K × V))} {s : Nat} {e : K × V} (h : l[s]? = some (some e)) :
    newPos l s = pos l s := by
  simp [newPos, h, pos]

/-! ### The invariant -/

/-- Which item slots are in use, with the normalised hash of the key. -/
def itemE (ko : KeyOps K) (items : List (Option (K × V))) (s : Nat) (h : Int) : Prop :=
  ∃ k v, items[s]? = some (some (k, v)) ∧ h = norm (ko.hash k)

structure Inv (ko : KeyOps K) (t : Tbl K V) : Prop where
  idx : Idx t (itemE ko t.items)
  cnt : t.count = (t.items.filterMap id).length
  top : ∀ (s : Nat) e, t.items[s]? = some (some e) → s < t.top
  len : t.top ≤ t.items.length
  dist : ∀ (s s' : Nat) (k : K) (v : V) (k' : K) (v' : V), t.items[s]? = some (some (k, v)) → t.items[s']? = some (some (k', v')) →
    ko.eq k k' = true → s = s'
  nul : t.size = 0 → t.items = []

theorem itemE_i32 {ko : KeyOps K} (lk : LawfulKey ko) {items : List (Option (K × V))} {s : Nat} {h : Int}
    (e : itemE ko items s h) : I32 h := by
  obtain ⟨k, v, _, rfl⟩ := e
  have := lk.int32 k
  unfold norm w32 I32
  split
  · rw [Int.bmod_def]; omega
  · omega

theorem Core.readable {ko : KeyOps K} {t : Tbl K V} (c : Core t (itemE ko t.items)) : Readable t := by
  intro i hi
  rcases c.tab.ent i hi with a | a | ⟨s, a, ⟨k, v, b, _⟩, _⟩
  · exact Or.inl a
  · exact Or.inr (Or.inl a)
  · exact Or.inr (Or.inr ⟨s, a, k, v, b⟩)

theorem Inv.hit {ko : KeyOps K} (lk : LawfulKey ko) {t : Tbl K V} (i : Inv ko t) {k x : K} {v : V} {s : Nat}
    (h : t.items[s]? = some (some (x, v))) (e : ko.eq k x = true) : Hit ko t.items k s := by
  intro j y w hj
  constructor
  · intro e'
    exact i.dist j s y w x v hj h (lk.trans _ _ _ (lk.symm _ _ e') e)
  · rintro rfl
    rw [h] at hj; injection hj with hj; injection hj with hj; injection hj with e1 _
    rw [← e1]; exact e

/-- `lookupValueByKey` finds the entry of the key, or there is none. -/
theorem lookupSlot_ok {ko : KeyOps K} (lk : LawfulKey ko) {t : Tbl K V} (i : Inv ko t) (k : K) :
    (∃ s x v, lookupSlot ko t k = .ok (some s) ∧ t.items[s]? = some (some (x, v)) ∧ ko.eq k x = true) ∨
    (lookupSlot ko t k = .ok none ∧ Miss ko t.items k) := by
  rcases i.idx with ⟨c1, c2, c3⟩ | ⟨c1, c2⟩
  · right
    constructor
    · simp only [lookupSlot, find, if_pos c1]; rfl
    · intro j x w e
      exact absurd ⟨x, w, e, rfl⟩ (c3 j (norm (ko.hash x)))
  · have hsz := c1.tab.size_ge
    obtain ⟨n, n1, n2⟩ := c1.tab.meets_empty (by rw [← c1.emp]; exact c2) (norm (ko.hash k))
    have sp := findLoop_spec t c1.readable (norm (ko.hash k)) (ko.eq k) (u64 (norm (ko.hash k)))
      (fun n => c1.tab.idx_lt _ n) (t.size + 14) 0 ⟨n, by omega, by omega, n2⟩
    have e0 : find t (ko.hash k) (ko.eq k) = findLoop t (norm (ko.hash k)) (ko.eq k) (t.size + 14)
        (off (u64 (norm (ko.hash k))) 0).1 (off (u64 (norm (ko.hash k))) 0).2 := by
      rw [find, if_neg (by omega)]; rfl
    rcases sp with ⟨n', _, a2, a3, a4⟩ | ⟨n', s, x, v, _, a2, a3, a4, a5⟩
    · right
      constructor
      · simp only [lookupSlot, e0, a2]; rfl
      · intro j x w e
        cases c : ko.eq k x
        · rfl
        · have hh : norm (ko.hash x) = norm (ko.hash k) := by rw [lk.hash _ _ c]
          obtain ⟨q, hq, hq'⟩ := c1.tab.cov j _ ⟨x, w, e, rfl⟩
          rcases c1.tab.ent q hq with b | b | ⟨s', b1, b2, m, b3, b4⟩
          · omega
          · omega
          · have : s' = j := by omega
            subst this
            have b5 : t.hashes q = norm (ko.hash k) := by
              rw [← hh]; exact c1.tab.fn _ _ _ b2 ⟨x, w, e, rfl⟩
            rw [b5] at b3 b4
            rcases Nat.lt_trichotomy m n' with l | l | l
            · have := a4 m (by omega) l s' (by rw [b3]; exact b1) (by rw [b3]; exact b5) x w e
              rw [c] at this; exact absurd this (by decide)
            · subst l; rw [b3] at a3; omega
            · exact absurd a3 (b4 n' l)
    · left
      refine ⟨s, x, v, ?_, a4, a5⟩
      simp only [lookupSlot, e0, a2]
      show (if (s : Int) ≥ 0 then Except.ok (some (s : Int).toNat) else Except.ok none) = _
      rw [if_pos (by omega)]; simp

theorem growItems_eq (top : Nat) : ∀ (f : Nat) (l : List (Option (K × V))), top < l.length + f →
    ∃ j, growItems top f l = l ++ List.replicate j none ∧ top < (growItems top f l).length
  | 0, l, h => ⟨0, by simp [growItems], by simpa [growItems] using h⟩
  | f + 1, l, h => by
    rw [growItems]
    by_cases c : top ≥ l.length
    · rw [if_pos c]
      obtain ⟨j, e, h'⟩ := growItems_eq top f (l ++ List.replicate (l.length / 4 + 1) none) (by
        simp only [List.length_append, List.length_replicate]; omega)
      refine ⟨l.length / 4 + 1 + j, ?_, h'⟩
      rw [e, List.append_assoc, List.replicate_append_replicate]
    · rw [if_neg c]
      exact ⟨0, by simp, by omega⟩

theorem get_append_none {l : List (Option (K × V))} {j s : Nat} {e : K × V} :
    (l ++ List.replicate j none)[s]? = some (some e) ↔ l[s]? = some (some e) := by
  by_cases c : s < l.length
  · rw [List.getElem?_append_left c]
  · rw [List.getElem?_append_right (by omega), List.getElem?_replicate, List.getElem?_eq_none (by omega)]
    split <;> simp

theorem filterMap_append_none (l : List (Option (K × V))) (j : Nat) :
    (l ++ List.replicate j none).filterMap id = l.filterMap id := by
  rw [List.filterMap_append]
  have : (List.replicate j (none : Option (K × V))).filterMap id = [] := by
    induction j with
    | zero => rfl
    | succ j ih => simpa [List.replicate_succ] using ih
  rw [this, List.append_nil]

/-- `allocateNewSlot` adds room and changes nothing else. -/
theorem allocate_ok (t : Tbl K V) (ht : ∀ (s : Nat) e, t.items[s]? = some (some e) → s < t.top)
    (hl : t.top ≤ t.items.length) :
    ∃ s its, allocateNewSlot t = ({ t with items := its, top := s + 1 }, s) ∧ s < its.length ∧
      (∀ (j : Nat) e, its[j]? = some (some e) ↔ t.items[j]? = some (some e)) ∧
      its.filterMap id = t.items.filterMap id ∧ (∀ (j : Nat) e, its[j]? = some (some e) → j < s) := by
  unfold allocateNewSlot
  by_cases c : t.items = []
  · simp only [if_pos c]
    obtain ⟨j, e, h⟩ := growItems_eq (K := K) (V := V) 0 (0 + 1) (List.replicate 4 none) (by simp)
    refine ⟨0, _, rfl, h, ?_, ?_, ?_⟩
    · intro i x; rw [e, get_append_none, c]
      rw [List.getElem?_replicate]; split <;> simp
    · rw [e, filterMap_append_none, c]; rfl
    · intro i x; rw [e, get_append_none]
      rw [List.getElem?_replicate]; split <;> simp
  · simp only [if_neg c]
    obtain ⟨j, e, h⟩ := growItems_eq t.top (t.top + 1) t.items (by omega)
    refine ⟨t.top, _, rfl, h, ?_, ?_, ?_⟩
    · intro i x; rw [e, get_append_none]
    · rw [e, filterMap_append_none]
    · intro i x; rw [e, get_append_none]; exact ht i x

theorem set_top : ∀ (l : List (Option (K × V))) (s : Nat) (e : K × V), s < l.length →
    (∀ (j : Nat) e', l[j]? = some (some e') → j < s) →
    (l.set s (some e)).filterMap id = l.filterMap id ++ [e]
  | [], s, e, h, _ => by simp at h
  | a :: l, 0, e, h, w => by
    have none_ : ∀ (j : Nat) x, (a :: l)[j]? = some x → x = none := by
      intro j x hx
      cases x with
      | none => rfl
      | some y => exact absurd (w j y hx) (by omega)
    have : a = none := none_ 0 a rfl
    subst this
    have : l.filterMap id = [] := by
      rw [List.filterMap_eq_nil_iff]
      intro x hx
      obtain ⟨j, hj⟩ := List.getElem?_of_mem hx
      exact none_ (j + 1) x (by simpa using hj)
    rw [List.set_cons_zero, fm_some, fm_none, this]; rfl
  | a :: l, s + 1, e, h, w => by
    have r := set_top l s e (by simpa using h) (fun j e' hj => by
      have := w (j + 1) e' (by simpa using hj); omega)
    cases a with
    | none => exact r
    | some p => exact congrArg (p :: ·) r

theorem get_set {l : List (Option (K × V))} {s j : Nat} {x y : Option (K × V)} (h : (l.set s x)[j]? = some y) :
    (j = s ∧ y = x) ∨ (j ≠ s ∧ l[j]? = some y) := by
  by_cases c : j = s
  · subst c
    rw [List.getElem?_set] at h
    simp at h
    exact Or.inl ⟨rfl, h.2.symm⟩
  · rw [List.getElem?_set_ne (fun q => c q.symm)] at h
    exact Or.inr ⟨c, h⟩

/-- `insertKey` of a new key appends the entry. -/
theorem insertKey_ok {ko : KeyOps K} (lk : LawfulKey ko) {t : Tbl K V} (i : Inv ko t) {k : K} (v : V)
    (m : Miss ko t.items k) (hc : t.count ≤ 2 ^ 28) :
    ∃ t', insertKey ko t k v = .ok t' ∧ Inv ko t' ∧ iterate t' = iterate t ++ [(k, v)] ∧
      t'.items.length = (allocateNewSlot t).1.items.length ∧ t'.top = (allocateNewSlot t).1.top ∧
      t'.size ≤ max t.size (8 * t.count + 8) := by
  obtain ⟨s, its, e1, e2, e3, e4, e5⟩ := allocate_ok t i.top i.len
  have ix : Idx { t with items := its, top := s + 1 } (itemE ko its) := by
    have : Idx t (itemE ko its) := i.idx.congr (fun a b => by simp only [itemE, e3])
    rcases this with ⟨a, b, c⟩ | ⟨a, b⟩
    · exact Or.inl ⟨a, b, c⟩
    · exact Or.inr ⟨⟨a.tab, a.cnt, a.emp⟩, b⟩
  obtain ⟨t', f1, f2, f3, f4, f5, f7, f6⟩ := add_ok ix hc (fun a b c => itemE_i32 lk c) (lk.int32 k) (s := s)
    (by rintro h' ⟨x, w, hx, _⟩; exact absurd (e5 _ _ hx) (by omega))
  have f2' : t'.items = its := f2
  have getNew : (its.set s (some (k, v)))[s]? = some (some (k, v)) := by
    rw [List.getElem?_set]; simp [e2]
  refine ⟨{ t' with items := t'.items.set s (some (k, v)) }, ?_, ?_, ?_, ?_, ?_, f7⟩
  · simp only [insertKey, e1, f1]
    show (if s < t'.items.length then _ else _) = _
    rw [if_pos (by rw [f2']; exact e2)]
  · rw [f2']
    refine ⟨Or.inr ⟨⟨f6.tab.congr ?_, f6.cnt, f6.emp⟩, f5⟩, ?_, ?_, ?_, ?_, ?_⟩
    · intro s' h'
      constructor
      · rintro (⟨x, w, hx, rfl⟩ | ⟨rfl, rfl⟩)
        · have ne : s' ≠ s := by have := e5 _ _ hx; omega
          exact ⟨x, w, by rw [List.getElem?_set_ne (fun q => ne q.symm)]; exact hx, rfl⟩
        · exact ⟨k, v, getNew, rfl⟩
      · rintro ⟨x, w, hx, rfl⟩
        rcases get_set hx with ⟨rfl, q⟩ | ⟨_, q⟩
        · injection q with q; injection q with q1 q2; subst q1; exact Or.inr ⟨rfl, rfl⟩
        · exact Or.inl ⟨x, w, q, rfl⟩
    · show t'.count = _
      rw [f4, set_top its s (k, v) e2 e5, e4, List.length_append, i.cnt]; rfl
    · intro j e hj
      show j < t'.top
      rw [f3]
      show j < s + 1
      rcases get_set hj with ⟨rfl, _⟩ | ⟨_, q⟩
      · omega
      · have := e5 j e q; omega
    · show t'.top ≤ (its.set s (some (k, v))).length
      rw [f3, List.length_set]; exact e2
    · intro a b x w x' w' ha hb he
      rcases get_set ha with ⟨rfl, q⟩ | ⟨_, q⟩
      · injection q with q; injection q with q1 q2; subst q1
        rcases get_set hb with ⟨rfl, _⟩ | ⟨_, r⟩
        · rfl
        · have := m b x' w' ((e3 _ _).1 r)
          rw [he] at this; exact absurd this (by decide)
      · rcases get_set hb with ⟨rfl, r⟩ | ⟨_, r⟩
        · injection r with r; injection r with r1 r2; subst r1
          have := m a x w ((e3 _ _).1 q)
          rw [lk.symm _ _ he] at this; exact absurd this (by decide)
        · exact i.dist a b x w x' w' ((e3 _ _).1 q) ((e3 _ _).1 r) he
    · intro z; have := f6.tab.size_ge; exact absurd z (by show t'.size ≠ 0; omega)
  · show (t'.items.set s (some (k, v))).filterMap id = _
    rw [f2', set_top its s (k, v) e2 e5, e4]; rfl
  · show (t'.items.set s (some (k, v))).length = _
    rw [List.length_set, f2', e1]
  · show t'.top = _
    rw [f3, e1]

/-- Overwriting a value in place. -/
theorem overwrite_ok {ko : KeyOps K} {t : Tbl K V} (i : Inv ko t) {x : K} {v : V} (v' : V) {s : Nat}
    (h : t.items[s]? = some (some (x, v))) : Inv ko { t with items := t.items.set s (some (x, v')) } := by
  have lt : s < t.items.length := by
    have := List.getElem?_eq_some_iff.1 h; exact this.1
  have same : ∀ (a : Nat) y w, (t.items.set s (some (x, v')))[a]? = some (some (y, w)) →
      ∃ w', t.items[a]? = some (some (y, w')) := by
    intro a y w ha
    rcases get_set ha with ⟨rfl, q⟩ | ⟨_, q⟩
    · injection q with q; injection q with q1 q2; subst q1; exact ⟨v, h⟩
    · exact ⟨w, q⟩
  have back : ∀ (a : Nat) y w, t.items[a]? = some (some (y, w)) →
      ∃ w', (t.items.set s (some (x, v')))[a]? = some (some (y, w')) := by
    intro a y w ha
    by_cases c : a = s
    · subst c; rw [h] at ha; injection ha with ha; injection ha with ha; injection ha with a1 a2
      subst a1
      exact ⟨v', by rw [List.getElem?_set]; simp [lt]⟩
    · exact ⟨w, by rw [List.getElem?_set_ne (fun q => c q.symm)]; exact ha⟩
  have E : ∀ a b, itemE ko t.items a b ↔ itemE ko (t.items.set s (some (x, v'))) a b := by
    intro a b
    constructor
    · rintro ⟨y, w, q, rfl⟩; obtain ⟨w', r⟩ := back a y w q; exact ⟨y, w', r, rfl⟩
    · rintro ⟨y, w, q, rfl⟩; obtain ⟨w', r⟩ := same a y w q; exact ⟨y, w', r, rfl⟩
  refine ⟨?_, ?_, ?_, ?_, ?_, ?_⟩
  · rcases i.idx.congr E with ⟨a, b, c⟩ | ⟨a, b⟩
    · exact Or.inl ⟨a, b, c⟩
    · exact Or.inr ⟨⟨a.tab, a.cnt, a.emp⟩, b⟩
  · show t.count = ((t.items.set s (some (x, v'))).filterMap id).length
    rw [i.cnt]
    have : ∀ (l : List (Option (K × V))) (s : Nat), l[s]? = some (some (x, v)) →
        ((l.set s (some (x, v'))).filterMap id).length = (l.filterMap id).length := by
      intro l
      induction l with
      | nil => intro s h; simp at h
      | cons a l ih =>
        intro s h
        cases s with
        | zero => simp at h; subst h; simp [fm_none, fm_some]
        | succ s =>
          have := ih s (by simpa using h)
          cases a <;> simpa [fm_none, fm_some] using this
    exact (this t.items s h).symm
  · intro a e ha
    obtain ⟨w', q⟩ := same a e.1 e.2 ha
    exact i.top a _ q
  · show t.top ≤ (t.items.set s (some (x, v'))).length
    rw [List.length_set]; exact i.len
  · intro a b y w y' w' ha hb he
    obtain ⟨_, q⟩ := same a y w ha
    obtain ⟨_, r⟩ := same b y' w' hb
    exact i.dist a b y _ y' _ q r he
  · intro z; have := i.nul z; rw [this] at lt; simp at lt

/-- `compressItemTable` keeps the entries and their order, and never throws. -/
theorem compress_ok {ko : KeyOps K} {t : Tbl K V} (i : Inv ko t) :
    ∃ t', compress t = .ok t' ∧ Inv ko t' ∧ iterate t' = iterate t ∧ t'.count = t.count ∧ t'.size = t.size ∧
      t'.items.length = t.count := by
  have ent : ∀ q, q < t.size → 0 ≤ t.slots q → ∃ (s : Nat) (e : K × V), t.slots q = s ∧ t.items[s]? = some (some e) := by
    intro q hq h0
    rcases i.idx with ⟨a, _, _⟩ | ⟨a, _⟩
    · omega
    · rcases a.tab.ent q hq with b | b | ⟨s, b, ⟨k, v, c, _⟩, _⟩
      · omega
      · omega
      · exact ⟨s, (k, v), b, c⟩
  have lenf : (t.items.filter Option.isSome).length = t.count := by
    rw [i.cnt, ← filterMap_filter]
    have : ∀ l : List (Option (K × V)), (l.filter Option.isSome).length = ((l.filter Option.isSome).filterMap id).length := by
      intro l; induction l with
      | nil => rfl
      | cons a l ih => cases a <;> simp [fm_none, fm_some, ih]
    exact this _
  have np : ∀ q, q < t.size → 0 ≤ t.slots q → ∃ (s : Nat), t.slots q = s ∧ s < t.items.length ∧
      newPos t.items (t.slots q).toNat = (pos t.items s : Int) ∧ pos t.items s < (t.items.filter Option.isSome).length := by
    intro q hq h0
    obtain ⟨s, e, b, c⟩ := ent q hq h0
    refine ⟨s, b, (List.getElem?_eq_some_iff.1 c).1, ?_, (List.getElem?_eq_some_iff.1 (pos_get _ _ _ c)).1⟩
    rw [b, Int.toNat_natCast]; exact newPos_some c
  have c1 : ((List.range t.size).any fun k => decide (t.slots k ≥ 0) && decide (t.slots k ≥ t.items.length)) = false := by
    rw [List.any_eq_false]
    intro q hq
    have hq' : q < t.size := List.mem_range.1 hq
    simp
    intro h0
    obtain ⟨s, b, c, _⟩ := np q hq' h0
    omega
  have c2 : ((List.range t.size).any fun k => decide (t.slots k ≥ 0) && decide (newPos t.items (t.slots k).toNat < 0)) = false := by
    rw [List.any_eq_false]
    intro q hq
    have hq' : q < t.size := List.mem_range.1 hq
    simp
    intro h0
    obtain ⟨s, b, c, d, _⟩ := np q hq' h0
    rw [d]; omega
  have c3 : ((List.range t.size).any fun k =>
      decide ((if t.slots k ≥ 0 then newPos t.items (t.slots k).toNat else t.slots k) ≥ 0) &&
      decide ((if t.slots k ≥ 0 then newPos t.items (t.slots k).toNat else t.slots k) ≥
        ((t.items.filter Option.isSome).length : Int))) = false := by
    rw [List.any_eq_false]
    intro q hq
    have hq' : q < t.size := List.mem_range.1 hq
    by_cases h0 : 0 ≤ t.slots q
    · obtain ⟨s, b, c, d, e⟩ := np q hq' h0
      rw [if_pos h0, d]; simp; omega
    · rw [if_neg h0]; simp; omega
  have getF : ∀ (j : Nat) e, (t.items.filter Option.isSome)[j]? = some (some e) →
      ∃ s, t.items[s]? = some (some e) ∧ j = pos t.items s := by
    intro j e h
    obtain ⟨s, e', a, b, c⟩ := pos_surj _ _ _ h
    injection b with b; subst b
    exact ⟨s, a, c⟩
  refine ⟨{ t with items := t.items.filter Option.isSome, top := (t.items.filter Option.isSome).length,
                   slots := fun k => if t.slots k ≥ 0 then newPos t.items (t.slots k).toNat else t.slots k },
    ?_, ⟨?_, ?_, ?_, ?_, ?_, ?_⟩, filterMap_filter _, rfl, rfl, lenf⟩
  · simp only [compress]
    rw [c1, c2, c3]; rfl
  · rcases i.idx with ⟨a, b, c⟩ | ⟨a, b⟩
    · refine Or.inl ⟨a, b, ?_⟩
      rintro s h ⟨k, v, q, rfl⟩
      obtain ⟨s', r, _⟩ := getF s _ q
      exact c s' _ ⟨k, v, r, rfl⟩
    · have keep : ∀ P : Int → Bool, (∀ x y : Int, 0 ≤ x → 0 ≤ y → P x = P y) →
          cntB (fun q => P (if t.slots q ≥ 0 then newPos t.items (t.slots q).toNat else t.slots q)) t.size =
          cntB (fun q => P (t.slots q)) t.size := by
        intro P hP
        apply cntB_congr
        intro q hq
        by_cases h0 : 0 ≤ t.slots q
        · obtain ⟨s, _, _, d, _⟩ := np q hq h0
          rw [if_pos h0, d]; exact hP _ _ (by omega) h0
        · rw [if_neg h0]
      refine Or.inr ⟨⟨(a.tab.rename (pos t.items) ?_ _ ?_ ?_).congr ?_, ?_, ?_⟩, b⟩
      · rintro s s' h h' ⟨k, v, q, _⟩ ⟨k', v', q', _⟩ e
        exact pos_inj _ _ _ _ _ q q' e
      · intro q hq hn; dsimp only; rw [if_neg (by omega)]
      · intro q s hq hs
        dsimp only
        obtain ⟨s', b1, _, d, _⟩ := np q hq (by omega)
        rw [if_pos (by omega), d]
        have : s' = s := by omega
        rw [this]
      · intro s' h
        constructor
        · rintro ⟨s, ⟨k, v, q, rfl⟩, rfl⟩
          exact ⟨k, v, pos_get _ _ _ q, rfl⟩
        · rintro ⟨k, v, q, rfl⟩
          obtain ⟨s, r, rfl⟩ := getF _ _ q
          exact ⟨s, ⟨k, v, r, rfl⟩, rfl⟩
      · show t.count = _
        rw [a.cnt]; exact (keep (fun x => decide (0 ≤ x)) (by intro x y hx hy; simp [hx, hy])).symm
      · show t.empty = _
        rw [a.emp]; exact (keep (fun x => decide (x = -1)) (by intro x y hx hy; simp; omega)).symm
  · show t.count = ((t.items.filter Option.isSome).filterMap id).length
    rw [filterMap_filter]; exact i.cnt
  · intro s e h; exact (List.getElem?_eq_some_iff.1 h).1
  · exact Nat.le_refl _
  · intro a b k v k' v' ha hb he
    obtain ⟨s, q, rfl⟩ := getF _ _ ha
    obtain ⟨s', q', rfl⟩ := getF _ _ hb
    rw [i.dist _ _ _ _ _ _ q q' he]
  · intro z
    show t.items.filter Option.isSome = []
    rw [i.nul z]; rfl

/-- `resizeTable` keeps the items. -/
theorem resize_inv {ko : KeyOps K} (lk : LawfulKey ko) {t : Tbl K V} (i : Inv ko t) (hs : t.size ≠ 0)
    (hc : t.count ≤ 2 ^ 28) :
    ∃ t', resize t = .ok t' ∧ Inv ko t' ∧ t'.items = t.items ∧ t'.size ≠ 0 ∧ t'.count = t.count ∧
      t'.size ≤ 8 * t.count + 8 ∧ t'.top = t.top := by
  rcases i.idx with ⟨a, _, _⟩ | ⟨a, b⟩
  · exact absurd a hs
  · obtain ⟨t', e1, e2, e3, e4, e5, e6, e7, e8⟩ := resize_ok 0 a hc (fun _ _ c => itemE_i32 lk c)
    have := e4.tab.size_ge
    refine ⟨t', e1, ⟨Or.inr ⟨by rw [e2]; exact e4, by omega⟩, ?_, ?_, ?_, ?_, by intro z; omega⟩, e2, by omega, e5,
      by omega, e3⟩
    · rw [e5, e2]; exact i.cnt
    · rw [e2, e3]; exact i.top
    · rw [e2, e3]; exact i.len
    · rw [e2]; exact i.dist

/-- `deleteKey` removes the entry of the key, if there is one. -/
theorem deleteKey_ok {ko : KeyOps K} (lk : LawfulKey ko) {t : Tbl K V} (i : Inv ko t) (k : K)
    (hc : t.count ≤ 2 ^ 28) :
    ∃ t' b, deleteKey ko t k = .ok (t', b) ∧ Inv ko t' ∧ iterate t' = erase ko (iterate t) k ∧
      b = (lookup ko (iterate t) k).isSome ∧ t'.items.length ≤ 4 * t.count + 8 ∧
      t'.size ≤ max t.size (8 * t.count + 8) := by
  unfold deleteKey remove
  by_cases h0 : t.size = 0
  · rw [if_pos h0]
    have m : Miss ko t.items k := by
      rcases i.idx with ⟨_, _, c⟩ | ⟨a, _⟩
      · intro j x w e; exact absurd ⟨x, w, e, rfl⟩ (c j (norm (ko.hash x)))
      · have := a.tab.size_ge; omega
    have z := i.nul h0
    exact ⟨t, false, rfl, i, m.erase.symm, by rw [show lookup ko (iterate t) k = none from m.lookup]; rfl,
      by rw [z]; simp, by omega⟩
  · rw [if_neg h0]
    obtain ⟨t1, e1, i1, it1, n1, s1, len1⟩ : ∃ t1, shrinkItems t = .ok t1 ∧ Inv ko t1 ∧ iterate t1 = iterate t ∧ t1.count = t.count ∧ t1.size = t.size ∧
        t1.items.length ≤ 4 * t.count + 8 := by
      unfold shrinkItems
      split
      · obtain ⟨t1, a, b, c, d, e, f⟩ := compress_ok i
        exact ⟨t1, a, b, c, d, by omega, by omega⟩
      · exact ⟨t, rfl, i, rfl, rfl, rfl, by omega⟩
    rw [e1]
    obtain ⟨t2, e2, i2, it2, n2, s2, len2, sz2⟩ : ∃ t2, shrinkTable t1 = .ok t2 ∧
        Inv ko t2 ∧ iterate t2 = iterate t ∧ t2.count = t.count ∧ t2.size ≠ 0 ∧
        t2.items.length ≤ 4 * t.count + 8 ∧ t2.size ≤ max t.size (8 * t.count + 8) := by
      unfold shrinkTable
      split
      · obtain ⟨t2, a, b, c, d, e, f, _⟩ := resize_inv lk i1 (by omega) (by omega)
        exact ⟨t2, a, b, by rw [iterate, c]; exact it1, by omega, d, by rw [c]; exact len1, by omega⟩
      · exact ⟨t1, rfl, i1, it1, n1, by omega, len1, by omega⟩
    simp only [Except.bind, e2]
    unfold removeFrom
    rcases i2.idx with ⟨a, _, _⟩ | ⟨c1, c2⟩
    · exact absurd a s2
    obtain ⟨n, m1, m2⟩ := c1.tab.meets_empty (by rw [← c1.emp]; exact c2) (norm (ko.hash k))
    have sp := removeLoop_spec t2 c1.readable (ko.eq k) (u64 (norm (ko.hash k)))
      (fun n => c1.tab.idx_lt _ n) (t2.size + 14) 0 ⟨n, by omega, by omega, m2⟩
    simp only [off] at sp
    rw [← it2]
    rcases sp with ⟨n', _, a2, a3, a4⟩ | ⟨n', s, x, v, _, a2, a3, a4, a5⟩
    · rw [a2]
      have m : Miss ko t2.items k := by
        intro j x w e
        cases c : ko.eq k x
        · rfl
        · have hh : norm (ko.hash x) = norm (ko.hash k) := by rw [lk.hash _ _ c]
          obtain ⟨q, hq, hq'⟩ := c1.tab.cov j _ ⟨x, w, e, rfl⟩
          rcases c1.tab.ent q hq with b | b | ⟨s', b1, b2, m, b3, b4⟩
          · omega
          · omega
          · have : s' = j := by omega
            subst this
            have b5 : t2.hashes q = norm (ko.hash k) := by
              rw [← hh]; exact c1.tab.fn _ _ _ b2 ⟨x, w, e, rfl⟩
            rw [b5] at b3 b4
            rcases Nat.lt_trichotomy m n' with l | l | l
            · have := a4 m (by omega) l s' (by rw [b3]; exact b1) x w e
              rw [c] at this; exact absurd this (by decide)
            · subst l; rw [b3] at a3; omega
            · exact absurd a3 (b4 n' l)
      refine ⟨t2, false, rfl, i2, ?_, ?_, len2, sz2⟩
      · exact m.erase.symm
      · rw [show lookup ko (iterate t2) k = none from m.lookup]; rfl
    · rw [a2]
      have hit := i2.hit lk a4 a5
      have lt := c1.tab.idx_lt (u64 (norm (ko.hash k))) n'
      refine ⟨_, true, rfl, ⟨Or.inr ⟨⟨(c1.tab.drop lt a3).congr ?_, ?_, ?_⟩, ?_⟩, ?_, ?_, ?_, ?_, fun z => absurd z s2⟩, hit.erase a4, ?_, ?_, sz2⟩
      · intro s' h
        simp only [Int.toNat_natCast]
        constructor
        · rintro ⟨⟨y, w, q, rfl⟩, ne⟩
          exact ⟨y, w, by rw [List.getElem?_set_ne (fun z => ne z.symm)]; exact q, rfl⟩
        · rintro ⟨y, w, q, rfl⟩
          rcases get_set q with ⟨_, z⟩ | ⟨ne, z⟩
          · cases z
          · exact ⟨⟨y, w, z, rfl⟩, ne⟩
      · show t2.count - 1 = _
        have := filled_drop (slots := t2.slots) lt (by omega)
        rw [c1.cnt, this]; rfl
      · show t2.empty = _
        rw [c1.emp]; exact (empties_drop (by omega)).symm
      · exact c2
      · show t2.count - 1 = ((t2.items.set (s : Int).toNat none).filterMap id).length
        simp only [Int.toNat_natCast]
        have : ∀ (l : List (Option (K × V))) (s : Nat), l[s]? = some (some (x, v)) →
            (l.filterMap id).length = ((l.set s none).filterMap id).length + 1 := by
          intro l
          induction l with
          | nil => intro s h; simp at h
          | cons a l ih =>
            intro s h
            cases s with
            | zero => simp at h; subst h; simp [fm_none, fm_some]
            | succ s =>
              have := ih s (by simpa using h)
              cases a <;> simpa [fm_none, fm_some] using this
        rw [i2.cnt, this t2.items s a4]; rfl
      · intro j e hj
        rcases get_set hj with ⟨_, z⟩ | ⟨_, z⟩
        · cases z
        · exact i2.top j e z
      · show t2.top ≤ (t2.items.set (s : Int).toNat none).length
        rw [List.length_set]; exact i2.len
      · intro a b y w y' w' ha hb he
        rcases get_set ha with ⟨_, z⟩ | ⟨_, z⟩
        · cases z
        · rcases get_set hb with ⟨_, z'⟩ | ⟨_, z'⟩
          · cases z'
          · exact i2.dist a b y w y' w' z z' he
      · rw [show lookup ko (iterate t2) k = some v from hit.lookup a4]; rfl
      · show (t2.items.set (s : Int).toNat none).length ≤ _
        rw [List.length_set]; exact len2

theorem clear_ok {ko : KeyOps K} {t : Tbl K V} (i : Inv ko t) : Inv ko (clear t) ∧ iterate (clear t) = [] := by
  have nn : ∀ (j : Nat) (e : K × V), (t.items.map (fun _ => (none : Option (K × V))))[j]? ≠ some (some e) := by
    intro j e h
    rw [List.getElem?_map] at h
    cases hh : t.items[j]? <;> simp [hh] at h
  have ff : (t.items.map (fun _ => (none : Option (K × V)))).filterMap id = [] := by
    induction t.items with
    | nil => rfl
    | cons a l ih => simpa using ih
  unfold clear
  by_cases c : t.size = 0
  · simp only [if_pos c]
    refine ⟨⟨Or.inl ⟨c, ?_, ?_⟩, ?_, ?_, ?_, ?_, fun z => by show t.items.map _ = []; rw [i.nul z]; rfl⟩, ff⟩
    · rcases i.idx with ⟨_, b, _⟩ | ⟨a, _⟩
      · exact b
      · have := a.tab.size_ge; omega
    · rintro s h ⟨k, v, q, _⟩; exact nn _ _ q
    · show t.count = (List.filterMap id (t.items.map fun _ => none)).length
      rw [ff]
      rcases i.idx with ⟨_, b, _⟩ | ⟨a, _⟩
      · exact b
      · have := a.tab.size_ge; omega
    · intro s e h; exact absurd h (nn _ _)
    · show t.top ≤ (t.items.map fun _ => none).length
      rw [List.length_map]; exact i.len
    · intro _ _ _ _ _ _ h; exact absurd h (nn _ _)
  · simp only [if_neg c]
    refine ⟨⟨?_, ?_, ?_, ?_, ?_, fun z => absurd z c⟩, ff⟩
    · rcases i.idx with ⟨a, _, _⟩ | ⟨a, _⟩
      · exact absurd a c
      · have hs := a.tab.size_ge
        obtain ⟨p, p1, p2, p3⟩ := a.tab.pow
        have fc := fresh_core t p1 p2
        refine Or.inr ⟨⟨?_, ?_, ?_⟩, by show 0 < t.size; omega⟩
        · have := fc.tab.congr (E' := itemE ko (t.items.map fun _ => none)) (by
            intro s h
            constructor
            · exact fun h => h.elim
            · rintro ⟨k, v, q, _⟩; exact nn _ _ q)
          rw [← p3] at this; exact this
        · have := fc.cnt; rw [← p3] at this; exact this
        · have := fc.emp; rw [← p3] at this; exact this
    · show 0 = (List.filterMap id (t.items.map fun _ => none)).length
      rw [ff]; rfl
    · intro s e h; exact absurd h (nn _ _)
    · exact Nat.zero_le _
    · intro _ _ _ _ _ _ h; exact absurd h (nn _ _)

end Verif.HashTable
