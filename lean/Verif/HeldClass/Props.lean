import Verif.HeldClass.Model
import Verif.HeldClass.Spec
import Mathlib.Data.Nat.Bitwise
import Mathlib.Data.List.Nodup
/-
C55: members of classes.
-/
namespace Verif.HeldClass
open Spec

/-! ### The bits -/

theorem rawCheck_eq (bits : List Nat) (k : Nat) : rawCheck bits k = (bits.getD (k / 8) 0).testBit (k % 8) := by
  unfold rawCheck
  rw [Nat.one_shiftLeft]
  rw [Nat.and_two_pow]
  cases h : (bits.getD (k / 8) 0).testBit (k % 8) with
  | true => simp
  | false => simp

theorem getD_set (l : List Nat) (i j v : Nat) (hi : i < l.length) : (l.set i v).getD j 0 = if j = i then v else l.getD j 0 := by
  simp only [List.getD_eq_getElem?_getD, List.getElem?_set]
  by_cases h : i = j
  · subst h; simp [hi]
  · have : ¬ j = i := fun e => h e.symm
    simp [h, this]

theorem divmod_inj (j k : Nat) (h1 : j / 8 = k / 8) (h2 : j % 8 = k % 8) : j = k := by omega

/-- Setting the bit of one member sets that member's bit and no other. -/
theorem rawCheck_set (bits : List Nat) (k j : Nat) (hk : k / 8 < bits.length) :
    rawCheck (rawSet bits k) j = (decide (j = k) || rawCheck bits j) := by
  rw [rawCheck_eq, rawCheck_eq]
  unfold rawSet
  rw [getD_set _ _ _ _ hk]
  by_cases h : j / 8 = k / 8
  · rw [if_pos h, Nat.testBit_or, Nat.one_shiftLeft, Nat.testBit_two_pow, h]
    by_cases hjk : j = k
    · subst hjk; simp
    · have : ¬ k % 8 = j % 8 := fun e => hjk (divmod_inj j k h e.symm)
      simp [hjk, this]
  · rw [if_neg h]
    have : j ≠ k := fun e => h (by rw [e])
    simp [this]

/-- Clearing the bit of one member clears that member's bit and no other. -/
theorem rawCheck_clear (bits : List Nat) (k j : Nat) (hk : k / 8 < bits.length) :
    rawCheck (rawClear bits k) j = (decide (j ≠ k) && rawCheck bits j) := by
  rw [rawCheck_eq, rawCheck_eq]
  unfold rawClear
  rw [getD_set _ _ _ _ hk]
  by_cases h : j / 8 = k / 8
  · rw [if_pos h, Nat.testBit_and, Nat.one_shiftLeft, h]
    have h255 : 255 - 2 ^ (k % 8) = 2 ^ 8 - (2 ^ (k % 8) + 1) := by omega
    have hlt : 2 ^ (k % 8) < 2 ^ 8 := Nat.pow_lt_pow_right (by omega) (by omega)
    rw [h255, Nat.testBit_two_pow_sub_succ hlt, Nat.testBit_two_pow]
    have hj8 : j % 8 < 8 := by omega
    by_cases hjk : j = k
    · subst hjk; simp
    · have : ¬ k % 8 = j % 8 := fun e => hjk (divmod_inj j k h e.symm)
      simp [hjk, this, hj8]
  · rw [if_neg h]
    have : j ≠ k := fun e => h (by rw [e])
    simp [this]

example : rawCheck (rawSet [0, 0b100] 13) 13 = true ∧ rawCheck (rawClear [0, 0b100] 10) 10 = false := by decide

/-! ### The invariant -/

/-- Enough bytes for the bits, one storage cell per member. -/
structure Shape (d : ClassDef) (i : Inst) : Prop where
  bits : d.length ≤ 8 * i.bits.length
  store : i.store.length = d.length

/-- The flag of every member says exactly whether a value is constructed there. -/
structure WF (d : ClassDef) (i : Inst) : Prop extends Shape d i where
  sync : ∀ k, k < d.length → (check d i k = true ↔ (cell i k).isSome)

/-- The attributes a user sees. -/
def attrs (d : ClassDef) (i : Inst) : Attrs := fun k =>
  if k < d.length then (match pyGetAttr d i k with | .ok v => some v | .error _ => none) else none

theorem lt_bytes {d i k} (h : Shape d i) (hk : k < d.length) : k / 8 < i.bits.length := by
  have := h.bits; omega

theorem shape_setFlag {d i k} (h : Shape d i) : Shape d (setFlag d i k) := by
  unfold setFlag; split
  · exact h
  · exact ⟨by simpa [rawSet] using h.bits, h.store⟩

theorem shape_clearFlag {d i k} (h : Shape d i) : Shape d (clearFlag d i k) := by
  unfold clearFlag; split
  · exact h
  · exact ⟨by simpa [rawClear] using h.bits, h.store⟩

theorem check_setFlag {d i k j} (h : Shape d i) (hk : k < d.length) :
    check d (setFlag d i k) j = (decide (j = k) || check d i j) := by
  unfold setFlag
  by_cases hg : guaranteed d k = true
  · rw [if_pos hg]
    by_cases hjk : j = k
    · subst hjk; simp [check, hg]
    · simp [hjk]
  · rw [if_neg hg]
    unfold check
    by_cases hgj : guaranteed d j = true
    · simp [hgj]
    · simp only [if_neg hgj]; exact rawCheck_set _ _ _ (lt_bytes h hk)

theorem check_clearFlag {d i k j} (h : Shape d i) (hk : k < d.length) :
    check d (clearFlag d i k) j = (check d i j && (decide (j ≠ k) || guaranteed d k)) := by
  unfold clearFlag
  by_cases hg : guaranteed d k = true
  · simp [hg]
  · rw [if_neg hg]
    unfold check
    by_cases hgj : guaranteed d j = true
    · have : j ≠ k := fun e => hg (e ▸ hgj)
      simp [hgj, this]
    · simp only [if_neg hgj]
      rw [rawCheck_clear _ _ _ (lt_bytes h hk)]
      simp [hg, Bool.and_comm]

theorem cell_set (i : Inst) (k j : Nat) (v : Option Nat) (b l) (hk : k < i.store.length) :
    cell ⟨b, i.store.set k v, l⟩ j = if j = k then v else cell i j := by
  unfold cell
  simp only [List.getElem?_set]
  by_cases h : k = j
  · subst h; simp [hk]
  · have : ¬ j = k := fun e => h e.symm
    simp [h, this]

theorem cell_construct {i k j v} (hk : k < i.store.length) : cell (construct i k v) j = if j = k then some v else cell i j :=
  cell_set i k j (some v) _ _ hk

theorem cell_setFlag {d i k j} : cell (setFlag d i k) j = cell i j := by unfold setFlag; split <;> rfl
theorem cell_clearFlag {d i k j} : cell (clearFlag d i k) j = cell i j := by unfold clearFlag; split <;> rfl
theorem check_construct {d i k v j} : check d (construct i k v) j = check d i j := rfl
theorem shape_construct {d i k v} (h : Shape d i) : Shape d (construct i k v) :=
  ⟨h.bits, by show (i.store.set k (some v)).length = _; simp [h.store]⟩
theorem leaked_setFlag {d i k} : (setFlag d i k).leaked = i.leaked := by unfold setFlag; split <;> rfl
theorem leaked_clearFlag {d i k} : (clearFlag d i k).leaked = i.leaked := by unfold clearFlag; split <;> rfl

/-- The state of one member: flag and storage. -/
def state (d : ClassDef) (i : Inst) (j : Nat) : Bool × Option Nat := (check d i j, cell i j)

theorem attrs_of_wf {d i} (h : WF d i) (k : Nat) (hk : k < d.length) : attrs d i k = cell i k := by
  unfold attrs pyGetAttr
  have := h.sync k hk
  rw [if_pos hk]
  cases hc : check d i k with
  | false =>
    rw [hc] at this
    cases hx : cell i k with
    | none => simp
    | some v => rw [hx] at this; simp at this
  | true =>
    rw [hc] at this
    cases hx : cell i k with
    | none => rw [hx] at this; simp at this
    | some v => simp

/-- A user never meets undefined behaviour when reading an attribute of a well-formed instance. -/
theorem get_defined {d i} (h : WF d i) (k : Nat) (hk : k < d.length) : pyGetAttr d i k ≠ .error .undefined := by
  unfold pyGetAttr
  have := h.sync k hk
  split
  · simp
  · rename_i hc
    have hc' : check d i k = true := by simpa using hc
    have := this.1 hc'
    split
    · simp
    · rename_i hx; rw [hx] at this; simp at this

/-- **C55: attribute assignment.**  Setting a member changes exactly that attribute, leaks nothing and keeps the
instance well-formed. -/
theorem setAttribute_spec {d i} (h : WF d i) (k v : Nat) (hk : k < d.length) :
    ∃ i', setAttribute d i k v = .ok i' ∧ WF d i' ∧ attrs d i' = put (attrs d i) k v ∧ i'.leaked = i.leaked := by
  have hks : k < i.store.length := by rw [h.store]; exact hk
  have hsync := h.sync k hk
  unfold setAttribute
  cases hc : check d i k with
  | true =>
    rw [if_pos rfl]
    obtain ⟨o, ho⟩ := Option.isSome_iff_exists.1 (hsync.1 hc)
    have hcell : ∀ j, cell { i with store := i.store.set k (some v) } j = if j = k then some v else cell i j :=
      fun j => cell_set i k j (some v) _ _ hks
    have hwf : WF d { i with store := i.store.set k (some v) } := by
      refine ⟨⟨h.bits, by simp [h.store]⟩, ?_⟩
      intro j hj
      rw [hcell j]
      show check d i j = true ↔ _
      by_cases hjk : j = k
      · subst hjk; simp [hc]
      · rw [if_neg hjk]; exact h.sync j hj
    refine ⟨_, by simp only [assignCell, ho], hwf, ?_, rfl⟩
    funext j
    by_cases hj : j < d.length
    · rw [attrs_of_wf hwf j hj, hcell j]
      unfold put
      by_cases hjk : j = k
      · simp [hjk]
      · simp only [if_neg hjk]; rw [attrs_of_wf h j hj]
    · have hjk : j ≠ k := fun e => hj (e ▸ hk)
      simp [attrs, hj, put, hjk]
  | false =>
    have hnone : cell i k = none := by
      cases hx : cell i k with
      | none => rfl
      | some o => rw [hx, hc] at hsync; simp at hsync
    have hsh := shape_construct (k := k) (v := v) h.toShape
    have hwf : WF d (setFlag d (construct i k v) k) := by
      refine ⟨shape_setFlag hsh, ?_⟩
      intro j hj
      rw [check_setFlag hsh hk, cell_setFlag, cell_construct hks, check_construct]
      by_cases hjk : j = k
      · subst hjk; simp
      · simp only [hjk, decide_false, Bool.false_or, if_false]; exact h.sync j hj
    refine ⟨_, rfl, hwf, ?_, ?_⟩
    · funext j
      by_cases hj : j < d.length
      · rw [attrs_of_wf hwf j hj, cell_setFlag, cell_construct hks]
        unfold put
        by_cases hjk : j = k
        · simp [hjk]
        · simp only [if_neg hjk]; rw [attrs_of_wf h j hj]
      · have hjk : j ≠ k := fun e => hj (e ▸ hk)
        simp [attrs, hj, put, hjk]
    · rw [leaked_setFlag]; simp [construct, hnone]

/-- **C55: attribute deletion.**  `del x.k` fails exactly for nonempty members and for members that are not set;
otherwise it removes exactly that attribute. -/
theorem pyDelAttr_spec {d i} (h : WF d i) (k : Nat) (hk : k < d.length) :
    (guaranteed d k = true → pyDelAttr d i k = .error .cannotDelete) ∧
    (guaranteed d k = false → attrs d i k = none → pyDelAttr d i k = .error .notInitialized) ∧
    (guaranteed d k = false → attrs d i k ≠ none →
      ∃ i', pyDelAttr d i k = .ok i' ∧ WF d i' ∧ attrs d i' = drop (attrs d i) k ∧ i'.leaked = i.leaked) := by
  have hks : k < i.store.length := by rw [h.store]; exact hk
  have hsync := h.sync k hk
  refine ⟨?_, ?_, ?_⟩
  · intro hg; simp [pyDelAttr, hg]
  · intro hg ha
    rw [attrs_of_wf h k hk] at ha
    have hc : check d i k = false := by
      cases hc : check d i k with
      | false => rfl
      | true => have := hsync.1 hc; rw [ha] at this; simp at this
    simp [pyDelAttr, hg, hc]
  · intro hg ha
    rw [attrs_of_wf h k hk] at ha
    obtain ⟨o, ho⟩ := Option.ne_none_iff_exists'.1 ha
    have hc : check d i k = true := hsync.2 (by rw [ho]; rfl)
    have hcell : ∀ j, cell { i with store := i.store.set k none } j = if j = k then none else cell i j :=
      fun j => cell_set i k j none _ _ hks
    have hsh : Shape d { i with store := i.store.set k none } := ⟨h.bits, by simp [h.store]⟩
    have hwf : WF d (clearFlag d { i with store := i.store.set k none } k) := by
      refine ⟨shape_clearFlag hsh, ?_⟩
      intro j hj
      rw [check_clearFlag hsh hk, cell_clearFlag, hcell j, hg]
      show (check d i j && _) = true ↔ _
      by_cases hjk : j = k
      · simp [hjk]
      · simp only [ne_eq, hjk, not_false_eq_true, decide_true, Bool.true_or, Bool.and_true, if_false]; exact h.sync j hj
    refine ⟨_, ?_, hwf, ?_, leaked_clearFlag⟩
    · simp only [pyDelAttr, delAttribute, destroyCell, hg, hc, ho, Bool.false_eq_true, Bool.true_eq_false, if_false, if_true]
    · funext j
      by_cases hj : j < d.length
      · rw [attrs_of_wf hwf j hj, cell_clearFlag, hcell j]
        unfold drop
        by_cases hjk : j = k
        · simp [hjk]
        · simp only [if_neg hjk]; rw [attrs_of_wf h j hj]
      · have hjk : j ≠ k := fun e => hj (e ▸ hk)
        simp [attrs, hj, drop, hjk]

/-! ### Loops over the members -/

/-- A step that succeeds, touches only member `k`, and leaves it in a state that depends only on what it was. -/
def Good (d : ClassDef) (f : Inst → Nat → Except Err Inst) (P : Nat → Bool × Option Nat → Prop)
    (g : Nat → Bool × Option Nat → Bool × Option Nat) : Prop :=
  ∀ i k, Shape d i → k < d.length → P k (state d i k) →
    ∃ i', f i k = .ok i' ∧ Shape d i' ∧ i'.leaked = i.leaked ∧
      ∀ j, j < d.length → state d i' j = if j = k then g k (state d i k) else state d i j

theorem each_good {d f P g} (hf : Good d f P g) : ∀ (ks : List Nat) (i : Inst), Shape d i → ks.Nodup →
    (∀ k ∈ ks, k < d.length ∧ P k (state d i k)) →
    ∃ i', each f i ks = .ok i' ∧ Shape d i' ∧ i'.leaked = i.leaked ∧
      ∀ j, j < d.length → state d i' j = if j ∈ ks then g j (state d i j) else state d i j := by
  intro ks
  induction ks with
  | nil => intro i hs _ _; exact ⟨i, rfl, hs, rfl, by simp⟩
  | cons k ks ih =>
    intro i hs hnd hP
    rw [List.nodup_cons] at hnd
    obtain ⟨i1, h1, h2, h3, h4⟩ := hf i k hs (hP k (by simp)).1 (hP k (by simp)).2
    obtain ⟨i2, k1, k2, k3, k4⟩ := ih i1 h2 hnd.2 (by
      intro j hj
      have hj' := hP j (by simp [hj])
      refine ⟨hj'.1, ?_⟩
      have hjk : j ≠ k := fun e => hnd.1 (e ▸ hj)
      rw [h4 j hj'.1, if_neg hjk]
      exact hj'.2)
    refine ⟨i2, by simp only [each, h1, k1], k2, by rw [k3, h3], ?_⟩
    intro j hj
    rw [k4 j hj, h4 j hj]
    by_cases hjk : j = k
    · subst hjk; simp [hnd.1]
    · simp [hjk]

theorem nodup_range_rev (n : Nat) : (List.range n).reverse.Nodup := List.nodup_reverse.2 List.nodup_range

/-- Bytes for the bits of raw memory of the right size. -/
def Raw (d : ClassDef) (garbage : List Nat) : Prop := d.length ≤ 8 * garbage.length

theorem raw_shape {d garbage} (h : Raw d garbage) : Shape d ⟨garbage, List.replicate d.length none, []⟩ :=
  ⟨h, by simp⟩

theorem raw_cell {d : ClassDef} {garbage k} : cell ⟨garbage, List.replicate d.length none, []⟩ k = none := by
  unfold cell
  simp only [List.getElem?_replicate]
  split <;> rfl

/-- The state in which construction leaves member `k`. -/
def startState (d : ClassDef) (k : Nat) : Bool × Option Nat :=
  match (d[k]?).map Member.start with
  | some (.value v) => (true, some v)
  | some (.construct v) => (true, some v)
  | _ => (false, none)

theorem constructStep_good (d : ClassDef) (hne : ∀ (k : Nat) (m : Member), d[k]? = some m → m.nonempty = true → m.start ≠ .empty) :
    Good d (constructStep d) (fun _ s => s.2 = none)
      (fun k _ => startState d k) := by
  intro i k hs hk hP
  have hks : k < i.store.length := by rw [hs.store]; exact hk
  obtain ⟨m, hm⟩ : ∃ m, d[k]? = some m := ⟨d[k], List.getElem?_eq_getElem hk⟩
  have hnone : cell i k = none := hP
  have hput : ∀ v, Shape d (setFlag d (construct i k v) k) ∧ (setFlag d (construct i k v) k).leaked = i.leaked ∧
      ∀ j, j < d.length → state d (setFlag d (construct i k v) k) j = if j = k then (true, some v) else state d i j := by
    intro v
    have hsh := shape_construct (k := k) (v := v) hs
    refine ⟨shape_setFlag hsh, by rw [leaked_setFlag]; simp [construct, hnone], ?_⟩
    intro j _
    simp only [state]
    rw [check_setFlag hsh hk, cell_setFlag, cell_construct hks, check_construct]
    by_cases hjk : j = k <;> simp [hjk]
  cases hst : m.start with
  | value v =>
    have hss : startState d k = (true, some v) := by simp [startState, hm, hst]
    obtain ⟨a, b, c⟩ := hput v
    exact ⟨_, by simp only [constructStep, hm, hst], a, b, by simp only [hss]; exact c⟩
  | construct v =>
    have hss : startState d k = (true, some v) := by simp [startState, hm, hst]
    obtain ⟨a, b, c⟩ := hput v
    exact ⟨_, by simp only [constructStep, hm, hst], a, b, by simp only [hss]; exact c⟩
  | empty =>
    have hss : startState d k = (false, none) := by simp [startState, hm, hst]
    have hg : guaranteed d k = false := by
      simp only [guaranteed, hm, Option.map_some, Option.getD_some]
      cases hx : m.nonempty with
      | false => rfl
      | true => exact absurd hst (hne k m hm hx)
    refine ⟨clearFlag d i k, by simp only [constructStep, hm, hst], shape_clearFlag hs, leaked_clearFlag, ?_⟩
    intro j _
    simp only [hss]
    unfold state
    rw [check_clearFlag hs hk, cell_clearFlag, hg]
    by_cases hjk : j = k
    · subst hjk; simp [hnone]
    · simp [hjk]

/-- **C55: construction.**  A new instance, made in memory that may hold anything, has exactly the declared defaults and
default-constructed members set, and nothing else. -/
theorem constructor_spec (d : ClassDef) (garbage : List Nat) (hr : Raw d garbage)
    (hne : ∀ (k : Nat) (m : Member), d[k]? = some m → m.nonempty = true → m.start ≠ .empty) :
    ∃ i, constructor d garbage = .ok i ∧ WF d i ∧ i.leaked = [] ∧
      ∀ (k : Nat) (m : Member), d[k]? = some m → attrs d i k = (match m.start with | .value v => some v | .construct v => some v | .empty => none) := by
  obtain ⟨i, h1, h2, h3, h4⟩ := each_good (constructStep_good d hne) (List.range d.length) _ (raw_shape hr) List.nodup_range
    (by intro k hk; exact ⟨by simpa using hk, raw_cell⟩)
  have hst : ∀ (k : Nat) (m : Member), d[k]? = some m → k < d.length := fun k m hm => by
    obtain ⟨h, _⟩ := List.getElem?_eq_some_iff.1 hm; exact h
  have hfin : ∀ (k : Nat) (m : Member), d[k]? = some m → state d i k =
      (match m.start with | .value v => (true, some v) | .construct v => (true, some v) | .empty => (false, none)) := by
    intro k m hm
    have hk := hst k m hm
    rw [h4 k hk, if_pos (by simpa using hk)]
    cases hs : m.start <;> simp [startState, hm, hs]
  have hwf : WF d i := by
    refine ⟨h2, ?_⟩
    intro k hk
    have := hfin k d[k] (List.getElem?_eq_getElem hk)
    unfold state at this
    cases hs : d[k].start with
    | value v => rw [hs] at this; simp only [Prod.mk.injEq] at this; rw [this.1, this.2]; simp
    | construct v => rw [hs] at this; simp only [Prod.mk.injEq] at this; rw [this.1, this.2]; simp
    | empty => rw [hs] at this; simp only [Prod.mk.injEq] at this; rw [this.1, this.2]; simp
  refine ⟨i, h1, hwf, h3, ?_⟩
  intro k m hm
  have hk := hst k m hm
  rw [attrs_of_wf hwf k hk]
  have := hfin k m hm
  unfold state at this
  cases hs : m.start with
  | value v => rw [hs] at this; simp only [Prod.mk.injEq] at this; rw [this.2]
  | construct v => rw [hs] at this; simp only [Prod.mk.injEq] at this; rw [this.2]
  | empty => rw [hs] at this; simp only [Prod.mk.injEq] at this; rw [this.2]

/-- A class with a default, a default-constructed member, an empty member and nine more, in dirty memory. -/
def exDef : ClassDef := [⟨false, .value 7⟩, ⟨true, .construct 0⟩, ⟨false, .empty⟩] ++ List.replicate 9 ⟨false, .empty⟩

example : Raw exDef [255, 255] ∧ (∀ (k : Nat) (m : Member), exDef[k]? = some m → m.nonempty = true → m.start ≠ .empty) ∧
    ((constructor exDef [255, 255]).map (fun i => (List.range 12).map (attrs exDef i))) =
      .ok ([some 7, some 0] ++ List.replicate 10 none) := by
  refine ⟨by simp [Raw, exDef], ?_, by decide +kernel⟩
  intro k m hk hm
  match k, hk with
  | 0, hk => simp [exDef] at hk; subst hk; simp at hm
  | 1, hk => simp [exDef] at hk; subst hk; simp
  | 2, hk => simp [exDef] at hk; subst hk; simp at hm
  | k + 3, hk =>
    simp only [exDef, List.cons_append, List.nil_append, List.getElem?_cons_succ, List.getElem?_replicate] at hk
    split at hk
    · simp at hk; subst hk; simp at hm
    · cases hk

theorem destroyStep_good (d : ClassDef) : Good d (destroyStep d) (fun _ s => s.1 = true ↔ s.2.isSome)
    (fun _ s => (s.1, none)) := by
  intro i k hs hk hP
  have hks : k < i.store.length := by rw [hs.store]; exact hk
  simp only [state] at hP
  unfold destroyStep
  cases hc : check d i k with
  | true =>
    obtain ⟨o, ho⟩ := Option.isSome_iff_exists.1 (hP.1 hc)
    refine ⟨{ i with store := i.store.set k none }, ?_, ⟨hs.bits, by simp [hs.store]⟩, rfl, ?_⟩
    · simp only [if_true, destroyCell, ho]
    · intro j _
      simp only [state]
      rw [cell_set i k j none _ _ hks]
      show (check d i j, _) = _
      by_cases hjk : j = k
      · subst hjk; simp
      · simp [hjk]
  | false =>
    have hnone : cell i k = none := by
      cases hx : cell i k with
      | none => rfl
      | some o => rw [hx, hc] at hP; simp at hP
    refine ⟨i, rfl, hs, rfl, ?_⟩
    intro j _
    by_cases hjk : j = k
    · subst hjk; simp [state, hnone]
    · simp [hjk]

/-- **C55: destruction.**  Destroying a well-formed instance releases every value it holds, each once, and touches no
raw memory. -/
theorem destroy_spec {d i} (h : WF d i) :
    ∃ i', destroy d i = .ok i' ∧ i'.leaked = i.leaked ∧ ∀ k, k < d.length → cell i' k = none := by
  obtain ⟨i', h1, _, h3, h4⟩ := each_good (destroyStep_good d) (List.range d.length).reverse i h.toShape (nodup_range_rev _)
    (by intro k hk; have hk' : k < d.length := by simpa using hk
        exact ⟨hk', h.sync k hk'⟩)
  refine ⟨i', h1, h3, ?_⟩
  intro k hk
  have := h4 k hk
  rw [if_pos (by simpa using hk)] at this
  unfold state at this
  simp only [Prod.mk.injEq] at this
  exact this.2

theorem copyStep_good (d : ClassDef) (other : Inst) (ho : WF d other) :
    Good d (copyStep d other) (fun _ s => s.2 = none) (fun k _ => state d other k) := by
  intro i k hs hk hP
  have hks : k < i.store.length := by rw [hs.store]; exact hk
  have hnone : cell i k = none := hP
  have hsync := ho.sync k hk
  unfold copyStep
  cases hc : check d other k with
  | true =>
    obtain ⟨v, hv⟩ := Option.isSome_iff_exists.1 (hsync.1 hc)
    have hsh := shape_construct (k := k) (v := v) hs
    refine ⟨setFlag d (construct i k v) k, by simp only [if_true, hv], shape_setFlag hsh,
      by rw [leaked_setFlag]; simp [construct, hnone], ?_⟩
    intro j _
    simp only [state]
    rw [check_setFlag hsh hk, cell_setFlag, cell_construct hks, check_construct, hc, hv]
    by_cases hjk : j = k <;> simp [hjk]
  | false =>
    have hon : cell other k = none := by
      cases hx : cell other k with
      | none => rfl
      | some o => rw [hx, hc] at hsync; simp at hsync
    have hg : guaranteed d k = false := by
      cases hg : guaranteed d k with
      | false => rfl
      | true => simp [check, hg] at hc
    refine ⟨clearFlag d i k, rfl, shape_clearFlag hs, leaked_clearFlag, ?_⟩
    intro j _
    simp only [state]
    rw [check_clearFlag hs hk, cell_clearFlag, hg, hc, hon]
    by_cases hjk : j = k
    · subst hjk; simp [hnone]
    · simp [hjk]

/-- **C55: copying.**  A copy, made in memory that may hold anything, has exactly the attributes of the original. -/
theorem copyConstructor_spec {d other} (ho : WF d other) (garbage : List Nat) (hr : Raw d garbage) :
    ∃ i, copyConstructor d garbage other = .ok i ∧ WF d i ∧ attrs d i = attrs d other ∧ i.leaked = [] := by
  obtain ⟨i, h1, h2, h3, h4⟩ := each_good (copyStep_good d other ho) (List.range d.length).reverse _ (raw_shape hr)
    (nodup_range_rev _) (by intro k hk; exact ⟨by simpa using hk, raw_cell⟩)
  have hst : ∀ k, k < d.length → state d i k = state d other k := by
    intro k hk
    rw [h4 k hk, if_pos (by simpa using hk)]
  have hwf : WF d i := by
    refine ⟨h2, ?_⟩
    intro k hk
    have h5 := hst k hk
    simp only [state, Prod.mk.injEq] at h5
    rw [h5.1, h5.2]; exact ho.sync k hk
  refine ⟨i, h1, hwf, ?_, h3⟩
  funext k
  by_cases hk : k < d.length
  · rw [attrs_of_wf hwf k hk, attrs_of_wf ho k hk]
    have h5 := hst k hk
    simp only [state, Prod.mk.injEq] at h5
    exact h5.2
  · simp [attrs, hk]

/-! ### Assignment of a whole held instance -/

theorem assignStep_good (d : ClassDef) (other : Inst) (ho : WF d other) :
    Good d (assignStep d other)
      (fun k s => (s.1 = true ↔ s.2.isSome) ∧ ((cell other k).isSome → s.2.isSome)) (fun k _ => state d other k) := by
  intro i k hs hk hP
  have hks : k < i.store.length := by rw [hs.store]; exact hk
  have hsync := ho.sync k hk
  obtain ⟨hP1, hP2⟩ := hP
  simp only [state] at hP1 hP2
  unfold assignStep
  cases hco : check d other k with
  | true =>
    obtain ⟨v, hv⟩ := Option.isSome_iff_exists.1 (hsync.1 hco)
    have hself : (cell i k).isSome := hP2 (by rw [hv]; rfl)
    have hci : check d i k = true := hP1.2 hself
    obtain ⟨o, hio⟩ := Option.isSome_iff_exists.1 hself
    refine ⟨{ i with store := i.store.set k (some v) }, ?_, ⟨hs.bits, by simp [hs.store]⟩, rfl, ?_⟩
    · simp only [hci, Bool.and_self, if_true, hv, assignCell, hio]
    · intro j _
      simp only [state]
      rw [cell_set i k j (some v) _ _ hks, hco, hv]
      show (check d i j, _) = _
      by_cases hjk : j = k
      · subst hjk; simp [hci]
      · simp [hjk]
  | false =>
    have hon : cell other k = none := by
      cases hx : cell other k with
      | none => rfl
      | some o => rw [hx, hco] at hsync; simp at hsync
    have hg : guaranteed d k = false := by
      cases hg : guaranteed d k with
      | false => rfl
      | true => simp [check, hg] at hco
    cases hci : check d i k with
    | true =>
      obtain ⟨o, hio⟩ := Option.isSome_iff_exists.1 (hP1.1 hci)
      have hsh : Shape d { i with store := i.store.set k none } := ⟨hs.bits, by simp [hs.store]⟩
      refine ⟨clearFlag d { i with store := i.store.set k none } k, ?_, shape_clearFlag hsh, leaked_clearFlag, ?_⟩
      · simp [destroyCell, hio]
      · intro j _
        simp only [state]
        rw [check_clearFlag hsh hk, cell_clearFlag, cell_set i k j none _ _ hks, hg, hco, hon]
        show (check d i j && _, _) = _
        by_cases hjk : j = k
        · simp [hjk]
        · simp [hjk]
    | false =>
      have hin : cell i k = none := by
        cases hx : cell i k with
        | none => rfl
        | some o => rw [hx, hci] at hP1; simp at hP1
      refine ⟨i, by simp, hs, rfl, ?_⟩
      intro j _
      by_cases hjk : j = k
      · subst hjk; simp [state, hci, hco, hin, hon]
      · simp [hjk]

/-- **C55: assigning one held instance to another (partial).**  If every attribute set in the source is already set in
the target, the target ends up with exactly the source's attributes and nothing leaks. -/
theorem assign_spec_partial {d i other} (hi : WF d i) (ho : WF d other)
    (hsub : ∀ k, k < d.length → attrs d other k ≠ none → attrs d i k ≠ none) :
    ∃ i', assign d i other = .ok i' ∧ WF d i' ∧ attrs d i' = attrs d other ∧ i'.leaked = i.leaked := by
  obtain ⟨i', h1, h2, h3, h4⟩ := each_good (assignStep_good d other ho) (List.range d.length).reverse i hi.toShape
    (nodup_range_rev _) (by
      intro k hk
      have hk' : k < d.length := by simpa using hk
      refine ⟨hk', hi.sync k hk', ?_⟩
      intro hx
      have := hsub k hk' (by rw [attrs_of_wf ho k hk']; exact Option.isSome_iff_ne_none.1 hx)
      rw [attrs_of_wf hi k hk'] at this
      exact Option.isSome_iff_ne_none.2 this)
  have hst : ∀ k, k < d.length → state d i' k = state d other k := by
    intro k hk
    rw [h4 k hk, if_pos (by simpa using hk)]
  have hwf : WF d i' := by
    refine ⟨h2, ?_⟩
    intro k hk
    have h5 := hst k hk
    simp only [state, Prod.mk.injEq] at h5
    rw [h5.1, h5.2]; exact ho.sync k hk
  refine ⟨i', h1, hwf, ?_, h3⟩
  funext k
  by_cases hk : k < d.length
  · rw [attrs_of_wf hwf k hk, attrs_of_wf ho k hk]
    have h5 := hst k hk
    simp only [state, Prod.mk.injEq] at h5
    exact h5.2
  · simp [attrs, hk]

/-- A class with one plain member. -/
def oneDef : ClassDef := [⟨false, .empty⟩]

/-- **C55 refuted: assignment loses members.**  Assigning an instance whose member is set onto one whose member is not
copies the value and then marks it uninitialised: the attribute cannot be read afterwards, and the value copied in is
never released (it is still constructed after the instance is destroyed). -/
theorem assign_loses_member :
    ∃ i other i', constructor oneDef [0] = .ok i ∧ setAttribute oneDef i 0 42 = .ok other ∧
      assign oneDef i other = .ok i' ∧
      pyGetAttr oneDef other 0 = .ok 42 ∧ pyGetAttr oneDef i' 0 = .error .notInitialized ∧
      (destroy oneDef i').map (fun x => cell x 0) = .ok (some 42) := by
  refine ⟨⟨[0], [none], []⟩, ⟨[1], [some 42], []⟩, ⟨[0], [some 42], []⟩, ?_⟩
  decide +kernel

example : ((constructor oneDef [255]).bind (fun i => setAttribute oneDef i 0 5)).bind (fun i =>
    (setAttribute oneDef i 0 6).bind (fun o => (assign oneDef i o).bind (fun r => pyGetAttr oneDef r 0))) = .ok 6 := by
  decide +kernel

/-! ### The deep copier's view of members -/

theorem deepcopyStep_good (d : ClassDef) (dup : Nat → Nat) (other : Inst) (ho : WF d other) :
    Good d (deepcopyStep d dup other) (fun k s => s.2 = none ∧ (s.1 = true → check d other k = true))
      (fun k _ => (check d other k, (cell other k).map dup)) := by
  intro i k hs hk hP
  have hks : k < i.store.length := by rw [hs.store]; exact hk
  obtain ⟨hnone, hfl⟩ := hP
  simp only [state] at hnone hfl
  have hsync := ho.sync k hk
  unfold deepcopyStep
  cases hc : check d other k with
  | true =>
    obtain ⟨v, hv⟩ := Option.isSome_iff_exists.1 (hsync.1 hc)
    have hsh := shape_construct (k := k) (v := dup v) hs
    refine ⟨setFlag d (construct i k (dup v)) k, by simp only [if_true, hv], shape_setFlag hsh,
      by rw [leaked_setFlag]; simp [construct, hnone], ?_⟩
    intro j _
    simp only [state]
    rw [check_setFlag hsh hk, cell_setFlag, cell_construct hks, check_construct, hv]
    by_cases hjk : j = k <;> simp [hjk, hc]
  | false =>
    have hon : cell other k = none := by
      cases hx : cell other k with
      | none => rfl
      | some o => rw [hx, hc] at hsync; simp at hsync
    have hci : check d i k = false := by
      cases hx : check d i k with
      | false => rfl
      | true => rw [hfl hx] at hc; cases hc
    refine ⟨i, rfl, hs, rfl, ?_⟩
    intro j _
    by_cases hjk : j = k
    · subst hjk; simp [state, hci, hnone, hon, hc]
    · simp [hjk]

/-- **Deep copy of members (partial).**  Into memory whose flag bits are clear wherever the source's are, the deep copy
sets exactly the source's members. -/
theorem deepcopy_members_partial {d other} (dup : Nat → Nat) (ho : WF d other) (garbage : List Nat) (hr : Raw d garbage)
    (hclean : ∀ k, k < d.length → rawCheck garbage k = true → check d other k = true) :
    ∃ i, deepcopy d dup garbage other = .ok i ∧ WF d i ∧ ∀ k, attrs d i k = (attrs d other k).map dup := by
  obtain ⟨i, h1, h2, h3, h4⟩ := each_good (deepcopyStep_good d dup other ho) (List.range d.length) _ (raw_shape hr)
    List.nodup_range (by
      intro k hk
      have hk' : k < d.length := by simpa using hk
      refine ⟨hk', raw_cell, ?_⟩
      intro hx
      simp only [state, check] at hx
      by_cases hg : guaranteed d k = true
      · simp [check, hg]
      · rw [if_neg hg] at hx; exact hclean k hk' hx)
  have hst : ∀ k, k < d.length → state d i k = (check d other k, (cell other k).map dup) := by
    intro k hk
    rw [h4 k hk, if_pos (by simpa using hk)]
  have hwf : WF d i := by
    refine ⟨h2, ?_⟩
    intro k hk
    have h5 := hst k hk
    simp only [state, Prod.mk.injEq] at h5
    rw [h5.1, h5.2, Option.isSome_map]; exact ho.sync k hk
  refine ⟨i, h1, hwf, ?_⟩
  intro k
  by_cases hk : k < d.length
  · rw [attrs_of_wf hwf k hk, attrs_of_wf ho k hk]
    have h5 := hst k hk
    simp only [state, Prod.mk.injEq] at h5
    exact h5.2
  · simp [attrs, hk]

/-- **Refuted in dirty memory.**  The deep copier never clears a flag, and its memory comes from `malloc` (for `deepcopy` and for
small slabs, Slab.hpp 76-78 and 181-182), which does not zero it: a member that was unset in the source reads as set in the copy, over raw memory. -/
theorem deepcopy_members_dirty :
    ∃ other i, constructor oneDef [0] = .ok other ∧ deepcopy oneDef id [255] other = .ok i ∧
      pyGetAttr oneDef other 0 = .error .notInitialized ∧ pyGetAttr oneDef i 0 = .error .undefined := by
  refine ⟨⟨[0], [none], []⟩, ⟨[255], [none], []⟩, ?_⟩
  decide +kernel

/-! ### Histories -/

/-- What a program can do to an instance. -/
inductive Op
  | set (k v : Nat)
  | del (k : Nat)
  deriving Repr

/-- One step; a step that raises leaves the instance alone. -/
def step (d : ClassDef) (i : Inst) : Op → Inst
  | .set k v => if k < d.length then (match setAttribute d i k v with | .ok i' => i' | .error _ => i) else i
  | .del k => if k < d.length then (match pyDelAttr d i k with | .ok i' => i' | .error _ => i) else i

/-- The same on attributes. -/
def specStep (d : ClassDef) (a : Attrs) : Op → Attrs
  | .set k v => if k < d.length then put a k v else a
  | .del k => if k < d.length ∧ guaranteed d k = false then drop a k else a

theorem step_spec {d i} (h : WF d i) (o : Op) : WF d (step d i o) ∧ attrs d (step d i o) = specStep d (attrs d i) o ∧
    (step d i o).leaked = i.leaked := by
  cases o with
  | set k v =>
    by_cases hk : k < d.length
    · obtain ⟨i', h1, h2, h3, h4⟩ := setAttribute_spec h k v hk
      simp only [step, specStep, hk, if_true, h1]
      exact ⟨h2, h3, h4⟩
    · simp only [step, specStep, hk, if_false]; exact ⟨h, trivial, trivial⟩
  | del k =>
    by_cases hk : k < d.length
    · obtain ⟨p1, p2, p3⟩ := pyDelAttr_spec h k hk
      cases hg : guaranteed d k with
      | true => simp only [step, specStep, hk, if_true, p1 hg, hg]; simp [h]
      | false =>
        cases ha : attrs d i k with
        | none =>
          simp only [step, specStep, hk, if_true, p2 hg ha, hg, and_self]
          refine ⟨h, ?_, trivial⟩
          funext j
          unfold drop
          by_cases hj : j = k
          · simp [hj, ha]
          · simp [hj]
        | some v =>
          obtain ⟨i', h1, h2, h3, h4⟩ := p3 hg (by rw [ha]; simp)
          simp only [step, specStep, hk, if_true, h1, hg, and_self]
          exact ⟨h2, h3, h4⟩
    · simp only [step, specStep, hk, if_false, false_and]; exact ⟨h, trivial, trivial⟩

/-- **C55, all histories.**  From construction on, through any sequence of attribute assignments and deletions (also
failing ones), an instance's attributes are exactly what the sequence says, nothing is ever leaked, no undefined
behaviour occurs, and destroying it releases everything. -/
theorem instance_history (d : ClassDef) (garbage : List Nat) (hr : Raw d garbage)
    (hne : ∀ (k : Nat) (m : Member), d[k]? = some m → m.nonempty = true → m.start ≠ .empty) (ops : List Op) :
    ∃ i0, constructor d garbage = .ok i0 ∧
      attrs d (ops.foldl (step d) i0) = ops.foldl (specStep d) (attrs d i0) ∧
      (∀ k, k < d.length → pyGetAttr d (ops.foldl (step d) i0) k ≠ .error .undefined) ∧
      ∃ i', destroy d (ops.foldl (step d) i0) = .ok i' ∧ i'.leaked = [] ∧ ∀ k, k < d.length → cell i' k = none := by
  obtain ⟨i0, h1, h2, h3, _⟩ := constructor_spec d garbage hr hne
  have key : ∀ (ops : List Op) (i : Inst), WF d i → i.leaked = [] → WF d (ops.foldl (step d) i) ∧
      attrs d (ops.foldl (step d) i) = ops.foldl (specStep d) (attrs d i) ∧ (ops.foldl (step d) i).leaked = [] := by
    intro ops
    induction ops with
    | nil => intro i hi hl; exact ⟨hi, rfl, hl⟩
    | cons o os ih =>
      intro i hi hl
      obtain ⟨a, b, c⟩ := step_spec hi o
      obtain ⟨a', b', c'⟩ := ih _ a (c.trans hl)
      exact ⟨a', by rw [List.foldl_cons, List.foldl_cons, b', b], c'⟩
  obtain ⟨a, b, c⟩ := key ops i0 h2 h3
  obtain ⟨i', d1, d2, d3⟩ := destroy_spec a
  exact ⟨i0, h1, b, fun k hk => get_defined a k hk, i', d1, d2.trans c, d3⟩

example : ((constructor exDef [255, 255]).map (fun i => (List.range 4).map
    (attrs exDef ([Op.set 2 9, .del 0, .set 2 10, .del 1].foldl (step exDef) i)))) = .ok [none, some 0, some 10, none] := by
  decide +kernel

end Verif.HeldClass
