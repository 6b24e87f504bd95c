import Verif.HashTable.Props

/-!
# The compiled twin (C09)

Model of `compiler/type_wrappers/hash_table_implementation.py` and the functions of `dict_wrapper.py` built on it.
Resizing, compressing and allocating a slot are the C++ routines, called through `_resizeTableUnsafe`,
`_compressItemTableUnsafe` and `_allocateNewSlotUnsafe`.
-/

namespace Verif.HashTable
open Spec

variable {K V : Type}

/-- What `NativeHash(T)(key)` and `if itemHash < 0: itemHash = -itemHash` leave: the value kept in and compared with
`_hash_table_hashes`, and the start of the probe sequence `UInt64(itemHash)`; lines 25-88, 96-101, 128-133, 179-184. -/
abbrev NHash (K : Type) := K → Int × Nat

/-- Key types known to the compiler: `convert_hash` gives an `Int32`, line 76. -/
def typedHash (ko : KeyOps K) : NHash K := fun k => (norm (ko.hash k), u64 (norm (ko.hash k)))

/-- Other key types: the hash has been converted to `UInt64` before the test for a negative value, lines 54-74. -/
def objectHash (ko : KeyOps K) : NHash K := fun k => (ko.hash k, u64 (ko.hash k))

variable (ko : KeyOps K) (nh : NHash K)

/-- `table_slot_for_key`, lines 122-150.  The stored key is the left operand of `==`, line 142. -/
def lookupSlotC (t : Tbl K V) (k : K) : Except Err (Option Nat) :=
  if t.size = 0 then .ok none
  else
    match findLoop t (nh k).1 (fun x => ko.eq x k) (t.size + 14) (nh k).2 (nh k).2 with
    | .error e => .error e
    | .ok s => if s = -1 then .ok none else .ok (some s.toNat)

/-- Lines 92-94. -/
def roomC (t : Tbl K V) : Except Err (Tbl K V) :=
  if t.count * 2 + 1 > t.size ∨ t.empty < t.size >>> 2 + 1 then resizeWith (addF 1) t else .ok t

/-- Lines 99-119. -/
def placeC (t : Tbl K V) (h : Int × Nat) (slot : Int) : Except Err (Tbl K V) :=
  match addLoop t (t.size + 14) h.2 h.2 with
  | .error e => .error e
  | .ok i => .ok { t with
      slots := upd t.slots i slot
      hashes := upd t.hashes i h.1
      count := t.count + 1
      empty := if t.slots i = EMPTY then t.empty - 1 else t.empty }

/-- The insertion branch of `dict_setitem`, lines 277-280. -/
def insertKeyC (t : Tbl K V) (k : K) (v : V) : Except Err (Tbl K V) := do
  let (t, slot) := allocateNewSlot t
  let t ← roomC t
  let t ← placeC t (nh k) slot
  if slot < t.items.length then .ok { t with items := t.items.set slot (some (k, v)) } else .error .badItem

/-- The loop of `table_remove_key`, lines 186-206: it also compares the hashes. -/
def removeLoopC (t : Tbl K V) (hash : Int) (compare : K → Bool) : Nat → Nat → Nat → Except Err (Option (Nat × Int))
  | 0, _, _ => .error .fuel
  | f + 1, o, p =>
    let i := t.ix o
    let slot := t.slots i
    if slot = EMPTY then .ok none
    else if slot ≠ DELETED ∧ t.hashes i = hash then do
      if ← t.compareAt slot compare then .ok (some (i, slot))
      else removeLoopC t hash compare f (nextOffset o p) (nextPerturb p)
    else removeLoopC t hash compare f (nextOffset o p) (nextPerturb p)

/-- Lines 171-206. -/
def removeFromC (t : Tbl K V) (k : K) : Except Err (Tbl K V × Bool) :=
  if t.size = 0 then .ok (t, false)
  else
    match removeLoopC t (nh k).1 (fun x => ko.eq x k) (t.size + 14) (nh k).2 (nh k).2 with
    | .error e => .error e
    | .ok none => .ok (t, false)
    | .ok (some (i, slot)) =>
      .ok ({ t with
        items := t.items.set slot.toNat none
        slots := upd t.slots i DELETED
        hashes := upd t.hashes i (-1)
        count := t.count - 1 }, true)

/-- `table_remove_key`, lines 164-210. -/
def deleteKeyC (t : Tbl K V) (k : K) : Except Err (Tbl K V × Bool) :=
  (shrinkItems t).bind fun t => (shrinkTable t).bind fun t => removeFromC ko nh t k

/-- `table_clear`, lines 213-229. -/
def clearC (t : Tbl K V) : Tbl K V :=
  { t with items := t.items.map (fun _ => none), count := 0, top := 0, empty := t.size,
           slots := fun i => if i < t.size then -1 else t.slots i,
           hashes := fun i => if i < t.size then EMPTY else t.hashes i }

/-- `dict_getitem`, lines 249-257. -/
def getitemC (t : Tbl K V) (k : K) : Except Err (Except Err V) := do
  match ← lookupSlotC ko nh t k with
  | some s => .ok (.ok (← valueAt t s))
  | none => .ok (.error .keyError)

/-- `dict_setitem`, lines 271-282. -/
def setitemC (t : Tbl K V) (k : K) (v : V) : Except Err (Tbl K V) := do
  match ← lookupSlotC ko nh t k with
  | some s =>
    match t.items[s]? with
    | some (some (k', _)) => .ok { t with items := t.items.set s (some (k', v)) }
    | _ => .error .badItem
  | none => insertKeyC nh t k v

/-- One call made by compiled code. -/
def stepC (t : Tbl K V) (op : Op K V) : Except Err (Tbl K V × Except Err (Res K V)) :=
  match op with
  | .getitem k => do .ok (t, (← getitemC ko nh t k).map .val)
  -- `dict_table_contains`, lines 235-240
  | .contains k => do .ok (t, .ok (.bool (← lookupSlotC ko nh t k).isSome))
  | .setitem k v => do .ok (← setitemC ko nh t k v, .ok .unit)
  -- `dict_delitem`, lines 243-246
  | .delitem k => do
    let (t', b) ← deleteKeyC ko nh t k
    .ok (t', if b then .ok .unit else .error .keyError)
  -- `dict_pop_nodefault`, `dict_wrapper.py:82-90`
  | .pop k => do
    if (← lookupSlotC ko nh t k).isSome then
      match ← getitemC ko nh t k with
      | .error e => .ok (t, .error e)
      | .ok v =>
        let (t', b) ← deleteKeyC ko nh t k
        .ok (t', if b then .ok (.val v) else .error .keyError)
    else .ok (t, .error .keyError)
  -- `dict_pop`, `dict_wrapper.py:104-110`
  | .popD k d => do
    if (← lookupSlotC ko nh t k).isSome then
      match ← getitemC ko nh t k with
      | .error e => .ok (t, .error e)
      | .ok v =>
        let (t', b) ← deleteKeyC ko nh t k
        .ok (t', if b then .ok (.val v) else .error .keyError)
    else .ok (t, .ok (.val d))
  -- `dict_get`, lines 260-268
  | .get k d => do
    match ← lookupSlotC ko nh t k with
    | some s => .ok (t, .ok (.val (← valueAt t s)))
    | none => .ok (t, .ok (.val d))
  -- `dict_setdefault`, `dict_wrapper.py:47-50`
  | .setdefault k d => do
    if (← lookupSlotC ko nh t k).isSome then .ok (t, (← getitemC ko nh t k).map .val)
    else
      let t' ← setitemC ko nh t k d
      .ok (t', (← getitemC ko nh t' k).map .val)
  | .clear => .ok (clearC t, .ok .unit)
  | .len => .ok (t, .ok (.int t.count))
  -- the iterators step with `table_next_slot`, lines 153-161
  | .items => .ok (t, .ok (.list (iterate t)))

/-- A history of calls, each marked with whether compiled code makes it. -/
def runMixed (t : Tbl K V) : List (Bool × Op K V) → Except Err (Tbl K V × List (Except Err (Res K V)))
  | [] => .ok (t, [])
  | (c, op) :: ops => do
    let (t, r) ← if c then stepC ko nh t op else step ko t op
    let (t, rs) ← runMixed t ops
    .ok (t, r :: rs)

/-! ### Agreement for typed keys -/

theorem eq_flip {ko : KeyOps K} (lk : LawfulKey ko) (k : K) : (fun x => ko.eq x k) = ko.eq k := by
  funext x
  cases a : ko.eq x k <;> cases b : ko.eq k x <;> try rfl
  · rw [lk.symm _ _ b] at a; exact absurd a (by decide)
  · rw [lk.symm _ _ a] at b; exact absurd b (by decide)

theorem lookupSlotC_eq {ko : KeyOps K} (lk : LawfulKey ko) {t : Tbl K V} (i : Inv ko t) (k : K) :
    lookupSlotC ko (typedHash ko) t k = lookupSlot ko t k := by
  unfold lookupSlotC
  rw [eq_flip lk]
  by_cases c : t.size = 0
  · rw [if_pos c]; simp only [lookupSlot, find, if_pos c, bind, Except.bind]; rfl
  · rw [if_neg c]
    rcases lookupSlot_ok lk i k with ⟨s, x, v, a, _⟩ | ⟨a, _⟩
    all_goals
      rw [a]
      simp only [lookupSlot, find, if_neg c, bind, Except.bind] at a
      simp only [typedHash]
      split at a
      · cases a
      · next r e =>
        rw [e]
        by_cases d : r ≥ 0
        · rw [if_pos d] at a
          simp only [if_neg (show ¬r = -1 by omega)]
          exact a
        · rw [if_neg d] at a
          first
            | cases a; done
            | -- the loop only ever returns -1 or a slot
              rcases i.idx with ⟨z, _, _⟩ | ⟨c1, c2⟩
              · exact absurd z c
              · obtain ⟨n, n1, n2⟩ := c1.tab.meets_empty (by rw [← c1.emp]; exact c2) (norm (ko.hash k))
                have sp := findLoop_spec t c1.readable (norm (ko.hash k)) (ko.eq k) (u64 (norm (ko.hash k)))
                  (fun n => c1.tab.idx_lt _ n) (t.size + 14) 0 ⟨n, by omega, by omega, n2⟩
                simp only [off] at sp
                rcases sp with ⟨_, _, a2, _⟩ | ⟨_, s, _, _, _, a2, _⟩
                · rw [e] at a2; injection a2 with a2; simp [a2]
                · rw [e] at a2; injection a2 with a2; omega

theorem add_eq (t : Tbl K V) (h s : Int) : add t h s = (roomC t).bind fun t => place t h s := by
  have sh : t.size >>> 2 = t.size / 4 := Nat.shiftRight_eq_div_pow t.size 2
  have un : add t h s = if t.count * 2 + 1 > t.size ∨ t.empty < t.size / 4 + 1 then
      (resizeWith (addF 1) t).bind fun t => place t h s else place t h s := rfl
  rw [un]
  unfold roomC
  rw [sh]
  split <;> rfl

theorem insertKeyC_eq {ko : KeyOps K} (t : Tbl K V) (k : K) (v : V) :
    insertKeyC (typedHash ko) t k v = insertKey ko t k v := by
  have pl : ∀ (t : Tbl K V) (s : Int), placeC t (typedHash ko k) s = place t (ko.hash k) s := by
    intro t s
    unfold placeC place typedHash
    simp only [bind, Except.bind]
    generalize addLoop t (t.size + 14) (u64 (norm (ko.hash k))) (u64 (norm (ko.hash k))) = r
    cases r <;> rfl
  unfold insertKeyC insertKey
  generalize allocateNewSlot t = p
  obtain ⟨t1, s⟩ := p
  simp only [add_eq, pl]
  cases roomC t1 <;> rfl

theorem removeLoopC_eq (t : Tbl K V) (rd : Readable t) (hash : Int) (c : K → Bool) (h : Nat)
    (lt : ∀ n, idx t.size h n < t.size)
    (agree : ∀ i, i < t.size → ∀ (s : Nat) x v, t.slots i = s → t.items[s]? = some (some (x, v)) → c x = true →
      t.hashes i = hash) :
    ∀ (f k : Nat), removeLoopC t hash c f (off h k).1 (off h k).2 = removeLoop t c f (off h k).1 (off h k).2 := by
  have succ : ∀ f k, removeLoopC t hash c (f + 1) (off h k).1 (off h k).2 =
      if t.slots (idx t.size h k) = -1 then .ok none
      else if t.slots (idx t.size h k) ≠ -2 ∧ t.hashes (idx t.size h k) = hash then
        (t.compareAt (t.slots (idx t.size h k)) c).bind fun b =>
          if b = true then .ok (some (idx t.size h k, t.slots (idx t.size h k)))
          else removeLoopC t hash c f (off h (k + 1)).1 (off h (k + 1)).2
      else removeLoopC t hash c f (off h (k + 1)).1 (off h (k + 1)).2 := fun f k => rfl
  intro f
  induction f with
  | zero => intro k; rfl
  | succ f ih =>
    intro k
    rw [succ, removeLoop_succ]
    by_cases c1 : t.slots (idx t.size h k) = -1
    · rw [if_pos c1, if_pos c1]
    · rw [if_neg c1, if_neg c1]
      by_cases c2 : t.slots (idx t.size h k) = -2
      · rw [if_neg (by simp [c2]), if_neg (by simp [c2])]; exact ih (k + 1)
      · rcases rd _ (lt k) with a | a | ⟨s, a, x, v, b⟩
        · exact absurd a c1
        · exact absurd a c2
        · rw [if_pos c2]
          by_cases c3 : t.hashes (idx t.size h k) = hash
          · rw [if_pos ⟨c2, c3⟩, ih (k + 1)]
          · rw [if_neg (fun z => c3 z.2), a, compareAt_ok b, ih (k + 1)]
            cases cx : c x with
            | true => exact absurd (agree _ (lt k) s x v a b cx) c3
            | false => rfl

theorem deleteKeyC_eq {ko : KeyOps K} (lk : LawfulKey ko) {t : Tbl K V} (i : Inv ko t) (k : K)
    (hc : t.count ≤ 2 ^ 28) : deleteKeyC ko (typedHash ko) t k = deleteKey ko t k := by
  unfold deleteKeyC deleteKey remove
  by_cases h0 : t.size = 0
  · rw [if_pos h0]
    have z := i.nul h0
    have : t.count = 0 := by
      rw [i.cnt, z]; rfl
    simp [shrinkItems, shrinkTable, removeFromC, z, h0, Except.bind]
  · rw [if_neg h0]
    obtain ⟨t1, e1, i1, n1, s1⟩ : ∃ t1, shrinkItems t = .ok t1 ∧ Inv ko t1 ∧ t1.count = t.count ∧ t1.size = t.size := by
      unfold shrinkItems
      split
      · obtain ⟨t1, a, b, c, d, e, f⟩ := compress_ok i
        exact ⟨t1, a, b, d, e⟩
      · exact ⟨t, rfl, i, rfl, rfl⟩
    obtain ⟨t2, e2, i2, s2⟩ : ∃ t2, shrinkTable t1 = .ok t2 ∧ Inv ko t2 ∧ t2.size ≠ 0 := by
      unfold shrinkTable
      split
      · obtain ⟨t2, a, b, c, d, e, f, _⟩ := resize_inv lk i1 (by omega) (by omega)
        exact ⟨t2, a, b, d⟩
      · exact ⟨t1, rfl, i1, by omega⟩
    simp only [Except.bind, e1, e2]
    unfold removeFromC removeFrom
    rw [if_neg s2, eq_flip lk]
    rcases i2.idx with ⟨a, _, _⟩ | ⟨c1, _⟩
    · exact absurd a s2
    have := removeLoopC_eq t2 c1.readable (norm (ko.hash k)) (ko.eq k) (u64 (norm (ko.hash k)))
      (fun n => c1.tab.idx_lt _ n) (by
        intro q hq s x v a b c
        rcases c1.tab.ent q hq with d | d | ⟨s', d, d2, _⟩
        · omega
        · omega
        · have : s' = s := by omega
          subst this
          rw [c1.tab.fn _ _ _ d2 ⟨x, v, b, rfl⟩, lk.hash _ _ c]) (t2.size + 14) 0
    simp only [off] at this
    simp only [typedHash, this]
    rfl

theorem clearC_ok {ko : KeyOps K} {t : Tbl K V} (i : Inv ko t) : Inv ko (clearC t) ∧ iterate (clearC t) = [] := by
  have nn : ∀ (j : Nat) (e : K × V), (t.items.map (fun _ => (none : Option (K × V))))[j]? ≠ some (some e) := by
    intro j e h
    rw [List.getElem?_map] at h
    cases hh : t.items[j]? <;> simp [hh] at h
  have ff : (t.items.map (fun _ => (none : Option (K × V)))).filterMap id = [] := by
    induction t.items with
    | nil => rfl
    | cons a l ih => simpa using ih
  refine ⟨⟨?_, ?_, ?_, Nat.zero_le _, ?_, ?_⟩, ff⟩
  · rcases i.idx with ⟨a, _, _⟩ | ⟨a, _⟩
    · exact Or.inl ⟨a, rfl, by rintro s h ⟨k, v, q, _⟩; exact nn _ _ q⟩
    · have hs := a.tab.size_ge
      have all : ∀ q, q < t.size → (if q < t.size then (-1 : Int) else t.slots q) = -1 := by
        intro q hq; rw [if_pos hq]
      refine Or.inr ⟨⟨⟨a.tab.pow, ?_, ?_, ?_, ?_, ?_⟩, ?_, ?_⟩, by show 0 < t.size; omega⟩
      · intro q hq; exact Or.inl (all q hq)
      · rintro s h ⟨k, v, q, _⟩; exact absurd q (nn _ _)
      · intro q r hq _ h0
        have h0' : 0 ≤ (if q < t.size then (-1 : Int) else t.slots q) := h0
        rw [all q hq] at h0'; omega
      · rintro s h h' ⟨k, v, q, _⟩; exact absurd q (nn _ _)
      · rintro s h ⟨k, v, q, _⟩; exact absurd q (nn _ _)
      · have : ∀ n, n ≤ t.size → filled (fun q => if q < t.size then (-1 : Int) else t.slots q) n = 0 := by
          intro n
          induction n with
          | zero => intro _; rfl
          | succ n ih =>
            intro hn
            have := ih (by omega)
            simp only [filled, cntB] at this ⊢
            rw [this]; simp [show n < t.size by omega]
        exact (this _ (Nat.le_refl _)).symm
      · have : ∀ n, n ≤ t.size → empties (fun q => if q < t.size then (-1 : Int) else t.slots q) n = n := by
          intro n
          induction n with
          | zero => intro _; rfl
          | succ n ih =>
            intro hn
            have := ih (by omega)
            simp only [empties, cntB] at this ⊢
            rw [this]; simp [show n < t.size by omega]
        exact (this _ (Nat.le_refl _)).symm
  · show 0 = (List.filterMap id (t.items.map fun _ => none)).length
    rw [ff]; rfl
  · intro s e h; exact absurd h (nn _ _)
  · intro _ _ _ _ _ _ h; exact absurd h (nn _ _)
  · intro z; show t.items.map _ = []; rw [i.nul z]; rfl

/-- One compiled call does what the map does. -/
theorem stepC_ok {ko : KeyOps K} (lk : LawfulKey ko) (refl : ∀ k, ko.eq k k = true) {t : Tbl K V} (i : Inv ko t)
    (op : Op K V) (hc : (iterate t).length ≤ 2 ^ 28) :
    ∃ t', stepC ko (typedHash ko) t op = .ok (t', answer ko (iterate t) op) ∧ Inv ko t' ∧
      iterate t' = effect ko (iterate t) op := by
  have hcnt : t.count ≤ 2 ^ 28 := by rw [i.cnt]; exact hc
  obtain ⟨t', e, i', it'⟩ := step_ok lk i op hc
  have look : ∀ k, lookupSlotC ko (typedHash ko) t k = lookupSlot ko t k := lookupSlotC_eq lk i
  have del : ∀ k, deleteKeyC ko (typedHash ko) t k = deleteKey ko t k := fun k => deleteKeyC_eq lk i k hcnt
  have find_ : ∀ k, (∃ s x v, lookupSlot ko t k = .ok (some s) ∧ t.items[s]? = some (some (x, v)) ∧
        lookup ko (iterate t) k = some v) ∨
      (lookupSlot ko t k = .ok none ∧ lookup ko (iterate t) k = none ∧ Miss ko t.items k) := by
    intro k
    rcases lookupSlot_ok lk i k with ⟨s, x, v, a, b, c⟩ | ⟨a, b⟩
    · have := i.hit lk b c
      exact Or.inl ⟨s, x, v, a, b, this.lookup b⟩
    · exact Or.inr ⟨a, b.lookup, b⟩
  cases op with
  | getitem k =>
    refine ⟨t', ?_, i', it'⟩
    rw [← e]
    rcases find_ k with ⟨s, x, v, a, b, c⟩ | ⟨a, b, _⟩
    · simp only [stepC, step, getitemC, look, a, bind, Except.bind, valueAt_ok b]; rfl
    · simp only [stepC, step, getitemC, look, a, bind, Except.bind]; rfl
  | contains k => exact ⟨t', by rw [← e]; simp only [stepC, step, look], i', it'⟩
  | setitem k v =>
    refine ⟨t', ?_, i', it'⟩
    rw [← e]
    simp only [stepC, step, setitemC, setitem, look, insertKeyC_eq]
    rfl
  | delitem k => exact ⟨t', by rw [← e]; simp only [stepC, step, del], i', it'⟩
  | pop k =>
    refine ⟨t', ?_, i', it'⟩
    rw [← e]
    rcases find_ k with ⟨s, x, v, a, b, c⟩ | ⟨a, b, _⟩
    · obtain ⟨t2, q, e1, e2, e3, e4, _⟩ := deleteKey_ok lk i k hcnt
      rw [c] at e4
      subst e4
      simp only [stepC, step, getitemC, look, a, bind, Except.bind, valueAt_ok b, Option.isSome, if_true, del, e1]
    · simp only [stepC, step, look, a, bind, Except.bind, Option.isSome]; rfl
  | popD k d =>
    refine ⟨t', ?_, i', it'⟩
    rw [← e]
    rcases find_ k with ⟨s, x, v, a, b, c⟩ | ⟨a, b, _⟩
    · obtain ⟨t2, q, e1, e2, e3, e4, _⟩ := deleteKey_ok lk i k hcnt
      rw [c] at e4
      subst e4
      simp only [stepC, step, getitemC, look, a, bind, Except.bind, valueAt_ok b, Option.isSome, if_true, del, e1]
    · simp only [stepC, step, look, a, bind, Except.bind, Option.isSome]; rfl
  | get k d => exact ⟨t', by rw [← e]; simp only [stepC, step, look]; rfl, i', it'⟩
  | setdefault k d =>
    rcases find_ k with ⟨s, x, v, a, b, c⟩ | ⟨a, b, m⟩
    · refine ⟨t', ?_, i', it'⟩
      rw [← e]
      simp only [stepC, step, getitemC, look, a, bind, Except.bind, valueAt_ok b, Option.isSome, if_true]; rfl
    · obtain ⟨t1, e1, e2, e3, _⟩ := insertKey_ok lk i d m hcnt
      refine ⟨t1, ?_, e2, by simp only [effect, b]; exact e3⟩
      have look1 : lookupSlotC ko (typedHash ko) t1 k = lookupSlot ko t1 k := lookupSlotC_eq lk e2 k
      have l1 : lookup ko (iterate t1) k = some d := by
        rw [e3]
        unfold Spec.lookup at b ⊢
        rw [Option.map_eq_none_iff] at b
        rw [List.find?_append, b]
        simp [refl k]
      rcases lookupSlot_ok lk e2 k with ⟨s, x, v, a', b', c'⟩ | ⟨a', m'⟩
      · have hv := (e2.hit lk b' c').lookup b'
        have : v = d := by
          have h2 : lookup ko (iterate t1) k = some v := hv
          rw [l1] at h2; injection h2 with h2; exact h2.symm
        subst this
        simp only [stepC, setitemC, getitemC, look, look1, a, a', bind, Except.bind, valueAt_ok b', Option.isSome,
          insertKeyC_eq, e1, answer, b, Option.getD]
        rfl
      · have : lookup ko (iterate t1) k = none := m'.lookup
        rw [l1] at this; cases this
  | clear => exact ⟨clearC t, rfl, (clearC_ok i).1, (clearC_ok i).2⟩
  | len => exact ⟨t', by rw [← e]; rfl, i', it'⟩
  | items => exact ⟨t', by rw [← e]; rfl, i', it'⟩

/-- **C09, typed keys.**  Any interleaving of interpreted and compiled calls on the same dictionary is answered as by
the insertion-ordered map, so compiled and interpreted code agree on every answer, on the order and on `KeyError`.
The full property also claims it for `object` keys, where it fails: `object_keys_disagree`. -/
theorem compiled_agrees_partial {ko : KeyOps K} (lk : LawfulKey ko) (refl : ∀ k, ko.eq k k = true)
    (ops : List (Bool × Op K V)) (f : Fits ko (2 ^ 28) [] (ops.map (·.2))) :
    ∃ t, runMixed ko (typedHash ko) {} ops = .ok (t, answers ko [] (ops.map (·.2))) ∧
      iterate t = final ko [] (ops.map (·.2)) := by
  have go : ∀ (ops : List (Bool × Op K V)) (t : Tbl K V), Inv ko t → Fits ko (2 ^ 28) (iterate t) (ops.map (·.2)) →
      ∃ t', runMixed ko (typedHash ko) t ops = .ok (t', answers ko (iterate t) (ops.map (·.2))) ∧
        iterate t' = final ko (iterate t) (ops.map (·.2)) := by
    intro ops
    induction ops with
    | nil => intro t _ _; exact ⟨t, rfl, rfl⟩
    | cons o ops ih =>
      intro t i f
      obtain ⟨c, op⟩ := o
      obtain ⟨t1, e1, i1, it1⟩ : ∃ t1, (if c then stepC ko (typedHash ko) t op else step ko t op) =
          .ok (t1, answer ko (iterate t) op) ∧ Inv ko t1 ∧ iterate t1 = effect ko (iterate t) op := by
        cases c with
        | true => exact stepC_ok lk refl i op f.1
        | false => exact step_ok lk i op f.1
      obtain ⟨t2, e2, it2⟩ := ih t1 i1 (by rw [it1]; exact f.2)
      refine ⟨t2, ?_, by rw [it2, it1]; rfl⟩
      have un : runMixed ko (typedHash ko) t ((c, op) :: ops) =
          (if c then stepC ko (typedHash ko) t op else step ko t op).bind fun a =>
            (runMixed ko (typedHash ko) a.1 ops).bind fun b => .ok (b.1, a.2 :: b.2) := by
        cases c <;> rfl
      rw [un, e1]
      simp only [Except.bind, e2, it1]
      rfl
  exact go ops {} (inv_empty ko) f

/-- **C09, object keys.**  With one key whose hash is negative, an entry stored by the interpreter is not found by
compiled code, although the key is equal to itself and hashes consistently. -/
theorem object_keys_disagree :
    let ko : KeyOps Int := ⟨fun _ => -1, fun a b => decide (a = b)⟩
    (LawfulKey ko ∧ ∀ k, ko.eq k k = true) ∧
    (runMixed ko (objectHash ko) ({} : Tbl Int Int) [(false, .setitem 5 50), (false, .getitem 5), (true, .getitem 5)]).map
      (·.2) = .ok [.ok .unit, .ok (.val 50), .error .keyError] := by
  refine ⟨⟨⟨?_, ?_, ?_, ?_⟩, ?_⟩, by decide⟩
  · intro a b h; simp at h ⊢; exact h.symm
  · intro a b c h h'; simp at h h' ⊢; rw [h, h']
  · intro a b _; rfl
  · intro a; show (-2 ^ 31 : Int) ≤ -1 ∧ (-1 : Int) < 2 ^ 31; decide
  · intro k; simp

/-- The other way round: an entry stored by compiled code is not found by the interpreter. -/
theorem object_keys_disagree_reverse :
    let ko : KeyOps Int := ⟨fun _ => -1, fun a b => decide (a = b)⟩
    (runMixed ko (objectHash ko) ({} : Tbl Int Int) [(true, .setitem 5 50), (true, .getitem 5), (false, .getitem 5)]).map
      (·.2) = .ok [.ok .unit, .ok (.val 50), .error .keyError] := by decide

/-- Object keys whose hashes are never negative behave as typed keys. -/
theorem object_keys_nonneg {ko : KeyOps K} (h : ∀ k, 0 ≤ ko.hash k) : objectHash ko = typedHash ko := by
  funext k
  simp only [objectHash, typedHash, norm]
  rw [if_neg (by have := h k; omega)]

example : Fits badHash (2 ^ 28) [] (sample.zip [true, false, true, false, true, false, true, false] |>.map (·.1)) := by
  simp [Fits, sample, effect, assign, lookup, erase, badHash]

example : ∀ k, badHash.eq k k = true := by simp [badHash]

end Verif.HashTable
