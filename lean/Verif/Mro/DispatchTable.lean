import Verif.Mro.Dispatch
import Verif.Mro.Props
/-
One dispatch table and the memory of its arrays.
-/
namespace Verif.Mro.Dispatch

/-! ### Lists -/

theorem indexOf_cons (x : Nat) (rest : List Nat) (y : Nat) :
    indexOf (x :: rest) y = if x = y then some 0 else (indexOf rest y).map (· + 1) := rfl

theorem indexOf_some : ∀ {l : List Nat} {x k : Nat}, indexOf l x = some k → l[k]? = some x := by
  intro l
  induction l with
  | nil => intro x k h; cases h
  | cons y rest ih =>
    intro x k h
    rw [indexOf_cons] at h
    by_cases e : y = x
    · rw [if_pos e] at h; cases h; rw [e]; rfl
    · rw [if_neg e] at h
      cases h1 : indexOf rest x with
      | none => rw [h1] at h; cases h
      | some j =>
        rw [h1] at h
        cases h
        exact ih h1

theorem indexOf_mem : ∀ {l : List Nat} {x : Nat}, x ∈ l → ∃ k, indexOf l x = some k := by
  intro l
  induction l with
  | nil => intro x h; cases h
  | cons y rest ih =>
    intro x h
    rw [indexOf_cons]
    by_cases e : y = x
    · exact ⟨0, by rw [if_pos e]⟩
    · rw [if_neg e]
      rcases List.mem_cons.mp h with h' | h'
      · exact absurd h'.symm e
      · obtain ⟨k, hk⟩ := ih h'
        exact ⟨k + 1, by rw [hk]; rfl⟩

theorem mroIndex_inj {w : World} {c i i' k : Nat} (h : mroIndex w c i = some k)
    (h' : mroIndex w c i' = some k) : i = i' := by
  have h1 := indexOf_some h
  have h2 := indexOf_some h'
  rw [h1] at h2
  exact Option.some.inj h2

theorem lookup_append {α β : Type} [DecidableEq α] (l : List (α × β)) (x : α) (y : β) (k : α) :
    lookup (l ++ [(x, y)]) k = (lookup l k).or (if x = k then some y else none) := by
  induction l with
  | nil => rfl
  | cons p t ih =>
    obtain ⟨a, b⟩ := p
    change (if a = k then some b else lookup (t ++ [(x, y)]) k) = _
    change _ = Option.or (if a = k then some b else lookup t k) _
    by_cases e : a = k
    · rw [if_pos e, if_pos e]; rfl
    · rw [if_neg e, if_neg e, ih]

theorem lookup_mem {α β : Type} [DecidableEq α] {l : List (α × β)} {k : α} {v : β}
    (h : lookup l k = some v) : (k, v) ∈ l := by
  induction l with
  | nil => cases h
  | cons p t ih =>
    obtain ⟨a, b⟩ := p
    change (if a = k then some b else lookup t k) = some v at h
    by_cases e : a = k
    · rw [if_pos e] at h; cases h; rw [e]; simp
    · rw [if_neg e] at h; exact List.mem_cons_of_mem _ (ih h)

theorem lookup_none {α β : Type} [DecidableEq α] {l : List (α × β)} {k : α}
    (h : lookup l k = none) : k ∉ l.map Prod.fst := by
  induction l with
  | nil => simp
  | cons p t ih =>
    obtain ⟨a, b⟩ := p
    change (if a = k then some b else lookup t k) = none at h
    by_cases e : a = k
    · rw [if_pos e] at h; cases h
    · rw [if_neg e] at h
      rw [List.map_cons, List.mem_cons, not_or]
      exact ⟨fun h' => e h'.symm, ih h⟩

/-! ### Slots of a list of signatures -/

/-- The signatures after allocating one. -/
def ext (l : List (Sig × Nat)) (sig : Sig) : List (Sig × Nat) :=
  if (lookup l sig).isSome then l else l ++ [(sig, l.length)]

/-- The slot it gets. -/
def slotOf (l : List (Sig × Nat)) (sig : Sig) : Nat := (lookup l sig).getD l.length

theorem lookup_ext (l : List (Sig × Nat)) (sig : Sig) : lookup (ext l sig) sig = some (slotOf l sig) := by
  unfold ext slotOf
  cases h : lookup l sig with
  | some k => simp [h]
  | none => simp [lookup_append, h]

theorem ext_ext (l : List (Sig × Nat)) (sig : Sig) : ext (ext l sig) sig = ext l sig := by
  change (if (lookup (ext l sig) sig).isSome then ext l sig else _) = _
  rw [lookup_ext]
  rfl

theorem slotOf_ext (l : List (Sig × Nat)) (sig : Sig) : slotOf (ext l sig) sig = slotOf l sig := by
  change (lookup (ext l sig) sig).getD _ = _
  rw [lookup_ext]
  rfl

theorem ext_prefix (l : List (Sig × Nat)) (sig : Sig) : l <+: ext l sig := by
  unfold ext
  split
  · exact List.prefix_refl l
  · exact List.prefix_append _ _

/-- Slots are numbered in the order of the list. -/
def Pos (l : List (Sig × Nat)) : Prop := ∀ (k : Nat) (p : Sig × Nat), l[k]? = some p → p.2 = k

theorem Pos.ext {l : List (Sig × Nat)} (h : Pos l) (sig : Sig) : Pos (ext l sig) := by
  unfold Dispatch.ext
  split
  · exact h
  · intro k p hp
    rw [List.getElem?_append] at hp
    split at hp
    · exact h k p hp
    · rename_i hk
      have : k - l.length = 0 := by
        by_cases e : k - l.length = 0
        · exact e
        · rw [List.getElem?_singleton, if_neg e] at hp; cases hp
      rw [this] at hp
      cases hp
      change l.length = k
      omega

theorem Pos.get_slotOf {l : List (Sig × Nat)} (h : Pos l) (sig : Sig) :
    (Dispatch.ext l sig)[slotOf l sig]? = some (sig, slotOf l sig) := by
  have h1 := lookup_mem (lookup_ext l sig)
  obtain ⟨k, hk⟩ := List.mem_iff_getElem?.mp h1
  have := h.ext sig k _ hk
  change slotOf l sig = k at this
  rw [← this] at hk
  exact hk

theorem Pos.lookup {l : List (Sig × Nat)} (h : Pos l) {sig : Sig} {k : Nat}
    (hk : lookup l sig = some k) : l[k]? = some (sig, k) := by
  obtain ⟨j, hj⟩ := List.mem_iff_getElem?.mp (lookup_mem hk)
  have := h j _ hj
  change k = j at this
  rw [← this] at hj
  exact hj

theorem nodup_ext {l : List (Sig × Nat)} (h : (l.map Prod.fst).Nodup) (sig : Sig) :
    ((ext l sig).map Prod.fst).Nodup := by
  unfold ext
  cases e : Dispatch.lookup l sig with
  | some k => simpa using h
  | none =>
    simp only [Option.isSome_none, Bool.false_eq_true, if_false]
    rw [List.map_append, List.nodup_append]
    refine ⟨h, by simp, ?_⟩
    intro a ha b hb
    simp at hb
    rw [hb]
    intro e'
    rw [e'] at ha
    exact lookup_none e ha

/-! ### Memory -/

theorem read_append {h : List Block} {b : Block} {a k : Nat} {x : Cell} (hr : read h a k = some x) :
    read (h ++ [b]) a k = some x := by
  unfold read at *
  cases e : h[a]? with
  | none => rw [e] at hr; cases hr
  | some b' =>
    rw [e] at hr
    rw [List.getElem?_append_left (List.getElem?_eq_some_iff.mp e).1, e]
    exact hr

/-- What later memory keeps of earlier memory: blocks keep their owners, initialized cells stay
initialized, functions stay. -/
def HGrow (h h' : List Block) : Prop :=
  ∀ (a : Nat) (b : Block), h[a]? = some b → ∃ b', h'[a]? = some b' ∧ b'.owner = b.owner ∧
    ∀ (k : Nat) (x : Cell), b.cells[k]? = some x → x ≠ .junk →
      ∃ x', b'.cells[k]? = some x' ∧ x' ≠ .junk ∧ ∀ p, x = .fn p → x' = .fn p

/-- Functions are copied only between arrays of the same table, or are `p`. -/
def FnFrom (ok : Nat × Nat → Nat → Ptr → Prop) (h h' : List Block) : Prop :=
  ∀ (a : Nat) (b' : Block) (k : Nat) (p : Ptr), h'[a]? = some b' → b'.cells[k]? = some (.fn p) →
    ok b'.owner k p ∨
    ∃ (a0 : Nat) (b : Block), h[a0]? = some b ∧ b.owner = b'.owner ∧ b.cells[k]? = some (.fn p)

theorem HGrow.refl (h : List Block) : HGrow h h := by
  intro a b hb
  exact ⟨b, hb, rfl, fun k x hx hj => ⟨x, hx, hj, fun _ e => e⟩⟩

theorem HGrow.trans {h h' h'' : List Block} (g : HGrow h h') (g' : HGrow h' h'') : HGrow h h'' := by
  intro a b hb
  obtain ⟨b', hb', ho, hc⟩ := g a b hb
  obtain ⟨b'', hb'', ho', hc'⟩ := g' a b' hb'
  refine ⟨b'', hb'', ho'.trans ho, ?_⟩
  intro k x hx hj
  obtain ⟨x', h1, h2, h3⟩ := hc k x hx hj
  obtain ⟨x'', h4, h5, h6⟩ := hc' k x' h1 h2
  exact ⟨x'', h4, h5, fun p e => h6 p (h3 p e)⟩

theorem HGrow.append (h : List Block) (b : Block) : HGrow h (h ++ [b]) := by
  intro a b' hb
  refine ⟨b', ?_, rfl, fun k x hx hj => ⟨x, hx, hj, fun _ e => e⟩⟩
  rw [List.getElem?_append_left (List.getElem?_eq_some_iff.mp hb).1]
  exact hb

theorem HGrow.read {h h' : List Block} (g : HGrow h h') {a k : Nat} {x : Cell}
    (hr : Dispatch.read h a k = some x) (hx : x ≠ .junk) :
    ∃ x', Dispatch.read h' a k = some x' ∧ x' ≠ .junk ∧ ∀ p, x = .fn p → x' = .fn p := by
  unfold Dispatch.read at *
  cases e : h[a]? with
  | none => rw [e] at hr; cases hr
  | some b =>
    rw [e] at hr
    obtain ⟨b', h1, _, h2⟩ := g a b e
    obtain ⟨x', h3, h4, h5⟩ := h2 k x hr hx
    exact ⟨x', by rw [h1]; exact h3, h4, h5⟩

/-- A write inside an array. -/
theorem write_ok {h : List Block} {a k : Nat} {b : Block} {x : Cell} (hb : h[a]? = some b)
    (hk : k < b.cells.length) :
    write h a k x = some (h.set a { b with cells := b.cells.set k x }) := by
  unfold write
  rw [hb]
  simp only
  rw [if_pos hk]

theorem set_get {h : List Block} {a : Nat} {b : Block} (hb : h[a]? = some b) (b' : Block) (a' : Nat) :
    (h.set a b')[a']? = if a' = a then some b' else h[a']? := by
  have := (List.getElem?_eq_some_iff.mp hb).1
  rw [List.getElem?_set]
  by_cases e : a = a'
  · subst e; simp [this]
  · rw [if_neg e, if_neg (Ne.symm e)]

theorem read_set {h : List Block} {a k : Nat} {b : Block} {x : Cell} (hb : h[a]? = some b)
    (hk : k < b.cells.length) (a' k' : Nat) :
    read (h.set a { b with cells := b.cells.set k x }) a' k'
      = if a' = a ∧ k' = k then some x else read h a' k' := by
  unfold read
  rw [set_get hb]
  by_cases e : a' = a
  · subst e
    rw [if_pos rfl, hb]
    simp only [true_and]
    rw [List.getElem?_set]
    by_cases e' : k = k'
    · subst e'; simp [hk]
    · rw [if_neg e', if_neg (Ne.symm e')]
  · rw [if_neg e, if_neg (fun h => e h.1)]

/-- A write that replaces no function and writes no junk. -/
theorem HGrow.set {h : List Block} {a k : Nat} {b : Block} {x : Cell} (hb : h[a]? = some b)
    (hk : k < b.cells.length) (hx : x ≠ .junk) (hf : ∀ p, b.cells[k]? ≠ some (.fn p)) :
    HGrow h (h.set a { b with cells := b.cells.set k x }) := by
  intro a' b' hb'
  rw [set_get hb]
  by_cases e : a' = a
  · subst e
    rw [hb] at hb'
    cases hb'
    refine ⟨_, if_pos rfl, rfl, ?_⟩
    intro k' y hy hj
    change ∃ x', (b.cells.set k x)[k']? = some x' ∧ _
    rw [List.getElem?_set]
    by_cases e' : k = k'
    · subst e'
      rw [if_pos rfl, if_pos hk]
      refine ⟨x, rfl, hx, ?_⟩
      intro p hp
      rw [hp] at hy
      exact absurd hy (hf p)
    · rw [if_neg e']
      exact ⟨y, hy, hj, fun _ h => h⟩
  · rw [if_neg e]
    exact ⟨b', hb', rfl, fun k x hx hj => ⟨x, hx, hj, fun _ e => e⟩⟩

/-! ### One table -/

/-- The table of `c` as `i` is in order: `ins` are the slots that were filled. -/
structure TOk (h : List Block) (ins : List (Nat × Nat × Nat)) (c i : Nat) (t : Table) : Prop where
  iface : t.iface = i
  impl : t.impl = c
  pos : Pos t.indices
  nodup : (t.indices.map Prod.fst).Nodup
  defs : t.defs = t.indices.map (fun p => (p.2, p.1))
  used : t.used = t.indices.length
  le : t.used ≤ t.alloc
  block : ∃ cells, h[t.arr]? = some ⟨(c, i), cells⟩ ∧ cells.length = t.alloc
  cell : ∀ k < t.used, read h t.arr k ≠ some .junk
  empty : ∀ k < t.used, (read h t.arr k = some .null ↔ (i, c, k) ∉ ins)
  needing : ∀ k < t.used, (i, c, k) ∉ ins → k ∈ t.needing
  filled : ∀ k, (i, c, k) ∈ ins → k < t.used

theorem TOk.read_some {h : List Block} {ins : List (Nat × Nat × Nat)} {c i : Nat} {t : Table}
    (ht : TOk h ins c i t) {k : Nat} (hk : k < t.used) :
    read h t.arr k = some .null ∨ ∃ p, read h t.arr k = some (.fn p) := by
  obtain ⟨cells, hb, hl⟩ := ht.block
  have h1 : read h t.arr k = some (cells[k]'(by have := ht.le; omega)) := by
    unfold read
    rw [hb]
    simp only
    exact List.getElem?_eq_getElem _
  have h2 := ht.cell k hk
  rw [h1] at h2 ⊢
  cases hc : cells[k]'(by have := ht.le; omega) with
  | junk => rw [hc] at h2; exact absurd rfl h2
  | null => exact Or.inl rfl
  | fn p => exact Or.inr ⟨p, rfl⟩

/-- Another table with other arrays. -/
theorem TOk.other {h h' : List Block} {ins : List (Nat × Nat × Nat)} {c i : Nat} {t : Table}
    (ht : TOk h ins c i t)
    (hsame : ∀ (a : Nat) (b : Block), h[a]? = some b → b.owner = (c, i) → h'[a]? = some b) :
    TOk h' ins c i t := by
  obtain ⟨cells, hb, hl⟩ := ht.block
  have hb' := hsame _ _ hb rfl
  have hr : ∀ k, read h' t.arr k = read h t.arr k := by
    intro k
    unfold read
    rw [hb, hb']
  exact { ht with
    block := ⟨cells, hb', hl⟩
    cell := fun k hk => by rw [hr]; exact ht.cell k hk
    empty := fun k hk => by rw [hr]; exact ht.empty k hk }

theorem get_lt {α : Type} {l : List α} {k : Nat} (h : k < l.length) : ∃ x, l[k]? = some x :=
  ⟨l[k], List.getElem?_eq_getElem h⟩

/-- Allocating a slot in a table that is in order. -/
theorem allocateIn_spec {h : List Block} {ins : List (Nat × Nat × Nat)} {c i : Nat} {t : Table}
    (ht : TOk h ins c i t) (hno : ∀ p, read h t.arr t.used ≠ some (.fn p)) (sig : Sig) :
    ∃ h' t', allocateIn h t sig = .ok (h', t', slotOf t.indices sig) ∧ TOk h' ins c i t' ∧
      t'.indices = ext t.indices sig ∧ t'.upcasts = t.upcasts ∧ HGrow h h' ∧
      (∀ (a : Nat) (b : Block), h[a]? = some b → b.owner ≠ (c, i) → h'[a]? = some b) ∧
      FnFrom (fun _ _ _ => False) h h' ∧
      (∀ k < t.used, ∀ p, read h t.arr k = some (.fn p) → read h' t'.arr k = some (.fn p)) := by
  unfold allocateIn
  cases hl : lookup t.indices sig with
  | some k =>
    refine ⟨h, t, ?_, ht, ?_, rfl, HGrow.refl h, fun a b hb _ => hb, ?_, fun k _ p hp => hp⟩
    · unfold slotOf; rw [hl]; rfl
    · unfold ext; rw [hl]; rfl
    · intro a b' k p hb hp
      exact Or.inr ⟨a, b', hb, rfl, hp⟩
  | none =>
    have hslot : slotOf t.indices sig = t.indices.length := by unfold slotOf; rw [hl]; rfl
    have hext : t.indices ++ [(sig, t.indices.length)] = ext t.indices sig := by
      unfold ext; rw [hl]; rfl
    obtain ⟨cells, hb, hlen⟩ := ht.block
    have hu := ht.used
    have hle := ht.le
    -- the array that the new slot is in
    have key : ∀ (h1 : List Block) (arr alloc : Nat) (cells1 : List Cell),
        HGrow h h1 → (∀ (a : Nat) (b : Block), h[a]? = some b → h1[a]? = some b) →
        h1[arr]? = some ⟨(c, i), cells1⟩ → cells1.length = alloc → t.used < alloc →
        (∀ k < t.used, cells1[k]? = cells[k]?) → (∀ p, cells1[t.used]? ≠ some (.fn p)) →
        FnFrom (fun _ _ _ => False) h h1 →
        (∃ h2 t', (if t.used + 1 ≠ (t.indices ++ [(sig, t.indices.length)]).length then
            (Except.error Err.lostTrack : Except Err (List Block × Table × Nat))
          else match write h1 arr t.indices.length Cell.null with
            | none => .error .memory
            | some h2 => .ok (h2,
                { t with
                  indices := t.indices ++ [(sig, t.indices.length)]
                  defs := t.defs ++ [(t.indices.length, sig)]
                  used := t.used + 1
                  alloc := alloc
                  arr := arr
                  needing := t.indices.length :: t.needing },
                t.indices.length)) = .ok (h2, t', slotOf t.indices sig) ∧ TOk h2 ins c i t' ∧
          t'.indices = ext t.indices sig ∧ t'.upcasts = t.upcasts ∧ HGrow h h2 ∧
          (∀ (a : Nat) (b : Block), h[a]? = some b → b.owner ≠ (c, i) → h2[a]? = some b) ∧
          FnFrom (fun _ _ _ => False) h h2 ∧
          (∀ k < t.used, ∀ p, read h t.arr k = some (.fn p) → read h2 t'.arr k = some (.fn p))) := by
      intro h1 arr alloc cells1 hg hkeep hb1 hl1 hlt hcells hnofn hfrom
      have hk1 : t.indices.length < (⟨(c, i), cells1⟩ : Block).cells.length := by
        change _ < cells1.length; omega
      have hnofn' : ∀ p, (⟨(c, i), cells1⟩ : Block).cells[t.indices.length]? ≠ some (.fn p) := by
        intro p; rw [← hu]; exact hnofn p
      rw [if_neg (by rw [List.length_append, List.length_singleton, hu]; simp), write_ok hb1 hk1,
        hslot]
      refine ⟨_, _, rfl, ?_, hext, rfl,
        hg.trans (HGrow.set hb1 hk1 (by simp) hnofn'), ?_, ?_, ?_⟩
      · -- the table is in order
        have hrd : ∀ k < t.used, read (h1.set arr
            { (⟨(c, i), cells1⟩ : Block) with
              cells := cells1.set t.indices.length Cell.null }) arr k = read h t.arr k := by
          intro k hk
          rw [read_set hb1 hk1, if_neg (by omega)]
          unfold read
          rw [hb1, hb]
          exact hcells k hk
        refine { iface := ht.iface, impl := ht.impl, pos := ?_, nodup := ?_, defs := ?_, used := ?_,
                 le := ?_, block := ?_, cell := ?_, empty := ?_, needing := ?_, filled := ?_ }
        · rw [hext]; exact ht.pos.ext sig
        · rw [hext]; exact nodup_ext ht.nodup sig
        · change t.defs ++ [(t.indices.length, sig)] = _
          rw [ht.defs, List.map_append]
          rfl
        · change t.used + 1 = _
          rw [List.length_append, hu]; rfl
        · change t.used + 1 ≤ alloc
          omega
        · refine ⟨cells1.set t.indices.length Cell.null, ?_, ?_⟩
          · change (h1.set arr _)[arr]? = _
            rw [set_get hb1, if_pos rfl]
          · rw [List.length_set]; exact hl1
        · intro k hk
          change k < t.used + 1 at hk
          change read _ arr k ≠ _
          by_cases e : k = t.indices.length
          · rw [read_set hb1 hk1, if_pos ⟨rfl, e⟩]; simp
          · rw [hrd k (by omega)]
            exact ht.cell k (by omega)
        · intro k hk
          change k < t.used + 1 at hk
          change read _ arr k = _ ↔ _
          by_cases e : k = t.indices.length
          · rw [read_set hb1 hk1, if_pos ⟨rfl, e⟩]
            constructor
            · intro _ hin
              have := ht.filled k hin
              omega
            · intro _; rfl
          · rw [hrd k (by omega)]
            exact ht.empty k (by omega)
        · intro k hk hin
          change k < t.used + 1 at hk
          change k ∈ t.indices.length :: t.needing
          by_cases e : k = t.indices.length
          · rw [e]; simp
          · exact List.mem_cons_of_mem _ (ht.needing k (by omega) hin)
        · intro k hin
          have := ht.filled k hin
          change k < t.used + 1
          omega
      · intro a b ha ho
        rw [set_get hb1]
        have h3 := hkeep a b ha
        by_cases e : a = arr
        · subst e
          rw [hb1] at h3
          cases h3
          exact absurd rfl ho
        · rw [if_neg e]; exact h3
      · intro a b' k p hb' hp
        rw [set_get hb1] at hb'
        by_cases e : a = arr
        · rw [if_pos e] at hb'
          cases hb'
          change (cells1.set t.indices.length Cell.null)[k]? = some (.fn p) at hp
          rw [List.getElem?_set] at hp
          by_cases e' : t.indices.length = k
          · rw [if_pos e'] at hp
            split at hp <;> cases hp
          · rw [if_neg e'] at hp
            exact hfrom arr ⟨(c, i), cells1⟩ k p hb1 hp
        · rw [if_neg e] at hb'
          exact hfrom a b' k p hb' hp
      · intro k hk p hp
        change read _ arr k = _
        rw [read_set hb1 hk1, if_neg (by omega)]
        unfold read at hp ⊢
        rw [hb] at hp
        rw [hb1]
        simp only at hp ⊢
        rw [hcells k hk]
        exact hp
    simp only
    by_cases hge : t.used ≥ t.alloc
    · simp only [if_pos hge, hb]
      have h1len : ∀ (b : Block), (h ++ [b])[h.length]? = some b := by intro b; simp
      have he : (t.impl, t.iface) = (c, i) := by rw [ht.impl, ht.iface]
      rw [he]
      refine key (h ++ [⟨(c, i), cells.take t.used ++
        List.replicate ((t.alloc + 1) * 2 - t.used) Cell.junk⟩]) h.length ((t.alloc + 1) * 2)
        (cells.take t.used ++ List.replicate ((t.alloc + 1) * 2 - t.used) Cell.junk)
        (HGrow.append _ _) ?_ (h1len _) ?_ (by omega) ?_ ?_ ?_
      · intro a b ha
        rw [List.getElem?_append_left (List.getElem?_eq_some_iff.mp ha).1]
        exact ha
      · rw [List.length_append, List.length_take, List.length_replicate]
        omega
      · intro k hk
        rw [List.getElem?_append_left (by rw [List.length_take]; omega), List.getElem?_take,
          if_pos hk]
      · intro p hp
        rw [List.getElem?_append_right (by rw [List.length_take]; omega)] at hp
        rw [List.getElem?_replicate] at hp
        split at hp <;> cases hp
      · intro a b' k p hb' hp
        rw [List.getElem?_append] at hb'
        split at hb'
        · exact Or.inr ⟨a, b', hb', rfl, hp⟩
        · right
          have hab : b' = ⟨(c, i), cells.take t.used ++
              List.replicate ((t.alloc + 1) * 2 - t.used) Cell.junk⟩ := by
            rw [List.getElem?_singleton] at hb'
            split at hb'
            · exact (Option.some.inj hb').symm
            · cases hb'
          subst hab
          refine ⟨t.arr, ⟨(c, i), cells⟩, hb, rfl, ?_⟩
          change (cells.take t.used ++ List.replicate _ Cell.junk)[k]? = some (.fn p) at hp
          change cells[k]? = some (.fn p)
          rw [List.getElem?_append] at hp
          split at hp
          · rw [List.getElem?_take] at hp
            split at hp
            · exact hp
            · cases hp
          · rw [List.getElem?_replicate] at hp
            split at hp <;> cases hp
    · simp only [if_neg hge]
      refine key h t.arr t.alloc cells (HGrow.refl h) (fun _ _ h => h) hb hlen (by omega)
        (fun _ _ => rfl) ?_ ?_
      · intro p hp
        apply hno p
        unfold read
        rw [hb]
        exact hp
      · intro a b' k p hb' hp
        exact Or.inr ⟨a, b', hb', rfl, hp⟩

end Verif.Mro.Dispatch
