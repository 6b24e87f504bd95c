import Verif.HashTable.Items

/-!
# `Dict` is an insertion-ordered finite map, and its loops terminate (C04, C05, C06)
-/

namespace Verif.HashTable
open Spec

variable {K V : Type}

theorem inv_empty (ko : KeyOps K) : Inv ko ({} : Tbl K V) :=
  ⟨Or.inl ⟨rfl, rfl, by rintro s h ⟨k, v, q, _⟩; simp at q⟩, rfl, by intro s e h; simp at h, Nat.le_refl _,
    by intro s s' k v k' v' h; simp at h, fun _ => rfl⟩

theorem valueAt_ok {t : Tbl K V} {s : Nat} {x : K} {v : V} (h : t.items[s]? = some (some (x, v))) :
    valueAt t s = .ok v := by simp [valueAt, h]

/-- One call does what the map does. -/
theorem step_ok {ko : KeyOps K} (lk : LawfulKey ko) {t : Tbl K V} (i : Inv ko t) (op : Op K V)
    (hc : (iterate t).length ≤ 2 ^ 28) :
    ∃ t', step ko t op = .ok (t', answer ko (iterate t) op) ∧ Inv ko t' ∧ iterate t' = effect ko (iterate t) op := by
  have hcnt : t.count ≤ 2 ^ 28 := by rw [i.cnt]; exact hc
  have find_ : ∀ k, (∃ s x v, lookupSlot ko t k = .ok (some s) ∧ t.items[s]? = some (some (x, v)) ∧
        lookup ko (iterate t) k = some v ∧ Hit ko t.items k s) ∨
      (lookupSlot ko t k = .ok none ∧ lookup ko (iterate t) k = none ∧ Miss ko t.items k) := by
    intro k
    rcases lookupSlot_ok lk i k with ⟨s, x, v, a, b, c⟩ | ⟨a, b⟩
    · have := i.hit lk b c
      exact Or.inl ⟨s, x, v, a, b, this.lookup b, this⟩
    · exact Or.inr ⟨a, b.lookup, b⟩
  cases op with
  | getitem k =>
    rcases find_ k with ⟨s, x, v, a, b, c, _⟩ | ⟨a, b, _⟩
    · exact ⟨t, by simp only [step, a, answer, c, bind, Except.bind, valueAt_ok b], i, rfl⟩
    · exact ⟨t, by simp only [step, a, answer, b, bind, Except.bind], i, rfl⟩
  | contains k =>
    rcases find_ k with ⟨s, x, v, a, b, c, _⟩ | ⟨a, b, _⟩
    · exact ⟨t, by simp only [step, a, answer, c, bind, Except.bind, Option.isSome], i, rfl⟩
    · exact ⟨t, by simp only [step, a, answer, b, bind, Except.bind, Option.isSome], i, rfl⟩
  | setitem k v =>
    rcases find_ k with ⟨s, x, w, a, b, c, h⟩ | ⟨a, b, m⟩
    · refine ⟨{ t with items := t.items.set s (some (x, v)) }, ?_, overwrite_ok i v b, ?_⟩
      · simp only [step, setitem, a, answer, bind, Except.bind, b]
      · show (t.items.set s (some (x, v))).filterMap id = _
        simp only [effect, assign, c, Option.isSome]
        exact h.map v b
    · obtain ⟨t', e1, e2, e3, _⟩ := insertKey_ok lk i v m hcnt
      refine ⟨t', ?_, e2, ?_⟩
      · simp only [step, setitem, a, answer, bind, Except.bind, e1]
      · simp only [effect, assign, b]; exact e3
  | delitem k =>
    obtain ⟨t', b, e1, e2, e3, e4, _⟩ := deleteKey_ok lk i k hcnt
    refine ⟨t', ?_, e2, e3⟩
    simp only [step, e1, answer, bind, Except.bind, e4]
  | pop k =>
    rcases find_ k with ⟨s, x, v, a, b, c, _⟩ | ⟨a, b, m⟩
    · obtain ⟨t', q, e1, e2, e3, e4, _⟩ := deleteKey_ok lk i k hcnt
      exact ⟨t', by simp only [step, a, answer, c, bind, Except.bind, valueAt_ok b, e1], e2, e3⟩
    · exact ⟨t, by simp only [step, a, answer, b, bind, Except.bind], i, m.erase.symm⟩
  | popD k d =>
    rcases find_ k with ⟨s, x, v, a, b, c, _⟩ | ⟨a, b, m⟩
    · obtain ⟨t', q, e1, e2, e3, e4, _⟩ := deleteKey_ok lk i k hcnt
      exact ⟨t', by simp only [step, a, answer, c, bind, Except.bind, valueAt_ok b, e1, Option.getD], e2, e3⟩
    · exact ⟨t, by simp only [step, a, answer, b, bind, Except.bind, Option.getD], i, m.erase.symm⟩
  | get k d =>
    rcases find_ k with ⟨s, x, v, a, b, c, _⟩ | ⟨a, b, _⟩
    · exact ⟨t, by simp only [step, a, answer, c, bind, Except.bind, valueAt_ok b, Option.getD], i, rfl⟩
    · exact ⟨t, by simp only [step, a, answer, b, bind, Except.bind, Option.getD], i, rfl⟩
  | setdefault k d =>
    rcases find_ k with ⟨s, x, v, a, b, c, _⟩ | ⟨a, b, m⟩
    · exact ⟨t, by simp only [step, a, answer, c, bind, Except.bind, valueAt_ok b, Option.getD], i,
        by simp only [effect, c, Option.isSome, if_true]⟩
    · obtain ⟨t', e1, e2, e3, _⟩ := insertKey_ok lk i d m hcnt
      exact ⟨t', by simp only [step, a, answer, b, bind, Except.bind, e1, Option.getD], e2,
        by simp only [effect, b]; exact e3⟩
  | clear => exact ⟨clear t, rfl, (clear_ok i).1, (clear_ok i).2⟩
  | len => exact ⟨t, by simp only [step, answer, i.cnt]; rfl, i, rfl⟩
  | items => exact ⟨t, rfl, i, rfl⟩

theorem run_ok {ko : KeyOps K} (lk : LawfulKey ko) : ∀ (ops : List (Op K V)) (t : Tbl K V), Inv ko t →
    Fits ko (2 ^ 28) (iterate t) ops →
    ∃ t', run ko t ops = .ok (t', answers ko (iterate t) ops) ∧ Inv ko t' ∧ iterate t' = final ko (iterate t) ops
  | [], t, i, _ => ⟨t, rfl, i, rfl⟩
  | op :: ops, t, i, f => by
    obtain ⟨t1, a, b, c⟩ := step_ok lk i op f.1
    obtain ⟨t2, d, e, g⟩ := run_ok lk ops t1 b (by rw [c]; exact f.2)
    refine ⟨t2, ?_, e, by rw [g, c]; rfl⟩
    simp only [run, a, bind, Except.bind, d, answers, c]

/-- **C04, C06.** For every lawful key type (every collision pattern, every 32-bit hash including negative ones), every
history of calls in which the dictionary never holds more than 2^28 entries is answered exactly as by the
insertion-ordered map: lookups, membership, lengths, `KeyError`s and the iteration order. -/
theorem dict_is_ordered_map {ko : KeyOps K} (lk : LawfulKey ko) (ops : List (Op K V)) (f : Fits ko (2 ^ 28) [] ops) :
    ∃ t, run ko {} ops = .ok (t, answers ko [] ops) ∧ iterate t = final ko [] ops := by
  obtain ⟨t, a, _, c⟩ := run_ok lk ops {} (inv_empty ko) f
  exact ⟨t, a, c⟩

/-- **C05.** No loop of the table runs longer than `size + 14` steps and no internal consistency check fails, whatever
the history. -/
theorem dict_never_hangs {ko : KeyOps K} (lk : LawfulKey ko) (ops : List (Op K V)) (f : Fits ko (2 ^ 28) [] ops)
    (e : Err) : run ko ({} : Tbl K V) ops ≠ .error e := by
  obtain ⟨t, a, _⟩ := dict_is_ordered_map lk ops f
  rw [a]; intro h; cases h

/-- **C05.** The probe sequence of any hash visits every index of any power-of-two table up to 2^64. -/
theorem probe_visits_every_index (p : Nat) (hp : p ≤ 64) (h i : Nat) (hh : h < 2 ^ 64) (hi : i < 2 ^ p) :
    ∃ n, n < 2 ^ p + 13 ∧ (off h n).1 &&& (2 ^ p - 1) = i := idx_cover p h i hp hh hi

/-- **C05.** Every reachable table that has been allocated has an empty entry, and its size is a power of two. -/
theorem reachable_has_empty {ko : KeyOps K} (lk : LawfulKey ko) (ops : List (Op K V)) (f : Fits ko (2 ^ 28) [] ops)
    {t : Tbl K V} {rs : List (Except Err (Res K V))} (h : run ko {} ops = .ok (t, rs)) (hs : t.size ≠ 0) :
    (∃ i, i < t.size ∧ t.slots i = EMPTY) ∧ ∃ p, t.size = 2 ^ p := by
  obtain ⟨t', a, i, _⟩ := run_ok lk ops {} (inv_empty ko) f
  rw [h] at a
  injection a with a; injection a with a _; subst a
  rcases i.idx with ⟨a, _, _⟩ | ⟨a, b⟩
  · exact absurd a hs
  · obtain ⟨p, _, _, e⟩ := a.tab.pow
    rw [a.emp] at b
    obtain ⟨j, j1, j2⟩ := cntB_pos b
    exact ⟨⟨j, j1, by simpa [EMPTY] using j2⟩, p, e⟩

/-- **C05, limit.** Above 2^28 live entries `pickHashTableSize` does not terminate: for every request strictly between
2^30 and 2^31 the loop never ends, whatever the number of steps. -/
theorem pick_hangs (m : Int) (h1 : 2 ^ 30 < m) (h2 : m < 2 ^ 31) (f : Nat) : pickLoop m f 8 = .error .fuel := by
  have zero : ∀ f, pickLoop m f 0 = .error .fuel := by
    intro f; induction f with
    | zero => rfl
    | succ f ih => rw [pickLoop, if_pos (by omega)]; exact ih
  have low : ∀ f, pickLoop m f (-2 ^ 31) = .error .fuel := by
    intro f; cases f with
    | zero => rfl
    | succ f =>
      rw [pickLoop, if_pos (by omega)]
      have : w32 (-2 ^ 31 * 2) = 0 := by decide
      rw [this]; exact zero f
  have go : ∀ (j f : Nat), j ≤ 27 → pickLoop m f (2 ^ (30 - j)) = .error .fuel := by
    intro j
    induction j with
    | zero =>
      intro f _
      cases f with
      | zero => rfl
      | succ f =>
        rw [pickLoop, if_pos (by simpa using h1)]
        have : w32 (2 ^ (30 - 0) * 2) = -2 ^ 31 := by decide
        rw [this]; exact low f
    | succ j ih =>
      intro f hj
      cases f with
      | zero => rfl
      | succ f =>
        have e : (2 : Int) ^ (30 - (j + 1)) * 2 = 2 ^ (30 - j) := by
          rw [← Int.pow_succ]; congr 1; omega
        have le : (2 : Int) ^ (30 - j) ≤ 2 ^ 30 := by
          exact_mod_cast Nat.pow_le_pow_right (by decide) (by omega)
        have pos : (0 : Int) < 2 ^ (30 - (j + 1)) := by exact_mod_cast Nat.two_pow_pos _
        rw [pickLoop, if_pos (by omega), e, w32_pow (by omega)]
        exact ih f (by omega)
  exact go 27 f (Nat.le_refl _)

/-! ### The hypotheses can be met -/

/-- A key type with many collisions and negative hashes. -/
def badHash : KeyOps Int := ⟨fun k => -(k % 3), fun a b => decide (a = b)⟩

theorem badHash_lawful : LawfulKey badHash where
  symm a b h := by simp [badHash] at h ⊢; exact h.symm
  trans a b c h h' := by simp [badHash] at h h' ⊢; rw [h, h']
  hash a b h := by simp [badHash] at h; rw [h]
  int32 a := by simp only [badHash]; omega

/-- Insertions, overwrites, a delete, a re-insert and a failing lookup on colliding keys. -/
def sample : List (Op Int Int) :=
  [.setitem 3 30, .setitem 6 60, .setitem 9 90, .setitem 6 61, .delitem 3, .setitem 3 31, .getitem 4, .items]

example : Fits badHash (2 ^ 28) [] sample := by simp [Fits, sample, effect, assign, lookup, erase, badHash]

example : answers badHash [] sample = [.ok .unit, .ok .unit, .ok .unit, .ok .unit, .ok .unit, .ok .unit,
    .error .keyError, .ok (.list [(6, 61), (9, 90), (3, 31)])] := by decide

end Verif.HashTable
