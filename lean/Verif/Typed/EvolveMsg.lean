import Verif.Typed.Steps
/-
Everything that is written is one message, so a reader that does not know its type can step over it.
-/
namespace Verif.Typed

open Verif.Wire (Bytes Reg InRange writeVarint writeRegister writeEmpty writeBeginBytes writeBeginSingle writeBeginCompound
  writeEndCompound writeVarintObject writeSigned header zigzag toLE)
open Verif.Wire.Spec (IsVarint Msg Node Encodes wire)

/-- One message with its header. -/
def Item (fld : Nat) (bs : Bytes) : Prop :=
  ∃ h m b, bs = h ++ b ∧ IsVarint h (8 * fld + wire m) ∧ Encodes (.body m) b

/-- Several messages, one after the other. -/
def Items' (bs : Bytes) : Prop :=
  ∀ ms c tail, Encodes (.items ms c) tail → ∃ ms', Encodes (.items ms' c) (bs ++ tail)

theorem head_varint (fld w : Nat) (hf : fld < 2 ^ 61) (hw : w < 8) : IsVarint (writeVarint (header fld w)) (8 * fld + w) := by
  rw [Wire.header_eq fld w hf hw]
  exact Wire.writeVarint_isVarint _ (by omega)

theorem item_intro {fld : Nat} (hf : fld < 2 ^ 61) {m : Msg} {b : Bytes} (h : Encodes (.body m) b) :
    Item fld (writeVarint (header fld (wire m)) ++ b) :=
  ⟨_, m, b, rfl, head_varint fld _ hf (by have := Wire.wire_lt m; omega), h⟩

theorem items_nil : Items' [] := fun ms _ _ h => ⟨ms, h⟩

theorem items_append {a b : Bytes} (ha : Items' a) (hb : Items' b) : Items' (a ++ b) := by
  intro ms c tail h
  obtain ⟨ms1, h1⟩ := hb ms c tail h
  obtain ⟨ms2, h2⟩ := ha ms1 c _ h1
  exact ⟨ms2, by rw [List.append_assoc]; exact h2⟩

theorem items_one {fld : Nat} (hf : fld < 2 ^ 61) {a : Bytes} (ha : Item fld a) : Items' a := by
  obtain ⟨h, m, b, rfl, hv, hm⟩ := ha
  exact fun ms c tail ht => ⟨_, .item hf hv hm ht⟩

theorem items_close {a : Bytes} (ha : Items' a) : ∃ ms, Encodes (.body (.compound ms 0)) (a ++ writeEndCompound) := by
  have h7 : Encodes (.items [] 0) writeEndCompound := by
    refine .close (by norm_num) ?_
    exact Wire.writeVarint_isVarint 7 (by norm_num)
  obtain ⟨ms, h⟩ := ha [] 0 _ h7
  exact ⟨ms, .compound h⟩

theorem item_compound {fld : Nat} (hf : fld < 2 ^ 61) {a : Bytes} (ha : Items' a) :
    Item fld (writeBeginCompound fld ++ a ++ writeEndCompound) := by
  obtain ⟨ms, h⟩ := items_close ha
  rw [List.append_assoc]
  exact item_intro hf h

theorem item_single {fld i : Nat} (hf : fld < 2 ^ 61) (hi : i < 2 ^ 61) {a : Bytes} (ha : Item i a) :
    Item fld (writeBeginSingle fld ++ a) := by
  obtain ⟨h, m, b, rfl, hv, hm⟩ := ha
  exact item_intro (m := .single i m) hf (.single hi hv hm)

theorem item_varint {fld : Nat} (hf : fld < 2 ^ 61) {n : Nat} (hn : n < 2 ^ 64) : Item fld (writeVarintObject fld n) :=
  item_intro (m := .varint n) hf (.varint (Wire.writeVarint_isVarint n hn))

theorem item_empty {fld : Nat} (hf : fld < 2 ^ 61) : Item fld (writeEmpty fld) := by
  have := item_intro (m := .empty) hf .empty
  rwa [List.append_nil] at this

theorem item_bytes {fld : Nat} (hf : fld < 2 ^ 61) {b : Bytes} (hb : b.length < 2 ^ 64) :
    Item fld (writeBeginBytes fld b.length ++ b) := by
  rw [writeBeginBytes, List.append_assoc]
  exact item_intro (m := .bytes b) hf (.bytes (Wire.writeVarint_isVarint _ hb))

theorem item_reg {fld : Nat} (hf : fld < 2 ^ 61) {r : Reg} {x : Int} (h : InRange r x) : Item fld (writeRegister fld r x) := by
  cases r with
  | bool =>
    exact item_varint hf (by rcases h with rfl | rfl <;> decide)
  | uint n =>
    obtain ⟨-, h8, h0, h1⟩ := h
    have := Wire.pow_le_64 n h8
    exact item_varint hf (by omega)
  | int n =>
    obtain ⟨-, h8, h0, h1⟩ := h
    have := Wire.pow_le_63 n h8
    exact item_varint hf (Wire.zigzag_lt x (by omega) (by omega))
  | float n =>
    obtain ⟨rfl | rfl, -, -⟩ := h
    · exact item_intro (m := .bits32 _) hf (.bits32 (Wire.toLE_length _ _))
    · exact item_intro (m := .bits64 _) hf (.bits64 (Wire.toLE_length _ _))

/-! ### Lists -/

theorem flat_length (n : Nat) : ∀ (l : List Int), (l.flatMap (intBytes n)).length = l.length * n
  | [] => by simp
  | x :: l => by
    rw [List.flatMap_cons, List.length_append, flat_length n l, List.length_cons, Nat.add_mul, Nat.one_mul, Nat.add_comm]
    unfold intBytes
    rw [Wire.toLE_length]

theorem items_blocks {xs : List Int} {bs : Bytes} (h : Blocks xs bs) : Items' bs := by
  induction h with
  | nil => exact items_nil
  | @block blk xs bs n kind hk h1 h255 hr hb ih =>
    refine items_append ?_ ih
    have hk2 : kind < 2 ^ 61 ∧ n ≤ 8 := by
      simp only [List.mem_cons, Prod.mk.injEq, List.not_mem_nil, or_false] at hk
      omega
    have := item_bytes (b := blk.flatMap (intBytes n)) hk2.1 (by
      rw [flat_length]
      calc blk.length * n ≤ 255 * 8 := Nat.mul_le_mul h255 hk2.2
        _ < 2 ^ 64 := by norm_num)
    rw [flat_length, writeBeginBytes, Wire.header_eq kind 4 hk2.1 (by omega)] at this
    exact items_one hk2.1 this

/-- What is written is one message. -/
def Mess (rec : Ty → Nat → Val → List Nat → Except Err (Bytes × List Nat)) : Prop :=
  ∀ ty fld v m bs m', fld < 2 ^ 61 → m.length ≤ 2 ^ 31 → rec ty fld v m = .ok (bs, m') → m'.length ≤ 2 ^ 31 ∧ Item fld bs

theorem items_all {g : Nat → Val → List Nat → Except Err (Bytes × List Nat)}
    (hg : ∀ i v m bs m', i < 2 ^ 61 → m.length ≤ 2 ^ 31 → g i v m = .ok (bs, m') → m'.length ≤ 2 ^ 31 ∧ Items' bs) :
    ∀ (vs : List Val) (i : Nat) (m : List Nat) (bs : Bytes) (m' : List Nat), i + vs.length < 2 ^ 61 → m.length ≤ 2 ^ 31 →
      writeAll g i vs m = .ok (bs, m') → m'.length ≤ 2 ^ 31 ∧ Items' bs := by
  intro vs
  induction vs with
  | nil => intro i m bs m' _ hm h; cases h; exact ⟨hm, items_nil⟩
  | cons v vs ih =>
    intro i m bs m' hi hm h
    rw [List.length_cons] at hi
    simp only [writeAll] at h
    split at h
    · cases h
    rename_i b m1 h1
    split at h
    · cases h
    rename_i b2 m2 h2
    cases h
    obtain ⟨k1, k2⟩ := hg i v m b m1 (by omega) hm h1
    obtain ⟨k3, k4⟩ := ih (i + 1) m1 b2 m' (by omega) k1 h2
    exact ⟨k3, items_append k2 k4⟩

theorem items_elts {rec} (hr : Mess rec) (t : Ty) (vs : List Val) (hl : vs.length < 2 ^ 31) (m : List Nat) (hm : m.length ≤ 2 ^ 31)
    (bs : Bytes) (m' : List Nat) (h : serElts rec t vs m = .ok (bs, m')) : m'.length ≤ 2 ^ 31 ∧ Items' bs := by
  obtain ⟨b, h1, rfl⟩ := wrap_ok h
  obtain ⟨k1, k2⟩ := items_all (fun i v m bs m' _ hm h =>
    (hr t 0 v m bs m' (by norm_num) hm h).imp id (items_one (by norm_num))) vs 0 m b m' (by omega) hm h1
  refine ⟨k1, ?_⟩
  rw [List.append_nil]
  exact items_append (items_one (by norm_num) (item_varint (fld := 0) (by norm_num) (by omega))) k2

theorem items_body {rec} (hr : Mess rec) (inline : Bool) (t : Ty) (vs : List Val) (hl : vs.length < 2 ^ 31) (m : List Nat)
    (hm : m.length ≤ 2 ^ 31) (bs : Bytes) (m' : List Nat) (h : serBody rec inline t vs m = .ok (bs, m')) :
    m'.length ≤ 2 ^ 31 ∧ Items' bs := by
  unfold serBody at h
  split at h
  · split at h
    · rename_i size hsz
      unfold serPlain at h
      split at h
      · cases h
      rename_i data hdata
      split at h
      · cases h
        exact ⟨hm, items_one (fld := 3) (by norm_num) (item_varint (by norm_num) (by omega))⟩
      split at h
      · split at h
        · cases h
        split at h
        · cases h
        rename_i xs hxs b hb
        cases h
        exact ⟨hm, items_append (items_one (fld := 1) (by norm_num) (item_varint (by norm_num) (by omega)))
          (items_blocks (int_list_blocks _ _ _ hb))⟩
      split at h
      · rename_i hbig
        cases h
        have hd := (podAll_back t size hsz vs data hdata).1
        rw [← hd] at hbig ⊢
        exact ⟨hm, items_one (fld := 2) (by norm_num) (item_bytes (by norm_num) (by omega))⟩
      · cases h
    · exact items_elts hr t vs hl m hm bs m' h
  · exact items_elts hr t vs hl m hm bs m' h

theorem item_object {fld a : Nat} (hf : fld < 2 ^ 61) {m : List Nat} (hm : m.length ≤ 2 ^ 31)
    {body : List Nat → Except Err (Bytes × List Nat)} {bs : Bytes} {m' : List Nat} (h : serObject fld a m body = .ok (bs, m'))
    (hb : ∀ m bs m', m.length ≤ 2 ^ 31 → body m = .ok (bs, m') → m'.length ≤ 2 ^ 31 ∧ Items' bs) :
    m'.length ≤ 2 ^ 31 ∧ Item fld bs := by
  rcases serObject_ok h with ⟨ha, rfl, rfl⟩ | ⟨ha, hl, b, h1, rfl⟩
  · have := List.idxOf_lt_length_of_mem ha
    exact ⟨hm, item_single hf (by norm_num) (item_varint (fld := 0) (by norm_num) (by omega))⟩
  · obtain ⟨k1, k2⟩ := hb (m ++ [a]) b m' (by rw [List.length_append, List.length_singleton]; omega) h1
    refine ⟨k1, ?_⟩
    rw [List.append_assoc (writeBeginCompound fld)]
    exact item_compound hf (items_append (items_one (fld := 0) (by norm_num) (item_varint (by norm_num) (by omega))) k2)

theorem mess_step {rec} (hr : Mess rec) (env : Nat → Ty) (inline : Bool) (heap : Nat → List Val) :
    Mess (serStep env inline heap rec) := by
  intro ty fld v m bs m' hf hm h
  have all0 : ∀ (ty : Nat → Ty) (vs : List Val) (m : List Nat) (bs : Bytes) (m' : List Nat), vs.length < 2 ^ 31 → m.length ≤ 2 ^ 31 →
      writeAll (fun i => rec (ty i) 0) 0 vs m = .ok (bs, m') → m'.length ≤ 2 ^ 31 ∧ Items' bs := fun ty vs m bs m' hl hm h =>
    items_all (fun i v m bs m' _ hm h => (hr (ty i) 0 v m bs m' (by norm_num) hm h).imp id (items_one (by norm_num)))
      vs 0 m bs m' (by omega) hm h
  have cnt : ∀ n, n < 2 ^ 31 → Items' (writeVarintObject 0 n) := fun n hn =>
    items_one (fld := 0) (by norm_num) (item_varint (by norm_num) (by omega))
  unfold serStep at h
  split at h
  · split at h
    · rename_i hx; cases h; exact ⟨hm, item_reg hf ((inRange_iff _ _).1 hx)⟩
    · cases h
  · cases h; exact ⟨hm, item_empty hf⟩
  · split at h
    · cases h; exact ⟨hm, item_bytes hf (by omega)⟩
    · cases h
  · rename_i s
    split at h
    · rename_i hs
      rw [Bool.and_eq_true, List.all_eq_true, decide_eq_true_eq] at hs
      have hp : ∀ c ∈ s, c ≤ Str.Spec.maxPoint := fun c hc => by simpa using hs.1 c hc
      rw [Str.serialize_bytes _ _ (Str.normal_valid (Str.normal_python s hp)), Str.text_python] at h
      cases h
      exact ⟨hm, item_bytes hf (by omega)⟩
    · cases h
  · rename_i ts vs
    split at h
    · rename_i hl
      have parts : ∀ b m', writeAll (fun i => rec (ts.getD i .unit) i) 0 vs m = .ok (b, m') → m'.length ≤ 2 ^ 31 ∧ Items' b :=
        fun b m' h => items_all (fun i v m bs m' hi hm h => (hr _ i v m bs m' hi hm h).imp id (items_one hi)) vs 0 m b m'
          (by omega) hm h
      split at h
      · cases h; exact ⟨hm, item_empty hf⟩
      split at h
      · rename_i h1
        obtain ⟨b, hw, rfl⟩ := wrap_ok h
        obtain ⟨v, rfl⟩ : ∃ v, vs = [v] := List.length_eq_one_iff.1 (by omega)
        simp only [writeAll] at hw
        split at hw
        · cases hw
        rename_i b1 m1 hb1
        simp only [Except.ok.injEq, Prod.mk.injEq, List.append_nil] at hw
        obtain ⟨rfl, rfl⟩ := hw
        obtain ⟨k1, k2⟩ := hr _ 0 v m b1 m1 (by norm_num) hm hb1
        rw [List.append_nil]
        exact ⟨k1, item_single hf (by norm_num) k2⟩
      · obtain ⟨b, hw, rfl⟩ := wrap_ok h
        obtain ⟨k1, k2⟩ := parts b m' hw
        exact ⟨k1, item_compound hf k2⟩
    · cases h
  · split at h
    · cases h
    split at h
    · obtain ⟨b, hw, rfl⟩ := wrap_ok h
      obtain ⟨k1, k2⟩ := hr _ _ _ m b m' (by omega) hm hw
      rw [List.append_nil]
      exact ⟨k1, item_single hf (by omega) k2⟩
    · cases h
  · split at h
    · cases h
    split at h
    · obtain ⟨b, hw, rfl⟩ := wrap_ok h
      obtain ⟨k1, k2⟩ := hr _ _ _ m b m' (by omega) hm hw
      rw [List.append_nil]
      exact ⟨k1, item_single hf (by omega) k2⟩
    · cases h
  · split at h
    · rename_i hl
      split at h
      · cases h; exact ⟨hm, item_empty hf⟩
      · obtain ⟨b, hw, rfl⟩ := wrap_ok h
        obtain ⟨k1, k2⟩ := items_body hr inline _ _ hl m hm b m' hw
        exact ⟨k1, item_compound hf k2⟩
    · cases h
  · split at h
    · rename_i hl
      exact item_object hf hm h fun m bs m' hm h => items_body hr inline _ _ hl m hm bs m' h
    · cases h
  · split at h
    · rename_i hl
      obtain ⟨b, hw, rfl⟩ := wrap_ok h
      obtain ⟨k1, k2⟩ := all0 _ _ m b m' hl.1 hm hw
      rw [List.append_assoc (writeBeginCompound fld)]
      exact ⟨k1, item_compound hf (items_append (cnt _ (by omega)) k2)⟩
    · cases h
  · split at h
    · rename_i hl
      refine item_object hf hm h fun m bs m' hm h => ?_
      obtain ⟨b, hw, rfl⟩ := wrap_ok h
      obtain ⟨k1, k2⟩ := all0 _ _ m b m' hl.1 hm hw
      rw [List.append_nil]
      exact ⟨k1, items_append (cnt _ (by omega)) k2⟩
    · cases h
  · split at h
    · rename_i hl
      refine item_object hf hm h fun m bs m' hm h => ?_
      obtain ⟨b, hw, rfl⟩ := wrap_ok h
      obtain ⟨k1, k2⟩ := all0 _ _ m b m' hl hm hw
      rw [List.append_nil]
      exact ⟨k1, items_append (cnt _ (by omega)) k2⟩
    · cases h
  · exact hr _ _ _ m bs m' hf hm h
  · cases h

theorem mess (env : Nat → Ty) (inline : Bool) (heap : Nat → List Val) : ∀ depth, Mess (ser env inline heap depth)
  | 0 => fun _ _ _ _ _ _ _ _ h => by cases h
  | d + 1 => mess_step (mess env inline heap d) env inline heap

end Verif.Typed
