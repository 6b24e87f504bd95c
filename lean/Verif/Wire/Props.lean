import Verif.Wire.Model
import Verif.Wire.Spec
import Mathlib.Data.Nat.Bitwise
import Mathlib.Tactic.Ring
import Mathlib.Tactic.Linarith
/-
C13 (varints) and C14 (skipping and copying messages).
-/
namespace Verif.Wire
open Spec

/-! ### Varints -/

theorem and127 (b : Nat) : b &&& 127 = b % 128 := Nat.and_two_pow_sub_one_eq_mod b 7
theorem and7 (b : Nat) : b &&& 7 = b % 8 := Nat.and_two_pow_sub_one_eq_mod b 3

theorem writeVarint_big (i : Nat) (h : i ≥ 128) : writeVarint i = (128 + i % 128) :: writeVarint (i / 128) := by
  rw [writeVarint, dif_pos h, and127, Nat.shiftRight_eq_div_pow]

theorem writeVarint_small (i : Nat) (h : i < 128) : writeVarint i = [i] := by
  rw [writeVarint, dif_neg (by omega)]

/-- What the loop computes on a string of continuation bytes and a last byte. -/
theorem loop_spec : ∀ (init : Bytes) (last : Nat) (rest : Bytes) (acc shift : Nat), last < 128 →
    (∀ b ∈ init, 128 ≤ b ∧ b < 256) → shift + 7 * init.length < 64 →
    readVarintLoop (init ++ [last] ++ rest) acc shift = .ok ((acc + base128 (init ++ [last]) * 2 ^ shift) % 2 ^ 64, rest) := by
  intro init
  induction init with
  | nil =>
    intro last rest acc shift hl _ hs
    simp only [List.nil_append, List.cons_append, readVarintLoop, List.length_nil] at *
    rw [if_neg (by omega), if_pos hl, and127, Nat.shiftLeft_eq]
    simp [base128]
  | cons b bs ih =>
    intro last rest acc shift hl hb hs
    simp only [List.cons_append, readVarintLoop, List.length_cons] at *
    have h1 := hb b (by simp)
    rw [if_neg (by omega), if_neg (by omega)]
    have := ih last rest ((acc + ((b &&& 127) <<< shift)) % 2 ^ 64) (shift + 7) hl (fun x hx => hb x (by simp [hx])) (by omega)
    rw [this, and127, Nat.shiftLeft_eq]
    congr 2
    simp only [base128]
    rw [Nat.mod_add_mod]
    congr 1
    rw [pow_add]
    ring

/-- Reading any varint, canonical or overlong, yields its value and leaves the rest. -/
theorem readVarint_spec {bs : Bytes} {v : Nat} (h : IsVarint bs v) (rest : Bytes) :
    readVarint (bs ++ rest) = .ok (v, rest) := by
  obtain ⟨hs, ⟨init, last, rfl, hl, hb⟩, hv⟩ := h
  unfold readVarint
  rw [loop_spec init last rest 0 0 hl hb (by simp at hs; omega)]
  simp [hv]

theorem writeVarint_shape : ∀ (n i : Nat), i < 128 ^ (n + 1) →
    ∃ init last, writeVarint i = init ++ [last] ∧ last < 128 ∧ (∀ b ∈ init, 128 ≤ b ∧ b < 256) ∧ init.length ≤ n ∧
      base128 (init ++ [last]) = i := by
  intro n
  induction n with
  | zero =>
    intro i hi
    exact ⟨[], i, by simp [writeVarint_small i (by simpa using hi)], by simpa using hi, by simp, by simp,
      by simp [base128]; simpa using hi⟩
  | succ n ih =>
    intro i hi
    by_cases h : i ≥ 128
    · obtain ⟨init, last, h1, h2, h3, h4, h5⟩ := ih (i / 128) (by
        rw [Nat.div_lt_iff_lt_mul (by omega)]; rw [pow_succ] at hi; exact hi)
      refine ⟨(128 + i % 128) :: init, last, by rw [writeVarint_big i h, h1]; rfl, h2, ?_, by simp; omega, ?_⟩
      · intro b hb
        rcases List.mem_cons.1 hb with rfl | hb
        · omega
        · exact h3 b hb
      · simp only [List.cons_append, base128, h5]; omega
    · exact ⟨[], i, by simp [writeVarint_small i (by omega)], by omega, by simp, by simp, by simp [base128]; omega⟩

/-- Writing a 64-bit number produces a varint for it. -/
theorem writeVarint_isVarint (i : Nat) (h : i < 2 ^ 64) : IsVarint (writeVarint i) i := by
  obtain ⟨init, last, h1, h2, h3, h4, h5⟩ := writeVarint_shape 9 i (by
    have : (128 : Nat) ^ (9 + 1) = 2 ^ 70 := by norm_num
    omega)
  refine ⟨by rw [h1]; simp; omega, ⟨init, last, h1, h2, h3⟩, ?_⟩
  rw [h1, h5, Nat.mod_eq_of_lt h]

/-- **C13, unsigned.**  Every 64-bit number written is read back, whatever follows, and exactly its bytes are consumed;
it takes at most ten bytes, each a valid byte. -/
theorem varint_roundtrip (i : Nat) (h : i < 2 ^ 64) (rest : Bytes) :
    readVarint (writeVarint i ++ rest) = .ok (i, rest) ∧ (writeVarint i).length ≤ 10 ∧ ∀ b ∈ writeVarint i, b < 256 := by
  have hv := writeVarint_isVarint i h
  refine ⟨readVarint_spec hv rest, hv.short, ?_⟩
  obtain ⟨init, last, h1, h2, h3⟩ := hv.shape
  intro b hb
  rw [h1] at hb
  rcases List.mem_append.1 hb with hb | hb
  · exact (h3 b hb).2
  · simp at hb; omega

example : writeVarint 300 = [172, 2] ∧ readVarint ([172, 2] ++ [9]) = .ok (300, [9]) := by
  refine ⟨?_, by decide⟩
  rw [writeVarint_big _ (by omega), writeVarint_small _ (by omega)]

theorem zigzag_spec (i : Int) (h1 : -2 ^ 63 ≤ i) (h2 : i < 2 ^ 63) :
    zigzag i = (if i < 0 then (-2 * i - 1).toNat else (2 * i).toNat) := by
  unfold zigzag toUInt64 toInt64
  simp only [Int.bmod]
  split <;> omega

theorem unzigzag_zigzag (i : Int) (h1 : -2 ^ 63 ≤ i) (h2 : i < 2 ^ 63) : unzigzag (zigzag i) = i := by
  rw [zigzag_spec i h1 h2]
  unfold unzigzag toInt64 toUInt64
  simp only [Int.bmod, Nat.shiftRight_eq_div_pow]
  split <;> split <;> omega

theorem zigzag_lt (i : Int) (h1 : -2 ^ 63 ≤ i) (h2 : i < 2 ^ 63) : zigzag i < 2 ^ 64 := by
  rw [zigzag_spec i h1 h2]; split <;> omega

/-- **C13, signed.**  Every signed 64-bit number written is read back, whatever follows; small magnitudes take few
bytes. -/
theorem signed_varint_roundtrip (i : Int) (h1 : -2 ^ 63 ≤ i) (h2 : i < 2 ^ 63) (rest : Bytes) :
    readSigned (writeSigned i ++ rest) = .ok (i, rest) ∧ (-64 ≤ i ∧ i < 64 → (writeSigned i).length = 1) := by
  refine ⟨?_, ?_⟩
  · unfold readSigned writeSigned
    rw [(varint_roundtrip _ (zigzag_lt i h1 h2) rest).1]
    simp [unzigzag_zigzag i h1 h2]
  · intro hi
    unfold writeSigned
    rw [writeVarint_small _ (by rw [zigzag_spec i h1 h2]; split <;> omega)]
    rfl

example : readSigned (writeSigned (-2 ^ 63) ++ [1, 2]) = .ok (-2 ^ 63, [1, 2]) :=
  (signed_varint_roundtrip _ (by norm_num) (by norm_num) _).1

/-- Reading a varint never runs for ever or reads backwards: what is left is a strictly shorter suffix. -/
theorem readVarintLoop_suffix : ∀ (bs : Bytes) (acc shift v : Nat) (rest : Bytes), readVarintLoop bs acc shift = .ok (v, rest) →
    ∃ d, bs = d ++ rest ∧ d ≠ [] ∧ v < 2 ^ 64 := by
  intro bs
  induction bs with
  | nil => intro acc shift v rest h; simp [readVarintLoop] at h
  | cons b bs ih =>
    intro acc shift v rest h
    simp only [readVarintLoop] at h
    split at h
    · simp at h
    · split at h
      · simp only [Except.ok.injEq, Prod.mk.injEq] at h
        obtain ⟨h1, rfl⟩ := h
        exact ⟨[b], rfl, by simp, by rw [← h1]; exact Nat.mod_lt _ (by norm_num)⟩
      · obtain ⟨d, rfl, hd, hv⟩ := ih _ _ _ _ h
        exact ⟨b :: d, rfl, by simp, hv⟩

theorem readVarint_suffix {bs : Bytes} {v rest} (h : readVarint bs = .ok (v, rest)) :
    ∃ d, bs = d ++ rest ∧ d ≠ [] ∧ v < 2 ^ 64 := readVarintLoop_suffix bs 0 0 v rest h

/-- Malformed input is not rejected cleanly: ten continuation bytes followed by anything make the reader shift a 64-bit
number by 70, which C++ does not define. -/
theorem overlong_varint_undefined (b : Nat) (rest : Bytes) :
    readVarint (List.replicate 10 128 ++ b :: rest) = .error .undefined := by
  simp [readVarint, readVarintLoop, List.replicate]

/-! ### Headers and registers -/

theorem header_eq (f w : Nat) (hf : f < 2 ^ 61) (hw : w < 8) : header f w = 8 * f + w := by
  unfold header
  rw [Nat.shiftLeft_eq]
  rw [Nat.mod_eq_of_lt (by omega), Nat.mod_eq_of_lt (by omega)]
  omega

theorem readHeader_of_varint {h : Bytes} {f w : Nat} (hw : w < 8) (hv : IsVarint h (8 * f + w)) (rest : Bytes) :
    readHeader (h ++ rest) = .ok ((f, w), rest) := by
  unfold readHeader
  rw [readVarint_spec hv rest]
  simp only [and7, Nat.shiftRight_eq_div_pow]
  have h1 : (8 * f + w) / 2 ^ 3 = f := by omega
  have h2 : (8 * f + w) % 8 = w := by omega
  rw [h1, h2]

/-- Field numbers and wire types survive the header. -/
theorem header_roundtrip (f w : Nat) (hf : f < 2 ^ 61) (hw : w < 8) (rest : Bytes) :
    readHeader (writeVarint (header f w) ++ rest) = .ok ((f, w), rest) := by
  rw [header_eq f w hf hw]
  exact readHeader_of_varint hw (writeVarint_isVarint _ (by omega)) rest

theorem toLE_length : ∀ n v, (toLE n v).length = n := by
  intro n
  induction n with
  | zero => intro v; rfl
  | succ n ih => intro v; simp [toLE, ih]

theorem fromLE_toLE : ∀ n v, fromLE (toLE n v) = v % 256 ^ n := by
  intro n
  induction n with
  | zero => intro v; simp [toLE, fromLE, Nat.mod_one]
  | succ n ih =>
    intro v
    simp only [toLE, fromLE, ih]
    rw [pow_succ, Nat.mul_comm (256 ^ n) 256, Nat.mod_mul]

theorem toLE_bytes : ∀ n v, ∀ b ∈ toLE n v, b < 256 := by
  intro n
  induction n with
  | zero => intro v b hb; simp [toLE] at hb
  | succ n ih =>
    intro v b hb
    simp only [toLE, List.mem_cons] at hb
    rcases hb with rfl | hb
    · exact Nat.mod_lt _ (by norm_num)
    · exact ih _ b hb

theorem readBytes_append (d rest : Bytes) : readBytes d.length (d ++ rest) = .ok (d, rest) := by
  unfold readBytes
  rw [if_neg (by simp)]
  simp

/-- The values of a machine type. -/
def InRange : Reg → Int → Prop
  | .bool, v => v = 0 ∨ v = 1
  | .uint n, v => 1 ≤ n ∧ n ≤ 8 ∧ 0 ≤ v ∧ v < 2 ^ (8 * n)
  | .int n, v => 1 ≤ n ∧ n ≤ 8 ∧ -2 ^ (8 * n - 1) ≤ v ∧ v < 2 ^ (8 * n - 1)
  | .float n, v => (n = 4 ∨ n = 8) ∧ 0 ≤ v ∧ v < 2 ^ (8 * n)

/-- The wire type under which a machine type travels. -/
def regWire : Reg → Nat
  | .float n => if n = 8 then 3 else 2
  | _ => 1

theorem bmod_eq_self (v : Int) (n : Nat) (h : 1 ≤ n) (h1 : -2 ^ (8 * n - 1) ≤ v) (h2 : v < 2 ^ (8 * n - 1)) :
    Int.bmod v (2 ^ (8 * n)) = v := by
  have hp : (2 : Int) ^ (8 * n) = 2 * 2 ^ (8 * n - 1) := by
    rw [← pow_succ']; congr 1; omega
  have hpn : (2 : Nat) ^ (8 * n) = 2 * 2 ^ (8 * n - 1) := by
    rw [← pow_succ']; congr 1; omega
  have hc : (((2 : Nat) ^ (8 * n - 1) : Nat) : Int) = 2 ^ (8 * n - 1) := by push_cast; rfl
  apply Int.bmod_eq_of_le
  · rw [hpn]; push_cast; omega
  · rw [hpn]; push_cast; omega

theorem pow_le_64 (n : Nat) (h : n ≤ 8) : (2 : Int) ^ (8 * n) ≤ 2 ^ 64 := pow_le_pow_right₀ (by norm_num) (by omega)
theorem pow_le_63 (n : Nat) (h : n ≤ 8) : (2 : Int) ^ (8 * n - 1) ≤ 2 ^ 63 := pow_le_pow_right₀ (by norm_num) (by omega)

/-- **C13 for registers.**  Every value of every machine type (booleans, integers of 1 to 8 bytes, floats by bit
pattern) written under any field number is read back, with that field number, whatever follows. -/
theorem register_roundtrip (f : Nat) (hf : f < 2 ^ 61) (r : Reg) (v : Int) (hv : InRange r v) (rest : Bytes) :
    ∃ body, writeRegister f r v = writeVarint (header f (regWire r)) ++ body ∧
      readHeader (writeRegister f r v ++ rest) = .ok ((f, regWire r), body ++ rest) ∧
      readRegister r (regWire r) (body ++ rest) = .ok (v, rest) := by
  have hw : regWire r < 8 := by cases r <;> simp [regWire]; split <;> omega
  have key : ∀ body, writeRegister f r v = writeVarint (header f (regWire r)) ++ body →
      readHeader (writeRegister f r v ++ rest) = .ok ((f, regWire r), body ++ rest) := by
    intro body hb
    rw [hb, List.append_assoc, header_roundtrip f _ hf hw]
  cases r with
  | bool =>
    refine ⟨writeVarint v.toNat, rfl, key _ rfl, ?_⟩
    rcases hv with rfl | rfl
    · simp [regWire, readRegister, (varint_roundtrip 0 (by norm_num) rest).1]
    · simp [regWire, readRegister, (varint_roundtrip 1 (by norm_num) rest).1]
  | uint n =>
    obtain ⟨hn1, hn2, h1, h2⟩ := hv
    have := pow_le_64 n hn2
    refine ⟨writeVarint v.toNat, rfl, key _ rfl, ?_⟩
    simp only [regWire, readRegister, if_true]
    rw [(varint_roundtrip v.toNat (by omega) rest).1]
    simp only
    have hlt : v.toNat < 2 ^ (8 * n) := by
      have : ((v.toNat : Nat) : Int) < ((2 ^ (8 * n) : Nat) : Int) := by push_cast; omega
      exact_mod_cast this
    rw [Nat.mod_eq_of_lt hlt, Int.toNat_of_nonneg h1]
  | int n =>
    obtain ⟨hn1, hn2, h1, h2⟩ := hv
    have := pow_le_63 n hn2
    refine ⟨writeSigned v, rfl, key _ rfl, ?_⟩
    simp only [regWire, readRegister, if_true]
    rw [(signed_varint_roundtrip v (by omega) (by omega) rest).1]
    simp only [bmod_eq_self v n hn1 h1 h2]
  | float n =>
    obtain ⟨hn, h1, h2⟩ := hv
    refine ⟨toLE n v.toNat, rfl, key _ rfl, ?_⟩
    simp only [regWire, readRegister, if_true]
    have hlen := toLE_length n v.toNat
    have hr := readBytes_append (toLE n v.toNat) rest
    rw [hlen] at hr
    rw [hr]
    simp only [fromLE_toLE]
    have h256 : (256 : Nat) ^ n = 2 ^ (8 * n) := by rw [show (256 : Nat) = 2 ^ 8 by norm_num, ← pow_mul]
    have hlt : v.toNat < 2 ^ (8 * n) := by
      have : ((v.toNat : Nat) : Int) < ((2 ^ (8 * n) : Nat) : Int) := by push_cast; omega
      exact_mod_cast this
    rw [h256, Nat.mod_eq_of_lt hlt, Int.toNat_of_nonneg h1]

example : InRange (.int 2) (-32768) ∧ InRange (.float 8) 0x3ff0000000000000 ∧ ¬ InRange (.int 1) 128 := by
  refine ⟨⟨by norm_num, by norm_num, by norm_num, by norm_num⟩, ⟨Or.inr rfl, by norm_num, by norm_num⟩, ?_⟩
  intro h; obtain ⟨_, _, _, h⟩ := h; norm_num at h

/-! ### Messages -/

theorem wire_lt (m : Msg) : wire m < 7 := by cases m <;> simp [wire]

mutual
/-- The bytes the writers produce for a message body. -/
def encode : Msg → Bytes
  | .empty => []
  | .varint v => writeVarint v
  | .bits32 b => b
  | .bits64 b => b
  | .bytes b => writeVarint b.length ++ b
  | .single f m => writeVarint (header f (wire m)) ++ encode m
  | .compound ms c => encodeItems ms c

/-- The bytes of the items of a compound message and its end marker. -/
def encodeItems : List (Nat × Msg) → Nat → Bytes
  | [], c => writeVarint (header c 7)
  | (f, m) :: ms, c => writeVarint (header f (wire m)) ++ encode m ++ encodeItems ms c
end

/-- The canonical bytes of a node. -/
def canonical : Node → Bytes
  | .body m => encode m
  | .items ms c => encodeItems ms c

theorem isVarint_pos {bs v} (h : IsVarint bs v) : 1 ≤ bs.length := by
  obtain ⟨_, ⟨i, l, rfl, _⟩, _⟩ := h; simp

/-- The canonical encoding of anything encodable is an encoding of it. -/
theorem canonical_encodes {n : Node} {bs : Bytes} (h : Encodes n bs) : Encodes n (canonical n) := by
  induction h with
  | empty => exact .empty
  | varint hv =>
    refine .varint (writeVarint_isVarint _ ?_)
    rw [hv.value]; exact Nat.mod_lt _ (by norm_num)
  | bits32 h => exact .bits32 h
  | bits64 h => exact .bits64 h
  | bytes hv =>
    refine .bytes (writeVarint_isVarint _ ?_)
    rw [hv.value]; exact Nat.mod_lt _ (by norm_num)
  | @single h f m bs hf hv hm ih =>
    have := wire_lt m
    refine .single hf ?_ ih
    rw [header_eq f _ hf (by omega)]
    exact writeVarint_isVarint _ (by omega)
  | compound _ ih => exact .compound ih
  | @close h c hc hv =>
    refine .close hc ?_
    show IsVarint (writeVarint (header c 7)) _
    rw [header_eq c 7 hc (by omega)]
    exact writeVarint_isVarint _ (by omega)
  | @item h f m bs ms c bs2 hf hv hm hms ih1 ih2 =>
    have := wire_lt m
    refine .item hf ?_ ih1 ih2
    rw [header_eq f _ hf (by omega)]
    exact writeVarint_isVarint _ (by omega)

/-- The reader's state after skipping a node. -/
def skipNode (f : Nat) : Node → Bytes → Except Err Bytes
  | .body m, bs => discardBody f (wire m) bs
  | .items _ _, bs => discardLoop f bs

/-- The outcome of copying a node. -/
def copyNode (f : Nat) : Node → Bytes → Except Err (Bytes × Bytes)
  | .body m, bs => copyBody f (wire m) bs
  | .items _ _, bs => copyLoop f bs

/-- Recursion fuel that is enough for a node of the given length. -/
def need : Node → Nat → Nat
  | .body _, n => 2 * n + 3
  | .items _ _, n => 2 * n + 2

theorem skipNode_spec {n : Node} {bs : Bytes} (h : Encodes n bs) : ∀ (f : Nat) (rest : Bytes), need n bs.length ≤ f →
    skipNode f n (bs ++ rest) = .ok rest := by
  induction h with
  | empty =>
    intro f rest hf
    obtain ⟨f, rfl⟩ : ∃ g, f = g + 1 := ⟨f - 1, by simp only [need] at hf; omega⟩
    simp [skipNode, wire, discardBody]
  | varint hv =>
    intro f rest hf
    obtain ⟨f, rfl⟩ : ∃ g, f = g + 1 := ⟨f - 1, by simp only [need] at hf; omega⟩
    simp [skipNode, wire, discardBody, readVarint_spec hv rest]
  | @bits32 b hb =>
    intro f rest hf
    obtain ⟨f, rfl⟩ : ∃ g, f = g + 1 := ⟨f - 1, by simp only [need] at hf; omega⟩
    have := readBytes_append b rest; rw [hb] at this
    simp [skipNode, wire, discardBody, this]
  | @bits64 b hb =>
    intro f rest hf
    obtain ⟨f, rfl⟩ : ∃ g, f = g + 1 := ⟨f - 1, by simp only [need] at hf; omega⟩
    have := readBytes_append b rest; rw [hb] at this
    simp [skipNode, wire, discardBody, this]
  | @bytes n b hv =>
    intro f rest hf
    obtain ⟨f, rfl⟩ : ∃ g, f = g + 1 := ⟨f - 1, by simp only [need] at hf; omega⟩
    simp [skipNode, wire, discardBody, List.append_assoc, readVarint_spec hv (b ++ rest), readBytes_append b rest]
  | @single h fl m bs hfl hv hm ih =>
    intro f rest hf
    have hw := wire_lt m
    have hp := isVarint_pos hv
    simp only [need, List.length_append] at hf ih
    obtain ⟨f, rfl⟩ : ∃ g, f = g + 1 := ⟨f - 1, by omega⟩
    have := ih f rest (by omega)
    simp only [skipNode] at this
    show discardBody (f + 1) 5 _ = _
    simp [discardBody, List.append_assoc, readHeader_of_varint (by omega) hv (bs ++ rest), this]
  | @compound ms c bs hi ih =>
    intro f rest hf
    simp only [need] at hf ih
    obtain ⟨f, rfl⟩ : ∃ g, f = g + 1 := ⟨f - 1, by omega⟩
    have := ih f rest (by omega)
    simp only [skipNode] at this
    show discardBody (f + 1) 6 _ = _
    simp [discardBody, this]
  | @close h c hc hv =>
    intro f rest hf
    simp only [need] at hf
    obtain ⟨f, rfl⟩ : ∃ g, f = g + 2 := ⟨f - 2, by omega⟩
    simp [skipNode, discardLoop, readHeader_of_varint (by omega) hv rest, discardBody]
  | @item h fl m bs ms c bs2 hfl hv hm hms ih1 ih2 =>
    intro f rest hf
    have hw := wire_lt m
    have hp := isVarint_pos hv
    simp only [need, List.length_append] at hf ih1 ih2
    obtain ⟨f, rfl⟩ : ∃ g, f = g + 1 := ⟨f - 1, by omega⟩
    have h1 := ih1 f (bs2 ++ rest) (by omega)
    have h2 := ih2 f rest (by omega)
    simp only [skipNode] at h1 h2
    show discardLoop (f + 1) _ = _
    have hne : wire m ≠ 7 := by omega
    simp [discardLoop, List.append_assoc, readHeader_of_varint (by omega) hv (bs ++ (bs2 ++ rest)), h1, h2, hne]

theorem copyNode_spec {n : Node} {bs : Bytes} (h : Encodes n bs) : ∀ (f : Nat) (rest : Bytes), need n bs.length ≤ f →
    copyNode f n (bs ++ rest) = .ok (canonical n, rest) := by
  induction h with
  | empty =>
    intro f rest hf
    obtain ⟨f, rfl⟩ : ∃ g, f = g + 1 := ⟨f - 1, by simp only [need] at hf; omega⟩
    simp [copyNode, wire, copyBody, canonical, encode]
  | varint hv =>
    intro f rest hf
    obtain ⟨f, rfl⟩ : ∃ g, f = g + 1 := ⟨f - 1, by simp only [need] at hf; omega⟩
    simp [copyNode, wire, copyBody, readVarint_spec hv rest, canonical, encode]
  | @bits32 b hb =>
    intro f rest hf
    obtain ⟨f, rfl⟩ : ∃ g, f = g + 1 := ⟨f - 1, by simp only [need] at hf; omega⟩
    have := readBytes_append b rest; rw [hb] at this
    simp [copyNode, wire, copyBody, this, canonical, encode]
  | @bits64 b hb =>
    intro f rest hf
    obtain ⟨f, rfl⟩ : ∃ g, f = g + 1 := ⟨f - 1, by simp only [need] at hf; omega⟩
    have := readBytes_append b rest; rw [hb] at this
    simp [copyNode, wire, copyBody, this, canonical, encode]
  | @bytes n b hv =>
    intro f rest hf
    obtain ⟨f, rfl⟩ : ∃ g, f = g + 1 := ⟨f - 1, by simp only [need] at hf; omega⟩
    simp [copyNode, wire, copyBody, List.append_assoc, readVarint_spec hv (b ++ rest), readBytes_append b rest, canonical, encode]
  | @single h fl m bs hfl hv hm ih =>
    intro f rest hf
    have hw := wire_lt m
    have hp := isVarint_pos hv
    simp only [need, List.length_append] at hf ih
    obtain ⟨f, rfl⟩ : ∃ g, f = g + 1 := ⟨f - 1, by omega⟩
    have := ih f rest (by omega)
    simp only [copyNode, canonical] at this
    show copyBody (f + 1) 5 _ = _
    simp [copyBody, List.append_assoc, readHeader_of_varint (by omega) hv (bs ++ rest), this, canonical, encode]
  | @compound ms c bs hi ih =>
    intro f rest hf
    simp only [need] at hf ih
    obtain ⟨f, rfl⟩ : ∃ g, f = g + 1 := ⟨f - 1, by omega⟩
    have := ih f rest (by omega)
    simp only [copyNode, canonical] at this
    show copyBody (f + 1) 6 _ = _
    simp [copyBody, this, canonical, encode]
  | @close h c hc hv =>
    intro f rest hf
    simp only [need] at hf
    obtain ⟨f, rfl⟩ : ∃ g, f = g + 1 := ⟨f - 1, by omega⟩
    simp [copyNode, copyLoop, readHeader_of_varint (by omega) hv rest, canonical, encodeItems]
  | @item h fl m bs ms c bs2 hfl hv hm hms ih1 ih2 =>
    intro f rest hf
    have hw := wire_lt m
    have hp := isVarint_pos hv
    simp only [need, List.length_append] at hf ih1 ih2
    obtain ⟨f, rfl⟩ : ∃ g, f = g + 1 := ⟨f - 1, by omega⟩
    have h1 := ih1 f (bs2 ++ rest) (by omega)
    have h2 := ih2 f rest (by omega)
    simp only [copyNode, canonical] at h1 h2
    show copyLoop (f + 1) _ = _
    have hne : wire m ≠ 7 := by omega
    simp [copyLoop, List.append_assoc, readHeader_of_varint (by omega) hv (bs ++ (bs2 ++ rest)), h1, h2, hne, canonical, encodeItems]

/-- **C14, skipping.**  Whatever message stands in the stream, nested to any depth and encoded in any valid way, and
whatever follows it, discarding it (with or without its header) consumes exactly its bytes. -/
theorem discard_exact {m : Msg} {bs : Bytes} (h : Encodes (.body m) bs) (rest : Bytes) (f : Nat) (hf : 2 * bs.length + 3 ≤ f) :
    discardBody f (wire m) (bs ++ rest) = .ok rest ∧
    ∀ hd fl, IsVarint hd (8 * fl + wire m) → discard f (hd ++ bs ++ rest) = .ok (wire m, rest) := by
  have h1 : discardBody f (wire m) (bs ++ rest) = .ok rest := skipNode_spec h f rest hf
  refine ⟨h1, ?_⟩
  intro hd fl hv
  have hw := wire_lt m
  unfold discard
  rw [List.append_assoc, readHeader_of_varint (by omega) hv (bs ++ rest)]
  simp only [h1]

/-- **C14, copying.**  Copying a message consumes exactly its bytes and writes an encoding of the same message; if the
message was written by this library (canonical varints), byte for byte the same. -/
theorem copy_exact {m : Msg} {bs : Bytes} (h : Encodes (.body m) bs) (rest : Bytes) (f : Nat) (hf : 2 * bs.length + 3 ≤ f) :
    ∃ out, copyBody f (wire m) (bs ++ rest) = .ok (out, rest) ∧ Encodes (.body m) out ∧ (bs = encode m → out = bs) := by
  refine ⟨encode m, copyNode_spec h f rest hf, canonical_encodes h, fun e => e.symm⟩

/-- The bytes determine the message: two messages of one wire type with a common encoding (even followed by different
bytes) are the same up to canonical bytes, and the encodings end at the same place. -/
theorem encoding_unambiguous {m m' : Msg} {bs bs' rest rest' : Bytes} (h : Encodes (.body m) bs) (h' : Encodes (.body m') bs')
    (hw : wire m = wire m') (he : bs ++ rest = bs' ++ rest') : bs = bs' ∧ encode m = encode m' := by
  have a := copyNode_spec h (2 * bs.length + 3 + (2 * bs'.length + 3)) rest (by simp only [need]; omega)
  have b := copyNode_spec h' (2 * bs.length + 3 + (2 * bs'.length + 3)) rest' (by simp only [need]; omega)
  simp only [copyNode, canonical] at a b
  rw [hw, he, b] at a
  simp only [Except.ok.injEq, Prod.mk.injEq] at a
  refine ⟨?_, a.1.symm⟩
  rw [a.2] at he
  exact List.append_cancel_right he

/-- A nested message: compound of a varint under field 1, and a single holding four bytes under field 2. -/
def exMsg : Msg := .compound [(1, .varint 300), (2, .single 0 (.bytes [7, 8, 9, 10]))] 0

/-- Its encoding, with an overlong encoding of 300. -/
def exBytes : Bytes := [9, 172, 130, 0, 21, 4, 4, 7, 8, 9, 10, 7]

theorem exEncodes : Encodes (.body exMsg) exBytes := by
  have v1 : ∀ b, b < 128 → IsVarint [b] b := fun b hb => ⟨by simp, ⟨[], b, rfl, hb, by simp⟩, by simp [base128]; omega⟩
  refine .compound (.item (h := [9]) (bs := [172, 130, 0]) (bs2 := [21, 4, 4, 7, 8, 9, 10, 7]) (by norm_num) (v1 9 (by omega))
    (.varint ⟨by simp, ⟨[172, 130], 0, rfl, by omega, by simp⟩, by simp [base128]⟩) ?_)
  refine .item (h := [21]) (bs := [4, 4, 7, 8, 9, 10]) (bs2 := [7]) (by norm_num) (v1 21 (by omega)) ?_
    (.close (by norm_num) (v1 7 (by omega)))
  exact .single (h := [4]) (bs := [4, 7, 8, 9, 10]) (by norm_num) (v1 4 (by omega)) (.bytes (n := [4]) (v1 4 (by omega)))

example : discardBody 100 6 (exBytes ++ [1, 2]) = .ok [1, 2] := (discard_exact exEncodes _ _ (by simp [exBytes])).1
example : discard 100 ([14] ++ exBytes ++ [1, 2]) = .ok (6, [1, 2]) := by decide

/-! ### Any input at all -/

theorem readHeader_shorter {bs : Bytes} {x rest} (h : readHeader bs = .ok (x, rest)) : ∃ d, bs = d ++ rest ∧ d ≠ [] := by
  unfold readHeader at h
  cases hr : readVarint bs with
  | error e => rw [hr] at h; simp at h
  | ok p =>
    rw [hr] at h
    simp only [Except.ok.injEq, Prod.mk.injEq] at h
    obtain ⟨d, h1, h2, _⟩ := readVarint_suffix (v := p.1) (rest := p.2) hr
    exact ⟨d, by rw [← h.2]; exact h1, h2⟩

theorem readVarint_no_fuel (bs : Bytes) : readVarint bs ≠ .error .fuel := by
  have : ∀ (bs : Bytes) acc shift, readVarintLoop bs acc shift ≠ .error .fuel := by
    intro bs
    induction bs with
    | nil => intro acc shift; simp [readVarintLoop]
    | cons b bs ih =>
      intro acc shift
      simp only [readVarintLoop]
      split
      · simp
      · split
        · simp
        · exact ih _ _
  exact this bs 0 0

theorem readHeader_no_fuel (bs : Bytes) : readHeader bs ≠ .error .fuel := by
  unfold readHeader
  cases hr : readVarint bs with
  | error e => intro h; simp at h; exact readVarint_no_fuel bs (by rw [hr, h])
  | ok p => simp

theorem readBytes_suffix {n : Nat} {bs d rest : Bytes} (h : readBytes n bs = .ok (d, rest)) : bs = d ++ rest := by
  unfold readBytes at h
  split at h
  · simp at h
  · simp only [Except.ok.injEq, Prod.mk.injEq] at h; rw [← h.1, ← h.2, List.take_append_drop]

theorem readBytes_no_fuel (n : Nat) (bs : Bytes) : readBytes n bs ≠ .error .fuel := by
  unfold readBytes; split <;> simp

/-- A result that is not the model's fuel error and leaves a suffix of the input. -/
def Sane (bs : Bytes) (r : Except Err Bytes) : Prop := r ≠ .error .fuel ∧ ∀ rest, r = .ok rest → ∃ d, bs = d ++ rest

theorem sane_all : ∀ (f : Nat), (∀ (w : Nat) (bs : Bytes), 2 * bs.length + 3 ≤ f → Sane bs (discardBody f w bs)) ∧
    (∀ (bs : Bytes), 2 * bs.length + 2 ≤ f → Sane bs (discardLoop f bs)) := by
  intro f
  induction f with
  | zero => exact ⟨fun w bs h => by omega, fun bs h => by omega⟩
  | succ f ih =>
    obtain ⟨ihB, ihL⟩ := ih
    constructor
    · intro w bs hf
      simp only [discardBody]
      split
      · exact ⟨by simp, fun rest h => ⟨[], by simpa using h⟩⟩
      split
      · cases hr : readVarint bs with
        | error e => exact ⟨fun h => readVarint_no_fuel bs (by rw [hr]; simpa using h), by simp⟩
        | ok p =>
          obtain ⟨d, h1, _⟩ := readVarint_suffix (v := p.1) (rest := p.2) hr
          exact ⟨by simp, fun rest h => ⟨d, by simp at h; rw [← h]; exact h1⟩⟩
      split
      · cases hr : readBytes 4 bs with
        | error e => exact ⟨fun h => readBytes_no_fuel 4 bs (by rw [hr]; simpa using h), by simp⟩
        | ok p => exact ⟨by simp, fun rest h => ⟨p.1, by simp at h; rw [← h]; exact readBytes_suffix hr⟩⟩
      split
      · cases hr : readBytes 8 bs with
        | error e => exact ⟨fun h => readBytes_no_fuel 8 bs (by rw [hr]; simpa using h), by simp⟩
        | ok p => exact ⟨by simp, fun rest h => ⟨p.1, by simp at h; rw [← h]; exact readBytes_suffix hr⟩⟩
      split
      · cases hr : readVarint bs with
        | error e => exact ⟨fun h => readVarint_no_fuel bs (by rw [hr]; simpa using h), by simp⟩
        | ok p =>
          obtain ⟨d, h1, _⟩ := readVarint_suffix (v := p.1) (rest := p.2) hr
          cases hr2 : readBytes p.1 p.2 with
          | error e => simp only [hr2]; exact ⟨fun h => readBytes_no_fuel _ _ (by rw [hr2]; simpa using h), by simp⟩
          | ok q =>
            simp only [hr2]
            refine ⟨by simp, fun rest h => ⟨d ++ q.1, ?_⟩⟩
            simp at h
            rw [← h, List.append_assoc, ← readBytes_suffix hr2]; exact h1
      split
      · cases hr : readHeader bs with
        | error e => exact ⟨fun h => readHeader_no_fuel bs (by rw [hr]; simpa using h), by simp⟩
        | ok p =>
          obtain ⟨d, h1, h2⟩ := readHeader_shorter (x := p.1) (rest := p.2) hr
          have hd : 1 ≤ d.length := List.length_pos_iff.2 h2
          have hlen : bs.length = d.length + p.2.length := by rw [h1]; simp
          obtain ⟨a, b⟩ := ihB p.1.2 p.2 (by omega)
          refine ⟨a, fun rest h => ?_⟩
          obtain ⟨d2, h3⟩ := b rest h
          exact ⟨d ++ d2, by rw [List.append_assoc, ← h3]; exact h1⟩
      split
      · exact ihL bs (by omega)
      split
      · exact ⟨by simp, fun rest h => ⟨[], by simpa using h⟩⟩
      · exact ⟨by simp, by simp⟩
    · intro bs hf
      simp only [discardLoop]
      cases hr : readHeader bs with
      | error e => exact ⟨fun h => readHeader_no_fuel bs (by rw [hr]; simpa using h), by simp⟩
      | ok p =>
        obtain ⟨d, h1, h2⟩ := readHeader_shorter (x := p.1) (rest := p.2) hr
        have hd : 1 ≤ d.length := List.length_pos_iff.2 h2
        have hlen : bs.length = d.length + p.2.length := by rw [h1]; simp
        obtain ⟨a, b⟩ := ihB p.1.2 p.2 (by omega)
        cases hr2 : discardBody f p.1.2 p.2 with
        | error e => simp only [hr2]; exact ⟨fun h => a (by rw [hr2]; simpa using h), by simp⟩
        | ok bs2 =>
          obtain ⟨d2, h3⟩ := b bs2 hr2
          simp only [hr2]
          split
          · refine ⟨by simp, fun rest h => ⟨d ++ d2, ?_⟩⟩
            simp at h
            rw [← h, List.append_assoc, ← h3]; exact h1
          · have hlen2 : p.2.length = d2.length + bs2.length := by rw [h3]; simp
            obtain ⟨a2, b2⟩ := ihL bs2 (by omega)
            refine ⟨a2, fun rest h => ?_⟩
            obtain ⟨d3, h4⟩ := b2 rest h
            exact ⟨d ++ (d2 ++ d3), by rw [List.append_assoc, List.append_assoc, ← h4, ← h3]; exact h1⟩

/-- **C14, robustness.**  On any bytes at all, well-formed or not, skipping a message finishes (the recursion is bounded
by the input) and, if it succeeds, leaves a suffix of the input. -/
theorem discard_total (w : Nat) (bs : Bytes) : discardBody (2 * bs.length + 3) w bs ≠ .error .fuel ∧
    ∀ rest, discardBody (2 * bs.length + 3) w bs = .ok rest → ∃ d, bs = d ++ rest :=
  (sane_all _).1 w bs (le_refl _)

example : discardBody 100 6 [9, 172] = .error .outOfData := by decide

end Verif.Wire
