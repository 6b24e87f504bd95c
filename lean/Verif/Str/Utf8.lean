import Verif.Str.Model
import Verif.Wire.Props
import Mathlib.Tactic.NormNum
/-
UTF-8 and the serialization of strings (C19).
-/
namespace Verif.Str

open Verif.Wire (Bytes writeVarint writeBeginBytes readVarint readHeader readBytes header)

theorem and_mod (b k : Nat) : b &&& (2 ^ k - 1) = b % 2 ^ k := Nat.and_two_pow_sub_one_eq_mod b k

theorem mask (c m k : Nat) : (c &&& (m <<< k)) >>> k = (c >>> k) &&& m := by
  rw [Nat.shiftRight_and_distrib, Nat.shiftLeft_shiftRight]

theorem sr (b k : Nat) : b >>> k = b / 2 ^ k := Nat.shiftRight_eq_div_pow b k

theorem and63 (c : Nat) : c &&& 63 = c % 64 := and_mod c 6
theorem and31 (c : Nat) : c &&& 31 = c % 32 := and_mod c 5
theorem and15 (c : Nat) : c &&& 15 = c % 16 := and_mod c 4
theorem and7 (c : Nat) : c &&& 7 = c % 8 := and_mod c 3

theorem m6_5 (c : Nat) : (c &&& 0b11111000000) >>> 6 = c / 64 % 32 := by
  have := mask c 31 6
  rw [and31, sr c] at this
  exact this
theorem m12_4 (c : Nat) : (c &&& 0b1111000000000000) >>> 12 = c / 4096 % 16 := by
  have := mask c 15 12
  rw [and15, sr c] at this
  exact this
theorem m6_6 (c : Nat) : (c &&& 0b0000111111000000) >>> 6 = c / 64 % 64 := by
  have := mask c 63 6
  rw [and63, sr c] at this
  exact this
theorem m18_3 (c : Nat) : (c &&& 0b111000000000000000000) >>> 18 = c / 262144 % 8 := by
  have := mask c 7 18
  rw [and7, sr c] at this
  exact this
theorem m12_6 (c : Nat) : (c &&& 0b000111111000000000000) >>> 12 = c / 4096 % 64 := by
  have := mask c 63 12
  rw [and63, sr c] at this
  exact this

/-- How wide a code point makes the decoded string. -/
def need (c : Nat) : Nat := if c < 0x80 then 1 else if c < 0x10000 then 2 else 4

/-- The four cases of UTF-8. -/
theorem utf8_cases (c : Nat) :
    (c < 0x80 ∧ Spec.utf8 c = [c] ∧ bytesFor c = 1 ∧ need c = 1) ∨
    (0x80 ≤ c ∧ c < 0x800 ∧ Spec.utf8 c = [192 + c / 64, 128 + c % 64] ∧ bytesFor c = 2 ∧ need c = 2) ∨
    (0x800 ≤ c ∧ c < 0x10000 ∧ Spec.utf8 c = [224 + c / 4096, 128 + c / 64 % 64, 128 + c % 64] ∧ bytesFor c = 3 ∧
      need c = 2) ∨
    (0x10000 ≤ c ∧ Spec.utf8 c = [240 + c / 262144, 128 + c / 4096 % 64, 128 + c / 64 % 64, 128 + c % 64] ∧
      bytesFor c = 4 ∧ need c = 4) := by
  unfold Spec.utf8 bytesFor need
  by_cases h1 : c < 0x80
  · left
    rw [if_pos (by omega), if_pos h1, if_pos h1]
    exact ⟨h1, rfl, rfl, rfl⟩
  · right
    by_cases h2 : c < 0x800
    · left
      rw [if_neg (by omega), if_pos (by omega), if_neg h1, if_pos h2, if_neg h1, if_pos (by omega)]
      exact ⟨by omega, h2, rfl, rfl, rfl⟩
    · right
      by_cases h3 : c < 0x10000
      · left
        rw [if_neg (by omega), if_neg (by omega), if_pos (by omega), if_neg h1, if_neg h2, if_pos h3, if_neg h1, if_pos h3]
        exact ⟨by omega, h3, rfl, rfl, rfl⟩
      · right
        rw [if_neg (by omega), if_neg (by omega), if_neg (by omega), if_neg h1, if_neg h2, if_neg h3, if_neg h1, if_neg h3]
        exact ⟨by omega, rfl, rfl, rfl⟩

/-- The bytes written for a code point are its UTF-8 encoding. -/
theorem encodePoint_utf8 (c : Nat) (h : c ≤ Spec.maxPoint) : encodePoint c = Spec.utf8 c := by
  have h' : c ≤ 1114111 := h
  unfold encodePoint u8
  rw [m6_5, m12_4, m6_6, m18_3, m12_6, and63]
  rcases utf8_cases c with ⟨a, e, -⟩ | ⟨a, b, e, -⟩ | ⟨a, b, e, -⟩ | ⟨a, e, -⟩
  · rw [e, if_pos a]; congr 1; omega
  · rw [e, if_neg (by omega), if_pos b]; congr 1
    · omega
    · congr 1; omega
  · rw [e, if_neg (by omega), if_neg (by omega), if_pos b]; congr 1
    · omega
    · congr 1
      · omega
      · congr 1; omega
  · rw [e, if_neg (by omega), if_neg (by omega), if_neg (by omega)]; congr 1
    · omega
    · congr 1
      · omega
      · congr 1
        · omega
        · congr 1; omega

theorem utf8_length (c : Nat) : (Spec.utf8 c).length = bytesFor c := by
  rcases utf8_cases c with ⟨a, e, f, -⟩ | ⟨a, b, e, f, -⟩ | ⟨a, b, e, f, -⟩ | ⟨a, e, f, -⟩ <;> rw [e, f] <;> rfl

/-- The bytes written are the UTF-8 encoding of the string. -/
theorem encode_utf8 (cs : List Nat) (h : ∀ c ∈ cs, c ≤ Spec.maxPoint) : encode cs = cs.flatMap Spec.utf8 := by
  induction cs with
  | nil => rfl
  | cons c cs ih =>
    rw [encode, encodePoint_utf8 c (h c (by simp)), ih (fun x hx => h x (by simp [hx])), List.flatMap_cons]

/-- The number of bytes announced before the data is the number of bytes written. -/
theorem count_matches (cs : List Nat) (h : ∀ c ∈ cs, c ≤ Spec.maxPoint) : (encode cs).length = bytesRequired cs := by
  induction cs with
  | nil => rfl
  | cons c cs ih =>
    rw [encode, bytesRequired, List.length_append, encodePoint_utf8 c (h c (by simp)), utf8_length,
      ih (fun x hx => h x (by simp [hx]))]

theorem countPoints_utf8 (c : Nat) (h : c ≤ Spec.maxPoint) (t : Bytes) :
    countPoints (Spec.utf8 c ++ t) 0 = match countPoints t 0 with | .error e => .error e | .ok n => .ok (n + 1) := by
  have h' : c ≤ 1114111 := h
  rcases utf8_cases c with ⟨a, e, -⟩ | ⟨a, b, e, -⟩ | ⟨a, b, e, -⟩ | ⟨a, e, -⟩ <;> rw [e] <;>
    simp only [List.cons_append, List.nil_append, countPoints, sr]
  · rw [if_pos (by omega)]; rfl
  · rw [if_neg (by omega), if_pos (by omega)]; rfl
  · rw [if_neg (by omega), if_neg (by omega), if_pos (by omega)]; rfl
  · rw [if_neg (by omega), if_neg (by omega), if_neg (by omega), if_pos (by omega)]; rfl

theorem widthRequired_utf8 (c : Nat) (h : c ≤ Spec.maxPoint) (t : Bytes) (n w : Nat) (hw : 1 ≤ w) :
    widthRequired (Spec.utf8 c ++ t) (n + 1) w = widthRequired t n (max (need c) w) := by
  have h' : c ≤ 1114111 := h
  rcases utf8_cases c with ⟨a, e, -, f⟩ | ⟨a, b, e, -, f⟩ | ⟨a, b, e, -, f⟩ | ⟨a, e, -, f⟩ <;> rw [e, f] <;>
    simp only [List.cons_append, List.nil_append, widthRequired, sr]
  · rw [if_pos (by omega), Nat.max_eq_right hw]
  · rw [if_neg (by omega), if_pos (by omega)]; rfl
  · rw [if_neg (by omega), if_neg (by omega), if_pos (by omega)]; rfl
  · rw [if_neg (by omega), if_neg (by omega), if_neg (by omega), if_pos (by omega)]; rfl

theorem decodePoint_utf8 (c : Nat) (h : c ≤ Spec.maxPoint) (t : Bytes) : decodePoint (Spec.utf8 c ++ t) = .ok (c, t) := by
  have h' : c ≤ 1114111 := h
  rcases utf8_cases c with ⟨a, e, -⟩ | ⟨a, b, e, -⟩ | ⟨a, b, e, -⟩ | ⟨a, e, -⟩ <;> rw [e] <;>
    simp only [List.cons_append, List.nil_append, decodePoint, sr, and63, and31, and15, and7, Nat.shiftLeft_eq]
  · rw [if_pos (by omega)]
  · rw [if_neg (by omega), if_pos (by omega)]; congr 2; omega
  · rw [if_neg (by omega), if_neg (by omega), if_pos (by omega)]; congr 2; omega
  · rw [if_neg (by omega), if_neg (by omega), if_neg (by omega), if_pos (by omega)]; congr 2; omega

theorem decode_utf8 (c : Nat) (h : c ≤ Spec.maxPoint) (t : Bytes) (n w : Nat) :
    decode w (Spec.utf8 c ++ t) (n + 1) = consOk (c % 256 ^ w) (decode w t n) := by
  simp only [decode, decodePoint_utf8 c h t]

theorem countPoints_encode (cs : List Nat) (h : ∀ c ∈ cs, c ≤ Spec.maxPoint) :
    countPoints (encode cs) 0 = .ok cs.length := by
  induction cs with
  | nil => rfl
  | cons c cs ih =>
    rw [encode, encodePoint_utf8 c (h c (by simp)), countPoints_utf8 c (h c (by simp)),
      ih (fun x hx => h x (by simp [hx]))]
    rfl

theorem widthRequired_encode (cs : List Nat) (h : ∀ c ∈ cs, c ≤ Spec.maxPoint) : ∀ (w : Nat), 1 ≤ w →
    widthRequired (encode cs) cs.length w = .ok (cs.foldl (fun w c => max (need c) w) w) := by
  induction cs with
  | nil => intro w _; rfl
  | cons c cs ih =>
    intro w hw
    rw [encode, encodePoint_utf8 c (h c (by simp)), List.length_cons, widthRequired_utf8 c (h c (by simp)) _ _ _ hw,
      ih (fun x hx => h x (by simp [hx])) _ (by omega)]
    rfl

theorem decode_encode (w : Nat) (cs : List Nat) (h : ∀ c ∈ cs, c ≤ Spec.maxPoint) (hw : ∀ c ∈ cs, c < 256 ^ w) :
    decode w (encode cs) cs.length = .ok cs := by
  induction cs with
  | nil => rfl
  | cons c cs ih =>
    rw [encode, encodePoint_utf8 c (h c (by simp)), List.length_cons, decode_utf8 c (h c (by simp)),
      ih (fun x hx => h x (by simp [hx])) (fun x hx => hw x (by simp [hx])), Nat.mod_eq_of_lt (hw c (by simp))]
    rfl

/-- The width of a decoded string. -/
def decodedWidth (cs : List Nat) : Nat := cs.foldl (fun w c => max (need c) w) 1

theorem foldl_need (cs : List Nat) : ∀ w, w = 1 ∨ w = 2 ∨ w = 4 →
    ((cs.foldl (fun w c => max (need c) w) w = 1 ∨ cs.foldl (fun w c => max (need c) w) w = 2 ∨
      cs.foldl (fun w c => max (need c) w) w = 4)) ∧ w ≤ cs.foldl (fun w c => max (need c) w) w ∧
      ∀ c ∈ cs, need c ≤ cs.foldl (fun w c => max (need c) w) w := by
  induction cs with
  | nil => intro w h; simp [h]
  | cons c cs ih =>
    intro w h
    have hn : need c = 1 ∨ need c = 2 ∨ need c = 4 := by unfold need; split <;> [simp; (split <;> simp)]
    obtain ⟨a, b, d⟩ := ih (max (need c) w) (by omega)
    simp only [List.foldl_cons]
    refine ⟨a, by omega, ?_⟩
    intro x hx
    rcases List.mem_cons.1 hx with rfl | hx
    · omega
    · exact d x hx

theorem need_fits (c W : Nat) (hc : c ≤ Spec.maxPoint) (hW : W = 1 ∨ W = 2 ∨ W = 4) (h : need c ≤ W) : c < 256 ^ W := by
  have h' : c ≤ 1114111 := hc
  unfold need at h
  rcases hW with rfl | rfl | rfl
  · split at h
    · norm_num; omega
    · split at h <;> omega
  · split at h
    · norm_num; omega
    · split at h
      · norm_num; omega
      · omega
  · norm_num; omega

theorem encode_ascii (cs : List Nat) (h : ∀ c ∈ cs, c < 0x80) : encode cs = cs := by
  induction cs with
  | nil => rfl
  | cons c cs ih =>
    have hc := h c (by simp)
    rw [encode, ih (fun x hx => h x (by simp [hx])), encodePoint, if_pos hc]
    simp [u8]; omega

/-- Creating a string from its encoding gives its code points. -/
theorem create_encode (cs : List Nat) (h : ∀ c ∈ cs, c ≤ Spec.maxPoint) :
    createFromUtf8 (encode cs) cs.length = .ok (construct (decodedWidth cs) cs) := by
  unfold createFromUtf8 construct
  split
  · rfl
  · rw [widthRequired_encode cs h 1 (by omega)]
    obtain ⟨a, -, d⟩ := foldl_need cs 1 (by omega)
    change decodedWidth cs = _ ∨ _ at a
    change ∀ c ∈ cs, need c ≤ decodedWidth cs at d
    rw [show cs.foldl (fun w c => max (need c) w) 1 = decodedWidth cs from rfl]
    simp only
    split
    · rename_i h1
      have : ∀ c ∈ cs, c < 0x80 := by
        intro c hc
        have := d c hc
        rw [h1] at this
        unfold need at this
        split at this
        · assumption
        · split at this <;> omega
      rw [encode_ascii cs this, List.take_length, h1]
    · rw [decode_encode (decodedWidth cs) cs h (fun c hc => need_fits c _ (h c hc) a (d c hc))]

theorem asSize_small (n : Nat) (h : n < 2 ^ 31) : asSize n = n := by
  unfold asSize
  rw [Int.bmod_eq_of_le (by omega) (by omega)]
  omega

end Verif.Str
