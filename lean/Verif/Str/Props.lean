import Verif.Str.Utf8
import Verif.Str.Compare
/-
Properties of strings: serialization (C19), comparison (C20), hashing (C21).
-/
namespace Verif.Str

open Spec (Op)
open Verif.Wire (Bytes writeVarint writeBeginBytes readVarint readHeader readBytes header)

/-! ### C19: serialization -/

/-- The text "é€😀a" as code points; in memory four bytes per code point. -/
def sample : Str := some ⟨4, [0xE9, 0x20AC, 0x1F600, 0x61]⟩

theorem sample_normal : Normal sample :=
  ⟨⟨by simp, by decide, by decide⟩, by decide⟩

theorem flatMap_length (cs : List Nat) (h : ∀ c ∈ cs, c ≤ Spec.maxPoint) :
    (cs.flatMap Spec.utf8).length = bytesRequired cs := by
  rw [← encode_utf8 cs h, count_matches cs h]

theorem valid_points (s : Str) (h : Valid s) : ∀ c ∈ text s, c ≤ Spec.maxPoint := by
  cases s with
  | none => simp [text]
  | some l => exact h.points

theorem valid_width (s : Str) (h : Valid s) : width s = 1 ∨ width s = 2 ∨ width s = 4 := by
  cases s with
  | none => simp [width]
  | some l => exact h.width

theorem normal_valid {s : Str} (h : Normal s) : Valid s := by
  cases s with
  | none => trivial
  | some l => exact h.1

theorem construct_normal (cs : List Nat) (h : ∀ c ∈ cs, c ≤ Spec.maxPoint) : Normal (construct (decodedWidth cs) cs) := by
  unfold construct
  split
  · trivial
  · rename_i h1
    obtain ⟨a, -, d⟩ := foldl_need cs 1 (by omega)
    exact ⟨⟨a, fun c hc => need_fits c _ (h c hc) a (d c hc), h⟩, fun e => h1 (by simp [show cs = [] from e])⟩

theorem text_construct (w : Nat) (cs : List Nat) : text (construct w cs) = cs := by
  unfold construct
  split
  · rename_i h; rw [List.length_eq_zero_iff.1 h]; rfl
  · rfl

/-- What is written for a string: a header, the number of bytes, and the UTF-8 encoding of its code points. -/
theorem serialize_bytes (field : Nat) (s : Str) (hs : Valid s) :
    serialize field s = .ok (writeVarint (header field 4) ++ writeVarint ((text s).flatMap Spec.utf8).length ++
      (text s).flatMap Spec.utf8) := by
  unfold serialize
  rw [if_pos (valid_width s hs), flatMap_length _ (valid_points s hs), encode_utf8 _ (valid_points s hs)]
  rfl

theorem deserialize_step (n : Nat) (hn : n < 2 ^ 64) (bs : Bytes) :
    deserialize 4 (writeVarint n ++ bs) = deserializeData (asSize n) bs := by
  unfold deserialize
  rw [(Wire.varint_roundtrip n hn bs).1, if_neg (by decide)]

theorem deserialize_bytes (cs : List Nat) (h : ∀ c ∈ cs, c ≤ Spec.maxPoint) (hfit : (cs.flatMap Spec.utf8).length < 2 ^ 31)
    (rest : Bytes) :
    deserialize 4 (writeVarint (cs.flatMap Spec.utf8).length ++ (cs.flatMap Spec.utf8 ++ rest)) =
      .ok (construct (decodedWidth cs) cs, rest) := by
  rw [deserialize_step _ (Nat.lt_trans hfit (by norm_num)), asSize_small _ hfit, deserializeData, Wire.readBytes_append]
  simp only
  rw [← encode_utf8 cs h, countPoints_encode cs h]
  simp only
  rw [create_encode cs h]

/-- C19: a string whose UTF-8 encoding is shorter than 2^31 bytes comes back with the same code points, whatever follows
it in the stream, and exactly its own bytes are consumed. The limit is needed: `big_string_lost`. -/
theorem string_roundtrip_partial (field : Nat) (hf : field < 2 ^ 61) (s : Str) (hs : Valid s)
    (hfit : ((text s).flatMap Spec.utf8).length < 2 ^ 31) (rest : Bytes) :
    ∃ bytes body s', serialize field s = .ok bytes ∧ readHeader (bytes ++ rest) = .ok ((field, 4), body) ∧
      deserialize 4 body = .ok (s', rest) ∧ text s' = text s ∧ Normal s' := by
  refine ⟨_, _, _, serialize_bytes field s hs, ?_, deserialize_bytes (text s) (valid_points s hs) hfit rest,
    text_construct _ _, construct_normal _ (valid_points s hs)⟩
  rw [List.append_assoc, List.append_assoc]
  exact Wire.header_roundtrip field 4 hf (by omega) _

/-- A case that meets the hypotheses, and its bytes. -/
example : serialize 3 sample = .ok [28, 10, 0xC3, 0xA9, 0xE2, 0x82, 0xAC, 0xF0, 0x9F, 0x98, 0x80, 0x61] ∧
    deserialize 4 ([10, 0xC3, 0xA9, 0xE2, 0x82, 0xAC, 0xF0, 0x9F, 0x98, 0x80, 0x61] ++ [7]) = .ok (sample, [7]) ∧
    ((text sample).flatMap Spec.utf8).length < 2 ^ 31 := by decide +kernel

/-- C19, the byte count: the number announced before the data is the number of bytes written. -/
theorem byte_count_exact (s : Str) (hs : Valid s) :
    (encode (text s)).length = bytesRequired (text s) ∧ encode (text s) = (text s).flatMap Spec.utf8 :=
  ⟨count_matches _ (valid_points s hs), encode_utf8 _ (valid_points s hs)⟩

example : bytesRequired (text sample) = 10 ∧ Valid sample := ⟨by decide, normal_valid sample_normal⟩

theorem asSize_big (n : Nat) (h1 : 2 ^ 31 ≤ n) (h2 : n < 2 ^ 32) : asSize n = 2 ^ 64 - (2 ^ 32 - n) := by
  unfold asSize
  have : Int.bmod (n : Int) (2 ^ 32) = (n : Int) - 2 ^ 32 := by
    rw [Int.bmod_def]
    have : (n : Int) % ((2 ^ 32 : Nat) : Int) = n := Int.emod_eq_of_lt (by omega) (by omega)
    rw [this, if_neg (by omega)]
    rfl
  rw [this]
  omega

/-- The code violates C19 for large strings: the byte count is read into an `int32_t`, so that a string with at least
2^31 and less than 2^32 bytes of UTF-8 is written but cannot be read. -/
theorem big_string_lost (s : Str) (hs : Valid s) (h1 : 2 ^ 31 ≤ ((text s).flatMap Spec.utf8).length)
    (h2 : ((text s).flatMap Spec.utf8).length < 2 ^ 32) (rest : Bytes) (hr : rest.length < 2 ^ 62) :
    serialize 0 s = .ok (writeVarint (header 0 4) ++ writeVarint ((text s).flatMap Spec.utf8).length ++
      (text s).flatMap Spec.utf8) ∧
    deserialize 4 (writeVarint ((text s).flatMap Spec.utf8).length ++ ((text s).flatMap Spec.utf8 ++ rest)) =
      .error (.wire .outOfData) := by
  refine ⟨serialize_bytes 0 s hs, ?_⟩
  rw [deserialize_step _ (Nat.lt_trans h2 (by norm_num)), asSize_big _ h1 h2, deserializeData, readBytes,
    if_pos (by rw [List.length_append]; omega)]

/-- There is such a string: 2^29 times U+1F600. -/
example : Valid (some ⟨4, List.replicate (2 ^ 29) 0x1F600⟩) ∧
    ((text (some ⟨4, List.replicate (2 ^ 29) 0x1F600⟩)).flatMap Spec.utf8).length = 2 ^ 31 := by
  constructor
  · refine ⟨by simp, ?_, ?_⟩ <;> intro p hp <;> rw [List.eq_of_mem_replicate hp] <;> decide
  · have : ∀ n, ((List.replicate n 0x1F600).flatMap Spec.utf8).length = n * 4 := by
      intro n
      induction n with
      | zero => rfl
      | succ n ih =>
        rw [List.replicate_succ, List.flatMap_cons, List.length_append, ih]
        have : (Spec.utf8 0x1F600).length = 4 := by decide
        omega
    change ((List.replicate (2 ^ 29) 0x1F600).flatMap Spec.utf8).length = 2 ^ 31
    rw [this]; norm_num

/-- Damaged data: a code point cut off at the end of the field makes the reader read past the end of the field. -/
theorem truncated_reads_past_end : deserialize 4 [2, 0xE2, 0x82] = .error .oob := by decide +kernel

/-! ### C20: comparison -/

/-- C20: strings compare as Python compares their code points, whatever their widths. It is missing that strings are
represented by null when they are empty, which `join` does not guarantee: see `empty_not_equal`. -/
theorem compare_partial (op : Op) (l r : Str) (hl : Normal l) (hr : Normal r) :
    cmp op l r = .ok (Spec.compare op (text l) (text r)) := by
  obtain ⟨res, e, t⟩ := cmpOrd_normal l r hl hr
  cases op
  · exact cmpEq_normal l r hl hr
  · simp [cmp, cmpEq_normal l r hl hr, Spec.compare]
  all_goals
    simp only [cmp, e]
    rw [opResult_threeWay t]

/-- "a€" < "aé" is false although the second has fewer bytes; "aé" is the same string at any width. -/
example : cmp .lt (some ⟨2, [97, 0x20AC]⟩) (some ⟨1, [97, 0xE9]⟩) = .ok false ∧
    cmp .eq (some ⟨2, [97, 0xE9]⟩) (some ⟨1, [97, 0xE9]⟩) = .ok true ∧
    Normal (some ⟨2, [97, 0xE9]⟩) ∧ Normal (some ⟨1, [97, 0xE9]⟩) :=
  ⟨rfl, rfl, ⟨⟨by simp, by decide, by decide⟩, by decide⟩, ⟨⟨by simp, by decide, by decide⟩, by decide⟩⟩

/-- The code violates C20: the string with no code points that `join` makes is not equal to the empty string, and is
greater. -/
theorem empty_not_equal (w : Nat) : cmp .eq (some ⟨w, []⟩) none = .ok false ∧ cmp .gt (some ⟨w, []⟩) none = .ok true ∧
    text (some ⟨w, []⟩) = text none := ⟨rfl, rfl, rfl⟩

/-- C20, `==` between a string inside a typed container and an interpreter string. -/
theorem equals_python (self : Str) (other : List Nat) (hs : Normal self) (ho : ∀ p ∈ other, p ≤ Spec.maxPoint) :
    compareToPython .eq self other = .ok (decide (text self = other)) := compareToPython_eq self other hs ho

example : compareToPython .eq (some ⟨2, [97, 0xE9]⟩) [97, 0xE9] = .ok true ∧
    compareToPython .eq (some ⟨2, [97, 0x20AC]⟩) [97, 0x20AD] = .ok false := by decide +kernel

/-- The code violates C20 for the order of a string inside a typed container and an interpreter string of the same
width: it is reversed (`TupleOf(str)(("a",)) < ("b",)` is false, PyTupleOrListOfInstance.cpp:1286). -/
theorem order_with_python_reversed :
    compareToPython .lt (fromPython [97]) [98] = .ok false ∧ compareToPython .lt (fromPython [98]) [97] = .ok true ∧
    compareToPython .lt (fromPython [97, 97]) [98] = .ok true ∧ compareToPython .lt (fromPython [98, 98]) [97] = .ok true ∧
    Spec.compare .lt [97] [98] = true ∧ Spec.compare .lt [98, 98] [97] = false := by decide +kernel

/-! ### C21: hashing -/

/-- A string at the least width that its code points fit in, null if it is empty. -/
def Minimal (s : Str) : Prop := s = fromPython (text s)

theorem python_minimal (ps : List Nat) : Minimal (fromPython ps) := by
  unfold Minimal
  rw [text_python]

theorem kind_append (a b : List Nat) : kind (a ++ b) = max (kind a) (kind b) := by
  unfold kind
  rw [List.all_append, List.all_append]
  have h : ∀ (l : List Nat), l.all (· < 256) = true → l.all (· < 65536) = true := by
    intro l hl
    rw [List.all_eq_true] at hl ⊢
    intro x hx
    have := hl x hx
    simp only [decide_eq_true_eq] at this ⊢
    omega
  have ha := h a
  have hb := h b
  cases h1 : a.all (· < 256) <;> cases h2 : b.all (· < 256) <;> cases h3 : a.all (· < 65536) <;>
    cases h4 : b.all (· < 65536) <;> simp_all

/-- Strings of the least width stay so under concatenation. -/
theorem concat_minimal (a b : Str) (ha : Minimal a) (hb : Minimal b) (pa : ∀ p ∈ text a, p ≤ Spec.maxPoint)
    (pb : ∀ p ∈ text b, p ≤ Spec.maxPoint) : ∃ c, concat a b = .ok c ∧ Minimal c ∧ text c = text a ++ text b := by
  cases a with
  | none =>
    cases b with
    | none => exact ⟨none, rfl, rfl, rfl⟩
    | some r => exact ⟨some r, rfl, hb, rfl⟩
  | some l =>
    cases b with
    | none => exact ⟨some l, rfl, ha, (List.append_nil _).symm⟩
    | some r =>
      have hl : l = ⟨kind l.points, l.points⟩ ∧ l.points ≠ [] := by
        have h' : some l = fromPython l.points := ha
        unfold fromPython construct at h'
        split at h'
        · simp at h'
        · rename_i h0
          exact ⟨Option.some.inj h', fun e => h0 (by rw [e]; rfl)⟩
      have hr : r = ⟨kind r.points, r.points⟩ := by
        have h' : some r = fromPython r.points := hb
        unfold fromPython construct at h'
        split at h'
        · simp at h'
        · exact Option.some.inj h'
      have okl : Ok l := by rw [hl.1]; exact ok_python _ pa
      have okr : Ok r := by rw [hr]; exact ok_python _ pb
      refine ⟨_, concat_eq l r okl okr, ?_, rfl⟩
      unfold Minimal
      have e1 : l.width = kind l.points := congrArg Layout.width hl.1
      have e2 : r.width = kind r.points := congrArg Layout.width hr
      have : l.points ++ r.points ≠ [] := by
        intro h
        exact hl.2 (List.append_eq_nil_iff.1 h).1
      unfold fromPython construct text
      rw [if_neg (by simpa using this), kind_append, e1, e2]

/-- C21: strings that compare equal hash equally, if both are stored at the least width, as strings from the interpreter
and their concatenations are. Missing: other widths, where it is false (`equal_strings_hash_differently`). -/
theorem hash_equal_partial (a b : Str) (ha : Minimal a) (hb : Minimal b) (pa : ∀ p ∈ text a, p ≤ Spec.maxPoint)
    (pb : ∀ p ∈ text b, p ≤ Spec.maxPoint) (h : cmp .eq a b = .ok true) : hash a = hash b := by
  have na : Normal a := by rw [ha]; exact normal_python _ pa
  have nb : Normal b := by rw [hb]; exact normal_python _ pb
  rw [compare_partial .eq a b na nb] at h
  simp only [Spec.compare, Except.ok.injEq, decide_eq_true_eq] at h
  rw [ha, hb, h]

/-- Strings of different origin that meet the hypotheses: "é" + "€" and the interpreter's "é€". -/
example : concat (fromPython [0xE9]) (fromPython [0x20AC]) = .ok (fromPython [0xE9, 0x20AC]) ∧
    cmp .eq (fromPython [0xE9, 0x20AC]) (fromPython [0xE9, 0x20AC]) = .ok true ∧
    hash (fromPython [0xE9, 0x20AC]) ≠ hash (fromPython [0x20AC, 0xE9]) := by decide +kernel

/-- The code violates C21: "a" at two bytes per code point, as the first character of "a€" is, equals "a" but hashes
differently; so does "é" after it was serialized and deserialized. -/
theorem equal_strings_hash_differently :
    (cmp .eq (some ⟨2, [97]⟩) (fromPython [97]) = .ok true ∧ hash (some ⟨2, [97]⟩) ≠ hash (fromPython [97])) ∧
    (deserialize 4 [2, 0xC3, 0xA9] = .ok (some ⟨2, [0xE9]⟩, []) ∧ serialize 0 (fromPython [0xE9]) = .ok [4, 2, 0xC3, 0xA9] ∧
      cmp .eq (some ⟨2, [0xE9]⟩) (fromPython [0xE9]) = .ok true ∧ hash (some ⟨2, [0xE9]⟩) ≠ hash (fromPython [0xE9])) := by
  decide +kernel

/-- An equal hash at one width: the general fact behind it. -/
theorem hash_same_width (a b : Layout) (h : a.points = b.points) (hw : a.width = b.width) : hash (some a) = hash (some b) := by
  cases a; cases b; simp_all

/-- C21: no hash is -1, which Python takes for an error and the cache for "not computed". -/
theorem hash_not_error (s : Str) : hash s ≠ -1 := by
  cases s with
  | none => decide
  | some l =>
    unfold hash
    by_cases h : hashBytes 10 (raw l.width l.points) = -1
    · simp only [if_pos h]
      decide
    · simp only [if_neg h]
      exact h

example : hash (some ⟨1, [97, 98]⟩) ≠ -1 := hash_not_error _

end Verif.Str
