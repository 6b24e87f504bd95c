import Verif.RawBytes.Model
/-
Specification and proofs for C126.
-/
namespace Verif.RawBytes

/-! ### Specification -/

/-- The list has these elements, each of which is some bytes. -/
def Has (size : Nat) (es : List (List Byte)) : Value → Prop
  | none => es = []
  | some l => l.count = es.length ∧ (∀ e ∈ es, e.length = size) ∧ l.data.take (es.length * size) = es.flatten

/-! ### Proofs -/

theorem flatten_length {size : Nat} : ∀ {es : List (List Byte)}, (∀ e ∈ es, e.length = size) → es.flatten.length = es.length * size
  | [], _ => by simp
  | e :: es, h => by
    rw [List.flatten_cons, List.length_append, h e (.head _), flatten_length fun x hx => h x (.tail _ hx), List.length_cons, Nat.succ_mul, Nat.add_comm]

/-- Bytes are cut into elements in one way. -/
theorem cut {size : Nat} : ∀ (k : Nat) (b : List Byte), b.length = k * size → ∃ es : List (List Byte), es.length = k ∧ (∀ e ∈ es, e.length = size) ∧ es.flatten = b
  | 0, b, h => ⟨[], rfl, by simp, by simp at h; simp [h]⟩
  | k + 1, b, h => by
    rw [Nat.succ_mul] at h
    obtain ⟨es, h1, h2, h3⟩ := cut (size := size) k (b.drop size) (by rw [List.length_drop]; omega)
    refine ⟨b.take size :: es, by simp [h1], ?_, by rw [List.flatten_cons, h3, List.take_append_drop]⟩
    intro e he
    rcases List.mem_cons.mp he with rfl | he
    · rw [List.length_take]; omega
    · exact h2 e he

theorem wrap32_small {n : Nat} (h : n < 2147483648) : wrap32 n = n := by
  unfold wrap32
  rw [Nat.mod_eq_of_lt (by omega)]
  simp [h]

theorem wrap32_large {n : Nat} (h : 2147483648 ≤ n) : wrap32 n ≠ n := by
  unfold wrap32
  split <;> omega

/-- C126: the bytes of a list or a tuple are those of its elements in their order. -/
theorem to_bytes_right {size : Nat} {es : List (List Byte)} {v : Value} (h : Has size es v) : toBytes true size v = .ok es.flatten := by
  cases v with
  | none =>
    have h : es = [] := h
    subst h
    rfl
  | some l =>
    obtain ⟨h1, _, h3⟩ := h
    have e : (l.count * (size : Int)).toNat = es.length * size := by rw [h1, ← Int.natCast_mul, Int.toNat_natCast]
    simp only [toBytes, Bool.not_true, Bool.false_eq_true, if_false, e, h3]

/-- C126: compiled code gives the same bytes for everything that has a layout. -/
theorem to_bytes_compiled_partial (pod : Bool) (size : Nat) (l : Layout) : toBytesCompiled pod size (some l) = toBytes pod size (some l) := rfl

/-- C126: bytes whose number is a multiple of the size of the elements give the list that has these bytes. -/
theorem from_bytes_right_partial {size k : Nat} (hs : 0 < size) (hk : k < 2147483648) {b : List Byte} (hb : b.length = k * size) :
    ∃ v es, fromBytes false true size (some b) = .ok v ∧ fromBytesCompiled false true size (some b) = .ok v ∧ Has size es v ∧ es.length = k ∧ es.flatten = b := by
  obtain ⟨es, h1, h2, h3⟩ := cut k b hb
  have hd : b.length / size = k := by rw [hb]; exact Nat.mul_div_cancel k hs
  have hm : b.length % size = 0 := by rw [hb]; exact Nat.mul_mod_left k size
  have h0 : size ≠ 0 := by omega
  refine ⟨some ⟨k, b⟩, es, ?_, ?_, ⟨by simp [h1], h2, ?_⟩, h1, h3⟩
  · simp [fromBytes, h0, hm, hd, fill, wrap32_small hk]
  · simp [fromBytesCompiled, h0, hm, hd, fill, wrap32_small hk]
  · rw [h1, ← hb, List.take_length, h3]

/-- C126: a list made from the bytes of a list or tuple has the same elements. -/
theorem round_trip_partial {size : Nat} (hs : 0 < size) {es : List (List Byte)} {v : Value} (h : Has size es v) (hk : es.length < 2147483648) :
    ∃ b v', toBytes true size v = .ok b ∧ fromBytes false true size (some b) = .ok v' ∧ fromBytesCompiled false true size (some b) = .ok v' ∧ Has size es v' := by
  have hl : ∀ e ∈ es, e.length = size := by
    cases v with
    | none => have h : es = [] := h; subst h; simp
    | some l => exact h.2.1
  have hlen := flatten_length hl
  have hd : es.flatten.length / size = es.length := by rw [hlen]; exact Nat.mul_div_cancel _ hs
  have hm : es.flatten.length % size = 0 := by rw [hlen]; exact Nat.mul_mod_left _ _
  have h0 : size ≠ 0 := by omega
  refine ⟨es.flatten, some ⟨es.length, es.flatten⟩, to_bytes_right h, ?_, ?_, rfl, hl, ?_⟩
  · simp only [fromBytes, Bool.not_true, Bool.false_eq_true, if_false, h0, false_and, hm, ne_eq, not_true, hd, fill, wrap32_small hk]
  · simp only [fromBytesCompiled, Bool.not_true, Bool.false_eq_true, if_false, h0, false_and, hm, ne_eq, not_true, hd, fill, wrap32_small hk]
  · rw [← hlen, List.take_length]

/-- C126: other numbers of bytes are refused, and so are elements that are not plain memory. -/
theorem refused (isTuple : Bool) {size : Nat} (hs : 0 < size) {b : List Byte} (hb : ¬ size ∣ b.length) (v : Value) (arg : Option (List Byte)) :
    fromBytes isTuple true size (some b) = .valueError ∧ fromBytesCompiled isTuple true size (some b) = .valueError ∧
      fromBytes isTuple false size arg = .typeError ∧ fromBytesCompiled isTuple false size arg = .typeError ∧ toBytes false size v = .typeError ∧
      toBytesCompiled false size v = .typeError := by
  have hm : b.length % size ≠ 0 := fun h => hb (Nat.dvd_of_mod_eq_zero h)
  have h0 : size ≠ 0 := by omega
  refine ⟨?_, ?_, rfl, rfl, rfl, rfl⟩
  · simp [fromBytes, h0, hm]
  · simp [fromBytesCompiled, h0, hm]

/-! ### Where it is not -/

/-- C126: making a tuple from bytes never works: whatever the bytes are, if they are not refused the program crashes. -/
theorem tuple_never (size : Nat) (b : List Byte) :
    (fromBytes true true size (some b) = .crash ∨ fromBytes true true size (some b) = .valueError) ∧
    (fromBytesCompiled true true size (some b) = .crash ∨ fromBytesCompiled true true size (some b) = .valueError) ∧
    (0 < size → size ∣ b.length → fromBytes true true size (some b) = .crash ∧ fromBytesCompiled true true size (some b) = .crash) := by
  have hsame : fromBytesCompiled true true size (some b) = fromBytes true true size (some b) := rfl
  rw [hsame]
  have h1 : fromBytes true true size (some b) = .crash ∨ fromBytes true true size (some b) = .valueError := by
    simp only [fromBytes, fill, Bool.not_true, Bool.false_eq_true, if_false, if_true]
    split
    · exact .inr rfl
    split
    · exact .inl rfl
    split
    · exact .inr rfl
    · exact .inl rfl
  refine ⟨h1, h1, fun hs hd => ?_⟩
  have h0 : size ≠ 0 := by omega
  have hm : b.length % size = 0 := Nat.mod_eq_zero_of_dvd hd
  have : fromBytes true true size (some b) = .crash := by simp [fromBytes, fill, h0, hm]
  exact ⟨this, this⟩

/-- C126: in compiled code neither an empty tuple nor no bytes can be converted; in the interpreter they can. -/
theorem compiled_empty (size : Nat) (hs : 0 < size) (isTuple : Bool) :
    toBytesCompiled true size none = .crash ∧ toBytes true size none = .ok [] ∧ fromBytesCompiled isTuple true size none = .crash ∧
      fromBytes false true size (some []) = .ok (some ⟨0, []⟩) := by
  refine ⟨rfl, rfl, rfl, ?_⟩
  have h0 : size ≠ 0 := by omega
  simp [fromBytes, fill, h0, wrap32]

/-- C126: for elements without any bytes the number of bytes is divided by zero. -/
theorem no_size (isTuple : Bool) : fromBytes isTuple true 0 (some []) = .crash ∧ fromBytesCompiled isTuple true 0 (some []) = .crash := ⟨rfl, rfl⟩

/-- C126: an argument that is not a bytes object is not refused. -/
theorem not_bytes (isTuple : Bool) (size : Nat) : fromBytes isTuple true size none = .undefined := rfl

/-- C126: a list with more elements than 31 bits can count has a wrong length. -/
theorem too_many {size k : Nat} (hs : 0 < size) (hk : 2147483648 ≤ k) {b : List Byte} (hb : b.length = k * size) :
    ∃ l, fromBytes false true size (some b) = .ok (some l) ∧ l.count ≠ k := by
  have hd : b.length / size = k := by rw [hb]; exact Nat.mul_div_cancel k hs
  have hm : b.length % size = 0 := by rw [hb]; exact Nat.mul_mod_left k size
  have h0 : size ≠ 0 := by omega
  exact ⟨⟨wrap32 k, b⟩, by simp [fromBytes, h0, hm, hd, fill], wrap32_large hk⟩

/-- Three elements of two bytes, in a list with room for more. -/
example : Has 2 [[1, 2], [3, 4], [5, 6]] (some ⟨3, [1, 2, 3, 4, 5, 6, 0, 0]⟩) ∧ toBytes true 2 (some ⟨3, [1, 2, 3, 4, 5, 6, 0, 0]⟩) = .ok [1, 2, 3, 4, 5, 6] ∧
    fromBytes false true 2 (some [1, 2, 3, 4, 5, 6]) = .ok (some ⟨3, [1, 2, 3, 4, 5, 6]⟩) ∧ fromBytes false true 2 (some [1, 2, 3]) = .valueError := by
  refine ⟨⟨rfl, by decide, by decide⟩, by decide, by decide, by decide⟩

end Verif.RawBytes
