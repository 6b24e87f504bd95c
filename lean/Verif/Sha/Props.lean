import Verif.Sha.Inject
import Verif.Common
/-
C70: the SHA-1 implementation computes SHA-1.
-/
namespace Verif.Sha

theorem counted_eq (pieces : List (List Byte)) (h : ∀ p ∈ pieces, p.length < 2 ^ 32) :
    counted pieces = pieces.flatten.length := by
  induction pieces with
  | nil => rfl
  | cons p ps ih =>
    have := ih (fun q hq => h q (by simp [hq]))
    simp only [counted, List.map_cons, List.sum_cons, List.flatten_cons, List.length_append] at this ⊢
    rw [Nat.mod_eq_of_lt (h p (by simp))]
    omega

/-- Whatever the pieces in which a message is hashed, if each is shorter than 2^32 bytes the result is
the SHA-1 of the message. -/
theorem sha1_of_pieces (pieces : List (List Byte)) (h : ∀ p ∈ pieces, p.length < 2 ^ 32) :
    finish (pieces.foldl update starts) = sha1 pieces.flatten := by
  rw [finish_eq _ _ _ (updates_hold pieces starts 0 [] starts_holds), Nat.zero_add, List.nil_append,
    counted_eq pieces h, sha1]

/-- "abc" in two pieces. -/
example : ∀ p ∈ [[0x61, 0x62], ([0x63] : List Byte)], p.length < 2 ^ 32 := by decide
example : finish ([[0x61, 0x62], ([0x63] : List Byte)].foldl update starts) =
    [0xa9, 0x99, 0x3e, 0x36, 0x47, 0x06, 0x81, 0x6a, 0xba, 0x3e, 0x25, 0x71, 0x78, 0x50, 0xc2, 0x6c,
     0x9c, 0xd0, 0xd8, 0x9d] := by
  decide +kernel

/-- Missing: messages of 2^32 bytes or more, for which the claim is false (`long_message_wrong_length`). -/
theorem sha1_of_message_partial (m : List Byte) (h : m.length < 2 ^ 32) : sha1Ret m = sha1 m := by
  have := sha1_of_pieces [m] (by simpa using h)
  rw [List.foldl_cons, List.foldl_nil, List.flatten_cons, List.flatten_nil, List.append_nil] at this
  exact this

/-- A message of 2^32 bytes or more is hashed with the wrong length in its padding: what is hashed is
not the padded message of the standard. -/
theorem long_message_wrong_length (m : List Byte) (h : 2 ^ 32 ≤ m.length) (h' : m.length < 2 ^ 61) :
    sha1Ret m = sha1As (m.length % 2 ^ 32) m ∧ padAs (m.length % 2 ^ 32) m ≠ pad m := by
  refine ⟨?_, fun e => ?_⟩
  · rw [sha1Ret, finish_eq _ _ _ (update_holds starts 0 [] m starts_holds), Nat.zero_add, List.nil_append]
  · have e := (List.append_inj' e rfl).2
    have := bytes64_inj (by omega) (by omega) e
    omega

example : ∃ m : List Byte, 2 ^ 32 ≤ m.length ∧ m.length < 2 ^ 61 :=
  ⟨List.replicate (2 ^ 32) 0, by rw [List.length_replicate]; omega, by rw [List.length_replicate]; omega⟩

/-- `ShaHash::SHA1` of a message that is not empty.  Missing: the empty message (`empty_message_wrong`) and
messages of 2^32 bytes or more (`long_message_wrong_length`). -/
theorem shaHash_of_message_partial (m : List Byte) (h0 : m ≠ []) (h : m.length < 2 ^ 32) :
    shaHash m = sha1 m := by
  rw [shaHash, if_pos (by simpa using h0), sha1_of_message_partial m h]

/-- The hash of the empty message is not its SHA-1. -/
theorem empty_message_wrong : shaHash [] ≠ sha1 [] := by decide +kernel

/-- Adding hashes in C++ and in Python is the same. -/
theorem sum_of_hashes (l r : List Byte) (hl : l.length = 20) (hr : r.length = 20) :
    shaAdd l r = (pyAdd l r).1 := by
  unfold shaAdd pyAdd
  split
  · rfl
  · have h : (l ++ r).length = 40 := by rw [List.length_append, hl, hr]
    refine shaHash_of_message_partial _ ?_ (by omega)
    intro e
    rw [e] at h
    simp at h

/-- Adding hashes: the SHA-1 of both, one after the other, and poison if one is poison. -/
theorem sum_of_hashes_spec (l r : List Byte) (hl : l.length = 20) (hr : r.length = 20) :
    shaAdd l r = if l = List.replicate 20 0xFF ∨ r = List.replicate 20 0xFF then List.replicate 20 0xFF
      else sha1 (l ++ r) := by
  rw [sum_of_hashes l r hl hr, pyAdd, poison]
  split <;> rfl

example : (shaAdd (sha1 [1]) (sha1 [2])).length = 20 ∧ shaAdd (sha1 [1]) poison = poison := by
  decide +kernel

end Verif.Sha
