/-
What a wire message is, independently of the code: base-128 varints, message trees, and the byte strings that encode
them.
-/
namespace Verif.Wire.Spec

/-- The value of a base-128 number, least significant group first, ignoring the continuation bits. -/
def base128 : List Nat → Nat
  | [] => 0
  | b :: bs => b % 128 + 128 * base128 bs

/-- `bs` is a varint for the 64-bit number `v`: at most ten bytes, all but the last with the high bit set.  Overlong
encodings are allowed. -/
structure IsVarint (bs : List Nat) (v : Nat) : Prop where
  short : bs.length ≤ 10
  shape : ∃ init last, bs = init ++ [last] ∧ last < 128 ∧ ∀ b ∈ init, 128 ≤ b ∧ b < 256
  value : v = base128 bs % 2 ^ 64

/-- A message without its header.  `single` and `compound` contain messages with their field numbers; `close` is the
field number on the end marker. -/
inductive Msg
  | empty
  | varint (v : Nat)
  | bits32 (b : List Nat)
  | bits64 (b : List Nat)
  | bytes (b : List Nat)
  | single (field : Nat) (m : Msg)
  | compound (items : List (Nat × Msg)) (close : Nat)

/-- The wire type announced in a message's header. -/
def wire : Msg → Nat
  | .empty => 0
  | .varint _ => 1
  | .bits32 _ => 2
  | .bits64 _ => 3
  | .bytes _ => 4
  | .single _ _ => 5
  | .compound _ _ => 6

/-- What a byte string may encode: one message body, or the rest of a compound message. -/
inductive Node
  | body (m : Msg)
  | items (ms : List (Nat × Msg)) (close : Nat)

/-- The byte string encodes the message. -/
inductive Encodes : Node → List Nat → Prop
  | empty : Encodes (.body .empty) []
  | varint {bs v} : IsVarint bs v → Encodes (.body (.varint v)) bs
  | bits32 {b} : b.length = 4 → Encodes (.body (.bits32 b)) b
  | bits64 {b} : b.length = 8 → Encodes (.body (.bits64 b)) b
  | bytes {n b} : IsVarint n b.length → Encodes (.body (.bytes b)) (n ++ b)
  | single {h f m bs} : f < 2 ^ 61 → IsVarint h (8 * f + wire m) → Encodes (.body m) bs →
      Encodes (.body (.single f m)) (h ++ bs)
  | compound {ms c bs} : Encodes (.items ms c) bs → Encodes (.body (.compound ms c)) bs
  | close {h c} : c < 2 ^ 61 → IsVarint h (8 * c + 7) → Encodes (.items [] c) h
  | item {h f m bs ms c bs2} : f < 2 ^ 61 → IsVarint h (8 * f + wire m) → Encodes (.body m) bs →
      Encodes (.items ms c) bs2 → Encodes (.items ((f, m) :: ms) c) (h ++ bs ++ bs2)

end Verif.Wire.Spec
