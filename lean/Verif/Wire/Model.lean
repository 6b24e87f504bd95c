import Verif.Common
/-
Model of the wire format primitives: /repo/typed_python/SerializationBuffer.hpp 160-269 (writers),
/repo/typed_python/DeserializationBuffer.hpp 62-215 and 279-308, 413-506 (readers), /repo/typed_python/WireType.hpp.

Simplifications: a buffer is the list of its bytes (naturals below 256): block structure and compression are modelled
separately in `Verif.Stream`.  `uint64_t` arithmetic is on naturals modulo 2^64, `int64_t` on integers wrapped to the
two's complement range.  Multi-byte reads and writes are little-endian (x86, ARM).
-/
namespace Verif.Wire

/-- A byte stream. -/
abbrev Bytes := List Nat

/-- Failures: "out of data" (DeserializationBuffer.hpp 283, 298, 494), an invalid wire type (WireType.hpp 40, 46;
DeserializationBuffer.hpp 167, 214, 415-485), a shift by 64 or more, which C++ leaves undefined
(DeserializationBuffer.hpp 76), and running out of the model's recursion fuel. -/
inductive Err
  | outOfData
  | badWire
  | undefined
  | fuel
  deriving DecidableEq, Repr

/-! ### Writers -/

/-- SerializationBuffer.hpp 192-198, `writeUnsignedVarint`. -/
def writeVarint (i : Nat) : Bytes :=
  if h : i ≥ 128 then (128 + (i &&& 127)) :: writeVarint (i >>> 7) else [i]
termination_by i
decreasing_by rw [Nat.shiftRight_eq_div_pow]; omega

/-- Conversion of an integer to `int64_t` (two's complement). -/
def toInt64 (x : Int) : Int := Int.bmod x (2 ^ 64)

/-- Conversion of an integer to `uint64_t`. -/
def toUInt64 (x : Int) : Nat := (x % 2 ^ 64).toNat

/-- SerializationBuffer.hpp 201-206: `val` of `writeSignedVarint` (`-i - 1` wraps for the smallest integer, which is
what the compilers produce; the standard leaves it undefined). -/
def zigzag (i : Int) : Nat :=
  let val := toUInt64 (if i < 0 then toInt64 (toInt64 (-i) - 1) else i)
  let val := (val * 2) % 2 ^ 64
  if i < 0 then (val + 1) % 2 ^ 64 else val

/-- SerializationBuffer.hpp 201-208, `writeSignedVarint`. -/
def writeSigned (i : Int) : Bytes := writeVarint (zigzag i)

/-- `(fieldNumber << 3) + wireType` on `size_t`: SerializationBuffer.hpp 161-187. -/
def header (field wire : Nat) : Nat := ((field <<< 3) % 2 ^ 64 + wire) % 2 ^ 64

/-- SerializationBuffer.hpp 160-163. -/
def writeBeginBytes (field n : Nat) : Bytes := writeVarint (header field 4) ++ writeVarint n
/-- SerializationBuffer.hpp 165-167. -/
def writeEmpty (field : Nat) : Bytes := writeVarint (header field 0)
/-- SerializationBuffer.hpp 169-171. -/
def writeBeginSingle (field : Nat) : Bytes := writeVarint (header field 5)
/-- SerializationBuffer.hpp 173-175. -/
def writeBeginCompound (field : Nat) : Bytes := writeVarint (header field 6)
/-- SerializationBuffer.hpp 177-179. -/
def writeEndCompound : Bytes := writeVarint 7
/-- SerializationBuffer.hpp 181-184. -/
def writeVarintObject (field i : Nat) : Bytes := writeVarint (header field 1) ++ writeVarint i

/-- The low `n` bytes of a word, least significant first: `*(T*)(m_buffer+m_size) = i` (SerializationBuffer.hpp 75-79). -/
def toLE : Nat → Nat → Bytes
  | 0, _ => []
  | n + 1, v => v % 256 :: toLE n (v / 256)

/-- The machine types with a register encoding: SerializationBuffer.hpp 210-263.  A float is its bit pattern. -/
inductive Reg
  | bool
  | uint (bytes : Nat)
  | int (bytes : Nat)
  | float (bytes : Nat)
  deriving DecidableEq, Repr

/-- SerializationBuffer.hpp 210-263, the overloads of `writeRegisterType`.  Unsigned values, booleans and bit patterns
are non-negative integers. -/
def writeRegister (field : Nat) : Reg → Int → Bytes
  | .float n, v => writeVarint (header field (if n = 8 then 3 else 2)) ++ toLE n v.toNat
  | .bool, v => writeVarint (header field 1) ++ writeVarint v.toNat
  | .uint _, v => writeVarint (header field 1) ++ writeVarint v.toNat
  | .int _, v => writeVarint (header field 1) ++ writeSigned v

/-! ### Readers -/

/-- DeserializationBuffer.hpp 69-83, the loop of `readUnsignedVarint` with its accumulator and shift. -/
def readVarintLoop : Bytes → Nat → Nat → Except Err (Nat × Bytes)
  | [], _, _ => .error .outOfData
  | b :: bs, acc, shift =>
    if shift ≥ 64 then .error .undefined
    else if b < 128 then .ok ((acc + ((b &&& 127) <<< shift)) % 2 ^ 64, bs)
    else readVarintLoop bs ((acc + ((b &&& 127) <<< shift)) % 2 ^ 64) (shift + 7)

/-- DeserializationBuffer.hpp 69-83, `readUnsignedVarint`. -/
def readVarint (bs : Bytes) : Except Err (Nat × Bytes) := readVarintLoop bs 0 0

/-- DeserializationBuffer.hpp 89-94: undo the zigzag encoding (`-val-1` is unsigned arithmetic). -/
def unzigzag (val : Nat) : Int :=
  if val % 2 = 1 then toInt64 (toUInt64 (-((val >>> 1 : Nat) : Int) - 1)) else toInt64 ((val >>> 1 : Nat) : Int)

/-- DeserializationBuffer.hpp 86-95, `readSignedVarint`. -/
def readSigned (bs : Bytes) : Except Err (Int × Bytes) :=
  match readVarint bs with
  | .error e => .error e
  | .ok (v, bs1) => .ok (unzigzag v, bs1)

/-- DeserializationBuffer.hpp 97-100, `readFieldNumberAndWireType`. -/
def readHeader (bs : Bytes) : Except Err ((Nat × Nat) × Bytes) :=
  match readVarint bs with
  | .error e => .error e
  | .ok (v, bs1) => .ok ((v >>> 3, v &&& 7), bs1)

/-- DeserializationBuffer.hpp 62-66, `readUnsignedVarintObject`. -/
def readVarintObject (bs : Bytes) : Except Err (Nat × Bytes) :=
  match readHeader bs with
  | .error e => .error e
  | .ok ((_, w), bs1) => if w = 1 then readVarint bs1 else .error .badWire

/-- DeserializationBuffer.hpp 280-293 / 295-308: take `n` bytes. -/
def readBytes (n : Nat) (bs : Bytes) : Except Err (Bytes × Bytes) :=
  if bs.length < n then .error .outOfData else .ok (bs.take n, bs.drop n)

/-- The little-endian word in a list of bytes. -/
def fromLE : Bytes → Nat
  | [] => 0
  | b :: bs => b + 256 * fromLE bs

/-- DeserializationBuffer.hpp 413-488, the overloads of `readRegisterType`: the value read is converted to the machine
type. -/
def readRegister (r : Reg) (wire : Nat) (bs : Bytes) : Except Err (Int × Bytes) :=
  match r with
  | .float n =>
    if wire = (if n = 8 then 3 else 2) then
      match readBytes n bs with
      | .error e => .error e
      | .ok (d, bs1) => .ok ((fromLE d : Int), bs1)
    else .error .badWire
  | .bool =>
    if wire = 1 then
      match readVarint bs with
      | .error e => .error e
      | .ok (v, bs1) => .ok (if v = 0 then 0 else 1, bs1)
    else .error .badWire
  | .uint n =>
    if wire = 1 then
      match readVarint bs with
      | .error e => .error e
      | .ok (v, bs1) => .ok (((v % 2 ^ (8 * n) : Nat) : Int), bs1)
    else .error .badWire
  | .int n =>
    if wire = 1 then
      match readSigned bs with
      | .error e => .error e
      | .ok (v, bs1) => .ok (Int.bmod v (2 ^ (8 * n)), bs1)
    else .error .badWire

/-! ### Skipping and copying messages -/

mutual
/-- DeserializationBuffer.hpp 171-215, `finishReadingMessageAndDiscard`: what is left of the stream. -/
def discardBody : Nat → Nat → Bytes → Except Err Bytes
  | 0, _, _ => .error .fuel
  | f + 1, wire, bs =>
    if wire = 0 then .ok bs
    else if wire = 1 then
      match readVarint bs with
      | .error e => .error e
      | .ok (_, bs1) => .ok bs1
    else if wire = 2 then
      match readBytes 4 bs with
      | .error e => .error e
      | .ok (_, bs1) => .ok bs1
    else if wire = 3 then
      match readBytes 8 bs with
      | .error e => .error e
      | .ok (_, bs1) => .ok bs1
    else if wire = 4 then
      match readVarint bs with
      | .error e => .error e
      | .ok (n, bs1) =>
        match readBytes n bs1 with
        | .error e => .error e
        | .ok (_, bs2) => .ok bs2
    else if wire = 5 then
      match readHeader bs with
      | .error e => .error e
      | .ok ((_, w), bs1) => discardBody f w bs1
    else if wire = 6 then discardLoop f bs
    else if wire = 7 then .ok bs
    else .error .badWire

/-- DeserializationBuffer.hpp 204-206: `while (readMessageAndDiscard() != END_COMPOUND) {}`. -/
def discardLoop : Nat → Bytes → Except Err Bytes
  | 0, _ => .error .fuel
  | f + 1, bs =>
    match readHeader bs with
    | .error e => .error e
    | .ok ((_, w), bs1) =>
      match discardBody f w bs1 with
      | .error e => .error e
      | .ok bs2 => if w = 7 then .ok bs2 else discardLoop f bs2
end

/-- DeserializationBuffer.hpp 103-107, `readMessageAndDiscard`. -/
def discard (fuel : Nat) (bs : Bytes) : Except Err (Nat × Bytes) :=
  match readHeader bs with
  | .error e => .error e
  | .ok ((_, w), bs1) =>
    match discardBody fuel w bs1 with
    | .error e => .error e
    | .ok bs2 => .ok (w, bs2)

mutual
/-- DeserializationBuffer.hpp 111-168, `copyMessageToOtherBuffer`: what is written and what is left of the stream. -/
def copyBody : Nat → Nat → Bytes → Except Err (Bytes × Bytes)
  | 0, _, _ => .error .fuel
  | f + 1, wire, bs =>
    if wire = 0 then .ok ([], bs)
    else if wire = 1 then
      match readVarint bs with
      | .error e => .error e
      | .ok (v, bs1) => .ok (writeVarint v, bs1)
    else if wire = 2 then
      match readBytes 4 bs with
      | .error e => .error e
      | .ok (d, bs1) => .ok (d, bs1)
    else if wire = 3 then
      match readBytes 8 bs with
      | .error e => .error e
      | .ok (d, bs1) => .ok (d, bs1)
    else if wire = 4 then
      match readVarint bs with
      | .error e => .error e
      | .ok (n, bs1) =>
        match readBytes n bs1 with
        | .error e => .error e
        | .ok (d, bs2) => .ok (writeVarint n ++ d, bs2)
    else if wire = 5 then
      match readHeader bs with
      | .error e => .error e
      | .ok ((fld, w), bs1) =>
        match copyBody f w bs1 with
        | .error e => .error e
        | .ok (out, bs2) => .ok (writeVarint (header fld w) ++ out, bs2)
    else if wire = 6 then copyLoop f bs
    else if wire = 7 then .ok ([], bs)
    else .error .badWire

/-- DeserializationBuffer.hpp 151-159. -/
def copyLoop : Nat → Bytes → Except Err (Bytes × Bytes)
  | 0, _ => .error .fuel
  | f + 1, bs =>
    match readHeader bs with
    | .error e => .error e
    | .ok ((fld, w), bs1) =>
      if w = 7 then .ok (writeVarint (header fld w), bs1)
      else
        match copyBody f w bs1 with
        | .error e => .error e
        | .ok (out, bs2) =>
          match copyLoop f bs2 with
          | .error e => .error e
          | .ok (out2, bs3) => .ok (writeVarint (header fld w) ++ out ++ out2, bs3)
end

end Verif.Wire
