import Verif.Common
import Verif.Wire.Model
import Verif.TupleOf.Model
import Verif.Str.Spec
/-
Model of `str`: its representation, UTF-8, serialization, comparison, hashing and concatenation.
/repo/typed_python/StringType.hpp, StringType.cpp, Unicode.hpp, HashAccumulator.hpp.

Simplifications: the data of a layout is the list of its code points and not raw memory (the hash, which reads the raw
bytes, expands them, little-endian); `pointcount` is the length of that list, and lengths that do not fit its `int32_t`
are not modelled except for the byte count of a serialized string; reference counts are not modelled; the cache of the
hash is not modelled, because a string does not change after it is made and every constructor sets the cache to -1.
-/
namespace Verif.Str

open Verif.Wire (Bytes writeVarint writeBeginBytes readVarint readHeader readBytes toLE fromLE)
open Spec (Op)

/-- What can go wrong. -/
inductive Err
  /-- a read outside the memory of the string -/
  | oob
  /-- "Nonsensical bytes-per-codepoint", "corrupt bytes-per-codepoint" -/
  | badWidth
  /-- "corrupt utf8 data stream.", "Improperly formatted unicode string." -/
  | corrupt
  /-- an endless loop -/
  | hang
  /-- a failure to read the stream -/
  | wire (e : Wire.Err)
  deriving DecidableEq, Repr

/-- StringType.hpp:24-35 `layout`: bytes per code point and the code points. -/
structure Layout where
  width : Nat
  points : List Nat
  deriving DecidableEq, Repr

/-- A string is a pointer to a layout; null is the empty string. -/
abbrev Str := Option Layout

/-- The code points of a string: what the user sees. -/
def text : Str → List Nat
  | none => []
  | some l => l.points

/-- StringType.cpp:1604-1610 `bytes_per_codepoint`. -/
def width : Str → Nat
  | none => 1
  | some l => l.width

/-- The representation of the strings the code makes: a width of 1, 2 or 4 bytes that every code point fits in. -/
structure Ok (l : Layout) : Prop where
  width : l.width = 1 ∨ l.width = 2 ∨ l.width = 4
  fits : ∀ p ∈ l.points, p < 256 ^ l.width
  points : ∀ p ∈ l.points, p ≤ Spec.maxPoint

/-- A well-formed string. -/
def Valid : Str → Prop
  | none => True
  | some l => Ok l

/-- A well-formed string that is null if it is empty. -/
def Normal : Str → Prop
  | none => True
  | some l => Ok l ∧ l.points ≠ []

/-- StringType.cpp:1517-1533 `constructor`. -/
def construct (width : Nat) (points : List Nat) : Str :=
  if points.length = 0 then none else some ⟨width, points⟩

/-- The width of an interpreter string (CPython's `PyUnicode_KIND`: the least that fits), PyStringInstance.hpp:40-51. -/
def kind (points : List Nat) : Nat :=
  if points.all (· < 256) then 1 else if points.all (· < 65536) then 2 else 4

/-- PyStringInstance.hpp:37-57: a string that comes from the interpreter. -/
def fromPython (points : List Nat) : Str := construct (kind points) points

/-- StringType.cpp:940-970 `singleFromCodepoint`. -/
def single (c : Nat) : Str :=
  if c ≤ 0xFF then some ⟨1, [c % 256]⟩ else if c ≤ 0xFFFF then some ⟨2, [c % 65536]⟩ else some ⟨4, [c % 4294967296]⟩

/-! ### UTF-8 -/

/-- A store to a `uint8_t`. -/
def u8 (x : Nat) : Nat := x % 256

/-- Unicode.hpp:19-31 `bytesForUtf8Codepoint`. -/
def bytesFor (c : Nat) : Nat :=
  if c < 0x80 then 1 else if c < 0x800 then 2 else if c < 0x10000 then 3 else 4

/-- Unicode.hpp:36-50: the body of the loop of `encodeUtf8`. -/
def encodePoint (c : Nat) : Bytes :=
  if c < 0x80 then [u8 c]
  else if c < 0x800 then
    [u8 (((c &&& 0b11111000000) >>> 6) + 0b11000000),
     u8 ((c &&& 0b00000111111) + 0b10000000)]
  else if c < 0x10000 then
    [u8 (((c &&& 0b1111000000000000) >>> 12) + 0b11100000),
     u8 (((c &&& 0b0000111111000000) >>> 6) + 0b10000000),
     u8 ((c &&& 0b0000000000111111) + 0b10000000)]
  else
    [u8 (((c &&& 0b111000000000000000000) >>> 18) + 0b11110000),
     u8 (((c &&& 0b000111111000000000000) >>> 12) + 0b10000000),
     u8 (((c &&& 0b000000000111111000000) >>> 6) + 0b10000000),
     u8 ((c &&& 0b000000000000000111111) + 0b10000000)]

/-- Unicode.hpp:33-52 `encodeUtf8`. -/
def encode : List Nat → Bytes
  | [] => []
  | c :: cs => encodePoint c ++ encode cs

/-- Unicode.hpp:54-63 `countUtf8BytesRequiredFor`. -/
def bytesRequired : List Nat → Nat
  | [] => 0
  | c :: cs => bytesFor c + bytesRequired cs

/-- StringType.cpp:1222-1243 `countUtf8Codepoints`; `skip` is how far `k` is ahead. -/
def countPoints : Bytes → Nat → Except Err Nat
  | [], _ => .ok 0
  | _ :: t, skip + 1 => countPoints t skip
  | b :: t, 0 =>
    let next := if b >>> 7 = 0 then some 0
      else if b >>> 5 = 0b110 then some 1
      else if b >>> 4 = 0b1110 then some 2
      else if b >>> 3 = 0b11110 then some 3
      else none
    match next with
    | none => .error .corrupt
    | some k =>
      match countPoints t k with
      | .error e => .error e
      | .ok n => .ok (n + 1)

/-- StringType.cpp:1196-1220 `bytesPerCodepointRequiredForUtf8`: `n` code points are still to come. -/
def widthRequired : Bytes → Nat → Nat → Except Err Nat
  | _, 0, w => .ok w
  | [], _ + 1, _ => .error .oob
  | b :: t, n + 1, w =>
    if b >>> 7 = 0 then widthRequired t n w
    else if b >>> 5 = 0b110 then widthRequired (t.drop 1) n (max 2 w)
    else if b >>> 4 = 0b1110 then widthRequired (t.drop 2) n (max 2 w)
    else if b >>> 3 = 0b11110 then widthRequired (t.drop 3) n (max 4 w)
    else .error .corrupt

/-- Put a code point in front of what is still to be decoded. -/
def consOk (p : Nat) : Except Err (List Nat) → Except Err (List Nat)
  | .error e => .error e
  | .ok ps => .ok (p :: ps)

/-- StringType.cpp:1248-1280: one round of the loop of `decodeUtf8ToTyped`; the code point before it is stored, and the
rest of the data. No branch is taken for a byte that does not start a code point, and the loop does not advance. -/
def decodePoint : Bytes → Except Err (Nat × Bytes)
  | [] => .error .oob
  | b :: t =>
    if b >>> 7 = 0 then .ok (b, t)
    else if b >>> 5 = 0b110 then
      match t with
      | b1 :: t1 => .ok (((b &&& 0b11111) <<< 6) + (b1 &&& 0b111111), t1)
      | _ => .error .oob
    else if b >>> 4 = 0b1110 then
      match t with
      | b1 :: b2 :: t1 => .ok (((b &&& 0b1111) <<< 12) + ((b1 &&& 0b111111) <<< 6) + (b2 &&& 0b111111), t1)
      | _ => .error .oob
    else if b >>> 3 = 0b11110 then
      match t with
      | b1 :: b2 :: b3 :: t1 =>
        .ok (((b &&& 0b111) <<< 18) + ((b1 &&& 0b111111) <<< 12) + ((b2 &&& 0b111111) <<< 6) + (b3 &&& 0b111111), t1)
      | _ => .error .oob
    else .error .hang

/-- StringType.cpp:1245-1282 `decodeUtf8ToTyped` for `w` bytes per code point: `n` code points are still to come. -/
def decode (w : Nat) : Bytes → Nat → Except Err (List Nat)
  | _, 0 => .ok []
  | bs, n + 1 =>
    match decodePoint bs with
    | .error e => .error e
    | .ok (p, t) => consOk (p % 256 ^ w) (decode w t n)

/-- StringType.cpp:1314-1336 `createFromUtf8`: `n` is the number of code points. -/
def createFromUtf8 (bytes : Bytes) (n : Nat) : Except Err Str :=
  if n = 0 then .ok none
  else
    match widthRequired bytes n 1 with
    | .error e => .error e
    | .ok w =>
      if w = 1 then .ok (some ⟨1, bytes.take n⟩)
      else
        match decode w bytes n with
        | .error e => .error e
        | .ok ps => .ok (some ⟨w, ps⟩)

/-- StringType.hpp:208-237 `serialize` as field `field`. -/
def serialize (field : Nat) (s : Str) : Except Err Bytes :=
  if width s = 1 ∨ width s = 2 ∨ width s = 4 then
    .ok (writeBeginBytes field (bytesRequired (text s)) ++ encode (text s))
  else .error .badWidth

/-- StringType.hpp:274: the byte count as `int32_t`, and then as the `size_t` argument of `read_bytes_fun`. -/
def asSize (n : Nat) : Nat := (Int.bmod n (2 ^ 32) % 2 ^ 64).toNat

/-- StringType.hpp:276-279: the data of a string, `n` bytes. -/
def deserializeData (n : Nat) (bs : Bytes) : Except Err (Str × Bytes) :=
  match readBytes n bs with
  | .error e => .error (.wire e)
  | .ok (data, bs2) =>
    match countPoints data 0 with
    | .error e => .error e
    | .ok k =>
      match createFromUtf8 data k with
      | .error e => .error e
      | .ok s => .ok (s, bs2)

/-- StringType.hpp:270-280 `deserialize`, after the header with the wire type `wire` (4 is BYTES). -/
def deserialize (wire : Nat) (bs : Bytes) : Except Err (Str × Bytes) :=
  if wire ≠ 4 then .error (.wire .badWire)
  else
    match readVarint bs with
    | .error e => .error (.wire e)
    | .ok (n, bs1) => deserializeData (asSize n) bs1

/-! ### comparison -/

/-- StringType.cpp:1338-1351 `typedArrayCompare`. -/
def arrayCompare : List Nat → List Nat → Nat → Except Err Int
  | _, _, 0 => .ok 0
  | a :: l, b :: r, n + 1 => if a < b then .ok (-1) else if a > b then .ok 1 else arrayCompare l r n
  | _, _, _ + 1 => .error .oob

/-- Type.cpp:122-138 `byteCompare`: eight bytes at a time while they are equal, then one at a time. -/
def byteCompare (l r : List Nat) (count : Nat) : Except Err Int :=
  if h : count ≥ 8 ∧ l.take 8 = r.take 8 then byteCompare (l.drop 8) (r.drop 8) (count - 8)
  else arrayCompare l r count
termination_by count
decreasing_by omega

/-- StringType.cpp:1384-1404 and 1426-1446: choose the loop by the widths. -/
def dataCompare (wl wr : Nat) (l r : List Nat) (count : Nat) : Except Err Int :=
  if wl = 1 ∧ wr = 1 then byteCompare l r (wl * count)
  else if (wl = 1 ∨ wl = 2 ∨ wl = 4) ∧ (wr = 1 ∨ wr = 2 ∨ wr = 4) then arrayCompare l r count
  else .error .badWidth

/-- StringType.cpp:1363-1407 `cmpStaticEq`. -/
def cmpEq : Str → Str → Except Err Bool
  | none, none => .ok true
  | none, some _ => .ok false
  | some _, none => .ok false
  | some l, some r =>
    if l.points.length ≠ r.points.length then .ok false
    else
      match dataCompare l.width r.width l.points r.points (min l.points.length r.points.length) with
      | .error e => .error e
      | .ok res => .ok (res = 0)

/-- StringType.cpp:1409-1461 `cmpStatic`, and 1463-1515 for the data of an interpreter string. -/
def cmpOrd : Str → Str → Except Err Int
  | none, none => .ok 0
  | none, some _ => .ok (-1)
  | some _, none => .ok 1
  | some l, some r =>
    match dataCompare l.width r.width l.points r.points (min l.points.length r.points.length) with
    | .error e => .error e
    | .ok res =>
      if res ≠ 0 then .ok res
      else if l.points.length < r.points.length then .ok (-1)
      else if l.points.length > r.points.length then .ok 1
      else .ok 0

/-- util.hpp:215-226 `cmpResultToBoolForPyOrdering`. -/
def opResult : Op → Int → Bool
  | .eq, r => r = 0
  | .ne, r => r ≠ 0
  | .lt, r => r < 0
  | .gt, r => r > 0
  | .le, r => r ≤ 0
  | .ge, r => r ≥ 0

/-- StringType.cpp:1353-1361 `cmp`; the compiled operators do the same (string_wrapper.py:449-513 through
_runtime.cpp:457-467). -/
def cmp (op : Op) (l r : Str) : Except Err Bool :=
  match op with
  | .ne =>
    match cmpEq l r with
    | .error e => .error e
    | .ok b => .ok (!b)
  | .eq => cmpEq l r
  | op =>
    match cmpOrd l r with
    | .error e => .error e
    | .ok res => .ok (opResult op res)

/-- `memcmp` of two byte arrays of the same length. -/
def memcmp : List Nat → List Nat → Int
  | a :: l, b :: r => if a < b then -1 else if a > b then 1 else memcmp l r
  | _, _ => 0

/-- The raw bytes of a layout, little-endian. -/
def raw (w : Nat) (ps : List Nat) : Bytes := ps.flatMap (toLE w)

/-- PyStringInstance.hpp:82-121 `compare_to_python_concrete`: a string in a typed container against an interpreter
string. Only the sign of `memcmp` is modelled. -/
def compareToPython (op : Op) (self : Str) (other : List Nat) : Except Err Bool :=
  if kind other ≠ width self then
    match cmpOrd self (some ⟨kind other, other⟩) with
    | .error e => .error e
    | .ok res => .ok (opResult op res)
  else if other.length < (text self).length then .ok (opResult op (-1))
  else if other.length > (text self).length then .ok (opResult op 1)
  else .ok (opResult op (memcmp (raw (kind other) other) (raw (kind other) (text self))))

/-! ### hashing -/

/-- HashAccumulator.hpp:34-45 `addBytes`. -/
def hashBytes : Int → Bytes → Int
  | st, a :: b :: c :: d :: t => hashBytes (TupleOf.hashAdd st (TupleOf.int32 (fromLE [a, b, c, d]))) t
  | st, a :: t => hashBytes (TupleOf.hashAdd st a) t
  | st, [] => st

/-- StringType.hpp:286-305 `hash_static`; the accumulator starts with `catString`, which is 10 (Type.hpp:117). -/
def hash : Str → Int
  | none => 0x12345
  | some l =>
    let h := hashBytes 10 (raw l.width l.points)
    if h = -1 then -2 else h

/-! ### concatenation -/

/-- StringType.cpp:21-56 `upgradeCodePoints`. A width that is not greater leaves the data uninitialized (`oob`). -/
def upgrade (s : Str) (w : Nat) : Except Err Str :=
  match s with
  | none => .ok none
  | some l =>
    if w = l.width then .ok (some l)
    else if l.width = 1 ∧ w = 2 then .ok (some ⟨w, l.points.map (· % 65536)⟩)
    else if l.width = 1 ∧ w = 4 then .ok (some ⟨w, l.points.map (· % 4294967296)⟩)
    else if l.width = 2 ∧ w = 4 then .ok (some ⟨w, l.points.map (· % 4294967296)⟩)
    else if l.points.length = 0 then .ok (some ⟨w, []⟩)
    else .error .oob

/-- StringType.cpp:87-100: two strings of one width. -/
def concatSame (l r : Layout) : Layout := ⟨l.width, l.points ++ r.points⟩

/-- StringType.cpp:58-101 `concatenate`. -/
def concat (l r : Str) : Except Err Str :=
  match l, r with
  | l, none => .ok l
  | none, r => .ok r
  | some l, some r =>
    if l.width < r.width then
      match upgrade (some l) r.width with
      | .error e => .error e
      | .ok none => .ok (some r)
      | .ok (some l') => .ok (some (concatSame l' r))
    else if r.width < l.width then
      match upgrade (some r) l.width with
      | .error e => .error e
      | .ok none => .ok (some l)
      | .ok (some r') => .ok (some (concatSame l r'))
    else .ok (some (concatSame l r))

end Verif.Str
