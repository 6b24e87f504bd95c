import Verif.Sha.Model
/-
Hashes of values: `sha_hash` (typed_python/hash.py) and the identity hash of constants
(typed_python/MutuallyRecursiveTypeGroup.cpp).

Both models return, with the digest, the list of the messages whose SHA-1 was computed on the way.
-/
namespace Verif.Sha

/-- A digest and the messages hashed to obtain it. -/
abbrev Logged := List Byte × List (List Byte)

/-! ### typed_python/hash.py -/

/-- The exceptions of `sha_hash`. -/
inductive PyErr where
  | structError
deriving DecidableEq, Repr

/-- Python values, as far as `sha_hash` tells them apart.  A float is given by its bits, a string by its
UTF-8 encoding, and a value of another type by its serialization (`serialize`).  Dicts, objects with a
`__sha_hash__` method and strings that cannot be encoded are left out. -/
inductive Val where
  | none
  | bool (b : Bool)
  | int (i : Int)
  | float (bits : BitVec 64)
  | str (utf8 : List Byte)
  | bytes (b : List Byte)
  | tuple (items : List Val)
  | other (serialized : List Byte)

/-- Eight bytes, the most significant first: `struct.pack("!q", …)` and `struct.pack("!d", …)`. -/
def be64 (x : BitVec 64) : List Byte := bytes64 x.toNat

/-- `Hash.from_string` (hash.py:35-41) on bytes. -/
def fromString (s : List Byte) : Logged := (sha1 s, [s])

/-- `Hash.from_integer` (hash.py:27-29).  `struct.pack` raises outside of 64 bits. -/
def fromInteger (i : Int) : Except PyErr Logged :=
  if -2 ^ 63 ≤ i ∧ i < 2 ^ 63 then .ok (fromString (be64 (BitVec.ofInt 64 i))) else .error .structError

/-- `Hash.from_float` (hash.py:31-33). -/
def fromFloat (bits : BitVec 64) : Logged := fromString (be64 bits)

/-- `Hash.__add__` (hash.py:50-58). -/
def pyAdd (a b : List Byte) : Logged :=
  if a = poison ∨ b = poison then (poison, []) else (sha1 (a ++ b), [a ++ b])

/-- A hexadecimal digit. -/
def hexDigit (n : Nat) : Byte := if n < 10 then BitVec.ofNat 8 (48 + n) else BitVec.ofNat 8 (87 + n)

/-- One byte in Python's `repr` of bytes, between quotes `q`. -/
def reprByte (q b : Byte) : List Byte :=
  if b = q ∨ b = 0x5c then [0x5c, b]
  else if b = 9 then [0x5c, 0x74]
  else if b = 10 then [0x5c, 0x6e]
  else if b = 13 then [0x5c, 0x72]
  else if b < 0x20 ∨ b ≥ 0x7f then [0x5c, 0x78, hexDigit (b.toNat / 16), hexDigit (b.toNat % 16)]
  else [b]

/-- The quotes of Python's `repr` of bytes: double quotes when there are single but no double ones. -/
def reprQuote (s : List Byte) : Byte := if 0x27 ∈ s ∧ 0x22 ∉ s then 0x22 else 0x27

/-- Python's `repr` of bytes (used in hash.py:95), as UTF-8. -/
def reprBytes (s : List Byte) : List Byte :=
  0x62 :: reprQuote s :: s.flatMap (reprByte (reprQuote s)) ++ [reprQuote s]

/-- `h0 = h0 + sha_hash(i)` (hash.py:84), with exceptions. -/
def addItem (h0 h : Except PyErr Logged) : Except PyErr Logged :=
  match h0, h with
  | .error e, _ => .error e
  | .ok _, .error e => .error e
  | .ok h0, .ok h => .ok ((pyAdd h0.1 h.1).1, h0.2 ++ h.2 ++ (pyAdd h0.1 h.1).2)

mutual
/-- `sha_hash` (hash.py:80-101). -/
def pyHash : Val → Except PyErr Logged
  | .tuple items => pyHashItems items (fromInteger items.length)
  | .bool b => fromInteger (if b then 1 else 0)
  | .int i => fromInteger i
  | .float bits => .ok (fromFloat bits)
  | .str u => .ok (fromString u)
  | .bytes b => .ok (fromString (reprBytes b))
  | .none => .ok (fromString [])
  | .other s => .ok (fromString (reprBytes s))

/-- The loop over the items of a tuple (hash.py:83-84). -/
def pyHashItems : List Val → Except PyErr Logged → Except PyErr Logged
  | [], h0 => h0
  | i :: items, h0 => pyHashItems items (addItem h0 (pyHash i))
end

/-! ### Identity hashes of constants -/

/-- Eight bytes, the least significant first, as in memory. -/
def le64 (x : BitVec 64) : List Byte := (be64 x).reverse

/-- `ShaHash(uint64_t t)` (ShaHash.hpp:31-36): the bytes in the memory of a little-endian machine. -/
def tag1 (t : BitVec 64) : List Byte := le64 t ++ List.replicate 12 0

/-- `ShaHash(uint64_t t1, uint64_t t2)` (ShaHash.hpp:38-46). -/
def tag2 (t1 t2 : BitVec 64) : List Byte := le64 t1 ++ le64 t2 ++ List.replicate 4 0

/-- The constants of `isSimpleConstant` (CompilerVisibleObjectVisitor.hpp:460-507).  `builtin k` is the
object with the code `k` in MutuallyRecursiveTypeGroup.cpp:889-983, `descriptor` any of the objects of
MutuallyRecursiveTypeGroup.cpp:991-1001. -/
inductive Const where
  | none
  | bool (b : Bool)
  | int (i : Int)
  | bytes (b : List Byte)
  | str (utf8 : List Byte)
  | builtin (code : Fin 23)
  | float (bits : BitVec 64)
  | descriptor
deriving DecidableEq

/-- `ShaHash::SHA1` with its log. -/
def logSha (data : List Byte) : Logged := (shaHash data, if data.length ≠ 0 then [data] else [])

/-- `operator+` (ShaHash.hpp:179-191) with its log. -/
def logAdd (l r : Logged) : Logged :=
  (shaAdd l.1 r.1, l.2 ++ r.2 ++ if l.1 = poison ∨ r.1 = poison then [] else [l.1 ++ r.1])

/-- Does the number fit in a `long`? -/
def fitsLong (i : Int) : Prop := -2 ^ 63 ≤ i ∧ i < 2 ^ 63

instance (i : Int) : Decidable (fitsLong i) := inferInstanceAs (Decidable (_ ∧ _))

/-- The loop on integers that do not fit in a `long` (MutuallyRecursiveTypeGroup.cpp:853-870).  When the
number overflows, `PyLong_AsLongAndOverflow` returns -1 without an exception. -/
def bigIntLoop (lng : Int) (hash : Logged) : Logged :=
  if h : fitsLong lng then logAdd hash (tag1 (BitVec.ofInt 64 lng), [])
  else bigIntLoop (lng / 2 ^ 32) (logAdd hash (tag1 (BitVec.ofInt 64 (-1)), []))
termination_by lng.natAbs
decreasing_by
  unfold fitsLong at h
  omega

/-- The case of integers (MutuallyRecursiveTypeGroup.cpp:840-873). -/
def intHash (i : Int) : Logged :=
  if fitsLong i then logAdd (tag2 100 4, []) (tag2 100 (BitVec.ofInt 64 i), [])
  else bigIntLoop i (tag2 100 4, [])

/-- `shaHashOfSimplePyObjectConstant` (MutuallyRecursiveTypeGroup.cpp:824-1004), which is
`identityHash` of a constant (MutuallyRecursiveTypeGroup.cpp:791-794). -/
def constHash : Const → Logged
  | .none => (tag2 100 1, [])
  | .bool true => (tag2 100 2, [])
  | .bool false => (tag2 100 3, [])
  | .int i => intHash i
  | .bytes b => logAdd (tag2 100 5, []) (logSha b)
  | .str u => logAdd (tag2 100 6, []) (logSha u)
  | .builtin k => (tag2 100 (BitVec.ofNat 64 (8 + k.val)), [])
  | .float bits => logAdd (tag2 100 31, []) (logSha (le64 bits))
  | .descriptor => (tag2 100 32, [])

end Verif.Sha
