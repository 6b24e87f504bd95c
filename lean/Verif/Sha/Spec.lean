/-
SHA-1 as FIPS 180-4 defines it (sections 4.1.1, 4.2.1, 5.1.1, 5.2.1, 5.3.1, 6.1), for messages that
consist of bytes.  Nothing here comes from /repo.
-/
namespace Verif.Sha

abbrev Byte := BitVec 8
abbrev Word := BitVec 32

/-- `ROTL^n(x)` (3.2). -/
def rotl (n : Nat) (x : Word) : Word := (x <<< n) ||| (x >>> (32 - n))

/-- `Ch(x, y, z)` (4.1.1). -/
def ch (x y z : Word) : Word := (x &&& y) ^^^ (~~~x &&& z)
/-- `Parity(x, y, z)` (4.1.1). -/
def parity (x y z : Word) : Word := x ^^^ y ^^^ z
/-- `Maj(x, y, z)` (4.1.1). -/
def maj (x y z : Word) : Word := (x &&& y) ^^^ (x &&& z) ^^^ (y &&& z)

/-- The function `f_t` (4.1.1). -/
def f (t : Nat) : Word → Word → Word → Word :=
  if t < 20 then ch else if t < 40 then parity else if t < 60 then maj else parity

/-- The constant `K_t` (4.2.1). -/
def k (t : Nat) : Word :=
  if t < 20 then 0x5a827999 else if t < 40 then 0x6ed9eba1 else if t < 60 then 0x8f1bbcdc
  else 0xca62c1d6

/-- Four bytes as a word, the most significant byte first. -/
def word (a b c d : Byte) : Word := a ++ b ++ c ++ d

/-- The bytes of a word, the most significant byte first. -/
def bytes (w : Word) : List Byte :=
  [w.extractLsb' 24 8, w.extractLsb' 16 8, w.extractLsb' 8 8, w.extractLsb' 0 8]

/-- A 64-bit number as bytes, the most significant byte first. -/
def bytes64 (n : Nat) : List Byte :=
  bytes (BitVec.ofNat 32 (n / 2 ^ 32)) ++ bytes (BitVec.ofNat 32 n)

/-- The `i`-th word of a block of bytes. -/
def wordAt (block : List Byte) (i : Nat) : Word :=
  word (block.getD (4 * i) 0) (block.getD (4 * i + 1) 0) (block.getD (4 * i + 2) 0)
    (block.getD (4 * i + 3) 0)

/-- The next word of the message schedule, after `w` (6.1.2, step 1). -/
def nextWord (block : List Byte) (w : List Word) : Word :=
  if w.length < 16 then wordAt block w.length
  else rotl 1 (w.getD (w.length - 3) 0 ^^^ w.getD (w.length - 8) 0 ^^^ w.getD (w.length - 14) 0 ^^^
    w.getD (w.length - 16) 0)

/-- The first words of the message schedule, `W_0, W_1, ...`. -/
def schedule (block : List Byte) : Nat → List Word
  | 0 => []
  | t + 1 => schedule block t ++ [nextWord block (schedule block t)]

/-- The hash value, and the working variables `a, b, c, d, e`. -/
structure Hash where
  a : Word
  b : Word
  c : Word
  d : Word
  e : Word
deriving DecidableEq, Repr

/-- Step `t` (6.1.2, step 3), where `w` is `W_t`. -/
def step (t : Nat) (w : Word) (h : Hash) : Hash where
  a := rotl 5 h.a + f t h.b h.c h.d + h.e + k t + w
  b := h.a
  c := rotl 30 h.b
  d := h.c
  e := h.d

/-- The first `n` steps. -/
def steps (block : List Byte) : Nat → Hash → Hash
  | 0, h => h
  | t + 1, h => step t ((schedule block 80).getD t 0) (steps block t h)

/-- One block (6.1.2, steps 2 to 4). -/
def compress (block : List Byte) (h : Hash) : Hash :=
  let r := steps block 80 h
  ⟨h.a + r.a, h.b + r.b, h.c + r.c, h.d + r.d, h.e + r.e⟩

/-- The initial hash value (5.3.1). -/
def initial : Hash := ⟨0x67452301, 0xefcdab89, 0x98badcfe, 0x10325476, 0xc3d2e1f0⟩

/-- The number of zero bytes in the padding of a message of `n` bytes: the least one such that the
padded message consists of whole blocks (5.1.1). -/
def zeros (n : Nat) : Nat := (119 - n % 64) % 64

/-- A message padded with the length field of a message of `n` bytes. -/
def padAs (n : Nat) (m : List Byte) : List Byte :=
  m ++ 0x80 :: List.replicate (zeros m.length) 0 ++ bytes64 (8 * n)

/-- The padded message (5.1.1). -/
def pad (m : List Byte) : List Byte := padAs m.length m

/-- Apply `c` to `n` blocks, one after the other. -/
def chain (c : List Byte → Hash → Hash) : Nat → List Byte → Hash → Hash
  | 0, _, h => h
  | n + 1, m, h => chain c n (m.drop 64) (c (m.take 64) h)

/-- `n` blocks, one after the other (6.1.2). -/
def blocks (n : Nat) (m : List Byte) (h : Hash) : Hash := chain compress n m h

/-- The bytes of a hash value. -/
def Hash.bytes (h : Hash) : List Byte :=
  Sha.bytes h.a ++ Sha.bytes h.b ++ Sha.bytes h.c ++ Sha.bytes h.d ++ Sha.bytes h.e

/-- The digest of a message with the length field of a message of `n` bytes. -/
def sha1As (n : Nat) (m : List Byte) : List Byte :=
  (blocks ((padAs n m).length / 64) (padAs n m) initial).bytes

/-- The message digest of a message of less than 2^61 bytes. -/
def sha1 (m : List Byte) : List Byte := sha1As m.length m

/-- The padded message consists of whole blocks, and fewer zeros would not do. -/
theorem pad_length (m : List Byte) : (pad m).length % 64 = 0 := by
  simp [pad, padAs, zeros, bytes64, bytes]; omega

theorem zeros_least (n z : Nat) (h : (n + 1 + z + 8) % 64 = 0) : zeros n ≤ z := by
  unfold zeros; omega

/-- "abc" (FIPS 180, appendix A.1). -/
example : sha1 [0x61, 0x62, 0x63] =
    [0xa9, 0x99, 0x3e, 0x36, 0x47, 0x06, 0x81, 0x6a, 0xba, 0x3e, 0x25, 0x71, 0x78, 0x50, 0xc2, 0x6c,
     0x9c, 0xd0, 0xd8, 0x9d] := by
  decide +kernel

/-- "abcdbcdecdefdefgefghfghighijhijkijkljklmklmnlmnomnopnopq", two blocks (FIPS 180, appendix A.2). -/
example : sha1 ("abcdbcdecdefdefgefghfghighijhijkijkljklmklmnlmnomnopnopq".toList.map
      (fun c => BitVec.ofNat 8 c.toNat)) =
    [0x84, 0x98, 0x3e, 0x44, 0x1c, 0x3b, 0xd2, 0x6e, 0xba, 0xae, 0x4a, 0xa1, 0xf9, 0x51, 0x29, 0xe5,
     0xe5, 0x46, 0x70, 0xf1] := by
  decide +kernel

end Verif.Sha
