import Verif.Sha.Spec
/-
The SHA-1 implementation in typed_python/Sha1.cpp and the hashes in typed_python/ShaHash.hpp.
-/
namespace Verif.Sha

/-- `mbedtls_sha1_context` (Sha1.hpp:51-57). -/
structure Ctx where
  total0 : Word
  total1 : Word
  state : Hash
  buffer : List Byte

/-- `memcpy(buffer + at, src, n)`. -/
def memcpy (buffer : List Byte) (pos : Nat) (src : List Byte) (n : Nat) : List Byte :=
  buffer.take pos ++ src.take n ++ buffer.drop (pos + n)

/-- `memset(buffer + at, 0, n)`. -/
def memset0 (buffer : List Byte) (pos n : Nat) : List Byte :=
  memcpy buffer pos (List.replicate n 0) n

/-- `GET_UINT32_BE` (Sha1.cpp:46-52). -/
def getBE (b : List Byte) (i : Nat) : Word :=
  ((b.getD i 0).setWidth 32 <<< 24) ||| ((b.getD (i + 1) 0).setWidth 32 <<< 16) |||
    ((b.getD (i + 2) 0).setWidth 32 <<< 8) ||| (b.getD (i + 3) 0).setWidth 32

/-- `PUT_UINT32_BE` (Sha1.cpp:54-60). -/
def putBE (n : Word) (b : List Byte) (i : Nat) : List Byte :=
  (((b.set i ((n >>> 24).setWidth 8)).set (i + 1) ((n >>> 16).setWidth 8)).set (i + 2)
    ((n >>> 8).setWidth 8)).set (i + 3) (n.setWidth 8)

/-- `mbedtls_sha1_init`, then `mbedtls_sha1_starts_ret` (Sha1.cpp:62-82). -/
def starts : Ctx where
  total0 := 0
  total1 := 0
  state := ⟨0x67452301, 0xEFCDAB89, 0x98BADCFE, 0x10325476, 0xC3D2E1F0⟩
  buffer := List.replicate 64 0

/-- The variables `A` to `E` of `mbedtls_internal_sha1_process` (Sha1.cpp:87). -/
inductive Var where
  | A | B | C | D | E
deriving DecidableEq

/-- The value of a variable. -/
def get (v : Hash) : Var → Word
  | .A => v.a | .B => v.b | .C => v.c | .D => v.d | .E => v.e

/-- Assign a variable. -/
def set (v : Hash) (x : Word) : Var → Hash
  | .A => { v with a := x } | .B => { v with b := x } | .C => { v with c := x }
  | .D => { v with d := x } | .E => { v with e := x }

/-- The macro `S` (Sha1.cpp:106). -/
def S (x : Word) (n : Nat) : Word := (x <<< n) ||| ((x &&& 0xFFFFFFFF) >>> (32 - n))

/-- The macro `F` where it is used in line `t` (Sha1.cpp:126, 153, 180, 207). -/
def F (t : Nat) (x y z : Word) : Word :=
  if t < 20 then z ^^^ (x &&& (y ^^^ z))
  else if t < 40 then x ^^^ y ^^^ z
  else if t < 60 then (x &&& y) ||| (z &&& (x ||| y))
  else x ^^^ y ^^^ z

/-- The macro `K` where it is used in line `t` (Sha1.cpp:127, 154, 181, 208). -/
def K (t : Nat) : Word :=
  if t < 20 then 0x5A827999 else if t < 40 then 0x6ED9EBA1 else if t < 60 then 0x8F1BBCDC
  else 0xCA62C1D6

/-- The macro `P` (Sha1.cpp:115-118). -/
def P (t : Nat) (a b c d e : Var) (x : Word) (v : Hash) : Hash :=
  let v := set v (get v e + (S (get v a) 5 + F t (get v b) (get v c) (get v d) + K t + x)) e
  set v (S (get v b) 30) b

/-- The macro `R` (Sha1.cpp:108-113): the new word, which is also stored. -/
def R (w : List Word) (t : Nat) : Word :=
  S (w.getD ((t - 3) % 16) 0 ^^^ w.getD ((t - 8) % 16) 0 ^^^ w.getD ((t - 14) % 16) 0 ^^^
    w.getD (t % 16) 0) 1

/-- Line `t` of the 80 lines (Sha1.cpp:129-148, 156-175, 183-202, 210-229).  The names of the
variables come back every five lines. -/
def line (t : Nat) (x : Word) (v : Hash) : Hash :=
  match t % 5 with
  | 0 => P t .A .B .C .D .E x v
  | 1 => P t .E .A .B .C .D x v
  | 2 => P t .D .E .A .B .C x v
  | 3 => P t .C .D .E .A .B x v
  | _ => P t .B .C .D .E .A x v

/-- The first `t` lines, on the array `W` and the variables. -/
def lines : Nat → List Word × Hash → List Word × Hash
  | 0, s => s
  | t + 1, s =>
    let (w, v) := lines t s
    if t < 16 then (w, line t (w.getD t 0) v)
    else
      let x := R w t
      (w.set (t % 16) x, line t x v)

/-- `mbedtls_internal_sha1_process` (Sha1.cpp:84-241). -/
def process (data : List Byte) (state : Hash) : Hash :=
  let w := (List.range 16).map (fun i => getBE data (4 * i))
  let v := (lines 80 (w, state)).2
  ⟨state.a + v.a, state.b + v.b, state.c + v.c, state.d + v.d, state.e + v.e⟩

/-- The loop over whole blocks (Sha1.cpp:278-285): the state and the rest of the input.  `proc` is
`mbedtls_internal_sha1_process`. -/
def whole (proc : List Byte → Hash → Hash) : Nat → List Byte → Hash → Hash × List Byte
  | 0, input, h => (h, input)
  | n + 1, input, h => whole proc n (input.drop 64) (proc (input.take 64) h)

/-- `mbedtls_sha1_update_ret` (Sha1.cpp:246-291).  The input is given as a list, whose length is
`ilen`; the loop runs `ilen / 64` times. -/
def update (ctx : Ctx) (input : List Byte) : Ctx :=
  if input.length = 0 then ctx
  else
    let left := (ctx.total0 &&& 0x3F).toNat
    let fill := 64 - left
    let total0 := (ctx.total0 + BitVec.ofNat 32 input.length) &&& 0xFFFFFFFF
    let total1 := if total0 < BitVec.ofNat 32 input.length then ctx.total1 + 1 else ctx.total1
    let (left, buffer, state, input) :=
      if left ≠ 0 ∧ input.length ≥ fill then
        let buffer := memcpy ctx.buffer left input fill
        (0, buffer, process buffer ctx.state, input.drop fill)
      else (left, ctx.buffer, ctx.state, input)
    let (state, input) := whole process (input.length / 64) input state
    { total0 := total0, total1 := total1, state := state
      buffer := if input.length > 0 then memcpy buffer left input input.length else buffer }

/-- `mbedtls_sha1_finish_ret` (Sha1.cpp:296-349). -/
def finish (ctx : Ctx) : List Byte :=
  let used := (ctx.total0 &&& 0x3F).toNat
  let buffer := ctx.buffer.set used 0x80
  let used := used + 1
  let (buffer, state) :=
    if used ≤ 56 then (memset0 buffer used (56 - used), ctx.state)
    else
      let buffer := memset0 buffer used (64 - used)
      (memset0 buffer 0 56, process buffer ctx.state)
  let high := (ctx.total0 >>> 29) ||| (ctx.total1 <<< 3)
  let low := ctx.total0 <<< 3
  let buffer := putBE low (putBE high buffer 56) 60
  let state := process buffer state
  putBE state.e (putBE state.d (putBE state.c (putBE state.b (putBE state.a
    (List.replicate 20 0) 0) 4) 8) 12) 16

/-- `mbedtls_sha1_ret` (Sha1.cpp:354-374). -/
def sha1Ret (input : List Byte) : List Byte := finish (update starts input)

/-! ### `ShaHash` -/

/-- `ShaHash::SHA1` (ShaHash.hpp:163-172).  A `ShaHash` is given by its 20 bytes in memory, which are
what `digestAsString` returns (ShaHash.hpp:93-95). -/
def shaHash (data : List Byte) : List Byte :=
  if data.length ≠ 0 then sha1Ret data else List.replicate 20 0

/-- `ShaHash::poison` (ShaHash.hpp:128-134). -/
def poison : List Byte := List.replicate 20 0xFF

/-- `operator+` (ShaHash.hpp:179-191). -/
def shaAdd (l r : List Byte) : List Byte :=
  if l = poison ∨ r = poison then poison else shaHash (l ++ r)

end Verif.Sha
