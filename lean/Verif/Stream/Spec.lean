import Verif.Stream.Model
/-!
# Specification of the stream

A stream is a sequence of bytes.  Writing appends; reading takes from the front.
-/
namespace Verif.Stream
open Verif.Wire (Bytes)

/-- What a call writes, whatever the buffer makes of it. -/
def Op.data : Op → Bytes
  | .bytes bs => bs
  | .init bs => bs

/-- Everything written by a sequence of calls. -/
def written (ops : List Op) : Bytes := ops.flatMap Op.data

/-- The size of the longest single `init`: only these are not cut to a megabyte. -/
def Op.long : Op → Nat
  | .bytes _ => 0
  | .init bs => bs.length

/-- What is assumed of LZ4: decompressing what was compressed gives it back, in whatever pieces, and the
compressed form of a block of at most `limit` bytes has fewer than 2^32. -/
structure Lz4.Correct (z : Lz4) (limit : Nat) : Prop where
  inverse : ∀ bs, ∃ ps, z.unpack (z.comp bs) = some ps ∧ ps.flatten = bs
  small : ∀ bs, bs.length ≤ limit → (z.comp bs).length < 2 ^ 32

/-- The states a process can get to, by running its threads in any order. -/
inductive Reach (z : Lz4) (s0 : Sys) : Sys → Prop where
  | init : Reach z s0 s0
  | step {s s' : Sys} (a : Act) : Reach z s0 s → step z s a = some s' → Reach z s0 s'

/-- A specification of reading: a sequence of reads of the given sizes from `data`. -/
def reads (data : Bytes) : List Nat → Option (List Bytes × Bytes)
  | [] => some ([], data)
  | n :: ns =>
    if n ≤ data.length then
      match reads (data.drop n) ns with
      | some (ps, rest) => some (data.take n :: ps, rest)
      | none => none
    else none

/-- The same sequence of reads on the reader. -/
def Reader.reads (z : Lz4) (r : Reader) : List Nat → Except RErr (List Bytes × Reader)
  | [] => .ok ([], r)
  | n :: ns =>
    match r.read z n with
    | .error e => .error e
    | .ok (p, r') =>
      match Reader.reads z r' ns with
      | .error e => .error e
      | .ok (ps, r'') => .ok (p :: ps, r'')

end Verif.Stream
