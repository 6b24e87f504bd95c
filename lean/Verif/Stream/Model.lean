import Verif.Wire.Model
/-!
# The output stream of the serializer, and its reader

`SerializationBuffer` collects what is written in blocks of about one megabyte.  When the context asks
for compression each finished block is replaced by four bytes of size and an LZ4 frame.  With
`compress_using_threads` this is done by four background threads which all serializers of the process
share; the thread that serializes only waits for them at the end.

The model is a state machine.  One action is one critical section of the program (the code between
taking and releasing `s_compress_thread_mutex`, or a stretch of code which touches only data nobody
else looks at).  Any number of serializers and any number of compression threads run at the same time,
in any order.

LZ4 is a parameter: a function that compresses, and a function that gives the pieces the decoder
delivers.  What is assumed of it is in `Spec.lean`.
-/
namespace Verif.Stream
open Verif.Wire (Bytes toLE fromLE)

/-- The LZ4 library.  `comp` is `LZ4F_compressFrame`
(/repo/typed_python/SerializationBuffer.cpp:47-53); `unpack` is the run of the `LZ4F_decompress` loop
over one frame (/repo/typed_python/DeserializationBuffer.cpp:46-86): the pieces the calls wrote into
`compressionBuffer`, one after the other, or `none` if a call reported an error. -/
structure Lz4 where
  comp : Bytes → Bytes
  unpack : Bytes → Option (List Bytes)

/-- The size above which a block is closed, and in which long writes are cut
(/repo/typed_python/SerializationBuffer.hpp:66-68, 302-307). -/
def mb : Nat := 1024 * 1024

/-- `SerializationBufferBlock` (/repo/typed_python/SerializationBuffer.hpp:34-121): the bytes
`m_buffer[0..m_size)` and `m_compressed`.  `torn` says that `compress` is at work on the block, between
`m_size = 0` and `m_compressed = true` (/repo/typed_python/SerializationBuffer.cpp:65-73); what another
thread would read from the block then is not defined. -/
structure Block where
  bytes : Bytes
  compressed : Bool
  torn : Bool
deriving Repr, DecidableEq

/-- A new block (/repo/typed_python/SerializationBuffer.hpp:36-42). -/
def Block.empty : Block := ⟨[], false, false⟩

/-- `oversized` (/repo/typed_python/SerializationBuffer.hpp:66-68). -/
def Block.oversized (b : Block) : Bool := decide (b.bytes.length > mb)

/-- Appending to a block: `write`, `initialize_bytes` and `write_bytes` of the block
(/repo/typed_python/SerializationBuffer.hpp:74-97). -/
def Block.append (b : Block) (bs : Bytes) : Block := { b with bytes := b.bytes ++ bs }

/-- The frame that replaces the content of a block: a 32 bit little endian size, then the compressed data
(/repo/typed_python/SerializationBuffer.cpp:65-69).  A size of 2^32 or more is cut to 32 bits. -/
def frame (z : Lz4) (bs : Bytes) : Bytes := toLE 4 ((z.comp bs).length) ++ z.comp bs

/-- `SerializationBufferBlock::compress` as a whole (/repo/typed_python/SerializationBuffer.cpp:27-74).
Errors of LZ4 are not modelled. -/
def Block.compress (z : Lz4) (b : Block) : Block :=
  if b.compressed then b else { bytes := frame z b.bytes, compressed := true, torn := false }

/-- `SerializationBuffer::write_bytes` cuts what it is given in pieces of one megabyte and hands each to
the top block (/repo/typed_python/SerializationBuffer.hpp:301-312). -/
def pieces (bs : Bytes) : List Bytes :=
  if h : bs.length > mb then bs.take mb :: pieces (bs.drop mb) else [bs]
termination_by bs.length
decreasing_by
  have : 0 < mb := by unfold mb; omega
  rw [List.length_drop]; omega

/-- The ways of writing to the stream.  `bytes` is `write_bytes`
(/repo/typed_python/SerializationBuffer.hpp:301-312).  `init` is `initialize_bytes`, and also the
`write<T>` through which single bytes and doubles go: both append to the top block without cutting
(/repo/typed_python/SerializationBuffer.hpp:317-321, 415-420). -/
inductive Op where
  | bytes (bs : Bytes)
  | init (bs : Bytes)
deriving Repr, DecidableEq

/-- What one call asks of the top block. -/
def Op.puts : Op → List Bytes
  | .bytes bs => pieces bs
  | .init bs => [bs]

/-- Where the serializing thread is.  `writing` has the pieces still to be written; `waiting` is the loop of
`finalize` with the blocks it has still to wait for; `asleep` is the same inside `s_has_work->wait`;
`done` is after `finalize` (/repo/typed_python/SerializationBuffer.hpp:405-413). -/
inductive Phase where
  | writing (todo : List Bytes)
  | waiting (left : List Nat)
  | asleep (left : List Nat)
  | done
deriving Repr, DecidableEq

/-- `SerializationBuffer`: its blocks in order, the last being `m_top_block`, and the two flags from the
context (/repo/typed_python/SerializationBuffer.hpp:125-133). -/
structure Buf where
  wants : Bool
  threads : Bool
  blocks : List Nat
  top : Nat
  phase : Phase
deriving Repr, DecidableEq

/-- Where a compression thread is: about to look for work, asleep in `s_has_work->wait`, holding a block it
has not begun to compress, in the middle of `compress`, or with the block compressed but still in
`s_working_compress_blocks` (/repo/typed_python/SerializationBuffer.cpp:118-148). -/
inductive Worker where
  | idle
  | asleep
  | has (b : Nat)
  | torn (b : Nat)
  | ready (b : Nat)
deriving Repr, DecidableEq

/-- The process: all blocks ever allocated (a block is named by its place in `store`), the two sets
`s_waiting_compress_blocks` and `s_working_compress_blocks`, the compression threads and the serializers.
The threads are started with the first marked block (/repo/typed_python/SerializationBuffer.cpp:182-190);
in the model they are there from the start, with nothing to do. -/
structure Sys where
  store : List Block
  waiting : List Nat
  working : List Nat
  workers : List Worker
  bufs : List Buf
deriving Repr, DecidableEq

def Sys.block (s : Sys) (b : Nat) : Block := s.store.getD b Block.empty

/-- One thread woken by `notify_all`. -/
def Worker.wake : Worker → Worker
  | .asleep => .idle
  | w => w

def Buf.wake (f : Buf) : Buf :=
  match f.phase with
  | .asleep l => { f with phase := .waiting l }
  | _ => f

/-- `s_has_work->notify_all()` (/repo/typed_python/SerializationBuffer.cpp:146, 193): every sleeping
thread goes back to its test. -/
def Sys.notify (s : Sys) : Sys :=
  { s with workers := s.workers.map Worker.wake, bufs := s.bufs.map Buf.wake }

/-- `markForCompression` (/repo/typed_python/SerializationBuffer.cpp:174-195).  The set keeps one copy of
each block. -/
def Sys.mark (s : Sys) (threads : Bool) (b : Nat) : Sys :=
  if threads then ({ s with waiting := if b ∈ s.waiting then s.waiting else b :: s.waiting }).notify
  else s

/-- `checkTopBlock` of serializer `i` (/repo/typed_python/SerializationBuffer.hpp:422-436), returning the
serializer after it.  The block marked is `m_blocks.back()`, the new block being added afterwards. -/
def checkTop (s : Sys) (f : Buf) : Sys × Buf :=
  if (s.block f.top).oversized then
    let top' := s.store.length
    let s1 := { s with store := s.store ++ [Block.empty] }
    let s2 := if f.wants then s1.mark f.threads (f.blocks.getLastD 0) else s1
    (s2, { f with top := top', blocks := f.blocks ++ [top'] })
  else (s, f)

/-- One piece written by serializer `i`: `checkTopBlock`, then the append to the top block
(/repo/typed_python/SerializationBuffer.hpp:309-311, 318-320, 417-419). -/
def put (s : Sys) (i : Nat) (f : Buf) (p : Bytes) (todo : List Bytes) : Sys :=
  let (s1, f1) := checkTop s f
  { s1 with
    store := s1.store.set f1.top ((s1.block f1.top).append p)
    bufs := s1.bufs.set i { f1 with phase := .writing todo } }

/-- The beginning of `finalize`, up to its loop (/repo/typed_python/SerializationBuffer.hpp:405-409). -/
def finalize (s : Sys) (i : Nat) (f : Buf) : Sys :=
  if f.wants then
    let s1 := s.mark f.threads (f.blocks.getLastD 0)
    { s1 with bufs := s1.bufs.set i { f with phase := .waiting f.blocks } }
  else { s with bufs := s.bufs.set i { f with phase := .done } }

/-- One turn of the loop of `finalize` (/repo/typed_python/SerializationBuffer.hpp:409-411), that is one
test in `waitForCompression` (/repo/typed_python/SerializationBuffer.cpp:150-172). -/
def waitStep (z : Lz4) (s : Sys) (i : Nat) (f : Buf) : List Nat → Sys
  | [] => { s with bufs := s.bufs.set i { f with phase := .done } }
  | b :: left =>
    if f.threads then
      if b ∈ s.waiting ∨ b ∈ s.working then
        { s with bufs := s.bufs.set i { f with phase := .asleep (b :: left) } }
      else { s with bufs := s.bufs.set i { f with phase := .waiting left } }
    else
      { s with
        store := s.store.set b ((s.block b).compress z)
        bufs := s.bufs.set i { f with phase := .waiting left } }

/-- A thread that runs: serializer `i` goes on with whatever it has to do, or compression thread `w` does;
a compression thread that takes a block takes the one given (`begin()` of an unordered set can be any of
its elements). -/
inductive Act where
  | serializer (i : Nat)
  | worker (w : Nat) (pick : Nat)
deriving Repr, DecidableEq

/-- Serializer `i` runs (/repo/typed_python/SerializationBuffer.hpp:301-321, 405-436).  A sleeping or
finished thread does not run. -/
def stepSerializer (z : Lz4) (s : Sys) (i : Nat) : Option Sys :=
  match s.bufs[i]? with
  | none => none
  | some f =>
    match f.phase with
    | .writing (p :: todo) => some (put s i f p todo)
    | .writing [] => some (finalize s i f)
    | .waiting left => some (waitStep z s i f left)
    | .asleep _ => none
    | .done => none

/-- Compression thread `w` runs: `compressionThread` with `getNextCompressTask`
(/repo/typed_python/SerializationBuffer.cpp:118-148).  `compress` is two actions, so that other threads
can run while the block is half written. -/
def stepWorker (z : Lz4) (s : Sys) (w : Nat) (pick : Nat) : Option Sys :=
  match s.workers[w]? with
  | none => none
  | some .idle =>
    if s.waiting = [] then some { s with workers := s.workers.set w .asleep }
    else if pick ∈ s.waiting then
      some { s with
        working := pick :: s.working
        waiting := s.waiting.erase pick
        workers := s.workers.set w (.has pick) }
    else none
  | some .asleep => none
  | some (.has b) =>
    if (s.block b).compressed then some { s with workers := s.workers.set w (.ready b) }
    else some { s with
      store := s.store.set b { s.block b with torn := true }
      workers := s.workers.set w (.torn b) }
  | some (.torn b) =>
    some { s with
      store := s.store.set b ((s.block b).compress z)
      workers := s.workers.set w (.ready b) }
  | some (.ready b) =>
    some ({ s with
      working := s.working.erase b
      workers := s.workers.set w .idle }).notify

/-- One action of the process. -/
def step (z : Lz4) (s : Sys) : Act → Option Sys
  | .serializer i => stepSerializer z s i
  | .worker w pick => stepWorker z s w pick

/-- A serializer to be run: the two flags of its context and the calls made on it. -/
structure Job where
  wants : Bool
  threads : Bool
  ops : List Op
deriving Repr, DecidableEq

/-- The serializer `k` of a process at its start: one empty block
(/repo/typed_python/SerializationBuffer.hpp:125-133). -/
def Job.start (j : Job) (k : Nat) : Buf :=
  { wants := j.wants, threads := j.threads, blocks := [k], top := k,
    phase := .writing (j.ops.flatMap Op.puts) }

/-- The process before anything is written, with `n` compression threads. -/
def start (n : Nat) (jobs : List Job) : Sys :=
  { store := jobs.map fun _ => Block.empty
    waiting := []
    working := []
    workers := List.replicate n .idle
    bufs := jobs.mapIdx fun k j => j.start k }

/-- The bytes handed out for serializer `f`: `size` and `copyInto` of all blocks
(/repo/typed_python/SerializationBuffer.hpp:283-298, with /repo/typed_python/_types.cpp:1898-1899). -/
def Sys.output (s : Sys) (f : Buf) : Bytes := f.blocks.flatMap fun b => (s.block b).bytes

/-- `consolidate` after `finalize` (/repo/typed_python/SerializationBuffer.cpp:76-116), as used by
`buffer()` (/repo/typed_python/SerializationBuffer.hpp:271-281): with one block that block's bytes, else
a new block into which all are copied.  The repeated `waitForCompression` finds nothing to do: every block
is compressed and in neither set. -/
def Sys.buffer (s : Sys) (f : Buf) : Bytes :=
  match f.blocks with
  | [b] => (s.block b).bytes
  | bs => bs.foldl (fun acc b => acc ++ (s.block b).bytes) []

/-! ### The reader -/

/-- Errors of the reader (/repo/typed_python/DeserializationBuffer.hpp:283, 298, 494 and
/repo/typed_python/DeserializationBuffer.cpp:32, 62). -/
inductive RErr where
  | outOfData
  | corrupt
  | lz4
  | fuel
deriving Repr, DecidableEq

/-- `DeserializationBuffer` (/repo/typed_python/DeserializationBuffer.hpp:30-39, 513-521): the decompressed
bytes, `m_read_head_offset` (with `m_read_head` pointing that far into the buffer), `m_size`, and the
bytes at `m_compressed_blocks`. -/
structure Reader where
  compressed : Bool
  buf : Bytes
  off : Nat
  size : Nat
  rest : Bytes
deriving Repr, DecidableEq

/-- The constructor (/repo/typed_python/DeserializationBuffer.hpp:30-39). -/
def Reader.new (compressed : Bool) (data : Bytes) : Reader := ⟨compressed, [], 0, 0, data⟩

/-- One turn of the decompression loop: drop what was already read, append the piece
(/repo/typed_python/DeserializationBuffer.cpp:68-83). -/
def Reader.piece (r : Reader) (p : Bytes) : Reader :=
  { r with
    buf := r.buf.drop r.off ++ p
    off := 0
    size := r.size + p.length }

/-- `decompress` (/repo/typed_python/DeserializationBuffer.cpp:5-92); the Boolean is its result. -/
def Reader.decompress (z : Lz4) (r : Reader) : Except RErr (Bool × Reader) :=
  if r.compressed = false then
    if r.rest.length = 0 then .ok (false, r)
    else .ok (true, { r with buf := r.rest, size := r.size + r.rest.length, rest := [], off := 0 })
  else if r.rest.length < 4 then .ok (false, r)
  else
    let n := fromLE (r.rest.take 4)
    if n + 4 > r.rest.length then .error .corrupt
    else
      match z.unpack ((r.rest.drop 4).take n) with
      | none => .error .lz4
      | some ps => .ok (true, ps.foldl Reader.piece { r with rest := r.rest.drop (4 + n) })

/-- The loop `while (m_size < n) if (!decompress()) ...` of `canConsume`
(/repo/typed_python/DeserializationBuffer.hpp:321-329) and of the reads.  The Boolean says whether `n`
bytes are there.  Running out of fuel is an error of its own. -/
def Reader.fill (z : Lz4) : Nat → Nat → Reader → Except RErr (Bool × Reader)
  | 0, _, _ => .error .fuel
  | fuel + 1, n, r =>
    if r.size < n then
      match r.decompress z with
      | .error e => .error e
      | .ok (false, r') => .ok (false, r')
      | .ok (true, r') => Reader.fill z fuel n r'
    else .ok (true, r)

/-- `canConsume` (/repo/typed_python/DeserializationBuffer.hpp:321-329); `isDone` is its negation at 1
(/repo/typed_python/DeserializationBuffer.hpp:317-319).  Every turn of the loop that goes on consumes at
least one byte of input, so the length of the input is fuel enough. -/
def Reader.canConsume (z : Lz4) (n : Nat) (r : Reader) : Except RErr (Bool × Reader) :=
  Reader.fill z (r.rest.length + 1) n r

/-- `read_bytes`, `read_bytes_fun` and `read<T>` (/repo/typed_python/DeserializationBuffer.hpp:279-308,
490-506): the `n` bytes at `m_read_head`, which is then moved on. -/
def Reader.read (z : Lz4) (n : Nat) (r : Reader) : Except RErr (Bytes × Reader) :=
  match Reader.fill z (r.rest.length + 1) n r with
  | .error e => .error e
  | .ok (false, _) => .error .outOfData
  | .ok (true, r') =>
    .ok ((r'.buf.drop r'.off).take n, { r' with size := r'.size - n, off := r'.off + n })

end Verif.Stream
