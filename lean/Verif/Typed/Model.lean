import Verif.Typed.Spec
import Verif.Typed.Ints
/-
Model of `serialize` and `deserialize` of typed values: the `serialize`/`deserialize` methods of
/repo/typed_python/RegisterTypes.hpp, NoneType.hpp, ValueType.hpp, BytesType.hpp, StringType.hpp, CompositeType.hpp,
OneOfType.hpp, AlternativeType.hpp, TupleOrListOfType.hpp, ConstDictType.hpp, DictType.hpp, SetType.hpp, the compound
message readers of DeserializationBuffer.hpp and the pointer caches of both buffers.

Simplifications: a value is a `Val` and not raw memory, except inside a list of plain data written as bytes, where the
unused bytes of a `OneOf` are taken to be zero; a dictionary or set object is the list of its items in slot order (the
hash table proper is `Verif.HashTable`); reference counts are not modelled; counts are not truncated to `int32_t` when
damaged data announces more than 2^31 elements.  `ser` refuses, with `illTyped`, what is not a value of the type (C++
never sees such a value).  The first argument of `ser` and `deser` bounds the depth of recursion.
-/
namespace Verif.Typed

open Verif.Wire (Bytes Reg InRange writeVarint writeRegister writeEmpty writeBeginBytes writeBeginSingle writeBeginCompound
  writeEndCompound writeVarintObject readRegister readVarint readHeader readVarintObject readBytes toLE fromLE)

/-- What can go wrong. -/
inductive Err
  /-- not a value of the type -/
  | illTyped
  /-- the bound on the depth of recursion was reached -/
  | fuel
  /-- an exception about the contents of the stream -/
  | corrupt
  /-- an access outside allocated memory, a division by zero -/
  | undefined
  /-- a failure to read the stream -/
  | wire (e : Wire.Err)
  /-- a failure to read text -/
  | str (e : Str.Err)
  deriving DecidableEq, Repr

/-- The values of a machine type. -/
def inRange : Reg → Int → Bool
  | .bool, v => v = 0 || v = 1
  | .uint n, v => 1 ≤ n && n ≤ 8 && 0 ≤ v && v < 2 ^ (8 * n)
  | .int n, v => 1 ≤ n && n ≤ 8 && -2 ^ (8 * n - 1) ≤ v && v < 2 ^ (8 * n - 1)
  | .float n, v => (n = 4 || n = 8) && 0 ≤ v && v < 2 ^ (8 * n)

/-! ### Plain data as bytes -/

mutual
/-- The memory of a value of a plain type: RegisterTypes.hpp 248-250, CompositeType.cpp 45-48, OneOfType.hpp 109-110 (the
choice, then the value at offset 1), AlternativeType.hpp 269.  Unused bytes of a `OneOf` are zero. -/
def podBytes : Ty → Val → Option Bytes
  | .reg r, .reg v => if inRange r v then some (toLE (regSize r) (v % 2 ^ (8 * regSize r)).toNat) else none
  | .unit, .unit => some []
  | .tuple ts, .seq vs => podFields ts vs
  | .oneOf ts, .tag i v =>
    match podMax ts, podChoice ts i v with
    | some n, some b => if i < 256 then some (i :: (b ++ List.replicate (n - b.length) 0)) else none
    | _, _ => none
  | .alt ts, .tag i v =>
    match podMax ts, podChoice ts i v with
    | some 0, some _ => if i < 256 then some [i] else none
    | _, _ => none
  | _, _ => none
/-- CompositeType.cpp 45-48: the fields of a tuple, one after the other. -/
def podFields : List Ty → List Val → Option Bytes
  | [], [] => some []
  | t :: ts, v :: vs =>
    match podBytes t v, podFields ts vs with
    | some a, some b => some (a ++ b)
    | _, _ => none
  | _, _ => none
/-- The value as one of the choice at index `i`. -/
def podChoice : List Ty → Nat → Val → Option Bytes
  | [], _, _ => none
  | t :: _, 0, v => podBytes t v
  | _ :: ts, i + 1, v => podChoice ts i v
end

/-- Conversion of `regSize r` bytes to the machine type. -/
def regRead (r : Reg) (bs : Bytes) : Int :=
  match r with
  | .int n => Int.bmod (fromLE (bs.take n)) (2 ^ (8 * n))
  | r => fromLE (bs.take (regSize r))

mutual
/-- The value of a plain type that the bytes at the beginning of the list represent. -/
def podRead : Ty → Bytes → Val
  | .reg r, bs => .reg (regRead r bs)
  | .tuple ts, bs => .seq (podReadFields ts bs)
  | .oneOf ts, bs => .tag (bs.headD 0) (podReadChoice ts (bs.headD 0) bs.tail)
  | .alt ts, bs => .tag (bs.headD 0) (podReadChoice ts (bs.headD 0) bs.tail)
  | _, _ => .unit
/-- The fields of a tuple: CompositeType.cpp 45-48. -/
def podReadFields : List Ty → Bytes → List Val
  | [], _ => []
  | t :: ts, bs => podRead t bs :: podReadFields ts (bs.drop ((podSize t).getD 0))
/-- The value of the choice at index `i`. -/
def podReadChoice : List Ty → Nat → Bytes → Val
  | [], _, _ => .unit
  | t :: _, 0, bs => podRead t bs
  | _ :: ts, i + 1, bs => podReadChoice ts i bs
end

/-- TupleOrListOfType.hpp 440-443: the elements' memory, one after the other. -/
def podAll (t : Ty) : List Val → Option Bytes
  | [] => some []
  | v :: vs =>
    match podBytes t v, podAll t vs with
    | some a, some b => some (a ++ b)
    | _, _ => none

/-- TupleOrListOfType.hpp 561: `n` elements of `size` bytes. -/
def podReadAll (t : Ty) (size : Nat) : Nat → Bytes → List Val
  | 0, _ => []
  | n + 1, bs => podRead t bs :: podReadAll t size n (bs.drop size)

/-- The integers of a list of 64-bit integers. -/
def ints : List Val → Option (List Int)
  | [] => some []
  | .reg x :: vs =>
    match ints vs with
    | some xs => if inRange (.int 8) x then some (x :: xs) else none
    | none => none
  | _ :: _ => none

/-- TupleOrListOfType.hpp 429, 524: the element type is the 64-bit integer. -/
def isInt64 : Ty → Bool
  | .reg (.int 8) => true
  | _ => false

/-! ### Serialization -/

/-- Serialize the values of a list one after the other; `g i` writes the value at index `i`. -/
def writeAll (g : Nat → Val → List Nat → Except Err (Bytes × List Nat)) :
    Nat → List Val → List Nat → Except Err (Bytes × List Nat)
  | _, [], m => .ok ([], m)
  | i, v :: vs, m =>
    match g i v m with
    | .error e => .error e
    | .ok (b, m1) =>
      match writeAll g (i + 1) vs m1 with
      | .error e => .error e
      | .ok (b2, m2) => .ok (b ++ b2, m2)

/-- Put bytes around what is written. -/
def wrap (before after : Bytes) : Except Err (Bytes × List Nat) → Except Err (Bytes × List Nat)
  | .error e => .error e
  | .ok (b, m) => .ok (before ++ b ++ after, m)

/-- TupleOrListOfType.hpp 445-455: the elements one by one. -/
def serElts (rec : Ty → Nat → Val → List Nat → Except Err (Bytes × List Nat)) (t : Ty) (vs : List Val) (m : List Nat) :
    Except Err (Bytes × List Nat) :=
  wrap (writeVarintObject 0 vs.length) [] (writeAll (fun _ => rec t 0) 0 vs m)

/-- TupleOrListOfType.hpp 423-444: plain data of `size` bytes per element. -/
def serPlain (t : Ty) (size : Nat) (vs : List Val) (m : List Nat) : Except Err (Bytes × List Nat) :=
  match podAll t vs with
  | none => .error .illTyped
  | some data =>
    if size = 0 then .ok (writeVarintObject 3 vs.length, m)
    else if isInt64 t then
      match ints vs with
      | none => .error .illTyped
      | some xs =>
        match serInts xs with
        | .error e => .error (.wire e)
        | .ok b => .ok (writeVarintObject 1 vs.length ++ b, m)
    else if size * vs.length < 2 ^ 63 then .ok (writeBeginBytes 2 (size * vs.length) ++ data, m)
    else .error .illTyped

/-- TupleOrListOfType.hpp 422-455: the elements of a `TupleOf` or `ListOf`; `inline` is `serializePodListsInline`. -/
def serBody (rec : Ty → Nat → Val → List Nat → Except Err (Bytes × List Nat)) (inline : Bool) (t : Ty) (vs : List Val)
    (m : List Nat) : Except Err (Bytes × List Nat) :=
  if vs.length ≠ 0 ∧ inline = true then
    match podSize t with
    | some size => serPlain t size vs m
    | none => serElts rec t vs m
  else serElts rec t vs m

/-- SerializationBuffer.hpp 347-373 `cachePointer` with TupleOrListOfType.hpp 405-417 and 457, DictType.hpp 188-200 and
211, SetType.hpp 152-164 and 174: a mutable object is written once, with a number; later only the number is written.
The memo is the list of the addresses written so far, and an object's number is its position. -/
def serObject (fld a : Nat) (m : List Nat) (body : List Nat → Except Err (Bytes × List Nat)) :
    Except Err (Bytes × List Nat) :=
  if a ∈ m then .ok (writeBeginSingle fld ++ writeVarintObject 0 (m.idxOf a), m)
  else if m.length < 2 ^ 31 then
    wrap (writeBeginCompound fld ++ writeVarintObject 0 m.length) writeEndCompound (body (m ++ [a]))
  else .error .illTyped

/-- The elements of a dictionary are its keys and values alternately. -/
def kv (k v : Ty) (i : Nat) : Ty := if i % 2 = 0 then k else v

/-- Type.hpp 420-427 `serialize`: dispatch on the type.  `rec` serializes the parts.  RegisterTypes.hpp 261-264;
NoneType.hpp 92-95, ValueType.hpp 74-77; BytesType.hpp 47-51; StringType.hpp 208-237; CompositeType.hpp 153-172;
OneOfType.hpp 120-124; AlternativeType.hpp 187-191; TupleOrListOfType.hpp 395-458; ConstDictType.hpp 119-131; DictType.hpp
184-216; SetType.hpp 148-179. -/
def serStep (env : Nat → Ty) (inline : Bool) (heap : Nat → List Val)
    (rec : Ty → Nat → Val → List Nat → Except Err (Bytes × List Nat)) (ty : Ty) (fld : Nat) (v : Val) (m : List Nat) :
    Except Err (Bytes × List Nat) :=
  match ty, v with
  | .reg r, .reg x => if inRange r x then .ok (writeRegister fld r x, m) else .error .illTyped
  | .unit, .unit => .ok (writeEmpty fld, m)
  | .bytes, .bytes b => if b.length < 2 ^ 31 then .ok (writeBeginBytes fld b.length ++ b, m) else .error .illTyped
  | .str, .str s =>
    if (s.all fun c => c ≤ Str.Spec.maxPoint) && (s.flatMap Str.Spec.utf8).length < 2 ^ 31 then
      match Str.serialize fld (Str.fromPython s) with
      | .error e => .error (.str e)
      | .ok b => .ok (b, m)
    else .error .illTyped
  | .tuple ts, .seq vs =>
    if vs.length = ts.length ∧ ts.length < 2 ^ 31 then
      if ts.length = 0 then .ok (writeEmpty fld, m)
      else if ts.length = 1 then wrap (writeBeginSingle fld) [] (writeAll (fun i => rec (ts.getD i .unit) i) 0 vs m)
      else wrap (writeBeginCompound fld) writeEndCompound (writeAll (fun i => rec (ts.getD i .unit) i) 0 vs m)
    else .error .illTyped
  | .oneOf ts, .tag i x =>
    match ts[i]? with
    | none => .error .illTyped
    | some t => if i < 256 then wrap (writeBeginSingle fld) [] (rec t i x m) else .error .illTyped
  | .alt ts, .tag i x =>
    match ts[i]? with
    | none => .error .illTyped
    | some t => if i < 256 then wrap (writeBeginSingle fld) [] (rec t i x m) else .error .illTyped
  | .tupleOf t, .seq vs =>
    if vs.length < 2 ^ 31 then
      if vs.length = 0 then .ok (writeEmpty fld, m)
      else wrap (writeBeginCompound fld) writeEndCompound (serBody rec inline t vs m)
    else .error .illTyped
  | .listOf t, .ref a =>
    if (heap a).length < 2 ^ 31 then serObject fld a m (serBody rec inline t (heap a)) else .error .illTyped
  | .constDict k w, .seq vs =>
    if vs.length < 2 ^ 31 ∧ vs.length % 2 = 0 then
      wrap (writeBeginCompound fld ++ writeVarintObject 0 (vs.length / 2)) writeEndCompound
        (writeAll (fun i => rec (kv k w i) 0) 0 vs m)
    else .error .illTyped
  | .dict k w, .ref a =>
    if (heap a).length < 2 ^ 31 ∧ (heap a).length % 2 = 0 then
      serObject fld a m fun m1 => wrap (writeVarintObject 0 ((heap a).length / 2)) []
        (writeAll (fun i => rec (kv k w i) 0) 0 (heap a) m1)
    else .error .illTyped
  | .set k, .ref a =>
    if (heap a).length < 2 ^ 31 then
      serObject fld a m fun m1 => wrap (writeVarintObject 0 (heap a).length) [] (writeAll (fun _ => rec k 0) 0 (heap a) m1)
    else .error .illTyped
  | .named n, v => rec (env n) fld v m
  | _, _ => .error .illTyped

/-- Type.hpp 420-427 `serialize` with recursion to the given depth. -/
def ser (env : Nat → Ty) (inline : Bool) (heap : Nat → List Val) :
    Nat → Ty → Nat → Val → List Nat → Except Err (Bytes × List Nat)
  | 0 => fun _ _ _ _ => .error .fuel
  | f + 1 => serStep env inline heap (ser env inline heap f)

/-- _types.cpp 1833-1902 `serialize`: field number 0, nothing written before. -/
def serialize (env : Nat → Ty) (inline : Bool) (heap : Nat → List Val) (depth : Nat) (ty : Ty) (v : Val) : Except Err Bytes :=
  match ser env inline heap depth ty 0 v [] with
  | .error e => .error e
  | .ok (b, _) => .ok b

/-! ### Deserialization -/

/-- What deserialization reads and builds: the rest of the stream, the pointers in the cache (DeserializationBuffer.hpp
339-384), and the objects made so far. -/
structure St where
  bytes : Bytes
  cache : List (Option Nat)
  heap : List (List Val)
  deriving DecidableEq, Repr

/-- DeserializationBuffer.hpp 217-228 `finishCompoundMessage`. -/
def finish (w : Nat) (st : St) : Except Err St :=
  if w = 0 ∨ w = 5 then .ok st
  else
    match Wire.discard (2 * st.bytes.length + 3) st.bytes with
    | .error e => .error (.wire e)
    | .ok (w', bs) => if w' = 7 then .ok { st with bytes := bs } else .error .corrupt

/-- DeserializationBuffer.hpp 246-254: the loop of `consumeCompoundMessage`.  The first argument bounds the iterations;
every round reads a header, so the length of the stream is enough. -/
def consumeLoop {σ : Type} (cb : σ → Nat → Nat → St → Except Err (σ × St)) : Nat → σ → St → Except Err (σ × St)
  | 0, _, _ => .error .fuel
  | n + 1, s, st =>
    match readHeader st.bytes with
    | .error e => .error (.wire e)
    | .ok ((fld, w), bs) =>
      if w = 7 then .ok (s, { st with bytes := bs })
      else
        match cb s fld w { st with bytes := bs } with
        | .error e => .error e
        | .ok (s1, st1) => consumeLoop cb n s1 st1

/-- DeserializationBuffer.hpp 230-255 `consumeCompoundMessage`. -/
def consume {σ : Type} (cb : σ → Nat → Nat → St → Except Err (σ × St)) (w : Nat) (s : σ) (st : St) : Except Err (σ × St) :=
  if w = 0 then .ok (s, st)
  else if w = 5 then
    match readHeader st.bytes with
    | .error e => .error (.wire e)
    | .ok ((fld, w'), bs) => cb s fld w' { st with bytes := bs }
  else if w ≠ 6 then .error .corrupt
  else consumeLoop cb (st.bytes.length + 1) s st

/-- Read `n` messages: TupleOrListOfType.hpp 506-521 under the loop of 220-222. -/
def readN {σ : Type} (cb : σ → Nat → Nat → St → Except Err (σ × St)) : Nat → σ → St → Except Err (σ × St)
  | 0, s, st => .ok (s, st)
  | n + 1, s, st =>
    match readHeader st.bytes with
    | .error e => .error (.wire e)
    | .ok ((fld, w), bs) =>
      match cb s fld w { st with bytes := bs } with
      | .error e => .error e
      | .ok (s1, st1) => readN cb n s1 st1

/-- A number converted to `int32_t`, if that is not negative. -/
def int32 (id : Nat) : Option Nat := if id / 2 ^ 31 % 2 = 0 then some (id % 2 ^ 31) else none

/-- DeserializationBuffer.hpp 339-349 `lookupCachedPointer`: the number is converted to `int32_t`. -/
def lookup (id : Nat) (cache : List (Option Nat)) : Except Err (Option Nat) :=
  match int32 id with
  | none => .error .corrupt
  | some i => .ok ((cache[i]?).getD none)

/-- DeserializationBuffer.hpp 360-384 `addCachedPointer`: the number is converted to `int32_t`. -/
def addCached (id a : Nat) (cache : List (Option Nat)) : Except Err (List (Option Nat)) :=
  match int32 id with
  | none => .error .corrupt
  | some i =>
    if i > cache.length + 1000000 then .error .corrupt
    else
      match ((cache ++ List.replicate (i + 1 - cache.length) none)[i]?).getD none with
      | some _ => .error .corrupt
      | none => .ok ((cache ++ List.replicate (i + 1 - cache.length) none).set i (some a))

/-- Allocate an object and remember it under `id`: TupleOrListOfType.hpp 500-503, 507-510, 531-534; DictType.hpp 241-245;
SetType.hpp 208-212.  Its contents are filled in when they are complete; nothing looks at them before that. -/
def alloc (id : Nat) (st : St) : Except Err (Nat × St) :=
  match addCached id st.heap.length st.cache with
  | .error e => .error e
  | .ok cache => .ok (st.heap.length, { st with cache := cache, heap := st.heap ++ [[]] })

/-- Store the contents of an object. -/
def fill (a : Nat) (vs : List Val) (st : St) : St := { st with heap := st.heap.set a vs }

/-- TupleOrListOfType.hpp 512-520: one element of a list; the values read so far are the state. -/
def eltCb (rec : Ty → Nat → St → Except Err (Val × St)) (t : Ty) (vs : List Val) (fld w : Nat) (st : St) :
    Except Err (List Val × St) :=
  if fld ≠ 0 then .error .corrupt
  else if w = 7 then .error .corrupt
  else
    match rec t w st with
    | .error e => .error e
    | .ok (v, st1) => .ok (vs ++ [v], st1)

/-- TupleOrListOfType.hpp 493-579: the elements, after the field number `fld` and the count. -/
def deserBody (rec : Ty → Nat → St → Except Err (Val × St)) (t : Ty) (fld ct : Nat) (st : St) :
    Except Err (List Val × St) :=
  if ct = 0 then (if fld = 0 then .ok ([], st) else .error .corrupt)
  else if fld = 0 then readN (eltCb rec t) ct [] st
  else if fld = 1 then
    if isInt64 t then
      match deserInts ct st.bytes with
      | .error e => .error (.wire e)
      | .ok (xs, bs) => .ok (xs.map .reg, { st with bytes := bs })
    else .error .corrupt
  else if fld = 2 then
    match podSize t with
    | none => .error .corrupt
    | some size =>
      if size = 0 then .error .undefined
      else if ct / size * size ≠ ct then .error .corrupt
      else
        match readBytes ct st.bytes with
        | .error e => .error (.wire e)
        | .ok (data, bs) => .ok (podReadAll t size (ct / size) data, { st with bytes := bs })
  else if fld = 3 then
    if podSize t = some 0 then .ok (podReadAll t 0 ct [], st) else .error .corrupt
  else .error .corrupt

/-- TupleOrListOfType.hpp 489-491: the field number and the count, then the elements. -/
def deserSeq (rec : Ty → Nat → St → Except Err (Val × St)) (t : Ty) (st : St) : Except Err (List Val × St) :=
  match readHeader st.bytes with
  | .error e => .error (.wire e)
  | .ok ((fld, _), bs) =>
    match readVarint bs with
    | .error e => .error (.wire e)
    | .ok (ct, bs1) => deserBody rec t fld ct { st with bytes := bs1 }

/-- TupleOrListOfType.hpp 460-588 for a `TupleOf`. -/
def deserTupleOf (rec : Ty → Nat → St → Except Err (Val × St)) (t : Ty) (w : Nat) (st : St) : Except Err (Val × St) :=
  if w = 0 then .ok (.seq [], st)
  else if w ≠ 6 ∧ w ≠ 5 then .error (.wire .badWire)
  else
    match deserSeq rec t st with
    | .error e => .error e
    | .ok (vs, st1) =>
      match finish w st1 with
      | .error e => .error e
      | .ok st2 => .ok (.seq vs, st2)

/-- TupleOrListOfType.hpp 460-588 for a `ListOf`. -/
def deserListOf (rec : Ty → Nat → St → Except Err (Val × St)) (t : Ty) (w : Nat) (st : St) : Except Err (Val × St) :=
  if w ≠ 6 ∧ w ≠ 5 then .error (.wire .badWire)
  else
    match readVarintObject st.bytes with
    | .error e => .error (.wire e)
    | .ok (id, bs) =>
      match lookup id st.cache with
      | .error e => .error e
      | .ok (some a) =>
        match finish w { st with bytes := bs } with
        | .error e => .error e
        | .ok st1 => .ok (.ref a, st1)
      | .ok none =>
        match alloc id { st with bytes := bs } with
        | .error e => .error e
        | .ok (a, st1) =>
          match deserSeq rec t st1 with
          | .error e => .error e
          | .ok (vs, st2) =>
            match finish w st2 with
            | .error e => .error e
            | .ok st3 => .ok (.ref a, fill a vs st3)

/-- CompositeType.hpp 128-136: one field of a tuple; the state is the fields read so far. -/
def fieldCb (rec : Ty → Nat → St → Except Err (Val × St)) (ts : List Ty) (slots : List (Option Val)) (fld w : Nat) (st : St) :
    Except Err (List (Option Val) × St) :=
  match ts[fld]? with
  | some t =>
    match rec t w st with
    | .error e => .error e
    | .ok (v, st1) => .ok (slots.set fld (some v), st1)
  | none =>
    match Wire.discardBody (2 * st.bytes.length + 3) w st.bytes with
    | .error e => .error (.wire e)
    | .ok bs => .ok (slots, { st with bytes := bs })

/-- CompositeType.hpp 138-142: default values for the fields that were not in the message. -/
def fillIn (dflt : Ty → St → Except Err (Val × St)) : List Ty → List (Option Val) → St → Except Err (List Val × St)
  | t :: ts, s :: ss, st =>
    match s with
    | some v =>
      match fillIn dflt ts ss st with
      | .error e => .error e
      | .ok (vs, st1) => .ok (v :: vs, st1)
    | none =>
      match dflt t st with
      | .error e => .error e
      | .ok (v, st1) =>
        match fillIn dflt ts ss st1 with
        | .error e => .error e
        | .ok (vs, st2) => .ok (v :: vs, st2)
  | _, _, st => .ok ([], st)

/-- CompositeType.hpp 119-143. -/
def deserTuple (dflt : Ty → St → Except Err (Val × St)) (rec : Ty → Nat → St → Except Err (Val × St)) (ts : List Ty) (w : Nat)
    (st : St) : Except Err (Val × St) :=
  match consume (fieldCb rec ts) w (List.replicate ts.length none) st with
  | .error e => .error e
  | .ok (slots, st1) =>
    match fillIn dflt ts slots st1 with
    | .error e => .error e
    | .ok (vs, st2) => .ok (.seq vs, st2)

/-- OneOfType.hpp 103-113: the callback; the state is the value, once it has been read.  A message with an unknown field
number is not consumed. -/
def oneOfCb (rec : Ty → Nat → St → Except Err (Val × St)) (ts : List Ty) (hit : Option Val) (fld w : Nat) (st : St) :
    Except Err (Option Val × St) :=
  match hit with
  | some _ => .error .corrupt
  | none =>
    match ts[fld]? with
    | none => .ok (none, st)
    | some t =>
      match rec t w st with
      | .error e => .error e
      | .ok (v, st1) => .ok (some (.tag (fld % 256) v), st1)

/-- OneOfType.hpp 99-118. -/
def deserOneOf (dflt : Ty → St → Except Err (Val × St)) (rec : Ty → Nat → St → Except Err (Val × St)) (ts : List Ty) (w : Nat)
    (st : St) : Except Err (Val × St) :=
  match consume (oneOfCb rec ts) w none st with
  | .error e => .error e
  | .ok (some v, st1) => .ok (v, st1)
  | .ok (none, st1) => dflt (.oneOf ts) st1

/-- AlternativeType.hpp 255-286; the choice is stored in a byte if no case has any data (269). -/
def deserAlt (rec : Ty → Nat → St → Except Err (Val × St)) (ts : List Ty) (w : Nat) (st : St) : Except Err (Val × St) :=
  if w ≠ 5 then .error .corrupt
  else
    match readHeader st.bytes with
    | .error e => .error (.wire e)
    | .ok ((fld, w'), bs) =>
      match ts[fld]? with
      | none => .error .corrupt
      | some t =>
        match rec t w' { st with bytes := bs } with
        | .error e => .error e
        | .ok (v, st1) => .ok (.tag (if podMax ts = some 0 then fld % 256 else fld) v, st1)

/-- The state of the callbacks of ConstDictType.hpp 251-267, DictType.hpp 225-259 and SetType.hpp 192-221: messages read,
the object's number, the object if it was in the cache, the object that was made, the announced count, and the items. -/
structure Items where
  read : Nat
  id : Nat
  known : Option Nat
  made : Option Nat
  count : Nat
  vals : List Val

/-- DeserializationBuffer.hpp 260-273 `consumeCompoundMessageWithImpliedFieldNumbers` with ConstDictType.hpp 251-267: the
first message is the count, then keys and values alternate. -/
def constDictCb (rec : Ty → Nat → St → Except Err (Val × St)) (k w : Ty) (s : Items) (fld wire : Nat) (st : St) :
    Except Err (Items × St) :=
  if fld ≠ 0 then .error .corrupt
  else if s.read = 0 then
    if wire ≠ 1 then .error .corrupt
    else
      match readVarint st.bytes with
      | .error e => .error (.wire e)
      | .ok (ct, bs) => .ok ({ s with read := 1, count := ct }, { st with bytes := bs })
  else if s.count * 2 < s.read then .error .undefined
  else
    match rec (kv k w (s.read - 1)) wire st with
    | .error e => .error e
    | .ok (v, st1) => .ok ({ s with read := s.read + 1, vals := s.vals ++ [v] }, st1)

/-- ConstDictType.hpp 246-274. -/
def deserConstDict (rec : Ty → Nat → St → Except Err (Val × St)) (k w : Ty) (wire : Nat) (st : St) : Except Err (Val × St) :=
  match consume (constDictCb rec k w) wire ⟨0, 0, none, none, 0, []⟩ st with
  | .error e => .error e
  | .ok (s, st1) => if s.read = 0 ∨ (s.read - 1) / 2 ≠ s.count then .error .corrupt else .ok (.seq s.vals, st1)

/-- DictType.hpp 225-259 (`per` = 2) and SetType.hpp 192-221 (`per` = 1): the first message is the object's number, the
second the number of items, the others are the items, each of `per` messages. -/
def itemsCb (rec : Ty → Nat → St → Except Err (Val × St)) (per : Nat) (ty : Nat → Ty) (s : Items) (fld wire : Nat) (st : St) :
    Except Err (Items × St) :=
  if fld ≠ 0 then .error .corrupt
  else if s.read = 0 then
    if wire ≠ 1 then .error (.wire .badWire)
    else
      match readVarint st.bytes with
      | .error e => .error (.wire e)
      | .ok (id, bs) =>
        match lookup id st.cache with
        | .error e => .error e
        | .ok known => .ok ({ s with read := 1, id := id, known := known }, { st with bytes := bs })
  else if s.read = 1 then
    if wire ≠ 1 then .error (.wire .badWire)
    else
      match readVarint st.bytes with
      | .error e => .error (.wire e)
      | .ok (ct, bs) =>
        match alloc s.id { st with bytes := bs } with
        | .error e => .error e
        | .ok (a, st1) => .ok ({ s with read := 2, count := ct, made := some a }, st1)
  else if s.count * per ≤ s.read - 2 then .error .undefined
  else
    match rec (ty (s.read - 2)) wire st with
    | .error e => .error e
    | .ok (v, st1) => .ok ({ s with read := s.read + 1, vals := s.vals ++ [v] }, st1)

/-- DictType.hpp 218-272 and SetType.hpp 185-234; `valuesRead - 2` is `size_t` arithmetic. -/
def deserItems (rec : Ty → Nat → St → Except Err (Val × St)) (per : Nat) (ty : Nat → Ty) (wire : Nat) (st : St) :
    Except Err (Val × St) :=
  match consume (itemsCb rec per ty) wire ⟨0, 0, none, none, 0, []⟩ st with
  | .error e => .error e
  | .ok (s, st1) =>
    match s.known with
    | some a => .ok (.ref a, st1)
    | none =>
      if ((s.read + 2 ^ 64 - 2) % 2 ^ 64) / per ≠ s.count then .error .corrupt
      else
        match s.made with
        | none => .error .undefined
        | some a => .ok (.ref a, fill a s.vals st1)

/-- Type.hpp 445-452 `deserialize`: dispatch on the type.  RegisterTypes.hpp 256-259; NoneType.hpp 87-90, ValueType.hpp
79-82; BytesType.hpp 115-132; StringType.hpp 270-280. -/
def deserStep (env : Nat → Ty) (dflt : Ty → St → Except Err (Val × St)) (rec : Ty → Nat → St → Except Err (Val × St))
    (ty : Ty) (w : Nat) (st : St) : Except Err (Val × St) :=
  match ty with
  | .reg r =>
    match readRegister r w st.bytes with
    | .error e => .error (.wire e)
    | .ok (x, bs) => .ok (.reg x, { st with bytes := bs })
  | .unit => if w = 0 then .ok (.unit, st) else .error (.wire .badWire)
  | .bytes =>
    if w ≠ 4 then .error .corrupt
    else
      match readVarint st.bytes with
      | .error e => .error (.wire e)
      | .ok (n, bs) =>
        match readBytes n bs with
        | .error _ => .error .corrupt
        | .ok (d, bs1) => .ok (.bytes d, { st with bytes := bs1 })
  | .str =>
    match Str.deserialize w st.bytes with
    | .error e => .error (.str e)
    | .ok (s, bs) => .ok (.str (Str.text s), { st with bytes := bs })
  | .tuple ts => deserTuple dflt rec ts w st
  | .oneOf ts => deserOneOf dflt rec ts w st
  | .alt ts => deserAlt rec ts w st
  | .tupleOf t => deserTupleOf rec t w st
  | .listOf t => deserListOf rec t w st
  | .constDict k v => deserConstDict rec k v w st
  | .dict k v => deserItems rec 2 (kv k v) w st
  | .set k => deserItems rec 1 (fun _ => k) w st
  | .named n => rec (env n) w st

/-- Type.hpp 445-452 `deserialize` with recursion to the given depth; `dflt` makes the default value of a type. -/
def deser (env : Nat → Ty) (dflt : Ty → St → Except Err (Val × St)) : Nat → Ty → Nat → St → Except Err (Val × St)
  | 0 => fun _ _ _ => .error .fuel
  | f + 1 => deserStep env dflt (deser env dflt f)

/-- _types.cpp 2162-2200 `deserialize`: the field number of the outermost message is ignored. -/
def deserialize (env : Nat → Ty) (dflt : Ty → St → Except Err (Val × St)) (depth : Nat) (ty : Ty) (bytes : Bytes) :
    Except Err (Val × St) :=
  match readHeader bytes with
  | .error e => .error (.wire e)
  | .ok ((_, w), bs) => deser env dflt depth ty w ⟨bs, [], []⟩

end Verif.Typed
