import Verif.Bytes.Find
import Verif.Bytes.Spec
/-
Splitting and joining bytes: model.
/repo/typed_python/BytesType.cpp 99-366.

Simplification: a position in the bytes is represented by what is left of them, from there to the end (`split`, `splitlines`) or
from there to the beginning (`rsplit`, in reverse order). The list that takes the pieces grows as the list of C02 does.
-/
namespace Verif.Bytes

/-- BytesType.cpp:119, 143, 197: `std::isspace` in the C locale; 221-228: the same bytes, written out. -/
def isspace (c : Nat) : Bool := c = 32 ∨ (9 ≤ c ∧ c ≤ 13)

/-- BytesType.cpp:221-228: the white space of `rsplit`. -/
def rspace (c : Nat) : Bool := c = 10 ∨ c = 13 ∨ c = 9 ∨ c = 32 ∨ c = 11 ∨ c = 12

/-- BytesType.cpp:134-136, 143-145, 212-214, 221-231: how many bytes are passed over until one is `hit`, or none are left. -/
def scanByte (hit : Nat → Bool) : List Nat → Nat
  | [] => 0
  | c :: t => if hit c then 0 else scanByte hit t + 1

/-- BytesType.cpp:138-140, 216-218: how many bytes are passed over while the separator still fits but does
not stand there. -/
def scanSep (sep : List Nat) : List Nat → Nat
  | [] => 0
  | c :: t => if sep.length ≤ (c :: t).length ∧ (c :: t).take sep.length ≠ sep then scanSep sep t + 1 else 0

/-- BytesType.cpp:132-146: the scan from `cur` to `match`. -/
def scan (sep : B) (rest : List Nat) : Nat :=
  match sep with
  | none => scanByte isspace rest
  | some s => if s.length = 1 then scanByte (· == s.headD 0) rest else scanSep s rest

/-- BytesType.cpp:115, 190: `sepLen`. -/
def sepLen : B → Nat
  | none => 1
  | some s => s.length

/-- BytesType.cpp:172-176: the remainder. -/
def remainder (sep : B) (rest : List Nat) (out : List B) : List B :=
  if sep ≠ none ∨ rest ≠ [] then out ++ [some rest] else out

/-- BytesType.cpp:129-168 and 172-176: the loop of `split`, and the remainder. -/
def splitLoop (sep : B) (max : Int) : Nat → List Nat → Int → List B → Except Err (List B)
  | 0, _, _, _ => .error .hang
  | fuel + 1, rest, count, out =>
    if rest = [] then .ok (remainder sep rest out)
    else
      let m := scan sep rest
      if m + sepLen sep > rest.length then .ok (remainder sep rest out)
      else if sep ≠ none ∨ m ≠ 0 then
        let out' := out ++ [some (rest.take m)]
        let rest' := rest.drop (m + sepLen sep)
        if max ≥ 0 ∧ count + 1 ≥ max then .ok (remainder sep rest' out')
        else splitLoop sep max fuel rest' (count + 1) out'
      else splitLoop sep max fuel (rest.drop 1) count out

/-- BytesType.cpp:103-177 `split`. -/
def split (x sep : B) (max : Int) : Except Err (List B) :=
  if max = 0 then
    let rest := if sep = none then (text x).dropWhile isspace else text x
    .ok (if rest ≠ [] then [some rest] else [])
  else splitLoop sep max ((text x).length + 1) (text x) 0 []

/-- BytesType.cpp:210-232: the scan of `rsplit` from `cur` down to `match`; `rest` is in reverse order. -/
def rscan (sep : B) (rest : List Nat) : Nat :=
  match sep with
  | none => scanByte rspace rest
  | some s => if s.length = 1 then scanByte (· == s.headD 0) rest else scanSep s.reverse rest

/-- BytesType.cpp:254-258: the remainder. -/
def rremainder (sep : B) (rest : List Nat) (out : List B) : List B :=
  if sep ≠ none ∨ rest ≠ [] then out ++ [some rest.reverse] else out

/-- BytesType.cpp:207-253 and 254-258: the loop of `rsplit`, and the remainder. -/
def rsplitLoop (sep : B) (max : Int) : Nat → List Nat → Int → List B → Except Err (List B)
  | 0, _, _, _ => .error .hang
  | fuel + 1, rest, count, out =>
    if rest = [] then .ok (rremainder sep rest out)
    else
      let m := rscan sep rest
      if m + sepLen sep > rest.length then .ok (rremainder sep rest out)
      else if sep ≠ none ∨ m ≠ 0 then
        let out' := out ++ [some (rest.take m).reverse]
        let rest' := rest.drop (m + sepLen sep)
        if max ≥ 0 ∧ count + 1 ≥ max then .ok (rremainder sep rest' out')
        else rsplitLoop sep max fuel rest' (count + 1) out'
      else rsplitLoop sep max fuel (rest.drop 1) count out

/-- BytesType.cpp:181-260 `rsplit`. -/
def rsplit (x sep : B) (max : Int) : Except Err (List B) :=
  if max = 0 then
    let rest := if sep = none then (text x).reverse.dropWhile isspace else (text x).reverse
    .ok (if rest ≠ [] then [some rest.reverse] else [])
  else
    match rsplitLoop sep max ((text x).length + 1) (text x).reverse 0 [] with
    | .error e => .error e
    | .ok out => .ok out.reverse

/-- bytes_wrapper.py:1490-1526: the compiled methods. An empty separator raises ValueError, and None is the null pointer. -/
def splitMethod (f : B → B → Int → Except Err (List B)) (x : B) (sep : Option B) (max : Int) : Except Err (List B) :=
  match sep with
  | none => f x none max
  | some s => if (text s).length = 0 then .error .value else f x s max

/-- BytesType.cpp:275-308: the loop of `splitlines`, and the remainder. -/
def linesLoop (keep : Bool) : Nat → List Nat → List B → Except Err (List B)
  | 0, _, _ => .error .hang
  | fuel + 1, rest, out =>
    if rest = [] then .ok out
    else
      let m := scanByte (fun c => c = 10 ∨ c = 13) rest
      let n := if m < rest.length then (if rest[m]? = some 13 ∧ rest[m + 1]? = some 10 then 2 else 1) else 0
      if m + n > rest.length then .ok (out ++ [some rest])
      else linesLoop keep fuel (rest.drop (m + n)) (out ++ [some (rest.take (m + if keep then n else 0))])

/-- BytesType.cpp:264-309 `splitlines`. -/
def splitlines (x : B) (keep : Bool) : Except Err (List B) := linesLoop keep ((text x).length + 1) (text x) []

/-- BytesType.cpp:326-339: the size of the result of `join`. -/
def joinSize (sep : B) (parts : List B) : Nat :=
  (parts.map fun p => (text p).length).sum + (if sep = none then 0 else (text sep).length * (parts.length - 1))

/-- BytesType.cpp:350-365: the loop of `join`: `i` is the number of the part, `n` how many there are, `size` what fits into the
result. -/
def joinLoop (sep : B) (n size : Nat) : Nat → List B → List Nat → Except Err (List Nat)
  | _, [], out => .ok out
  | i, p :: ps, out =>
    let out := out ++ text p
    let out := if sep ≠ none ∧ i ≠ n - 1 then out ++ text sep else out
    if out.length > size then .error .oob else joinLoop sep n size (i + 1) ps out

/-- BytesType.cpp:311-366 `join`. -/
def join (sep : B) (parts : List B) : Except Err B :=
  if parts = [] then .ok none
  else
    match joinLoop sep parts.length (joinSize sep parts) 0 parts [] with
    | .error e => .error e
    | .ok out => .ok (some out)

end Verif.Bytes
