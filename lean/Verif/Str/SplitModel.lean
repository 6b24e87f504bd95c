import Verif.Str.Slice
/-
Splitting and joining of compiled strings (C23): model.
/repo/typed_python/StringType.cpp 618-806, 1659-1752; string_wrapper.py 40-56, 233-250, 883-919.

Simplifications: whether a character is white space is a parameter (the table `uprops`); loops without a bound get fuel, and
the error `hang` when it runs out; counts that do not fit 32 bits are not modelled.
-/
namespace Verif.Str

/-- The list the pieces are put in: how much is reserved, and the pieces. -/
structure Out where
  reserved : Nat
  pieces : List Str

/-- StringType.cpp:654-657, 676-679, 719-722, 741-744, 791-795: put a piece at the end, growing the list before. -/
def push (grow : Nat → Nat) (out : Out) (p : Str) : Except Err Out :=
  let reserved := if out.pieces.length = out.reserved then grow out.reserved else out.reserved
  if out.pieces.length < reserved then .ok ⟨reserved, out.pieces ++ [p]⟩ else .error .oob

/-- StringType.cpp:655, 720, 792: `reserved * 1.5`. -/
def byHalf (n : Nat) : Nat := n * 3 / 2

/-- Take the substring and put it in the list. -/
def pushSubstr (grow : Nat → Nat) (out : Out) (l : Str) (start stop : Int) : Except Err Out :=
  match getsubstr l start stop with
  | .error e => .error e
  | .ok p => push grow out p

/-- StringType.cpp:643, 648, 772: the first position from `i` on with a character to stop at, or the length; `n` to go. -/
def scan (stop : Nat → Bool) (ps : List Nat) : Nat → Nat → Except Err Nat
  | 0, i => .ok i
  | n + 1, i =>
    match ps[i]? with
    | none => .error .oob
    | some c => if stop c then .ok i else scan stop ps n (i + 1)

/-- StringType.cpp:642-647: where the separator is next. -/
def nextSep (l sep : Str) (cur : Nat) : Except Err Nat :=
  if oneByte l sep then scan (· == (text sep).headD 0) (text l) ((text l).length - cur) cur
  else
    match find l sep cur (text l).length with
    | .error e => .error e
    | .ok r => .ok (if r = -1 then (text l).length else r.toNat)

/-- StringType.cpp:639-668 with a separator. The result is `cur` and the list. -/
def splitLoop (l sep : Str) (max : Int) : Nat → Nat → Nat → Out → Except Err (Nat × Out)
  | 0, _, _, _ => .error .hang
  | fuel + 1, cur, count, out =>
    if ((count : Int) < max ∨ max < 0) ∧ cur < (text l).length then
      match nextSep l sep cur with
      | .error e => .error e
      | .ok m =>
        if m ≥ (text l).length then .ok (cur, out)
        else
          match pushSubstr byHalf out l cur m with
          | .error e => .error e
          | .ok out' =>
            if max ≥ 0 ∧ ((count + 1 : Nat) : Int) ≥ max then .ok (m + (text sep).length, out')
            else splitLoop l sep max fuel (m + (text sep).length) (count + 1) out'
    else .ok (cur, out)

/-- StringType.cpp:674-680 with a separator: the remainder. -/
def splitRest (l : Str) : Except Err (Nat × Out) → Except Err Out
  | .error e => .error e
  | .ok (cur, out) => pushSubstr (· + 1) out l cur (text l).length

/-- StringType.cpp:618-681 `split` with a separator; string_wrapper.py:895-897: `none` is ValueError. -/
def split (l sep : Str) (max : Int) : Except Err (Option (List Str)) :=
  if (text sep).length = 0 then .ok none
  else if (text l).length = 0 then .ok (some [l])
  else
    match splitRest l (splitLoop l sep max ((text l).length + 1) 0 0 ⟨10, []⟩) with
    | .error e => .error e
    | .ok out => .ok (some out.pieces)

/-- StringType.cpp:639-668 without a separator. -/
def wordsLoop (space : Nat → Bool) (l : Str) (max : Int) : Nat → Nat → Nat → Out → Except Err (Nat × Out)
  | 0, _, _, _ => .error .hang
  | fuel + 1, cur, count, out =>
    if ((count : Int) < max ∨ max < 0) ∧ cur < (text l).length then
      match scan space (text l) ((text l).length - cur) cur with
      | .error e => .error e
      | .ok m =>
        if m ≥ (text l).length then .ok (cur, out)
        else if m ≠ cur then
          match pushSubstr byHalf out l cur m with
          | .error e => .error e
          | .ok out' =>
            if max ≥ 0 ∧ ((count + 1 : Nat) : Int) ≥ max then .ok (m + 1, out')
            else wordsLoop space l max fuel (m + 1) (count + 1) out'
        else wordsLoop space l max fuel (cur + 1) count out
    else .ok (cur, out)

/-- StringType.cpp:669-680 without a separator: skip white space; the remainder. -/
def wordsRest (space : Nat → Bool) (l : Str) (max : Int) : Except Err (Nat × Out) → Except Err Out
  | .error e => .error e
  | .ok (cur, out) =>
    match scan (fun c => !space c) (text l) ((text l).length - cur) cur with
    | .error e => .error e
    | .ok cur =>
      if cur < (text l).length ∨ max = 0 then pushSubstr (· + 1) out l cur (text l).length else .ok out

/-- StringType.cpp:618-681 `split` without a separator. -/
def splitWords (space : Nat → Bool) (l : Str) (max : Int) : Except Err (List Str) :=
  if (text l).length = 0 then .ok []
  else
    match wordsRest space l max (wordsLoop space l max ((text l).length + 1) 0 0 ⟨10, []⟩) with
    | .error e => .error e
    | .ok out => .ok out.pieces

/-- StringType.cpp:708, 713, 735: the last position before `n` with a character to stop at, or -1. -/
def rscan (stop : Nat → Bool) (ps : List Nat) : Nat → Except Err Int
  | 0 => .ok (-1)
  | n + 1 =>
    match ps[n]? with
    | none => .error .oob
    | some c => if stop c then .ok n else rscan stop ps n

/-- StringType.cpp:707-712: the end of the separator before. -/
def prevSep (l sep : Str) (cur : Int) : Except Err Int :=
  if oneByte l sep then rscan (· == (text sep).headD 0) (text l) (cur + 1).toNat
  else
    match rfind l sep 0 (cur + 1) with
    | .error e => .error e
    | .ok r => .ok (if r ≠ -1 then r + ((text sep).length - 1) else r)

/-- StringType.cpp:704-733 with a separator. -/
def rsplitLoop (l sep : Str) (max : Int) : Nat → Int → Nat → Out → Except Err (Int × Out)
  | 0, _, _, _ => .error .hang
  | fuel + 1, cur, count, out =>
    if ((count : Int) < max ∨ max < 0) ∧ cur ≥ 0 then
      match prevSep l sep cur with
      | .error e => .error e
      | .ok m =>
        if m < 0 then .ok (cur, out)
        else
          match pushSubstr byHalf out l (m + 1) (cur + 1) with
          | .error e => .error e
          | .ok out' =>
            if max ≥ 0 ∧ ((count + 1 : Nat) : Int) ≥ max then .ok (m - (text sep).length, out')
            else rsplitLoop l sep max fuel (m - (text sep).length) (count + 1) out'
    else .ok (cur, out)

/-- StringType.cpp:739-745 with a separator. -/
def rsplitRest (l : Str) : Except Err (Int × Out) → Except Err Out
  | .error e => .error e
  | .ok (cur, out) => pushSubstr (· + 1) out l 0 (cur + 1)

/-- StringType.cpp:683-747 `rsplit` with a separator. -/
def rsplit (l sep : Str) (max : Int) : Except Err (Option (List Str)) :=
  if (text sep).length = 0 then .ok none
  else if (text l).length = 0 then .ok (some [l])
  else
    match rsplitRest l (rsplitLoop l sep max ((text l).length + 1) ((text l).length - 1) 0 ⟨10, []⟩) with
    | .error e => .error e
    | .ok out => .ok (some out.pieces.reverse)

/-- StringType.cpp:704-733 without a separator. -/
def rwordsLoop (space : Nat → Bool) (l : Str) (max : Int) : Nat → Int → Nat → Out → Except Err (Int × Out)
  | 0, _, _, _ => .error .hang
  | fuel + 1, cur, count, out =>
    if ((count : Int) < max ∨ max < 0) ∧ cur ≥ 0 then
      match rscan space (text l) (cur + 1).toNat with
      | .error e => .error e
      | .ok m =>
        if m < 0 then .ok (cur, out)
        else if m ≠ cur then
          match pushSubstr byHalf out l (m + 1) (cur + 1) with
          | .error e => .error e
          | .ok out' =>
            if max ≥ 0 ∧ ((count + 1 : Nat) : Int) ≥ max then .ok (m - 1, out')
            else rwordsLoop space l max fuel (m - 1) (count + 1) out'
        else rwordsLoop space l max fuel (cur - 1) count out
    else .ok (cur, out)

/-- StringType.cpp:734-745 without a separator. -/
def rwordsRest (space : Nat → Bool) (l : Str) (max : Int) : Except Err (Int × Out) → Except Err Out
  | .error e => .error e
  | .ok (cur, out) =>
    match rscan (fun c => !space c) (text l) (cur + 1).toNat with
    | .error e => .error e
    | .ok cur => if cur ≥ 0 ∨ max = 0 then pushSubstr (· + 1) out l 0 (cur + 1) else .ok out

/-- StringType.cpp:683-747 `rsplit` without a separator. -/
def rsplitWords (space : Nat → Bool) (l : Str) (max : Int) : Except Err (List Str) :=
  if (text l).length = 0 then .ok []
  else
    match rwordsRest space l max (rwordsLoop space l max ((text l).length + 1) ((text l).length - 1) 0 ⟨10, []⟩) with
    | .error e => .error e
    | .ok out => .ok out.pieces.reverse

/-- StringType.cpp:749-755 `linebreak`. -/
def linebreak (c : Nat) : Bool :=
  c == 10 || c == 13 || c == 0x0B || c == 0x0C || c == 0x1C || c == 0x1D || c == 0x1E || c == 0x85 || c == 0x2028 || c == 0x2029

/-- StringType.cpp:775-783: how long the line end at `m` is. -/
def sepLen (ps : List Nat) (m : Nat) : Nat :=
  if m < ps.length then (if ps[m]? = some 13 ∧ m + 1 < ps.length ∧ ps[m + 1]? = some 10 then 2 else 1) else 0

/-- StringType.cpp:769-797: the loop of `splitlines`. -/
def linesLoop (l : Str) (keep : Bool) : Nat → Nat → Out → Except Err (Nat × Out)
  | 0, _, _ => .error .hang
  | fuel + 1, cur, out =>
    if cur < (text l).length then
      match scan linebreak (text l) ((text l).length - cur) cur with
      | .error e => .error e
      | .ok m =>
        if m + sepLen (text l) m > (text l).length then .ok (cur, out)
        else
          match pushSubstr byHalf out l cur ((m + if keep then sepLen (text l) m else 0 : Nat) : Int) with
          | .error e => .error e
          | .ok out' => linesLoop l keep fuel (m + sepLen (text l) m) out'
    else .ok (cur, out)

/-- StringType.cpp:798-805: the remainder, which is put in the list twice. -/
def linesRest (l : Str) : Except Err (Nat × Out) → Except Err (List Str)
  | .error e => .error e
  | .ok (cur, out) =>
    if (text l).length ≠ cur then
      match pushSubstr (· + 1) out l cur (text l).length with
      | .error e => .error e
      | .ok out' =>
        match pushSubstr (fun n => n) out' l cur (text l).length with
        | .error e => .error e
        | .ok out'' => .ok out''.pieces
    else .ok out.pieces

/-- StringType.cpp:759-806 `splitlines`. -/
def splitlines (l : Str) (keep : Bool) : Except Err (List Str) :=
  linesRest l (linesLoop l keep ((text l).length + 1) 0 ⟨10, []⟩)

/-- StringType.cpp:1675-1681: the width of the separator. -/
def sepWidth : Str → Nat
  | none => 0
  | some l => max 0 l.width

/-- StringType.cpp:1683-1690: the greatest width. -/
def joinWidth (sep : Str) (items : List Str) : Nat := items.foldl (fun m s => max m (width s)) (sepWidth sep)

/-- StringType.cpp:1697-1707: convert the items. -/
def upgradeAll (w : Nat) : List Str → Except Err (List Str)
  | [] => .ok []
  | s :: t =>
    match upgrade s w with
    | .error e => .error e
    | .ok s' =>
      match upgradeAll w t with
      | .error e => .error e
      | .ok t' => .ok (s' :: t')

/-- StringType.cpp:1727-1744: what is copied, in order: the separator follows every item but the last. -/
def joinCopy (sep : Str) : List Str → List Nat
  | [] => []
  | [s] => text s
  | s :: t => text s ++ text sep ++ joinCopy sep t

/-- StringType.cpp:1692, 1703-1706, 1712-1715: the length of the result. -/
def joinLength (sep : Str) (items : List Str) : Nat :=
  (items.map (fun s => (text s).length)).sum + (text sep).length * (items.length - 1)

/-- StringType.cpp:1659-1752 `join`. Copying anything else than the reserved number of code points is `oob`. -/
def join (sep : Str) (items : List Str) : Except Err Str :=
  if items.length = 0 then .ok none
  else
    match upgradeAll (joinWidth sep items) items with
    | .error e => .error e
    | .ok items' =>
      match upgrade sep (joinWidth sep items) with
      | .error e => .error e
      | .ok sep' =>
        if (joinCopy sep' items').length ≠ joinLength sep items then .error .oob
        else .ok (some ⟨joinWidth sep items, joinCopy sep' items'⟩)

/-- Three strings out of `getsubstr`. -/
def parts (x sep : Str) (pos : Int) : Except Err (Option (Str × Str × Str)) :=
  match getsubstr x 0 pos with
  | .error e => .error e
  | .ok a =>
    match getsubstr x (pos + (text sep).length) (text x).length with
    | .error e => .error e
    | .ok b => .ok (some (a, sep, b))

/-- string_wrapper.py:233-240 `strPartition`; `none` is ValueError. -/
def partition (x sep : Str) : Except Err (Option (Str × Str × Str)) :=
  if (text sep).length = 0 then .ok none
  else
    match find x sep 0 (text x).length with
    | .error e => .error e
    | .ok pos => if pos = -1 then .ok (some (x, none, none)) else parts x sep pos

/-- string_wrapper.py:243-250 `strRpartition`. -/
def rpartition (x sep : Str) : Except Err (Option (Str × Str × Str)) :=
  if (text sep).length = 0 then .ok none
  else
    match rfind x sep 0 (text x).length with
    | .error e => .error e
    | .ok pos => if pos = -1 then .ok (some (none, none, x)) else parts x sep pos

end Verif.Str
