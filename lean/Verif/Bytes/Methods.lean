import Verif.Bytes.SplitJoin
/-
The other methods of compiled `bytes`: model.
/repo/typed_python/BytesType.cpp 369-391, 714-1030, bytes_wrapper.py 86-290, 817-943.
-/
namespace Verif.Bytes

/-! ### predicates -/

/-- bytes_wrapper.py:154-159, 174-179, 194-199, 235-240: every byte is one of those asked for, and there is one. -/
def allLoop (p : Nat → Bool) : List Nat → Bool
  | [] => true
  | c :: t => if ¬ p c then false else allLoop p t

/-- bytes_wrapper.py:142-159 `bytes_isalnum`. -/
def isalnum (x : B) : Bool :=
  if (text x).length = 0 then false
  else allLoop (fun i => (48 ≤ i ∧ i ≤ 57) ∨ (65 ≤ i ∧ i ≤ 90) ∨ (97 ≤ i ∧ i ≤ 122)) (text x)

/-- bytes_wrapper.py:162-179 `bytes_isalpha`. -/
def isalpha (x : B) : Bool :=
  if (text x).length = 0 then false else allLoop (fun i => (65 ≤ i ∧ i ≤ 90) ∨ (97 ≤ i ∧ i ≤ 122)) (text x)

/-- bytes_wrapper.py:182-199 `bytes_isdigit`. -/
def isdigit (x : B) : Bool :=
  if (text x).length = 0 then false else allLoop (fun i => 48 ≤ i ∧ i ≤ 57) (text x)

/-- bytes_wrapper.py:223-240 `bytes_isspace`. -/
def isspaceMethod (x : B) : Bool :=
  if (text x).length = 0 then false
  else allLoop (fun i => ¬ (i ≠ 32 ∧ i ≠ 9 ∧ i ≠ 10 ∧ i ≠ 13 ∧ i ≠ 11 ∧ i ≠ 12)) (text x)

/-- bytes_wrapper.py:215-220: the loop of `bytes_islower`. -/
def lowerLoop : List Nat → Bool → Bool
  | [], found => found
  | i :: t, found => if 97 ≤ i ∧ i ≤ 122 then lowerLoop t true else if 65 ≤ i ∧ i ≤ 90 then false else lowerLoop t found

/-- bytes_wrapper.py:202-220 `bytes_islower`. -/
def islower (x : B) : Bool := lowerLoop (text x) false

/-- bytes_wrapper.py:285-290: the loop of `bytes_isupper`. -/
def upperLoop : List Nat → Bool → Bool
  | [], found => found
  | i :: t, found => if 65 ≤ i ∧ i ≤ 90 then upperLoop t true else if 97 ≤ i ∧ i ≤ 122 then false else upperLoop t found

/-- bytes_wrapper.py:272-290 `bytes_isupper`. -/
def isupper (x : B) : Bool := upperLoop (text x) false

/-- bytes_wrapper.py:259-269: the loop of `bytes_istitle`. -/
def titleLoop : List Nat → Bool → Bool → Bool
  | [], _, found => found
  | i :: t, lastCased, found =>
    let upper : Bool := 65 ≤ i ∧ i ≤ 90
    let lower : Bool := 97 ≤ i ∧ i ≤ 122
    if upper ∧ lastCased then false
    else if lower ∧ ¬ lastCased then false
    else titleLoop t (upper || lower) (if upper || lower then true else found)

/-- bytes_wrapper.py:243-269 `bytes_istitle`. -/
def istitle (x : B) : Bool := if (text x).length = 0 then false else titleLoop (text x) false false

/-! ### case -/

/-- BytesType.cpp:726 `tolower`, of the C library in the C locale. -/
def tolower (c : Nat) : Nat := if 65 ≤ c ∧ c ≤ 90 then c + 32 else c

/-- BytesType.cpp:743 `toupper`, of the C library in the C locale. -/
def toupper (c : Nat) : Nat := if 97 ≤ c ∧ c ≤ 122 then c - 32 else c

/-- BytesType.cpp:714-729 `lower`. -/
def lower (x : B) : B := x.map (List.map tolower)

/-- BytesType.cpp:731-746 `upper`. -/
def upper (x : B) : B := x.map (List.map toupper)

/-- BytesType.cpp:748-767 `capitalize`. -/
def capitalize : B → B
  | none => none
  | some [] => some []
  | some (c :: t) => some (toupper c :: t.map tolower)

/-- BytesType.cpp:769-790 `swapcase`. -/
def swapcase (x : B) : B :=
  x.map (List.map fun c => if 97 ≤ c ∧ c ≤ 122 then toupper c else if 65 ≤ c ∧ c ≤ 90 then tolower c else c)

/-- BytesType.cpp:804-821: the loop of `title`. -/
def titleGo : List Nat → Bool → List Nat
  | [], _ => []
  | c :: t, word =>
    let alpha : Bool := (65 ≤ c ∧ c ≤ 90) ∨ (97 ≤ c ∧ c ≤ 122)
    if word then
      if alpha then tolower c :: titleGo t word else c :: titleGo t false
    else
      if alpha then toupper c :: titleGo t true else c :: titleGo t word

/-- BytesType.cpp:792-823 `title`. -/
def title (x : B) : B := x.map fun s => titleGo s false

/-! ### stripping, adding, repeating, padding -/

/-- BytesType.cpp:825-834 `matchchar`; `none` stands for white space. -/
def matchchar (values : Option B) (v : Nat) : Bool :=
  match values with
  | none => isspace v
  | some none => false
  | some (some vs) => vs.any (v == ·)

/-- BytesType.cpp:836-876 `strip`. -/
def strip (x : B) (values : Option B) (fromLeft fromRight : Bool) : B :=
  match x with
  | none => none
  | some ps =>
    let left := if fromLeft then scanByte (fun c => !matchchar values c) ps else 0
    let right := if fromRight then ps.length - scanByte (fun c => !matchchar values c) (ps.drop left).reverse else ps.length
    if left = right then none
    else if left = 0 ∧ right = ps.length then some ps
    else some ((ps.drop left).take (right - left))

/-- BytesType.cpp:369-391 `concatenate`. -/
def concat : B → B → B
  | none, none => none
  | l, none => l
  | none, r => r
  | some l, some r => some (l ++ r)

/-- BytesType.cpp:878-897 `mult`. -/
def mult (x : B) (n : Int) : B :=
  match x with
  | none => none
  | some ps => if n ≤ 0 then none else some ((List.replicate n.toNat ps).flatten)

/-- bytes_wrapper.py:817-837 `bytes_center`. -/
def center (x : B) (width : Int) (fill : B) : B :=
  if width ≤ (text x).length then x
  else
    let left := Int.fdiv (width - (text x).length) 2
    let right := width - (text x).length - left
    concat (concat (mult fill left) x) (mult fill right)

/-- bytes_wrapper.py:840-858 `bytes_ljust`. -/
def ljust (x : B) (width : Int) (fill : B) : B :=
  if width ≤ (text x).length then x else concat x (mult fill (width - (text x).length))

/-- bytes_wrapper.py:861-879 `bytes_rjust`. -/
def rjust (x : B) (width : Int) (fill : B) : B :=
  if width ≤ (text x).length then x else concat (mult fill (width - (text x).length)) x

/-- bytes_wrapper.py:899-911: the loop of `bytes_expandtabs`: `n` rounds to go at `i`. -/
def tabsLoop (x : B) (size : Int) : Nat → Nat → Nat → Int → List B → Except Err (List B)
  | 0, _, last, _, acc => .ok (acc ++ [getslice x last (text x).length])
  | n + 1, i, last, col, acc =>
    match item x i with
    | .error e => .error e
    | .ok c =>
      if c = 9 then
        let spaces := if size > 0 then size - Int.fmod col size else 0
        tabsLoop x size n (i + 1) (i + 1) 0 (acc ++ [getslice x last i, mult (some [32]) spaces])
      else if c = 10 ∨ c = 13 then tabsLoop x size n (i + 1) last 0 acc
      else tabsLoop x size n (i + 1) last (col + 1) acc

/-- bytes_wrapper.py:882-912 `bytes_expandtabs`. -/
def expandtabs (x : B) (size : Int) : Except Err B :=
  match tabsLoop x size (text x).length 0 0 0 [] with
  | .error e => .error e
  | .ok acc => join none acc

/-- bytes_wrapper.py:915-943 `bytes_zfill`. -/
def zfill (x : B) (width : Int) : Except Err B :=
  let sign : Except Err Bool :=
    if (text x).length ≠ 0 then
      match item x 0 with
      | .error e => .error e
      | .ok c => .ok (c = 43 ∨ c = 45)
    else .ok false
  match sign with
  | .error e => .error e
  | .ok sign =>
    let acc := if sign then [getslice x 0 1] else []
    let fill := width - (text x).length
    let acc := if fill > 0 then acc ++ [mult (some [48]) fill] else acc
    join none (acc ++ [if sign then getslice x 1 (text x).length else x])

/-! ### replacing -/

/-- bytes_wrapper.py:122-139: the loop of `bytes_replace`. -/
def replaceLoop (x old new : B) (max : Int) : Nat → Int → Int → List B → Except Err B
  | 0, _, _, _ => .error .hang
  | fuel + 1, pos, seen, acc =>
    let inc : Int := if (text old).length ≠ 0 then 0 else 1
    let nextLoc : Except Err Int := if max ≥ 0 ∧ seen ≥ max then .ok (-1) else find x old pos (text x).length
    match nextLoc with
    | .error e => .error e
    | .ok loc =>
      if loc ≥ 0 ∧ loc < (text x).length then
        let acc := acc ++ [getslice x pos (loc + inc)]
        let pos := if (text old).length ≠ 0 then loc + (text old).length else pos + 1
        replaceLoop x old new max fuel pos (seen + 1) acc
      else join new (acc ++ [getslice x pos (text x).length])

/-- bytes_wrapper.py:86-139 `bytes_replace`; `old38` is IS_38_OR_LOWER. -/
def replace (old38 : Bool) (x old new : B) (max : Int) : Except Err B :=
  if max = 0 then .ok x
  else if max ≥ 0 ∧ (text x).length = 0 ∧ (text old).length = 0 then .ok (if old38 then x else new)
  else if (text old).length = 0 then replaceLoop x old new max ((text x).length + 1) 0 1 [none]
  else replaceLoop x old new max ((text x).length + 1) 0 0 []

/-! ### tables -/

/-- BytesType.cpp:986-993: whether a byte is deleted. -/
def deleted (del : B) (c : Nat) : Bool :=
  match del with
  | none => false
  | some d => d.any (c == ·)

/-- BytesType.cpp:984-999: the loop of `translate`. -/
def translateLoop (table del : B) : List Nat → Except Err (List Nat)
  | [] => .ok []
  | c :: t =>
    if deleted del c then translateLoop table del t
    else
      match (match table with | none => some c | some tb => tb[c]?) with
      | none => .error .oob
      | some b =>
        match translateLoop table del t with
        | .error e => .error e
        | .ok r => .ok (b :: r)

/-- BytesType.cpp:972-1011 `translate` and bytes_wrapper.py:1559-1590: a table of another length than 256 raises ValueError, and
the table None is the null pointer. -/
def translate (x : B) (table : Option B) (del : B) : Except Err B :=
  match table with
  | some t => if (text t).length ≠ 256 then .error .value else go t
  | none => go none
where
  go (t : B) : Except Err B :=
    match x with
    | none => .ok none
    | some s =>
      match translateLoop t del s with
      | .error e => .error e
      | .ok r => .ok (some r)

/-- BytesType.cpp:1025-1027: the loop of `maketrans`. -/
def tableLoop (dst : List Nat) : List Nat → Nat → List Nat → Except Err (List Nat)
  | [], _, table => .ok table
  | c :: t, j, table =>
    match dst[j]? with
    | none => .error .oob
    | some b => if c < 256 then tableLoop dst t (j + 1) (table.set c b) else .error .oob

/-- BytesType.cpp:1014-1030 `maketrans` and bytes_wrapper.py:1415-1438: arguments of different lengths raise ValueError. -/
def maketrans (src dst : B) : Except Err B :=
  if (text src).length ≠ (text dst).length then .error .value
  else
    match tableLoop (text dst) (text src) 0 (List.range 256) with
    | .error e => .error e
    | .ok table => .ok (some table)

end Verif.Bytes
