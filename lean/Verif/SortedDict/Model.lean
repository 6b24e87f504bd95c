import Verif.Common
/-
Model of `typed_python/lib/sorted_dict.py`.

`Node` objects form a tree in which every node has one parent, so the mutable object graph is modelled as a value
of the inductive type `T`; a method that mutates `self` returns the new value of `self`.  `count` is the stored
field, not a computed size.  `comparator` is the parameter `lt`.
-/
namespace Verif.SortedDict

/-- `None` or a `Node` (`lib/sorted_dict.py:15-22`): left, key, value, stored count, right. -/
inductive T (K V : Type) where
  | nil
  | node (l : T K V) (k : K) (v : V) (c : Int) (r : T K V)
  deriving DecidableEq, Repr

/-- Ways a method can fail. -/
inductive Err where
  | keyError
  /-- attribute access on `None` -/
  | noneDeref
  | assertFail
  /-- the recursion has not finished within the given depth -/
  | fuel
  deriving DecidableEq, Repr

variable {K V : Type}

/-- The `count` member, read only on non-`None` nodes; the ternaries `0 if x is None else x.count`
(`lib/sorted_dict.py:190-193`) make it 0 on `None`. -/
def T.cnt : T K V → Int
  | .nil => 0
  | .node _ _ _ c _ => c

/-- `Node(key=k, value=v, count=1)` (`lib/sorted_dict.py:53`, `64`, `284`). -/
def leaf (k : K) (v : V) : T K V := .node .nil k v 1 .nil

section
variable (lt : K → K → Bool)

/-- `Node.__contains__` (`lib/sorted_dict.py:24-36`); `None` is the `return False` of the caller. -/
def T.contains (k : K) : T K V → Bool
  | .nil => false
  | .node l k' _ _ r =>
    if lt k k' then l.contains k
    else if lt k' k then r.contains k
    else true

/-- `Node.get` (`lib/sorted_dict.py:38-48`); `None` is the `raise KeyError` of the caller. -/
def T.get (k : K) : T K V → Except Err V
  | .nil => .error .keyError
  | .node l k' v _ r =>
    if lt k k' then l.get k
    else if lt k' k then r.get k
    else .ok v

/-- `Node.rebalance` (`lib/sorted_dict.py:161-243`), with the recursive method `set` passed in. -/
def rebalWith (set : T K V → K → V → Except Err (T K V × Bool)) : T K V → Except Err (T K V)
  | .nil => .error .noneDeref
  | .node .nil k v c .nil => if c = 1 then .ok (.node .nil k v c .nil) else .error .assertFail
  | .node .nil k v c (.node rl rk rv rc rr) =>
    if rc ≤ 2 then .ok (.node .nil k v c (.node rl rk rv rc rr))
    else do
      let (r', _) ← set (.node rl rk rv rc rr) k v
      .ok r'
  | .node (.node ll lk lv lc lr) k v c .nil =>
    if lc ≤ 2 then .ok (.node (.node ll lk lv lc lr) k v c .nil)
    else do
      let (l', _) ← set (.node ll lk lv lc lr) k v
      .ok l'
  | .node (.node llN lk lv lc lrN) k v c (.node rlN rk rv rc rrN) =>
    let ll := llN.cnt
    let lr := lrN.cnt
    let rl := rlN.cnt
    let rr := rrN.cnt
    if ll > (3 + lr + rl + rr) * 2 then
      let right : T K V := .node lrN k v (1 + lr + rc) (.node rlN rk rv rc rrN)
      .ok (.node llN lk lv (1 + llN.cnt + right.cnt) right)
    else if rr > (3 + rl + lr + ll) * 2 then
      let left : T K V := .node (.node llN lk lv lc lrN) k v (1 + rl + lc) rlN
      .ok (.node left rk rv (1 + left.cnt + rrN.cnt) rrN)
    else .ok (.node (.node llN lk lv lc lrN) k v c (.node rlN rk rv rc rrN))

/-- `Node.set` (`lib/sorted_dict.py:50-75`).  `set` and `rebalance` are mutually recursive; the first argument
bounds the recursion depth and running out of it is `Err.fuel`. -/
def setF : Nat → T K V → K → V → Except Err (T K V × Bool)
  | 0, _, _, _ => .error .fuel
  | _ + 1, .nil, _, _ => .error .noneDeref
  | f + 1, .node l k' v' c r, k, v =>
    if lt k k' then
      match l with
      | .nil => .ok (.node (leaf k v) k' v' (c + 1) r, true)
      | .node .. => do
        let (l', b) ← setF f l k v
        if b then do
          let t ← rebalWith (setF f) (.node l' k' v' (c + 1) r)
          .ok (t, true)
        else .ok (.node l' k' v' c r, false)
    else if lt k' k then
      match r with
      | .nil => .ok (.node l k' v' (c + 1) (leaf k v), true)
      | .node .. => do
        let (r', b) ← setF f r k v
        if b then do
          let t ← rebalWith (setF f) (.node l k' v' (c + 1) r')
          .ok (t, true)
        else .ok (.node l k' v' c r', false)
    else .ok (.node l k' v c r, false)

/-- `Node.first` (`lib/sorted_dict.py:77-80`). -/
def T.first : T K V → Except Err K
  | .nil => .error .noneDeref
  | .node .nil k _ _ _ => .ok k
  | .node (.node a b c d e) _ _ _ _ => T.first (.node a b c d e)

/-- `Node.last` (`lib/sorted_dict.py:82-85`). -/
def T.last : T K V → Except Err K
  | .nil => .error .noneDeref
  | .node _ k _ _ .nil => .ok k
  | .node _ _ _ _ (.node a b c d e) => T.last (.node a b c d e)

/-- `Node.remove` (`lib/sorted_dict.py:107-159`).  Returns the new value of `self` and whether it must be dropped by
its parent; when it must, `self` is left as it is.  The caller's `self.left = None` is the `if` on the flag.
`fuel` bounds only the calls to `set` made by `rebalance`. -/
def removeF (fuel : Nat) : T K V → K → Except Err (T K V × Bool)
  | .nil, _ => .error .keyError
  | .node l k' v c r, k =>
    if lt k k' then do
      let (l', e) ← removeF fuel l k
      let l'' := if e then .nil else l'
      let t ← rebalWith (setF lt fuel) (.node l'' k' v (c - 1) r)
      .ok (t, false)
    else if lt k' k then do
      let (r', e) ← removeF fuel r k
      let r'' := if e then .nil else r'
      let t ← rebalWith (setF lt fuel) (.node l k' v (c - 1) r'')
      .ok (t, false)
    else if c = 1 then .ok (.node l k' v c r, true)
    else
      match l, r with
      | .node a b x d e, .nil => .ok (.node a b x d e, false)
      | .nil, .node a b x d e => .ok (.node a b x d e, false)
      | .nil, .nil => .error .noneDeref
      | .node ll lk lv lc lr, .node rl rk rv rc rr =>
        if rc < lc then do
          let key ← T.last (.node ll lk lv lc lr)
          let val ← T.get lt key (.node ll lk lv lc lr)
          let (l', e) ← removeF fuel (.node ll lk lv lc lr) key
          let l'' := if e then .nil else l'
          let t ← rebalWith (setF lt fuel) (.node l'' key val (c - 1) (.node rl rk rv rc rr))
          .ok (t, false)
        else do
          let key ← T.first (.node rl rk rv rc rr)
          let val ← T.get lt key (.node rl rk rv rc rr)
          let (r', e) ← removeF fuel (.node rl rk rv rc rr) key
          let r'' := if e then .nil else r'
          let t ← rebalWith (setF lt fuel) (.node (.node ll lk lv lc lr) key val (c - 1) r'')
          .ok (t, false)

end

/-- `Node.height` (`lib/sorted_dict.py:245-250`) and `SortedDict_.height` (`262-265`). -/
def T.height : T K V → Int
  | .nil => 0
  | .node l _ _ _ r => max 0 (max (1 + l.height) (1 + r.height))

/-- The loop of `SortedDict_.items` (`lib/sorted_dict.py:377-393`): the stack of (node, wayDown) pairs with its top
first, and the pairs already yielded.  One unit of fuel per iteration.  Pushing `None` never happens in the code;
the model reports it as `noneDeref`. -/
def itemsLoop : Nat → List (T K V × Bool) → List (K × V) → Except Err (List (K × V))
  | _, [], out => .ok out
  | 0, _ :: _, _ => .error .fuel
  | _ + 1, (.nil, _) :: _, _ => .error .noneDeref
  | f + 1, (.node l k v c r, wayDown) :: stack, out =>
    if wayDown then
      match l with
      | .node .. => itemsLoop f ((l, true) :: (.node l k v c r, false) :: stack) out
      | .nil =>
        match r with
        | .node .. => itemsLoop f ((r, true) :: stack) (out ++ [(k, v)])
        | .nil => itemsLoop f stack (out ++ [(k, v)])
    else
      match r with
      | .node .. => itemsLoop f ((r, true) :: stack) (out ++ [(k, v)])
      | .nil => itemsLoop f stack (out ++ [(k, v)])

/-- `SortedDict_.items` (`lib/sorted_dict.py:370-393`). -/
def items (fuel : Nat) (root : T K V) : Except Err (List (K × V)) :=
  match root with
  | .nil => .ok []
  | .node .. => itemsLoop fuel [(root, true)] []

/-- `SortedDict_.__iter__` (`lib/sorted_dict.py:396-419`): the same loop yielding only keys. -/
def iter (fuel : Nat) (root : T K V) : Except Err (List K) := (items fuel root).map (·.map (·.1))

/-! ### The wrapper class -/

/-- The operations of `SortedDict_`.  `setdefault k` (line 341) is `setdefault k (V())`; `get k` (331) is `getitem`. -/
inductive Op (K V : Type) where
  | getitem (k : K)
  | contains (k : K)
  | setitem (k : K) (v : V)
  | delitem (k : K)
  | pop (k : K)
  | popD (k : K) (v : V)
  | first
  | last
  | getD (k : K) (v : V)
  | setdefault (k : K) (v : V)
  | len
  | items
  deriving DecidableEq, Repr

/-- What an operation returns. -/
inductive Res (K V : Type) where
  | unit
  | bool (b : Bool)
  | val (v : V)
  | key (k : Option K)
  | int (n : Int)
  | list (xs : List (K × V))
  deriving DecidableEq, Repr

section
variable (lt : K → K → Bool)

/-- `__setitem__` (`lib/sorted_dict.py:282-286`). -/
def setitem (f : Nat) (root : T K V) (k : K) (v : V) : Except Err (T K V) :=
  match root with
  | .nil => .ok (leaf k v)
  | .node .. => do
    let (t, _) ← setF lt f root k v
    .ok t

/-- `__delitem__` (`lib/sorted_dict.py:289-294`). -/
def delitem (f : Nat) (root : T K V) (k : K) : Except Err (T K V) :=
  match root with
  | .nil => .error .keyError
  | .node .. => do
    let (t, e) ← removeF lt f root k
    .ok (if e then .nil else t)

/-- `pop(k)` (`lib/sorted_dict.py:297-304`). -/
def pop (f : Nat) (root : T K V) (k : K) : Except Err (T K V × V) :=
  match root with
  | .nil => .error .keyError
  | .node .. => do
    let res ← root.get lt k
    let (t, e) ← removeF lt f root k
    .ok (if e then .nil else t, res)

/-- `pop(k, v)` (`lib/sorted_dict.py:307-314`). -/
def popD (f : Nat) (root : T K V) (k : K) (v : V) : Except Err (T K V × V) :=
  if root.contains lt k then do
    let res ← root.get lt k
    let (t, e) ← removeF lt f root k
    .ok (if e then .nil else t, res)
  else .ok (root, v)

/-- One call of a method on a SortedDict: the new root and the outcome.  On an exception the root is unchanged:
every `raise` happens before the first assignment (`lib/sorted_dict.py:110-111`, `120-121`). -/
def step (f : Nat) (root : T K V) : Op K V → T K V × Except Err (Res K V)
  | .getitem k => (root, (root.get lt k).map .val)                      -- 268-272
  | .contains k => (root, .ok (.bool (root.contains lt k)))             -- 275-279
  | .setitem k v =>
    match setitem lt f root k v with
    | .ok t => (t, .ok .unit)
    | .error e => (root, .error e)
  | .delitem k =>
    match delitem lt f root k with
    | .ok t => (t, .ok .unit)
    | .error e => (root, .error e)
  | .pop k =>
    match pop lt f root k with
    | .ok (t, v) => (t, .ok (.val v))
    | .error e => (root, .error e)
  | .popD k v =>
    match popD lt f root k v with
    | .ok (t, v) => (t, .ok (.val v))
    | .error e => (root, .error e)
  | .first =>                                                           -- 317-321
    match root with
    | .nil => (root, .ok (.key none))
    | .node .. => (root, root.first.map (fun k => .key (some k)))
  | .last =>                                                            -- 324-328
    match root with
    | .nil => (root, .ok (.key none))
    | .node .. => (root, root.last.map (fun k => .key (some k)))
  | .getD k v =>                                                        -- 335-338
    if root.contains lt k then (root, (root.get lt k).map .val) else (root, .ok (.val v))
  | .setdefault k v =>                                                  -- 347-350
    if root.contains lt k then (root, (root.get lt k).map .val)
    else
      match setitem lt f root k v with
      | .ok t => (t, (t.get lt k).map .val)
      | .error e => (root, .error e)
  | .len => (root, .ok (.int root.cnt))                                 -- 360-361
  | .items => (root, (items f root).map .list)

/-- A history of calls: the final root and every outcome. -/
def run (f : Nat) (root : T K V) : List (Op K V) → T K V × List (Except Err (Res K V))
  | [] => (root, [])
  | op :: ops =>
    let (t, o) := step lt f root op
    let (t', os) := run f t ops
    (t', o :: os)

end
end Verif.SortedDict
