import Verif.Comp.Props
import Verif.Common
/-
C69: comprehensions that are compiled rightly, and comprehensions that are not.
-/
namespace Verif.Comp.Demo
open Verif.Gen (Act Exc Out Res condR seqR againR loopN)
open Verif.Loops Verif.Comp

/-- Values: numbers, lists of numbers, lists of these. -/
inductive Val where
  | num (n : Nat)
  | nums (l : List Nat)
  | table (l : List (List Nat))
deriving DecidableEq, Repr

/-- Exceptions. -/
inductive Err where
  | unbound
  | zeroDivision
  | type
  | index
deriving DecidableEq, Repr

/-- What memory behind the end of a list contains. -/
def garbage : Val := .num 777

/-- Sequences are lists of values, which do not change. -/
def iter : Iter Unit Err Unit (List Val) Unit Unit Val where
  size q _ := q.length
  item q i h :=
    match q[i]? with
    | some x => (h, .ok x)
    | none => (h, .error (.other .index))
  elem _ _ := garbage
  step _ h := (h, .ok none)

/-- Items are read without a check of the index (tuple_of_wrapper.py:439-443). -/
def value : List Val → Nat → Act Unit Err Unit Val := fun q i h => (h, .ok (q[i]?.getD garbage))

theorem value_item (q : List Val) (i : Nat) (h : Unit) (hi : i < iter.size q h) :
    value q i h = iter.item q i h := by
  have h' : i < q.length := hi
  simp only [value, iter, List.getElem?_eq_getElem h', Option.getD_some]

abbrev Ex (α : Type) := Expr Unit Err Unit Val α
abbrev Cl := Clause Unit Err Unit Val (List Val) Unit Unit Val
/-- List comprehensions whose elements are tuples. -/
abbrev Co := Comp Unit Err Unit Val (List Val) Unit Unit Val (List Val) (List (List Val))

/-- An expression with this value or exception. -/
def pure {α : Type} (f : Vars Val → Except Err α) : Ex α := fun ρ h =>
  match f ρ with
  | .ok a => (h, .ok a)
  | .error e => (h, .error (.other e))

/-- Read a variable. -/
def get (n : String) (ρ : Vars Val) : Except Err Val :=
  match ρ n with
  | some v => .ok v
  | none => .error .unbound

/-- The items of a value. -/
def itemsOf : Val → Except Err (List Val)
  | .num _ => .error .type
  | .nums l => .ok (l.map .num)
  | .table l => .ok (l.map .nums)

/-- A number. -/
def number : Val → Except Err Nat
  | .num n => .ok n
  | _ => .error .type

/-- `for n in src if ...` -/
def clause (n src : String) (ifs : List (Ex Bool)) : Cl where
  names := [n]
  assign x l := .ok (fun m => if m = n then some x else l m)
  source := .seq (pure (fun ρ => get src ρ >>= itemsOf))
  ifs := ifs

/-- A tuple of variables. -/
def tuple (ns : List String) : Ex (List Val) := pure (fun ρ => ns.mapM (fun n => get n ρ))

/-- `[(ns) for ... for ...]` -/
def comp (ns : List String) (c : Cl) (cs : List Cl) : Co where
  first := c
  rest := cs
  elt := tuple ns
  put a y := .ok (a ++ [y])
  empty := []

/-- The variables around the comprehension. -/
def env (l : List (String × Val)) : Vars Val := fun n => l.lookup n

/-! ### A comprehension that is compiled rightly -/

/-- A test of a number. -/
def test (n : String) (f : Nat → Bool) : Ex Bool := fun ρ h =>
  (h, .ok (match get n ρ >>= number with | .ok k => f k | .error _ => false))

/-- `[(x,) for x in l if x > 1 if x < 9]` -/
def filtered : Co :=
  comp ["x"] (clause "x" "l" [test "x" (fun k => decide (k > 1)), test "x" (fun k => decide (k < 9))])
    []

example : python iter 20 filtered (env [("l", .nums [1, 5, 9, 2])]) () =
    some (.ok [[.num 5], [.num 2]], ()) := by decide +kernel

theorem clause_avoids (n src : String) (ifs : List (Ex Bool)) (h : src ≠ n) :
    (clause n src ifs).source.Avoids (clause n src ifs).names := by
  intro ρ ρ' hρ
  have : ρ src = ρ' src := hρ src (by simp [clause, h])
  funext u
  simp only [pure, get, this]

/-- Such sequences keep their length. -/
theorem clause_steady (n src : String) (ifs : List (Ex Bool)) {Y : Type} (elt : Ex Y) :
    Steady iter (clause n src ifs) elt :=
  ⟨fun q n _ => q.length = n, fun _ _ _ _ _ => rfl, fun _ _ _ h => h, fun _ _ _ _ h => h,
    fun _ _ _ _ _ _ h => h, fun _ _ _ _ h => h⟩

/-- The hypotheses of `comprehension_partial` hold of that comprehension. -/
theorem filtered_good : Good iter filtered.first filtered.elt where
  avoids := clause_avoids "x" "l" _ (by decide)
  tests := .inr (by
    intro t ht
    simp only [filtered, comp, clause, List.mem_cons, List.not_mem_nil, or_false] at ht
    rcases ht with rfl | rfl <;> exact ⟨_, fun _ _ => rfl⟩)
  steady := clause_steady "x" "l" _ _

/-- It computes what it computes in Python, for every list. -/
theorem filtered_right (N : Nat) (outer : Vars Val) :
    compiled iter value N filtered outer () = python iter N filtered outer () :=
  comprehension_partial iter value value_item filtered rfl filtered_good N outer ()

/-! ### Comprehensions that are not -/

/-- `[x for x in l if x != 0 if 12 // x > 3]` (with tuples of one item as elements): the tests are
made in the wrong order. -/
def guarded : Co :=
  comp ["x"] (clause "x" "l" [test "x" (fun k => k != 0),
    pure (fun ρ => do
      let k ← get "x" ρ >>= number
      if k = 0 then throw .zeroDivision else return decide (12 / k > 3))]) []

theorem tests_in_wrong_order :
    python iter 20 guarded (env [("l", .nums [2, 0, 9])]) () = some (.ok [[.num 2]], ()) ∧
    compiled iter value 20 guarded (env [("l", .nums [2, 0, 9])]) () =
      some (.error (.other .zeroDivision), ()) := by
  constructor <;> decide +kernel

/-- `[x for x in x]`: Python evaluates the iterable outside of the comprehension. -/
def shadow : Co := comp ["x"] (clause "x" "x" []) []

/-- `[(x, y) for x in a for y in b]` -/
def product : Co := comp ["x", "y"] (clause "x" "a" []) [clause "y" "b" []]

/-- `[(x, y) for x in a if x > 1 for y in b if x < y if y < 9]` in Python. -/
example : python iter 20 (comp ["x", "y"] (clause "x" "a" [test "x" (fun k => decide (k > 1))])
      [clause "y" "b" [pure (fun ρ => do
          let i ← get "x" ρ >>= number
          let k ← get "y" ρ >>= number
          return decide (i < k)), test "y" (fun k => decide (k < 9))]])
    (env [("a", .nums [1, 2, 5]), ("b", .nums [3, 9, 6])]) () =
    some (.ok [[.num 2, .num 3], [.num 2, .num 6], [.num 5, .num 6]], ()) := by decide +kernel

/-- `[z for y in t for z in y]` -/
def flatten : Co := comp ["z"] (clause "y" "t" []) [clause "z" "y" []]

/-! #### What Python makes of them -/

/-- A loop over a sequence whose body always comes to its end. -/
theorem seqFor_fold (Inv : St Unit Val A → Prop) (q : List Val)
    (target : Val → Act (St Unit Val A) Err Unit Unit)
    (body : St Unit Val A → Res (St Unit Val A) Err Unit Empty)
    (f : St Unit Val A → Val → St Unit Val A)
    (hf : ∀ x s, x ∈ q → Inv s → Inv (f s x) ∧ ∃ s', target x s = (s', .ok ()) ∧
      body s' = some (.norm, f s x))
    (n i : Nat) (s : St Unit Val A) (hs : Inv s) (hi : i ≤ q.length)
    (hn : q.length < n + i) :
    seqFor (lift iter) q target body (fun s => some (.norm, s)) n i s =
      some (.norm, (q.drop i).foldl f s) := by
  induction n generalizing i s with
  | zero => omega
  | succ n ih =>
    rw [seqFor]
    rcases Nat.lt_or_ge i q.length with h | h
    · have h' : i < (lift iter : Iter (St Unit Val A) _ _ _ _ _ _).size q s := h
      rw [if_pos h']
      have hit : (lift iter : Iter (St Unit Val A) _ _ _ _ _ _).item q i s = (s, .ok q[i]) := by
        simp only [lift, iter, List.getElem?_eq_getElem h]; rfl
      rw [bindR_ok hit]
      obtain ⟨h1, s', h2, h3⟩ := hf q[i] s (List.getElem_mem h) hs
      rw [List.drop_eq_getElem_cons h, List.foldl_cons, bindR_ok h2, h3]
      exact ih (i + 1) (f s q[i]) h1 h (by omega)
    · have h' : ¬ i < (lift iter : Iter (St Unit Val A) _ _ _ _ _ _).size q s := Nat.not_lt.mpr h
      rw [if_neg h', List.drop_eq_nil_of_le h]
      rfl

/-- A variable gets a value. -/
def put (s : St Unit Val A) (n : String) (v : Val) : Vars Val :=
  fun m => if m = n then some v else s.loc m

theorem fold_acc (g : St Unit Val (List (List Val)) → Val → Vars Val) (e : Val → List (List Val))
    (l : List Val) (s : St Unit Val (List (List Val))) :
    (l.foldl (fun s x => ⟨(), g s x, s.acc ++ e x⟩) s).acc = s.acc ++ l.flatMap e := by
  induction l generalizing s with
  | nil => simp
  | cons x l ih => rw [List.foldl_cons, ih]; simp

theorem shadow_python (l : List Nat) (N : Nat) (hN : l.length < N) :
    python iter N shadow (env [("x", .nums l)]) () = some (.ok (l.map (fun x => [.num x])), ()) := by
  have h : execB (lift iter) N (pythonCode shadow (env [("x", .nums l)])) ⟨(), fun _ => none, []⟩ =
      some (.norm, (l.map Val.num).foldl
        (fun s x => ⟨(), put s "x" x, s.acc ++ [[x]]⟩) ⟨(), fun _ => none, []⟩) := by
    unfold pythonCode
    rw [execB_one]
    change seqFor (lift iter) (l.map Val.num) _ _ (fun s => some (.norm, s)) N 0 _ = _
    rw [seqFor_fold (fun _ => True) (l.map Val.num) _ _
      (fun s x => ⟨(), put s "x" x, s.acc ++ [[x]]⟩) ?_ N 0 _ trivial (Nat.zero_le _)
      (by simpa using hN)]
    · rfl
    · intro x s _ _
      refine ⟨trivial, ⟨(), put s "x" x, s.acc⟩, rfl, rfl⟩
  unfold python call
  rw [show shadow.empty = [] from rfl, h]
  have := fold_acc (fun s x => put s "x" x) (fun x => [[x]]) (l.map Val.num) ⟨(), fun _ => none, []⟩
  simp only [outcome, this, List.flatMap_map, List.nil_append]
  rw [← List.map_eq_flatMap]

/-- Two nested loops, the inner one over `q' x`. -/
theorem nested_python (a : List Val) (q' : Val → List Val) (N : Nat)
    (t t' : Val → Act (St Unit Val (List (List Val))) Err Unit Unit)
    (it : Act (St Unit Val (List (List Val))) Err Unit (List Val))
    (body : St Unit Val (List (List Val)) → Res (St Unit Val (List (List Val))) Err Unit Empty)
    (n n' : String) (e : Val → Val → List Val)
    (ht : ∀ x s, t x s = (⟨(), put s n x, s.acc⟩, .ok ()))
    (ht' : ∀ y s, t' y s = (⟨(), put s n' y, s.acc⟩, .ok ()))
    (hit : ∀ x s, x ∈ a → it ⟨(), put s n x, s.acc⟩ = (⟨(), put s n x, s.acc⟩, .ok (q' x)))
    (hb : ∀ x y s, s.loc n = some x →
      body ⟨(), put s n' y, s.acc⟩ = some (.norm, ⟨(), put s n' y, s.acc ++ [e x y]⟩))
    (hn : n ≠ n') (ha : a.length < N) (hq : ∀ x ∈ a, (q' x).length < N) :
    (seqFor (lift iter) a t (fun s => seqR (fun s => some (.norm, s)) (bindR it (fun q =>
        seqFor (lift iter) q t' body (fun s => some (.norm, s)) N 0) s))
      (fun s => some (.norm, s)) N 0 ⟨(), fun _ => none, []⟩).map (fun r => (r.1, r.2.acc)) =
    some (.norm, a.flatMap (fun x => (q' x).map (e x))) := by
  have h := seqFor_fold (fun _ => True) a t
    (fun s => seqR (fun s => some (.norm, s)) (bindR it (fun q =>
        seqFor (lift iter) q t' body (fun s => some (.norm, s)) N 0) s))
    (fun s x => (q' x).foldl (fun s y => ⟨(), put s n' y, s.acc ++ [e x y]⟩) ⟨(), put s n x, s.acc⟩)
    ?_ N 0 ⟨(), fun _ => none, []⟩ trivial (Nat.zero_le _) ha
  · rw [h]
    have hacc : ∀ (l : List Val) (s : St Unit Val (List (List Val))),
        (l.foldl (fun s x => (q' x).foldl (fun s y => (⟨(), put s n' y, s.acc ++ [e x y]⟩ :
          St Unit Val (List (List Val)))) ⟨(), put s n x, s.acc⟩) s).acc =
          s.acc ++ l.flatMap (fun x => (q' x).map (e x)) := by
      intro l
      induction l with
      | nil => simp
      | cons x l ih =>
        intro s
        rw [List.foldl_cons, ih, fold_acc (fun s y => put s n' y) (fun y => [e x y])]
        simp [List.map_eq_flatMap]
    simp only [Option.map_some, List.drop_zero, hacc, List.nil_append]
  · intro x s hx _
    refine ⟨trivial, _, ht x s, ?_⟩
    rw [bindR_ok (hit x s hx), seqFor_fold (fun s => s.loc n = some x) (q' x) t' body
      (fun s y => ⟨(), put s n' y, s.acc ++ [e x y]⟩) ?_ N 0 _ (by simp [put]) (Nat.zero_le _)
      (hq x hx)]
    · rfl
    · intro y s _ hs
      refine ⟨?_, _, ht' y s, hb x y s hs⟩
      simp [put, hn, hs]

theorem python_of (c : Co) (N : Nat) (outer : Vars Val) (r : List (List Val))
    (hc : c.empty = [])
    (h : (execB (lift iter) N (pythonCode c outer) ⟨(), fun _ => none, []⟩).map
      (fun r => (r.1, r.2.acc)) = some (.norm, r)) :
    python iter N c outer () = some (.ok r, ()) := by
  unfold python call
  rw [hc]
  generalize execB (lift iter) N (pythonCode c outer) ⟨(), fun _ => none, []⟩ = x at h
  rcases x with _ | ⟨o, s⟩
  · cases h
  · cases h; rfl

theorem product_python (a b : List Nat) (N : Nat) (ha : a.length < N) (hb : b.length < N) :
    python iter N product (env [("a", .nums a), ("b", .nums b)]) () =
      some (.ok (a.flatMap (fun x => b.map (fun y => [.num x, .num y]))), ()) := by
  refine python_of product N _ _ rfl ?_
  have h := nested_python (a.map Val.num) (fun _ => b.map Val.num) N
    (bind (clause "x" "a" []).assign) (bind (clause "y" "b" []).assign)
    (eval (view product.bound (env [("a", .nums a), ("b", .nums b)]))
      (pure (fun ρ => get "b" ρ >>= itemsOf)))
    (execB (lift iter) N (one (putStmt (view product.bound (env [("a", .nums a), ("b", .nums b)]))
      product.elt product.put))) "x" "y" (fun x y => [x, y]) (fun _ _ => rfl) (fun _ _ => rfl)
    (fun _ _ _ => rfl) ?_ (by decide) (by simpa using ha) (fun _ _ => by simpa using hb)
  · rw [List.flatMap_map] at h
    simp only [List.map_map] at h
    unfold pythonCode
    rw [execB_one]
    exact h
  · intro x y s hs
    rw [execB_one, putStmt, exec]
    simp [eval, product, comp, tuple, pure, get, view, Comp.bound, Comp.clauses, clause, put, hs, bindR]
    rfl

theorem flatten_python (t : List (List Nat)) (N : Nat) (ht : t.length < N)
    (hl : ∀ l ∈ t, l.length < N) :
    python iter N flatten (env [("t", .table t)]) () =
      some (.ok (t.flatten.map (fun z => [.num z])), ()) := by
  refine python_of flatten N _ _ rfl ?_
  have h := nested_python (t.map Val.nums)
    (fun v => match v with | .nums l => l.map Val.num | _ => []) N
    (bind (clause "y" "t" []).assign) (bind (clause "z" "y" []).assign)
    (eval (view flatten.bound (env [("t", .table t)])) (pure (fun ρ => get "y" ρ >>= itemsOf)))
    (execB (lift iter) N (one (putStmt (view flatten.bound (env [("t", .table t)]))
      flatten.elt flatten.put))) "y" "z" (fun _ z => [z]) (fun _ _ => rfl) (fun _ _ => rfl)
    ?_ ?_ (by decide) (by simpa using ht) ?_
  · rw [List.flatMap_map] at h
    simp only [List.map_map] at h
    rw [List.map_flatten, ← List.flatMap_def]
    unfold pythonCode
    rw [execB_one]
    exact h
  · intro x s hx
    obtain ⟨l, _, rfl⟩ := List.mem_map.mp hx
    rfl
  · intro x y s hs
    rw [execB_one, putStmt, exec]
    simp [eval, flatten, comp, tuple, pure, get, view, Comp.bound, Comp.clauses, clause, put, hs, bindR]
    rfl
  · intro x hx
    obtain ⟨l, h, rfl⟩ := List.mem_map.mp hx
    simpa using hl l h

/-! #### What the compiler makes of them -/

/-- C69: `[x for x in x]` raises, whatever `x` is. -/
theorem shadow_compiled (outer : Vars Val) (N : Nat) :
    compiled iter value N shadow outer () = some (.error (.other .unbound), ()) := rfl

/-- C69: `[z for y in t for z in y]` raises, whatever `t` is. -/
theorem flatten_compiled (outer : Vars Val) (N : Nat) :
    compiled iter value N flatten outer () = some (.error (.other .unbound), ()) := rfl

abbrev S := St Unit Val (List (List Val))

theorem labelBreak_norm {S' P : Type} (s : S') :
    labelBreak (some (.norm, s) : Res S' Err Unit P) = some (.norm, s) := rfl

theorem labelContinue_norm {S' P : Type} (s : S') :
    labelContinue (some (.norm, s) : Res S' Err Unit P) = some (.norm, s) := rfl

theorem seqR_norm {S' P : Type} (k : S' → Res S' Err Unit P) (s : S') :
    seqR k (some (.norm, s)) = k s := rfl

/-- The code of a loop over a sequence whose body always comes to its end and leaves the hidden
variables alone: afterwards the hidden index of the loops on that line is at its end. -/
theorem while_fold (Inv : S → Prop) (q : List Val) (target : Val → Act S Err Unit Unit)
    (body : G S (List Val) Unit → Res (G S (List Val) Unit) Err Unit Empty) (f : S → Val → S)
    (hf : ∀ x s, x ∈ q → Inv s → Inv (f s x) ∧ ∃ s', target x s = (s', .ok ()) ∧
      ∀ h, body (s', h) = some (.norm, (f s x, h)))
    (n i : Nat) (s : S) (h : Hid (List Val) Unit) (hs : Inv s) (hi : i ≤ q.length)
    (hn : q.length < n + i) (ho : (h 0).over = some q) (hm : (h 0).max = q.length)
    (hx : (h 0).idx = i) (htr : (h 0).trigger = false) :
    ∃ h' : Hid (List Val) Unit, (h' 0).idx = (h' 0).max ∧ (h' 0).trigger = false ∧
    nativeWhile (seqTest 0)
      (fun g => labelContinue (thenR (seqItem (liftValue value) 0 target) (thenR (seqNext 0) body) g))
      (fun g => some (.norm, g)) n (s, h) = some (.norm, ((q.drop i).foldl f s, h')) := by
  induction n generalizing i s h with
  | zero => omega
  | succ n ih =>
    rw [nativeWhile]
    rcases Nat.lt_or_ge i q.length with hl | hl
    · rw [condR_true (s' := (s, h)) (by simp [seqTest, hx, hm, hl])]
      obtain ⟨h1, s', h2, h3⟩ := hf q[i] s (List.getElem_mem hl) hs
      have hit : seqItem (liftValue value) 0 target (s, h) = ((s', h), .ok ()) := by
        simp only [seqItem, up, ho, getOr, liftValue, value, hx, List.getElem?_eq_getElem hl,
          Option.getD_some]
        rw [show ({ heap := s.heap, loc := s.loc, acc := s.acc } : S) = s from rfl, h2]
      unfold thenR
      rw [bindR_ok hit, seqNext, bindR_ok (hset_ok (a := ()) (s := s') rfl), h3]
      obtain ⟨h', a1, a2, a3⟩ := ih (i + 1) (f s q[i])
        (h.set 0 (fun v => { v with idx := v.idx + 1 })) h1 hl (by omega) (by rw [set_self]; exact ho)
        (by rw [set_self]; exact hm) (by rw [set_self]; exact congrArg (· + 1) hx)
        (by rw [set_self]; exact htr)
      refine ⟨h', a1, a2, ?_⟩
      rw [List.drop_eq_getElem_cons hl, List.foldl_cons, ← a3]
      rfl
    · rw [condR_false (s' := (s, h)) (by simp [seqTest, hx, hm, hl]), List.drop_eq_nil_of_le hl]
      exact ⟨h, by rw [hx, hm]; omega, htr, rfl⟩

/-- The code of such a loop, with what comes before it. -/
theorem loop_fold (Inv : S → Prop) (q : List Val) (target : Val → Act S Err Unit Unit)
    (it : Act S Err Unit (List Val))
    (body : G S (List Val) Unit → Res (G S (List Val) Unit) Err Unit Empty) (f : S → Val → S)
    (hf : ∀ x s, x ∈ q → Inv s → Inv (f s x) ∧ ∃ s', target x s = (s', .ok ()) ∧
      ∀ h, body (s', h) = some (.norm, (f s x, h)))
    (N : Nat) (s : S) (h : Hid (List Val) Unit) (hs : Inv s) (hit : it s = (s, .ok q))
    (hn : q.length < N) :
    ∃ h' : Hid (List Val) Unit, (h' 0).idx = (h' 0).max ∧ (h' 0).trigger = false ∧
    seqCode (lift iter) (liftValue value) N 0 it target body (fun g => some (.norm, g)) (s, h) =
      some (.norm, (q.foldl f s, h')) := by
  unfold seqCode thenR
  have h2 : getOr ((h.set 0 (fun v => { v with over := some q }) 0).over)
      (fun q s => ((s, .ok ((lift iter).size q s)) : S × Except (Exc Err Unit) Nat)) s
      = (s, .ok q.length) := by
    rw [set_self]; rfl
  rw [bindR_ok (hset_ok hit), bindR_ok (hset_ok h2), bindR_ok (hset_ok (s := s) (a := ()) rfl),
    bindR_ok (hset_ok (s := s) (a := ()) rfl)]
  obtain ⟨h', a1, a2, a3⟩ := while_fold Inv q target body f hf N 0 s
    ((((h.set 0 (fun v => { v with over := some q })).set 0
      (fun v => { v with max := q.length })).set 0 (fun v => { v with idx := 0 })).set 0
      (fun v => { v with trigger := false })) hs (Nat.zero_le _) hn
    (by simp only [set_self]) (by simp only [set_self]) (by simp only [set_self])
    (by simp only [set_self])
  refine ⟨h', a1, a2, ?_⟩
  dsimp only [seqWhile]
  rw [a3]
  rw [labelBreak_norm, seqR_norm, condR_false (s' := (q.foldl f s, h')) (by rw [a2]; rfl)]

/-- Only the first item is visited. -/
def firstOnly (f : S → Val → S) : List Val → S → S
  | [], s => s
  | x :: _, s => f s x

/-- The code of a loop in which there is nothing but such a loop, on the same line: there is only one
round. -/
theorem one_round (q : List Val) (target : Val → Act S Err Unit Unit) (it : Act S Err Unit (List Val))
    (inner : G S (List Val) Unit → Res (G S (List Val) Unit) Err Unit Empty) (f : S → Val → S)
    (hf : ∀ x s, ∃ s', target x s = (s', .ok ()) ∧ ∀ h, ∃ h' : Hid (List Val) Unit,
      (h' 0).idx = (h' 0).max ∧ (h' 0).trigger = false ∧ inner (s', h) = some (.norm, (f s x, h')))
    (N : Nat) (s : S) (h : Hid (List Val) Unit) (hit : it s = (s, .ok q)) (hn : 1 < N) :
    ∃ h' : Hid (List Val) Unit,
    seqCode (lift iter) (liftValue value) N 0 it target inner (fun g => some (.norm, g)) (s, h) =
      some (.norm, (firstOnly f q s, h')) := by
  unfold seqCode thenR
  have h2 : getOr ((h.set 0 (fun v => { v with over := some q }) 0).over)
      (fun q s => ((s, .ok ((lift iter).size q s)) : S × Except (Exc Err Unit) Nat)) s
      = (s, .ok q.length) := by
    rw [set_self]; rfl
  rw [bindR_ok (hset_ok hit), bindR_ok (hset_ok h2), bindR_ok (hset_ok (s := s) (a := ()) rfl),
    bindR_ok (hset_ok (s := s) (a := ()) rfl)]
  dsimp only [seqWhile]
  generalize hh : (((h.set 0 (fun v => { v with over := some q })).set 0
      (fun v => { v with max := q.length })).set 0 (fun v => { v with idx := 0 })).set 0
      (fun v => { v with trigger := false }) = h1
  have ho : (h1 0).over = some q := by rw [← hh]; simp only [set_self]
  have hm : (h1 0).max = q.length := by rw [← hh]; simp only [set_self]
  have hx : (h1 0).idx = 0 := by rw [← hh]; simp only [set_self]
  have ht : (h1 0).trigger = false := by rw [← hh]; simp only [set_self]
  obtain ⟨m, rfl⟩ : ∃ m, N = m + 2 := ⟨N - 2, by omega⟩
  rw [nativeWhile]
  match q, ho, hm with
  | [], ho, hm =>
    rw [condR_false (s' := (s, h1)) (by simp [seqTest, hx, hm])]
    refine ⟨h1, ?_⟩
    rw [labelBreak_norm, seqR_norm, condR_false (s' := (s, h1)) (by rw [ht])]
    rfl
  | x :: l, ho, hm =>
    rw [condR_true (s' := (s, h1)) (by simp [seqTest, hx, hm])]
    obtain ⟨s', b1, b2⟩ := hf x s
    have hi : seqItem (liftValue value) 0 target (s, h1) = ((s', h1), .ok ()) := by
      simp only [seqItem, up, ho, getOr, liftValue, value, hx, List.getElem?_cons_zero,
        Option.getD_some]
      rw [show ({ heap := s.heap, loc := s.loc, acc := s.acc } : S) = s from rfl, b1]
    obtain ⟨h', c1, c2, c3⟩ := b2 (h1.set 0 (fun v => { v with idx := v.idx + 1 }))
    unfold thenR
    rw [bindR_ok hi, seqNext, bindR_ok (hset_ok (a := ()) (s := s') rfl), c3]
    refine ⟨h', ?_⟩
    rw [labelContinue_norm, seqR_norm, nativeWhile, condR_false (s' := (f s x, h')) (by simp [seqTest, c1]),
      labelBreak_norm, seqR_norm, condR_false (s' := (f s x, h')) (by rw [c2])]
    rfl

/-- C69: `[(x, y) for x in a for y in b]` contains only pairs with the first item of `b`, for all
lists `a` and `b`. -/
theorem product_compiled (a b : List Nat) (N : Nat) (ha : a.length < N) (hN : 1 < N) :
    compiled iter value N product (env [("a", .nums a), ("b", .nums b)]) () =
      some (.ok (match b with | [] => [] | y :: _ => a.map (fun x => [.num x, .num y])), ()) := by
  have h := one_round (b.map Val.num) (bind (clause "y" "b" []).assign)
    (eval (view product.bound (env [("a", .nums a), ("b", .nums b)]))
      (pure (fun ρ => get "b" ρ >>= itemsOf)))
    (fun g => seqR (fun g => some (.norm, g)) (seqCode (lift iter) (liftValue value) N 0
      (eval (view product.bound (env [("a", .nums a), ("b", .nums b)]))
        (pure (fun ρ => get "a" ρ >>= itemsOf))) (bind (clause "x" "a" []).assign)
      (lowerB (lift iter) (liftValue value) N
        (one (putStmt (view product.bound (env [("a", .nums a), ("b", .nums b)]))
          product.elt product.put))) (fun g => some (.norm, g)) g))
    (fun s y => (a.map Val.num).foldl (fun s x => ⟨(), put s "x" x, s.acc ++ [[x, y]]⟩)
      ⟨(), put s "y" y, s.acc⟩)
    ?_ N ⟨(), fun _ => none, []⟩ Hid.empty rfl hN
  · obtain ⟨h', h⟩ := h
    unfold compiled callCompiled
    have e : lowerB (lift iter) (liftValue value) N
        (compiledCode product (env [("a", .nums a), ("b", .nums b)]))
        (⟨(), fun _ => none, product.empty⟩, Hid.empty) = _ := congrArg (seqR (fun g => some (.norm, g))) h
    rw [e]
    match b with
    | [] => rfl
    | y :: l =>
      have := fold_acc (fun s x => put s "x" x) (fun x => [[x, Val.num y]]) (a.map Val.num)
        ⟨(), put (⟨(), fun _ => none, []⟩ : S) "y" (.num y), []⟩
      simp only [List.map_cons, firstOnly, seqR]
      rw [show (compiledCode product (env [("a", .nums a), ("b", .nums (y :: l))])).flows = true from rfl,
        if_pos rfl]
      simp only [outcome, this, List.flatMap_map, List.nil_append]
      rw [← List.map_eq_flatMap]
  · intro y s
    refine ⟨_, rfl, fun h => ?_⟩
    have hf : ∀ x s, x ∈ a.map Val.num → s.loc "y" = some y →
        (⟨(), put s "x" x, s.acc ++ [[x, y]]⟩ : S).loc "y" = some y ∧
        ∃ s', bind (clause "x" "a" []).assign x s = (s', .ok ()) ∧ ∀ h,
          lowerB (lift iter) (liftValue value) N
            (one (putStmt (view product.bound (env [("a", .nums a), ("b", .nums b)]))
              product.elt product.put)) (s', h) =
            some (.norm, (⟨(), put s "x" x, s.acc ++ [[x, y]]⟩, h)) := by
      intro x s _ hs
      refine ⟨by simp [put, hs], _, rfl, fun h => ?_⟩
      simp [one, lowerB, Stmt.flows, putStmt, lower, up, bindR, seqR, eval, product, comp, tuple, pure,
        get, view, Comp.bound, Comp.clauses, clause, put, hs]
      rfl
    obtain ⟨h', a1, a2, a3⟩ := loop_fold (fun s => s.loc "y" = some y) (a.map Val.num)
      (bind (clause "x" "a" []).assign)
      (eval (view product.bound (env [("a", .nums a), ("b", .nums b)]))
        (pure (fun ρ => get "a" ρ >>= itemsOf)))
      (lowerB (lift iter) (liftValue value) N
        (one (putStmt (view product.bound (env [("a", .nums a), ("b", .nums b)]))
          product.elt product.put)))
      (fun s x => ⟨(), put s "x" x, s.acc ++ [[x, y]]⟩) hf N ⟨(), put s "y" y, s.acc⟩ h
      (by simp [put]) rfl (by simpa using ha)
    refine ⟨h', a1, a2, ?_⟩
    exact congrArg (seqR (fun g => some (.norm, g))) a3

/-- C69 `comprehension_refuted`: the statement of `comprehension_partial` without `Good` and
for several clauses is false. -/
theorem comprehension_refuted :
    ¬ ∀ (H E V W Q T I X Y A : Type) (p : Iter H E V Q T I X) (value : Q → Nat → Act H E V X),
      (∀ q i h, i < p.size q h → value q i h = p.item q i h) →
      ∀ (c : Comp H E V W Q T I X Y A) (N : Nat) (outer : Vars W) (h : H),
        compiled p value N c outer h = python p N c outer h := by
  intro h
  have h1 := h _ _ _ _ _ _ _ _ _ _ iter value value_item product 20
    (env [("a", .nums [1, 2]), ("b", .nums [3, 4])]) ()
  rw [product_python [1, 2] [3, 4] 20 (by decide) (by decide),
    product_compiled [1, 2] [3, 4] 20 (by decide) (by decide)] at h1
  revert h1
  decide

end Verif.Comp.Demo
