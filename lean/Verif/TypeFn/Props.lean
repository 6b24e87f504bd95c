import Verif.TypeFn.Steps
/-
C114: what a decorated type function gives, for every world of functions, every program calling them and every depth.
A user's program is itself a `Prog`: it calls type functions, looks at what they give and goes on.
-/
namespace Verif.TypeFn

/-- C114: whatever a program calls and however the functions call each other and themselves, each function is run at most once for
equal arguments, and it has been run exactly for the calls the memo knows. -/
theorem runs_once (w : World) (depth : Nat) (p : Prog) (o : Outcome) (s : State) (h : exec (call w depth) p .initial = some (o, s)) :
    s.ran.Nodup ∧ ∀ k, k ∈ s.ran ↔ s.memo k ≠ none :=
  have hb := (exec_good (call_good w depth) p _ _ _ h initial_base).1
  ⟨hb.nodup, hb.ran⟩

/-- C114: once a call has given a type or raised an exception, a call with equal arguments gives the same type or raises the same
exception after whatever else has happened, changes nothing and runs no function. -/
theorem answers_stay (w : World) (depth : Nat) (before after : Prog) (c c' n n' : Call) (s0 s1 s2 : State) (o ob oa : Outcome)
    (hb : exec (call w depth) before .initial = some (ob, s0)) (hc : call w depth c s0 = some (o, s1)) (ho : o ≠ .interrupted)
    (ha : exec (call w depth) after s1 = some (oa, s2)) (hn : normal c = some n) (hn' : normal c' = some n') (hk : key n = key n')
    (d : Nat) : call w (d + 1) c' s2 = some (o, s2) := by
  have h0 := (exec_good (call_good w depth) _ _ _ _ hb initial_base).1
  have h1 := (call_good w depth _ _ _ _ hc h0).1
  have h2 := (exec_good (call_good w depth) _ _ _ _ ha h1).2
  have h3 := call_entry hc hn ho
  cases o with
  | interrupted => exact absurd rfl ho
  | ty t => simp only [call, hn', ← hk, h2.memo _ _ h3]
  | raised e => simp only [call, hn', ← hk, h2.memo _ _ h3]

/-- C114: while a function runs, a call of it with equal arguments - its own, or of a function it called - gives the forward made for
this call; and if the call then gives a type, that forward has been defined to it. -/
theorem inner_call (w : World) (depth : Nat) (before : Prog) (ob : Outcome) (c n : Call) (s s1 : State) (t : Ty)
    (hb : exec (call w depth) before .initial = some (ob, s)) (hn : normal c = some n) (hk : s.memo (key n) = none) (h : call w (depth + 1) c s = some (.ty t, s1)) :
    (∀ p o s2, exec (call w depth) p (begin_ s (key n) n) = some (o, s2) →
      ∀ d c' n', normal c' = some n' → key n' = key n → call w (d + 1) c' s2 = some (.ty (.fwd s.forwards), s2)) ∧
    ∃ s2, exec (call w depth) (w.body n.fn n.args n.kwargs) (begin_ s (key n) n) = some (.ty t, s2) ∧
      s1.defined s.forwards = some (follow s2 t) ∧ follow s2 t ≠ .fwd s.forwards := by
  replace hb := (exec_good (call_good w depth) _ _ _ _ hb initial_base).1
  refine ⟨fun p o s2 hp d c' n' hn' hk' => ?_, ?_⟩
  · have h2 := (exec_good (call_good w depth) _ _ _ _ hp (begin_base hb hk)).2
    have h3 := h2.memo (key n) (.ty (.fwd s.forwards)) (by simp [begin_])
    simp only [call, hn', hk', h3]
  · obtain ⟨o2, s2, h1, h2⟩ := call_runs h hn hk
    refine ⟨s2, ?_⟩
    cases o2 with
    | interrupted => simp [finish] at h2
    | raised e => simp [finish, fail] at h2
    | ty t2 =>
      simp only [finish] at h2
      split at h2
      · simp [fail] at h2
      · rename_i s3 h3
        simp only [Prod.mk.injEq, Outcome.ty.injEq] at h2
        obtain ⟨rfl, rfl⟩ := h2
        obtain ⟨h4, rfl⟩ := define_some h3
        exact ⟨h1, by simp, h4⟩

/-- C114: if no function failed, then after any program every forward that was made is defined, and neither what it is defined to nor
any type the memo holds or the program got mentions a forward that is not.  `_partial`: a function that fails leaves forwards
undefined that others may have got (`Wrong.orphaned`, `Wrong.interrupted_forever`). -/
theorem all_defined_partial (w : World) (hw : w.Honest) (depth : Nat) (p : Prog) (hp : Honest (fun _ => False) p) (o : Outcome) (s : State)
    (h : exec (call w depth) p .initial = some (o, s)) (hf : s.failed = false) :
    (∀ i, i < s.forwards → ∃ t, s.defined i = some t ∧ ∀ j ∈ t.fwds, s.defined j ≠ none) ∧
    (∀ k t, s.memo k = some (.ty t) → ∀ j ∈ t.fwds, s.defined j ≠ none) ∧ ∀ j ∈ o.fwds, s.defined j ≠ none := by
  have hs := exec_fine (call_good w depth) (call_fine hw depth) p _ _ _ (fun _ => False) _ h (initial_sound _) hp (fun _ h => h.elim)
  have hd : ∀ j, j < s.forwards → s.defined j ≠ none := by
    intro j hj hn
    rcases hs.1.undefined j hj hn with h1 | h1
    · rw [hf] at h1; cases h1
    · exact h1
  refine ⟨fun i hi => ?_, fun k t hk j hj => hd j (hs.1.memo k t hk j hj), fun j hj => hd j (hs.2 j hj)⟩
  cases hi' : s.defined i with
  | none => exact absurd hi' (hd i hi)
  | some t => exact ⟨t, rfl, fun j hj => hd j (hs.1.target i t hi' j hj)⟩

/-- C114: a type for which a call is recorded is given again by that call, without running anything, unless it is a forward that was
never defined.  This is what pickling a type by its call relies on. -/
theorem made_again (w : World) (hw : w.Honest) (depth : Nat) (p : Prog) (hp : Honest (fun _ => False) p) (o : Outcome) (s : State)
    (h : exec (call w depth) p .initial = some (o, s)) (t : Ty) (c : Call) (hm : s.made t = some c) :
    (∀ d, again w (d + 1) s t = some (.ty t, s)) ∨ ∃ i, t = .fwd i ∧ i < s.forwards ∧ s.defined i = none := by
  have hs := exec_fine (call_good w depth) (call_fine hw depth) p _ _ _ (fun _ => False) _ h (initial_sound _) hp (fun _ h => h.elim)
  obtain ⟨h1, h2⟩ := hs.1.made t c hm
  refine h2.imp_left fun h2 d => ?_
  simp only [again, hm, call, h1, h2]

/-- C114: the order in which keyword arguments are written makes no difference. -/
theorem keyword_order (fn : Nat) (args : List Arg) (kwargs kwargs' : List (String × Arg)) (hn : (kwargs.map (·.1)).Nodup)
    (hp : kwargs.Perm kwargs') : normal ⟨fn, args, kwargs⟩ = normal ⟨fn, args, kwargs'⟩ := by
  simp only [normal]
  rcases mapItems_perm hp with ⟨h1, h2⟩ | ⟨r, r', h1, h2, h3⟩
  · rw [h1, h2]
  · have : sortPairs r = sortPairs r' := sortPairs_of_perm h3 (by rw [mapItems_keys h1]; exact hn)
    rw [h1, h2]
    cases mapArgs args with
    | none => rfl
    | some as => show some _ = some _; rw [this]

/-- C114: neither does the order of a dictionary's items. -/
theorem item_order (xs xs' : List (String × Arg)) (hn : (xs.map (·.1)).Nodup) (hp : xs.Perm xs') :
    mapArg (.dict xs) = mapArg (.dict xs') := by
  simp only [mapArg]
  rcases mapItems_perm hp with ⟨h1, h2⟩ | ⟨r, r', h1, h2, h3⟩
  · rw [h1, h2]
  · have : sortPairs r = sortPairs r' := sortPairs_of_perm h3 (by rw [mapItems_keys h1]; exact hn)
    rw [h1, h2, Option.map_some, Option.map_some, this]

theorem canons_map : ∀ as : List Arg, canons as = as.map canon
  | [] => rfl
  | a :: as => by rw [canons, canons_map as, List.map_cons]

/-- C114: two calls share their type exactly if they are of the same function, and have the same number of arguments and the same keywords
with pairwise equal values. -/
theorem same_call (c c' : Call) : key c = key c' ↔ c.fn = c'.fn ∧
    List.Forall₂ (fun a b => canon a = canon b) c.args c'.args ∧
    List.Forall₂ (fun p q => p.1 = q.1 ∧ canon p.2 = canon q.2) c.kwargs c'.kwargs := by
  have h1 : ∀ as bs : List Arg, as.map canon = bs.map canon ↔ List.Forall₂ (fun a b => canon a = canon b) as bs := by
    intro as
    induction as with
    | nil => intro bs; cases bs <;> simp
    | cons a as ih => intro bs; cases bs <;> simp [ih]
  have h2 : ∀ as bs : List (String × Arg), (as.map fun (k, v) => (k, canon v)) = (bs.map fun (k, v) => (k, canon v)) ↔
      List.Forall₂ (fun p q => p.1 = q.1 ∧ canon p.2 = canon q.2) as bs := by
    intro as
    induction as with
    | nil => intro bs; cases bs <;> simp
    | cons a as ih => intro bs; cases bs <;> simp [ih]
  simp only [key, Call.mk.injEq, canons_map, h1, h2]

/-! ### Cases -/

/-- A list type: `@TypeFunction def L(T): return Alternative('L', Node={'tail': L(T)})` (0), a pair of lists (1) and one that raises (2). -/
def lists : World where
  contains := fun _ _ _ => false
  body
    | 0, args, _ => .call ⟨0, args, []⟩ fun
      | .ty t => .done (.ty (.con "Alternative" [t]))
      | o => .done o
    | 1, args, _ => .call ⟨0, args, []⟩ fun
      | .ty t => .done (.ty (.con "Tuple" [t, t]))
      | o => .done o
    | _, _, _ => .done (.raised "ValueError")

/-- These functions mention only what they were given. -/
theorem lists_honest : lists.Honest := by
  intro fn args kwargs
  match fn with
  | 0 =>
    refine ⟨by simp [Call.Proper], ?_, ?_⟩
    · simp [Call.fwds, Arg.fwdsItems]; tauto
    · intro o; cases o <;> simp [Honest, Outcome.fwds, Ty.fwds, Ty.fwdsAll] <;> tauto
  | 1 =>
    refine ⟨by simp [Call.Proper], ?_, ?_⟩
    · simp [Call.fwds, Arg.fwdsItems]; tauto
    · intro o; cases o <;> simp [Honest, Outcome.fwds, Ty.fwds, Ty.fwdsAll] <;> tauto
  | n + 2 => intro i hi; simp [Outcome.fwds] at hi

/-- The pair of lists of integers. -/
def twoLists : Prog := .call ⟨1, [.ty (.con "int" [])], []⟩ .done

/-- It is honest, gives the recursive type, runs two functions, fails nowhere, and both forwards are defined. -/
example : Honest (fun _ => False) twoLists := by
  refine ⟨by simp [Call.Proper], ?_, ?_⟩
  · simp [Call.fwds, Arg.fwdsItems, Arg.fwdsAll, Arg.fwds, Ty.fwds, Ty.fwdsAll]
  · intro o; simp [Honest]
example : (exec (call lists 4) twoLists .initial).map (fun r => (r.1, r.2.forwards, r.2.failed, r.2.defined 1)) =
    some (.ty (.con "Tuple" [.con "Alternative" [.fwd 1], .con "Alternative" [.fwd 1]]), 2, false, some (.con "Alternative" [.fwd 1])) := by
  decide +kernel
example : (exec (call lists 4) twoLists .initial).map (fun r => (r.2.made (.con "Alternative" [.fwd 1]), r.2.made (.fwd 1), r.2.ran.length)) =
    some (some ⟨0, [.ty (.con "int" [])], []⟩, none, 2) := by decide +kernel
/-- Keywords in two orders, and a dictionary argument. -/
example : normal ⟨0, [], [("b", .int 1), ("a", .int 2)]⟩ = some ⟨0, [], [("a", .int 2), ("b", .int 1)]⟩ := by decide +kernel
example : mapArg (.dict [("b", .int 1), ("a", .list [.none])]) = some (.tuple [.tuple [.str "a", .tuple [.none]], .tuple [.str "b", .int 1]]) := by
  decide +kernel
example : key ⟨0, [.bool true], [("a", .whole 2)]⟩ = key ⟨0, [.int 1], [("a", .int 2)]⟩ := by decide +kernel
example : key ⟨0, [], [("a", .int 2)]⟩ ≠ key ⟨0, [], [("a", .int 3)]⟩ := by decide +kernel
example : key ⟨0, [], [("a", .int 2)]⟩ ≠ key ⟨0, [], [("b", .int 2)]⟩ := by decide +kernel

end Verif.TypeFn
