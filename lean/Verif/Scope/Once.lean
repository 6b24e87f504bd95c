import Verif.Scope.Analysis
/-
Functions defined once: `functionDefsAssignedOnce`
(typed_python/compiler/function_conversion_context.py:1140-1151) names the functions whose
definition is the only assignment of their variable. Compiled code never stores such a function
and looks it up without asking whether its definition has been executed.
-/
namespace Verif.Scope

/-! ### What Python does -/

/-- A value of a variable: the function of a `def` or `lambda`, or something else. -/
inductive Val where
  | fn (t : Tree)
  | other (n : Nat)

/-- `x` can be bound to the value, or with `none` be unbound, by executing a part of this code. A
`def` binds its name to its function, `x = lambda ...` to the lambda; all other bindings may bind
anything. `del` unbinds, and so does the end of `except ... as x`. -/
def Event : Tree → Name → Option Val → Prop
  | .node a b, x, v => Event a x v ∨ Event b x v
  | .name y c, x, v => x = y ∧ (((c = .store ∨ c = .augStore) ∧ v ≠ none) ∨ (c = .del ∧ v = none))
  | .bind y (.lam p d k body), x, v => x = y ∧ v = some (.fn (.lam p d k body))
  | .bind y e, x, v => (x = y ∧ v ≠ none) ∨ Event e x v
  | .hidden t, x, v => Event t x v
  | .alias top asname, x, v => x = asname.getD top ∧ v ≠ none
  | .handler ty nm body, x, v => nm = some x ∨ Event ty x v ∨ Event body x v
  | .funDef nm p ap ao d k body de re, x, v =>
      x = nm ∧ v = some (.fn (.funDef nm p ap ao d k body de re))
  | .classDef nm _ _ _ _, x, v => x = nm ∧ v ≠ none
  | _, _, _ => False

/-- What a call of a function has done to its variables so far. -/
abbrev Trace := List (Name × Option Val)

/-- Each of these bindings is made by the code. -/
def Executes (t : Tree) (tr : Trace) : Prop := ∀ e, e ∈ tr → Event t e.1 e.2

/-- The value Python finds: what the last binding left, or else the parameter. -/
def python (params : Name → Option Val) : Trace → Name → Option Val
  | [], x => params x
  | (y, v) :: rest, x =>
      match rest.any (fun e => e.1 == x) with
      | true => python params rest x
      | false => if y = x then v else python params rest x

/-- `x` is the name in an `except ... as x` of this code. -/
def Catches : Tree → Name → Prop
  | .node a b, x => Catches a x ∨ Catches b x
  | .bind _ v, x => Catches v x
  | .hidden t, x => Catches t x
  | .handler ty nm body, x => nm = some x ∨ Catches ty x ∨ Catches body x
  | _, _ => False

/-! ### What compiled code does -/

/-- `functionDefsAssignedOnce.get(x)`. -/
def onceFor (t : Tree) (x : Name) : Option Tree :=
  ((definedOnce t).find? fun d => d.1 == x).map (·.2)

/-- `localVariableExpression` (function_conversion_context.py:228-252) after these bindings, and
`closurePathToName` (lines 281-287) for nested functions. Definitions of functions defined once do
nothing (lines 1479-1487 and 2151-2157); other bindings are stored and found again. -/
def compiled (t : Tree) (params : Name → Option Val) (tr : Trace) (x : Name) : Option Val :=
  match onceFor t x with
  | some d => some (.fn d)
  | none => python params tr x

/-- Does the conversion run into the assertion of `assignToLocalVariable`
(function_conversion_context.py:909)? Handlers assign their name with it (lines 1747-1751). -/
def assertionFails (t : Tree) : Tree → Bool
  | .node a b => assertionFails t a || assertionFails t b
  | .hidden a => assertionFails t a
  | .handler _ nm body =>
      (match nm with
       | some x => (onceFor t x).isSome
       | none => false) || assertionFails t body
  | _ => false

/-! ### Proofs -/

theorem named_sites : ∀ (t : Tree) (x : Name) (d : Tree), (x, d) ∈ namedFunctions t → x ∈ sites t
  | .leaf, _, _, h => by simp [namedFunctions] at h
  | .node a b, x, d, h => by
      simp only [namedFunctions, List.mem_append] at h
      simp only [sites, List.mem_append]
      exact h.imp (named_sites a x d) (named_sites b x d)
  | .name _ _, _, _, h => by simp [namedFunctions] at h
  | .bind y v, x, d, h => by
      cases v <;> simp only [namedFunctions] at h
      case lam => simp only [List.mem_singleton, Prod.mk.injEq] at h; simp [sites, h.1]
      all_goals first
        | exact absurd h List.not_mem_nil
        | (exact List.mem_cons_of_mem _ (named_sites _ x d (by simpa only [namedFunctions] using h)))
  | .selfVar _ _, _, _, h => by simp [namedFunctions] at h
  | .hidden t, x, d, h => named_sites t x d h
  | .alias _ _, _, _, h => by simp [namedFunctions] at h
  | .handler ty _ body, x, d, h => by
      simp only [namedFunctions, List.mem_append] at h
      simp only [sites, List.mem_append]
      exact h.imp (named_sites ty x d) (named_sites body x d)
  | .lam _ _ _ _, _, _, h => by simp [namedFunctions] at h
  | .comp _ _ _ _ _, _, _, h => by simp [namedFunctions] at h
  | .funDef _ _ _ _ _ _ _ _ _, _, _, h => by
      simp only [namedFunctions, List.mem_singleton, Prod.mk.injEq] at h
      simp [sites, h.1]
  | .classDef _ _ _ _ _, _, _, h => by simp [namedFunctions] at h
  | .nonlocal _, _, _, h => by simp [namedFunctions] at h
  | .rejected, _, _, h => by simp [namedFunctions] at h

theorem event_sites : ∀ (t : Tree) (x : Name) (v : Option Val), Event t x v →
    x ∈ sites t ∨ Catches t x
  | .leaf, _, _, h => h.elim
  | .node a b, x, v, h => by
      simp only [sites, List.mem_append]
      rcases h with h | h
      · exact (event_sites a x v h).imp Or.inl Or.inl
      · exact (event_sites b x v h).imp Or.inr Or.inr
  | .name y c, x, v, h => by
      obtain ⟨hx, h⟩ := h
      left
      rcases h with ⟨h | h, _⟩ | ⟨h, _⟩ <;> simp [sites, counts, h, hx]
  | .bind y e, x, v, h => by
      cases e
      case lam => exact Or.inl (by simp [sites, h.1])
      all_goals
        rcases h with h | h
        · exact Or.inl (by simp [sites, h.1])
        · exact (event_sites _ x v h).imp (List.mem_cons_of_mem _) id
  | .selfVar _ _, _, _, h => h.elim
  | .hidden t, x, v, h => event_sites t x v h
  | .alias _ _, _, _, h => Or.inl (by simp [sites, h.1])
  | .handler ty nm body, x, v, h => by
      simp only [sites, List.mem_append]
      rcases h with h | h | h
      · exact Or.inr (Or.inl h)
      · exact (event_sites ty x v h).imp Or.inl fun r => Or.inr (Or.inl r)
      · exact (event_sites body x v h).imp Or.inr fun r => Or.inr (Or.inr r)
  | .lam _ _ _ _, _, _, h => h.elim
  | .comp _ _ _ _ _, _, _, h => h.elim
  | .funDef _ _ _ _ _ _ _ _ _, _, _, h => Or.inl (by simp [sites, h.1])
  | .classDef _ _ _ _ _, _, _, h => Or.inl (by simp [sites, h.1])
  | .nonlocal _, _, _, h => h.elim
  | .rejected, _, _, h => h.elim

theorem bind_cases (y : Name) (e : Tree) :
    (∃ p d k body, e = .lam p d k body)
      ∨ (namedFunctions (.bind y e) = namedFunctions e
          ∧ ∀ (x : Name) (v : Option Val),
              Event (.bind y e) x v ↔ ((x = y ∧ v ≠ none) ∨ Event e x v)) := by
  cases e
  case lam => exact Or.inl ⟨_, _, _, _, rfl⟩
  all_goals exact Or.inr ⟨rfl, fun _ _ => Iff.rfl⟩

/-- The only thing ever bound to a variable with one site, which is a function, is that function. -/
theorem event_once : ∀ (t : Tree) (x : Name) (d : Tree) (v : Option Val),
    (sites t).count x = 1 → (x, d) ∈ namedFunctions t → ¬ Catches t x → Event t x v →
    v = some (.fn d)
  | .leaf, _, _, _, _, _, _, h => h.elim
  | .node a b, x, d, v, hc, hn, hk, h => by
      simp only [sites, List.count_append] at hc
      simp only [namedFunctions, List.mem_append] at hn
      have ha : ¬ Catches a x := fun c => hk (Or.inl c)
      have hb : ¬ Catches b x := fun c => hk (Or.inr c)
      rcases hn with hn | hn
      · have h1 := List.count_pos_iff.mpr (named_sites a x d hn)
        rcases h with h | h
        · exact event_once a x d v (by omega) hn ha h
        · rcases event_sites b x v h with r | r
          · have := List.count_pos_iff.mpr r; omega
          · exact absurd r hb
      · have h1 := List.count_pos_iff.mpr (named_sites b x d hn)
        rcases h with h | h
        · rcases event_sites a x v h with r | r
          · have := List.count_pos_iff.mpr r; omega
          · exact absurd r ha
        · exact event_once b x d v (by omega) hn hb h
  | .name _ _, _, _, _, _, hn, _, _ => by simp [namedFunctions] at hn
  | .bind y e, x, d, v, hc, hn, hk, h => by
      rcases bind_cases y e with ⟨p, ds, k, body, rfl⟩ | ⟨h1, h2⟩
      · simp only [namedFunctions, List.mem_singleton, Prod.mk.injEq] at hn
        rw [h.2, hn.2]
      · rw [h1] at hn
        have hs := List.count_pos_iff.mpr (named_sites e x d hn)
        simp only [sites, List.count_cons] at hc
        rcases (h2 x v).mp h with h | h
        · rw [h.1] at hc hs
          simp only [beq_self_eq_true, if_true] at hc
          omega
        · exact event_once e x d v (by omega) hn hk h
  | .selfVar _ _, _, _, _, _, _, _, h => h.elim
  | .hidden t, x, d, v, hc, hn, hk, h => event_once t x d v hc hn hk h
  | .alias _ _, _, _, _, _, hn, _, _ => by simp [namedFunctions] at hn
  | .handler ty nm body, x, d, v, hc, hn, hk, h => by
      simp only [sites, List.count_append] at hc
      simp only [namedFunctions, List.mem_append] at hn
      have ha : ¬ Catches ty x := fun c => hk (Or.inr (Or.inl c))
      have hb : ¬ Catches body x := fun c => hk (Or.inr (Or.inr c))
      have hm : nm ≠ some x := fun c => hk (Or.inl c)
      rcases hn with hn | hn
      · have h1 := List.count_pos_iff.mpr (named_sites ty x d hn)
        rcases h with h | h | h
        · exact absurd h hm
        · exact event_once ty x d v (by omega) hn ha h
        · rcases event_sites body x v h with r | r
          · have := List.count_pos_iff.mpr r; omega
          · exact absurd r hb
      · have h1 := List.count_pos_iff.mpr (named_sites body x d hn)
        rcases h with h | h | h
        · exact absurd h hm
        · rcases event_sites ty x v h with r | r
          · have := List.count_pos_iff.mpr r; omega
          · exact absurd r ha
        · exact event_once body x d v (by omega) hn hb h
  | .lam _ _ _ _, _, _, _, _, _, _, h => h.elim
  | .comp _ _ _ _ _, _, _, _, _, _, _, h => h.elim
  | .funDef _ _ _ _ _ _ _ _ _, _, _, _, _, hn, _, h => by
      simp only [namedFunctions, List.mem_singleton, Prod.mk.injEq] at hn
      rw [h.2, hn.2]
  | .classDef _ _ _ _ _, _, _, _, _, hn, _, _ => by simp [namedFunctions] at hn
  | .nonlocal _, _, _, _, _, _, _, h => h.elim
  | .rejected, _, _, _, _, _, _, h => h.elim

theorem onceFor_mem {t : Tree} {x : Name} {d : Tree} (h : onceFor t x = some d) :
    (x, d) ∈ namedFunctions t ∧ (sites t).count x = 1 := by
  simp only [onceFor, Option.map_eq_some_iff] at h
  obtain ⟨e, he, rfl⟩ := h
  have hm := List.mem_of_find?_eq_some he
  have hx := List.find?_some he
  simp only [definedOnce, List.mem_filter, assignedOnce, beq_iff_eq] at hm hx
  subst hx
  exact ⟨hm.1, hm.2⟩

/-- What Python finds is what some binding left, or the parameter. -/
theorem python_event {params : Name → Option Val} : ∀ {tr : Trace} {x : Name} {v : Val},
    python params tr x = some v → (x, some v) ∈ tr ∨ params x = some v
  | [], _, _, h => Or.inr h
  | (y, w) :: rest, x, v, h => by
      simp only [python] at h
      split at h
      · exact (python_event h).imp (List.mem_cons_of_mem _) id
      · split at h
        · next hy => subst hy; subst h; exact Or.inl List.mem_cons_self
        · exact (python_event h).imp (List.mem_cons_of_mem _) id

end Verif.Scope
