import Verif.Scope.Analysis
/-
The renaming of variables in generators (`_changeInteriorObject`), compared with Python's rules:
the variables of the generator become attributes of an object, and nothing else does.
-/
namespace Verif.Scope

mutual
/-- An attribute of the generator's object is accessed somewhere in the code. -/
def SelfUses : Tree → Name → Prop
  | .node a b, x => SelfUses a x ∨ SelfUses b x
  | .bind _ v, x => SelfUses v x
  | .selfVar y _, x => x = y
  | .hidden t, x => SelfUses t x
  | .handler ty _ body, x => SelfUses ty x ∨ SelfUses body x
  | .lam _ d k body, x => SelfUses d x ∨ SelfUses k x ∨ SelfUses body x
  | .comp elt t i f more, x =>
      SelfUses elt x ∨ SelfUses t x ∨ SelfUses i x ∨ SelfUses f x ∨ SelfUsesG more x
  | .funDef _ _ ap ao d k body decorators returns, x =>
      SelfUses ap x ∨ SelfUses ao x ∨ SelfUses d x ∨ SelfUses k x ∨ SelfUses body x
        ∨ SelfUses decorators x ∨ SelfUses returns x
  | .classDef _ bases keywords decorators body, x =>
      SelfUses bases x ∨ SelfUses keywords x ∨ SelfUses decorators x ∨ SelfUses body x
  | _, _ => False
/-- The same for the further clauses of a comprehension. -/
def SelfUsesG : Gens → Name → Prop
  | .nil, _ => False
  | .cons t i f more, x => SelfUses t x ∨ SelfUses i x ∨ SelfUses f x ∨ SelfUsesG more x
end

/-- The code does not use any of the variables. -/
abbrev Without (V : List Name) (t : Tree) : Prop := ∀ x ∈ V, ¬ Uses t x

mutual
/-- Programs in which the renaming reaches every use of the variables `V`:
* none of them is used in a keyword argument, in a key of a dict display, in the handlers of a `try`
  or the items of a `with` of a nested function, or in the default value of a keyword-only parameter;
* targets of comprehensions are names;
* no function declares `nonlocal` variables. -/
def Walked (V : List Name) : Tree → Prop
  | .node a b => Walked V a ∧ Walked V b
  | .bind _ v => Walked V v
  | .hidden t => Without V t
  | .handler ty nm body => Without V (.handler ty nm body)
  | .lam _ d k body => Without V k ∧ Walked V d ∧ Walked V body
  | .comp elt t i f more =>
      ((∀ x, ¬ Uses t x) ∧ Tight t) ∧ Walked V elt ∧ Walked V i ∧ Walked V f ∧ WalkedG V more
  | .funDef _ _ ap ao d k body decorators returns =>
      Without V k ∧ (∀ x, ¬ Outer body x)
        ∧ Walked V ap ∧ Walked V ao ∧ Walked V d ∧ Walked V body ∧ Walked V decorators
        ∧ Walked V returns
  | .classDef _ bases keywords decorators body =>
      Without V keywords ∧ Walked V bases ∧ Walked V decorators ∧ Walked V body
  | _ => True
/-- The same for the further clauses of a comprehension. -/
def WalkedG (V : List Name) : Gens → Prop
  | .nil => True
  | .cons t i f more =>
      ((∀ x, ¬ Uses t x) ∧ Tight t) ∧ Walked V i ∧ Walked V f ∧ WalkedG V more
end

theorem contains_and {V B : List Name} {x : Name} :
    (V.contains x && !B.contains x) = true ↔ x ∈ V ∧ x ∉ B := by simp

theorem reads_nil {t : Tree} (h : ∀ x, ¬ Uses t x) (ht : Tight t) : reads false t = [] := by
  cases hr : reads false t with
  | nil => rfl
  | cons x l => exact absurd (reads_uses t false x ht (by rw [hr]; simp)) (h x)

/-! ### What is bound -/

theorem rename_binds_of : ∀ (t : Tree) (V B : List Name) (x : Name),
    Binds (rename V B t) x → Binds t x
  | .leaf, _, _, _, h => h
  | .node a b, V, B, x, h => by
      simp only [rename, Binds] at h
      exact h.imp (rename_binds_of a V B x) (rename_binds_of b V B x)
  | .name y c, V, B, x, h => by
      simp only [rename] at h
      split at h
      · exact h.elim
      · exact h
  | .bind y v, V, B, x, h => by
      simp only [rename] at h
      split at h
      · simp only [Binds] at h
        exact h.elim False.elim fun h => Or.inr (rename_binds_of v V B x h)
      · simp only [Binds] at h
        exact h.imp id (rename_binds_of v V B x)
  | .selfVar _ _, _, _, _, h => h
  | .hidden _, _, _, _, h => h
  | .alias _ _, _, _, _, h => h
  | .handler _ _ _, _, _, _, h => h
  | .lam _ _ _ _, _, _, _, h => h
  | .comp _ _ _ _ _, _, _, _, h => h
  | .funDef _ _ _ _ _ _ _ _ _, _, _, _, h => h
  | .classDef _ _ _ _ _, _, _, _, h => h
  | .nonlocal _, _, _, _, h => h
  | .rejected, _, _, _, h => h

/-- A binding of a variable that is not to be renamed stays. -/
theorem binds_rename : ∀ (t : Tree) (V B : List Name) (x : Name), (x ∉ V ∨ x ∈ B) →
    Binds t x → Binds (rename V B t) x
  | .leaf, _, _, _, _, h => h
  | .node a b, V, B, x, hx, h => h.imp (binds_rename a V B x hx) (binds_rename b V B x hx)
  | .name y c, V, B, x, hx, h => by
      simp only [rename]
      split
      · rename_i hc
        rw [contains_and] at hc
        rw [h.1] at hx
        exact absurd hc (fun hc => hx.elim (fun h => h hc.1) hc.2)
      · exact h
  | .bind y v, V, B, x, hx, h => by
      simp only [rename]
      split
      · rename_i hc
        rw [contains_and] at hc
        rcases h with h | h
        · rw [h] at hx
          exact absurd hc (fun hc => hx.elim (fun h => h hc.1) hc.2)
        · exact Or.inr (binds_rename v V B x hx h)
      · exact h.imp id (binds_rename v V B x hx)
  | .selfVar _ _, _, _, _, _, h => h
  | .hidden _, _, _, _, _, h => h
  | .alias _ _, _, _, _, _, h => h
  | .handler _ _ _, _, _, _, _, h => h
  | .lam _ _ _ _, _, _, _, _, h => h
  | .comp _ _ _ _ _, _, _, _, _, h => h
  | .funDef _ _ _ _ _ _ _ _ _, _, _, _, _, h => h
  | .classDef _ _ _ _ _, _, _, _, _, h => h
  | .nonlocal _, _, _, _, _, h => h
  | .rejected, _, _, _, _, h => h

theorem rename_outer : ∀ (t : Tree) (V B : List Name) (x : Name),
    Outer (rename V B t) x ↔ Outer t x
  | .leaf, _, _, _ => Iff.rfl
  | .node a b, V, B, x => by
      simp only [rename, Outer, rename_outer a V B x, rename_outer b V B x]
  | .name y c, V, B, x => by
      simp only [rename]
      split <;> exact Iff.rfl
  | .bind y v, V, B, x => by
      simp only [rename]
      split
      · simp only [Outer, rename_outer v V B x, false_or]
      · simp only [Outer, rename_outer v V B x]
  | .selfVar _ _, _, _, _ => Iff.rfl
  | .hidden _, _, _, _ => Iff.rfl
  | .alias _ _, _, _, _ => Iff.rfl
  | .handler _ _ _, _, _, _ => Iff.rfl
  | .lam _ _ _ _, _, _, _ => Iff.rfl
  | .comp _ _ _ _ _, _, _, _ => Iff.rfl
  | .funDef _ _ _ _ _ _ _ _ _, _, _, _ => Iff.rfl
  | .classDef _ _ _ _ _, _, _, _ => Iff.rfl
  | .nonlocal _, _, _, _ => Iff.rfl
  | .rejected, _, _, _ => Iff.rfl

theorem renameG_binds : ∀ (g : Gens) (V B : List Name) (x : Name),
    BindsG (renameGens V B g) x ↔ BindsG g x
  | .nil, _, _, _ => Iff.rfl
  | .cons t i f more, V, B, x => by
      simp only [renameGens, BindsG, renameG_binds more]

/-! ### No use of a variable of the generator is left -/

mutual
theorem rename_uses : ∀ (t : Tree) (V B : List Name) (x : Name), Walked V t →
    Uses (rename V B t) x → x = selfName ∨ x ∉ V ∨ x ∈ B
  | .leaf, _, _, _, _, h => by rcases h with h | h <;> exact h.elim
  | .node a b, V, B, x, hw, h => by
      simp only [rename] at h
      rcases h with (h | h) | (h | h)
      · exact rename_uses a V B x hw.1 (Or.inl h)
      · exact rename_uses b V B x hw.2 (Or.inl h)
      · exact rename_uses a V B x hw.1 (Or.inr h)
      · exact rename_uses b V B x hw.2 (Or.inr h)
  | .name y c, V, B, x, _, h => by
      simp only [rename] at h
      split at h
      · rcases h with h | h
        · exact Or.inl h
        · exact h.elim
      · rename_i hc
        rw [contains_and] at hc
        rcases h with h | h
        · rw [h.1]
          by_cases hv : y ∈ V
          · exact Or.inr (Or.inr (Classical.not_not.mp fun hb => hc ⟨hv, hb⟩))
          · exact Or.inr (Or.inl hv)
        · exact h.elim
  | .bind y v, V, B, x, hw, h => by
      simp only [rename] at h
      split at h
      · rcases h with (h | h) | (h | h)
        · exact Or.inl h
        · exact rename_uses v V B x hw (Or.inl h)
        · exact h.elim
        · exact rename_uses v V B x hw (Or.inr h)
      · exact rename_uses v V B x hw h
  | .selfVar _ _, _, _, _, _, h => by
      rcases h with h | h
      · exact Or.inl h
      · exact h.elim
  | .hidden t, V, B, x, hw, h => Or.inr (Or.inl fun hx => hw x hx h)
  | .alias _ _, _, _, _, _, h => by rcases h with h | h <;> exact h.elim
  | .handler ty nm body, V, B, x, hw, h => Or.inr (Or.inl fun hx => hw x hx h)
  | .lam p d k body, V, B, x, hw, h => by
      obtain ⟨hk, hd, hb⟩ := hw
      simp only [rename] at h
      rcases h with (h | h) | (h | h | ⟨hp, h⟩)
      · exact rename_uses d V B x hd (Or.inl h)
      · exact Or.inr (Or.inl fun hx => hk x hx (Or.inl h))
      · exact rename_uses d V B x hd (Or.inr h)
      · exact Or.inr (Or.inl fun hx => hk x hx (Or.inr h))
      · rcases rename_uses body V (B ++ argNames p) x hb h with r | r | r
        · exact Or.inl r
        · exact Or.inr (Or.inl r)
        · rw [List.mem_append] at r
          exact Or.inr (Or.inr (r.elim id fun r => absurd (argNames_all r) hp))
  | .comp elt t i f more, V, B, x, hw, h => by
      obtain ⟨⟨ht, htt⟩, he, hi, hf, hm⟩ := hw
      simp only [rename] at h
      rw [reads_nil ht htt, boundVars_nil more V hm] at h
      simp only [List.append_nil] at h
      rcases h with h | h | ⟨_, _, h | h | h | h⟩
      · exact rename_uses i V B x hi (Or.inl h)
      · exact rename_uses i V B x hi (Or.inr h)
      · exact rename_uses elt V B x he h
      · exact absurd h (ht x)
      · exact rename_uses f V B x hf h
      · exact renameG_uses more V B x hm h
  | .funDef nm p ap ao d k body de re, V, B, x, hw, h => by
      obtain ⟨hk, ho, hap, hao, hd, hb, hde, hre⟩ := hw
      have out : ∀ u, Walked V u → (Uses (rename V [] u) x → x = selfName ∨ x ∉ V ∨ x ∈ []) →
          Uses (rename V [] u) x → x = selfName ∨ x ∉ V ∨ x ∈ B := fun u _ f h => by
        rcases f h with r | r | r
        · exact Or.inl r
        · exact Or.inr (Or.inl r)
        · simp at r
      simp only [rename] at h
      rcases h with (h | h | h | h | h | h) | (h | h | h | h | h | h | ⟨h1, h2, h⟩)
      · exact out ap hap (rename_uses ap V [] x hap) (Or.inl h)
      · exact out ao hao (rename_uses ao V [] x hao) (Or.inl h)
      · exact out d hd (rename_uses d V [] x hd) (Or.inl h)
      · exact Or.inr (Or.inl fun hx => hk x hx (Or.inl h))
      · exact out de hde (rename_uses de V [] x hde) (Or.inl h)
      · exact out re hre (rename_uses re V [] x hre) (Or.inl h)
      · exact out ap hap (rename_uses ap V [] x hap) (Or.inr h)
      · exact out ao hao (rename_uses ao V [] x hao) (Or.inr h)
      · exact out d hd (rename_uses d V [] x hd) (Or.inr h)
      · exact Or.inr (Or.inl fun hx => hk x hx (Or.inr h))
      · exact out de hde (rename_uses de V [] x hde) (Or.inr h)
      · exact out re hre (rename_uses re V [] x hre) (Or.inr h)
      · have hnb : ¬ Binds (rename V (B ++ argNames p ++ sites body) body) x := fun hc =>
          h2 ⟨hc, fun hc => ho x ((rename_outer body V _ x).mp hc)⟩
        have hu : Uses (rename V (B ++ argNames p ++ sites body) body) x := by
          rcases h with h | h | h
          · exact Or.inl h
          · exact Or.inr h
          · exact absurd h hnb
        rcases rename_uses body V (B ++ argNames p ++ sites body) x hb hu with r | r | r
        · exact Or.inl r
        · exact Or.inr (Or.inl r)
        · have r' := r
          simp only [List.mem_append] at r'
          rcases r' with (r' | r') | r'
          · exact Or.inr (Or.inr r')
          · exact absurd (argNames_all r') h1
          · exact absurd (binds_rename body V _ x (Or.inr r) (sites_binds body x r')) hnb
  | .classDef nm bases keywords decorators body, V, B, x, hw, h => by
      obtain ⟨hk, hb, hd, hbo⟩ := hw
      simp only [rename] at h
      rcases h with (h | h | h) | (h | h | h | h | h)
      · exact rename_uses bases V B x hb (Or.inl h)
      · exact Or.inr (Or.inl fun hx => hk x hx (Or.inl h))
      · exact rename_uses decorators V B x hd (Or.inl h)
      · exact rename_uses bases V B x hb (Or.inr h)
      · exact Or.inr (Or.inl fun hx => hk x hx (Or.inr h))
      · exact rename_uses decorators V B x hd (Or.inr h)
      · exact rename_uses body V B x hbo (Or.inl h.1)
      · exact rename_uses body V B x hbo (Or.inr h)
  | .nonlocal _, _, _, _, _, h => by rcases h with h | h <;> exact h.elim
  | .rejected, _, _, _, _, h => by rcases h with h | h <;> exact h.elim
theorem renameG_uses : ∀ (g : Gens) (V B : List Name) (x : Name), WalkedG V g →
    UsesG (renameGens V B g) x → x = selfName ∨ x ∉ V ∨ x ∈ B
  | .nil, _, _, _, _, h => h.elim
  | .cons t i f more, V, B, x, hw, h => by
      obtain ⟨⟨ht, htt⟩, hi, hf, hm⟩ := hw
      simp only [renameGens] at h
      rw [reads_nil ht htt] at h
      simp only [List.append_nil] at h
      rcases h with h | h | h | h
      · exact absurd h (ht x)
      · exact rename_uses i V B x hi h
      · exact rename_uses f V B x hf h
      · exact renameG_uses more V B x hm h
theorem boundVars_nil : ∀ (g : Gens) (V : List Name), WalkedG V g → boundVars g = []
  | .nil, _, _ => rfl
  | .cons t i f more, V, hw => by
      obtain ⟨⟨ht, htt⟩, hi, hf, hm⟩ := hw
      simp only [boundVars, reads_nil ht htt, boundVars_nil more V hm, List.append_nil]
end

/-! ### Every use of a variable of the generator becomes an access to the object -/

mutual
theorem uses_self : ∀ (t : Tree) (V B : List Name) (x : Name), Walked V t → x ∈ V → x ∉ B →
    Uses t x → SelfUses (rename V B t) x ∨ SelfUses t x ∨ x = selfName
  | .leaf, _, _, _, _, _, _, h => by rcases h with h | h <;> exact h.elim
  | .node a b, V, B, x, hw, hv, hb, h => by
      have h' : Uses a x ∨ Uses b x := by
        rcases h with (h | h) | (h | h)
        · exact Or.inl (Or.inl h)
        · exact Or.inr (Or.inl h)
        · exact Or.inl (Or.inr h)
        · exact Or.inr (Or.inr h)
      rcases h' with h' | h'
      · rcases uses_self a V B x hw.1 hv hb h' with r | r | r
        · exact Or.inl (Or.inl r)
        · exact Or.inr (Or.inl (Or.inl r))
        · exact Or.inr (Or.inr r)
      · rcases uses_self b V B x hw.2 hv hb h' with r | r | r
        · exact Or.inl (Or.inr r)
        · exact Or.inr (Or.inl (Or.inr r))
        · exact Or.inr (Or.inr r)
  | .name y c, V, B, x, _, hv, hb, h => by
      rcases h with h | h
      · left
        have hxy : x = y := h.1
        subst hxy
        simp only [rename]
        rw [if_pos (contains_and.mpr ⟨hv, hb⟩)]
        exact rfl
      · exact h.elim
  | .bind y v, V, B, x, hw, hv, hb, h => by
      simp only [rename]
      rcases uses_self v V B x hw hv hb h with r | r | r
      · left
        split
        · exact Or.inr r
        · exact r
      · exact Or.inr (Or.inl r)
      · exact Or.inr (Or.inr r)
  | .selfVar _ _, _, _, _, _, _, _, h => by
      rcases h with h | h
      · exact Or.inr (Or.inr h)
      · exact h.elim
  | .hidden t, V, B, x, hw, hv, _, h => absurd h (hw x hv)
  | .alias _ _, _, _, _, _, _, _, h => by rcases h with h | h <;> exact h.elim
  | .handler ty nm body, V, B, x, hw, hv, _, h => absurd h (hw x hv)
  | .lam p d k body, V, B, x, hw, hv, hb, h => by
      obtain ⟨hk, hd, hbo⟩ := hw
      have h' : Uses d x ∨ Uses k x ∨ (x ∉ p.all ∧ Uses body x) := by
        rcases h with (h | h) | (h | h | h)
        · exact Or.inl (Or.inl h)
        · exact Or.inr (Or.inl (Or.inl h))
        · exact Or.inl (Or.inr h)
        · exact Or.inr (Or.inl (Or.inr h))
        · exact Or.inr (Or.inr h)
      rcases h' with h' | h' | ⟨hp, h'⟩
      · rcases uses_self d V B x hd hv hb h' with r | r | r
        · exact Or.inl (Or.inl r)
        · exact Or.inr (Or.inl (Or.inl r))
        · exact Or.inr (Or.inr r)
      · exact absurd h' (hk x hv)
      · have hb' : x ∉ B ++ argNames p := by
          rw [List.mem_append]
          exact fun hc => hc.elim hb fun hc => hp (argNames_all hc)
        rcases uses_self body V _ x hbo hv hb' h' with r | r | r
        · exact Or.inl (Or.inr (Or.inr r))
        · exact Or.inr (Or.inl (Or.inr (Or.inr r)))
        · exact Or.inr (Or.inr r)
  | .comp elt t i f more, V, B, x, hw, hv, hb, h => by
      obtain ⟨⟨ht, htt⟩, he, hi, hf, hm⟩ := hw
      simp only [rename]
      rw [reads_nil ht htt, boundVars_nil more V hm]
      simp only [List.append_nil]
      have h' : Uses i x ∨ Uses elt x ∨ Uses f x ∨ UsesG more x := by
        rcases h with h | h | ⟨h1, h2, h | h | h | h⟩
        · exact Or.inl (Or.inl h)
        · exact Or.inl (Or.inr h)
        · exact Or.inr (Or.inl h)
        · exact absurd h (ht x)
        · exact Or.inr (Or.inr (Or.inl h))
        · exact Or.inr (Or.inr (Or.inr h))
      rcases h' with h' | h' | h' | h'
      · rcases uses_self i V B x hi hv hb h' with r | r | r
        · exact Or.inl (Or.inr (Or.inr (Or.inl r)))
        · exact Or.inr (Or.inl (Or.inr (Or.inr (Or.inl r))))
        · exact Or.inr (Or.inr r)
      · rcases uses_self elt V B x he hv hb h' with r | r | r
        · exact Or.inl (Or.inl r)
        · exact Or.inr (Or.inl (Or.inl r))
        · exact Or.inr (Or.inr r)
      · rcases uses_self f V B x hf hv hb h' with r | r | r
        · exact Or.inl (Or.inr (Or.inr (Or.inr (Or.inl r))))
        · exact Or.inr (Or.inl (Or.inr (Or.inr (Or.inr (Or.inl r)))))
        · exact Or.inr (Or.inr r)
      · rcases usesG_self more V B x hm hv hb h' with r | r | r
        · exact Or.inl (Or.inr (Or.inr (Or.inr (Or.inr r))))
        · exact Or.inr (Or.inl (Or.inr (Or.inr (Or.inr (Or.inr r)))))
        · exact Or.inr (Or.inr r)
  | .funDef nm p ap ao d k body de re, V, B, x, hw, hv, hb, h => by
      obtain ⟨hk, ho, hap, hao, hd, hbo, hde, hre⟩ := hw
      have h' : Uses ap x ∨ Uses ao x ∨ Uses d x ∨ Uses k x ∨ Uses de x ∨ Uses re x
          ∨ (x ∉ p.all ∧ ¬ Local body x ∧ (Direct body x ∨ Captured body x ∨ Binds body x)) := by
        rcases h with (h | h | h | h | h | h) | (h | h | h | h | h | h | h)
        · exact Or.inl (Or.inl h)
        · exact Or.inr (Or.inl (Or.inl h))
        · exact Or.inr (Or.inr (Or.inl (Or.inl h)))
        · exact Or.inr (Or.inr (Or.inr (Or.inl (Or.inl h))))
        · exact Or.inr (Or.inr (Or.inr (Or.inr (Or.inl (Or.inl h)))))
        · exact Or.inr (Or.inr (Or.inr (Or.inr (Or.inr (Or.inl (Or.inl h))))))
        · exact Or.inl (Or.inr h)
        · exact Or.inr (Or.inl (Or.inr h))
        · exact Or.inr (Or.inr (Or.inl (Or.inr h)))
        · exact Or.inr (Or.inr (Or.inr (Or.inl (Or.inr h))))
        · exact Or.inr (Or.inr (Or.inr (Or.inr (Or.inl (Or.inr h)))))
        · exact Or.inr (Or.inr (Or.inr (Or.inr (Or.inr (Or.inl (Or.inr h))))))
        · exact Or.inr (Or.inr (Or.inr (Or.inr (Or.inr (Or.inr h)))))
      have hnil : x ∉ ([] : List Name) := by simp
      simp only [rename]
      rcases h' with h' | h' | h' | h' | h' | h' | ⟨h1, h2, h'⟩
      · rcases uses_self ap V [] x hap hv hnil h' with r | r | r
        · exact Or.inl (Or.inl r)
        · exact Or.inr (Or.inl (Or.inl r))
        · exact Or.inr (Or.inr r)
      · rcases uses_self ao V [] x hao hv hnil h' with r | r | r
        · exact Or.inl (Or.inr (Or.inl r))
        · exact Or.inr (Or.inl (Or.inr (Or.inl r)))
        · exact Or.inr (Or.inr r)
      · rcases uses_self d V [] x hd hv hnil h' with r | r | r
        · exact Or.inl (Or.inr (Or.inr (Or.inl r)))
        · exact Or.inr (Or.inl (Or.inr (Or.inr (Or.inl r))))
        · exact Or.inr (Or.inr r)
      · exact absurd h' (hk x hv)
      · rcases uses_self de V [] x hde hv hnil h' with r | r | r
        · exact Or.inl (Or.inr (Or.inr (Or.inr (Or.inr (Or.inr (Or.inl r))))))
        · exact Or.inr (Or.inl (Or.inr (Or.inr (Or.inr (Or.inr (Or.inr (Or.inl r)))))))
        · exact Or.inr (Or.inr r)
      · rcases uses_self re V [] x hre hv hnil h' with r | r | r
        · exact Or.inl (Or.inr (Or.inr (Or.inr (Or.inr (Or.inr (Or.inr r))))))
        · exact Or.inr (Or.inl (Or.inr (Or.inr (Or.inr (Or.inr (Or.inr (Or.inr r)))))))
        · exact Or.inr (Or.inr r)
      · have hnb : ¬ Binds body x := fun hc => h2 ⟨hc, ho x⟩
        have hu : Uses body x := by
          rcases h' with h' | h' | h'
          · exact Or.inl h'
          · exact Or.inr h'
          · exact absurd h' hnb
        have hb' : x ∉ B ++ argNames p ++ sites body := by
          simp only [List.mem_append]
          rintro ((hc | hc) | hc)
          · exact hb hc
          · exact h1 (argNames_all hc)
          · exact hnb (sites_binds body x hc)
        rcases uses_self body V _ x hbo hv hb' hu with r | r | r
        · exact Or.inl (Or.inr (Or.inr (Or.inr (Or.inr (Or.inl r)))))
        · exact Or.inr (Or.inl (Or.inr (Or.inr (Or.inr (Or.inr (Or.inl r))))))
        · exact Or.inr (Or.inr r)
  | .classDef nm bases keywords decorators body, V, B, x, hw, hv, hb, h => by
      obtain ⟨hk, hba, hd, hbo⟩ := hw
      have h' : Uses bases x ∨ Uses keywords x ∨ Uses decorators x ∨ Uses body x := by
        rcases h with (h | h | h) | (h | h | h | h | h)
        · exact Or.inl (Or.inl h)
        · exact Or.inr (Or.inl (Or.inl h))
        · exact Or.inr (Or.inr (Or.inl (Or.inl h)))
        · exact Or.inl (Or.inr h)
        · exact Or.inr (Or.inl (Or.inr h))
        · exact Or.inr (Or.inr (Or.inl (Or.inr h)))
        · exact Or.inr (Or.inr (Or.inr (Or.inl h.1)))
        · exact Or.inr (Or.inr (Or.inr (Or.inr h)))
      simp only [rename]
      rcases h' with h' | h' | h' | h'
      · rcases uses_self bases V B x hba hv hb h' with r | r | r
        · exact Or.inl (Or.inl r)
        · exact Or.inr (Or.inl (Or.inl r))
        · exact Or.inr (Or.inr r)
      · exact absurd h' (hk x hv)
      · rcases uses_self decorators V B x hd hv hb h' with r | r | r
        · exact Or.inl (Or.inr (Or.inr (Or.inl r)))
        · exact Or.inr (Or.inl (Or.inr (Or.inr (Or.inl r))))
        · exact Or.inr (Or.inr r)
      · rcases uses_self body V B x hbo hv hb h' with r | r | r
        · exact Or.inl (Or.inr (Or.inr (Or.inr r)))
        · exact Or.inr (Or.inl (Or.inr (Or.inr (Or.inr r))))
        · exact Or.inr (Or.inr r)
  | .nonlocal _, _, _, _, _, _, _, h => by rcases h with h | h <;> exact h.elim
  | .rejected, _, _, _, _, _, _, h => by rcases h with h | h <;> exact h.elim
theorem usesG_self : ∀ (g : Gens) (V B : List Name) (x : Name), WalkedG V g → x ∈ V → x ∉ B →
    UsesG g x → SelfUsesG (renameGens V B g) x ∨ SelfUsesG g x ∨ x = selfName
  | .nil, _, _, _, _, _, _, h => h.elim
  | .cons t i f more, V, B, x, hw, hv, hb, h => by
      obtain ⟨⟨ht, htt⟩, hi, hf, hm⟩ := hw
      simp only [renameGens]
      rw [reads_nil ht htt]
      simp only [List.append_nil]
      rcases h with h | h | h | h
      · exact absurd h (ht x)
      · rcases uses_self i V B x hi hv hb h with r | r | r
        · exact Or.inl (Or.inr (Or.inl r))
        · exact Or.inr (Or.inl (Or.inr (Or.inl r)))
        · exact Or.inr (Or.inr r)
      · rcases uses_self f V B x hf hv hb h with r | r | r
        · exact Or.inl (Or.inr (Or.inr (Or.inl r)))
        · exact Or.inr (Or.inl (Or.inr (Or.inr (Or.inl r))))
        · exact Or.inr (Or.inr r)
      · rcases usesG_self more V B x hm hv hb h with r | r | r
        · exact Or.inl (Or.inr (Or.inr (Or.inr r)))
        · exact Or.inr (Or.inl (Or.inr (Or.inr (Or.inr r))))
        · exact Or.inr (Or.inr r)
end

/-! ### Other names are left alone -/

theorem rename_binds {t : Tree} {V B : List Name} {x : Name} (hv : x ∉ V) :
    Binds (rename V B t) x ↔ Binds t x :=
  ⟨rename_binds_of t V B x, binds_rename t V B x (Or.inl hv)⟩

theorem rename_direct : ∀ (t : Tree) (V B : List Name) (x : Name), x ∉ V → x ≠ selfName →
    (Direct (rename V B t) x ↔ Direct t x)
  | .leaf, _, _, _, _, _ => Iff.rfl
  | .node a b, V, B, x, hv, hs => by
      simp only [rename, Direct, rename_direct a V B x hv hs, rename_direct b V B x hv hs]
  | .name y c, V, B, x, hv, hs => by
      simp only [rename]
      split
      · rename_i hc
        rw [contains_and] at hc
        exact ⟨fun h => absurd h hs, fun h => absurd (h.1 ▸ hc.1) hv⟩
      · exact Iff.rfl
  | .bind y v, V, B, x, hv, hs => by
      simp only [rename]
      split
      · simp only [Direct, rename_direct v V B x hv hs, hs, false_or]
      · simp only [Direct, rename_direct v V B x hv hs]
  | .selfVar _ _, _, _, _, _, _ => Iff.rfl
  | .hidden _, _, _, _, _, _ => Iff.rfl
  | .alias _ _, _, _, _, _, _ => Iff.rfl
  | .handler _ _ _, _, _, _, _, _ => Iff.rfl
  | .lam _ d _ _, V, B, x, hv, hs => by simp only [rename, Direct, rename_direct d V B x hv hs]
  | .comp _ _ i _ _, V, B, x, hv, hs => by simp only [rename, Direct, rename_direct i V B x hv hs]
  | .funDef _ _ ap ao d _ _ de re, V, B, x, hv, hs => by
      simp only [rename, Direct, rename_direct ap V [] x hv hs, rename_direct ao V [] x hv hs,
        rename_direct d V [] x hv hs, rename_direct de V [] x hv hs, rename_direct re V [] x hv hs]
  | .classDef _ bases _ decorators _, V, B, x, hv, hs => by
      simp only [rename, Direct, rename_direct bases V B x hv hs, rename_direct decorators V B x hv hs]
  | .nonlocal _, _, _, _, _, _ => Iff.rfl
  | .rejected, _, _, _, _, _ => Iff.rfl

mutual
theorem rename_captured : ∀ (t : Tree) (V B : List Name) (x : Name), x ∉ V → x ≠ selfName →
    (Captured (rename V B t) x ↔ Captured t x)
  | .leaf, _, _, _, _, _ => Iff.rfl
  | .node a b, V, B, x, hv, hs => by
      simp only [rename, Captured, rename_captured a V B x hv hs, rename_captured b V B x hv hs]
  | .name y c, V, B, x, hv, hs => by
      simp only [rename]
      split <;> exact Iff.rfl
  | .bind y v, V, B, x, hv, hs => by
      simp only [rename]
      split
      · simp only [Captured, rename_captured v V B x hv hs, false_or]
      · simp only [Captured, rename_captured v V B x hv hs]
  | .selfVar _ _, _, _, _, _, _ => Iff.rfl
  | .hidden _, _, _, _, _, _ => Iff.rfl
  | .alias _ _, _, _, _, _, _ => Iff.rfl
  | .handler _ _ _, _, _, _, _, _ => Iff.rfl
  | .lam p d k body, V, B, x, hv, hs => by
      simp only [rename, Captured, rename_captured d V B x hv hs,
        rename_captured body V _ x hv hs, rename_direct body V _ x hv hs]
  | .comp elt t i f more, V, B, x, hv, hs => by
      simp only [rename, Captured, rename_captured i V B x hv hs,
        rename_captured elt V _ x hv hs, rename_direct elt V _ x hv hs,
        rename_captured f V _ x hv hs, rename_direct f V _ x hv hs,
        renameG_binds more, renameG_usesIff more V _ x hv hs]
  | .funDef _ p ap ao d k body de re, V, B, x, hv, hs => by
      simp only [rename, Captured, Local, rename_captured ap V [] x hv hs,
        rename_captured ao V [] x hv hs, rename_captured d V [] x hv hs,
        rename_captured de V [] x hv hs, rename_captured re V [] x hv hs,
        rename_captured body V _ x hv hs, rename_direct body V _ x hv hs, rename_outer body,
        rename_binds hv]
  | .classDef _ bases _ decorators body, V, B, x, hv, hs => by
      simp only [rename, Captured, rename_captured bases V B x hv hs,
        rename_captured decorators V B x hv hs, rename_captured body V B x hv hs,
        rename_direct body V B x hv hs, rename_binds hv]
  | .nonlocal _, _, _, _, _, _ => Iff.rfl
  | .rejected, _, _, _, _, _ => Iff.rfl
theorem renameG_usesIff : ∀ (g : Gens) (V B : List Name) (x : Name), x ∉ V → x ≠ selfName →
    (UsesG (renameGens V B g) x ↔ UsesG g x)
  | .nil, _, _, _, _, _ => Iff.rfl
  | .cons t i f more, V, B, x, hv, hs => by
      simp only [renameGens, UsesG, rename_captured i V B x hv hs, rename_direct i V B x hv hs,
        rename_captured f V _ x hv hs, rename_direct f V _ x hv hs, renameG_usesIff more V _ x hv hs]
end

/-! ### Nothing but the variables of the generator is renamed -/

mutual
/-- Programs in which only uses of the generator's variables are renamed:
* no clause of a comprehension binds a name that is also a variable of the generator;
* nested functions have no keyword-only or positional-only parameters and no `except ... as name`;
* the default values, decorators and annotations of functions nested in nested functions
  (`inner`) do not use the variables of the generator;
* bodies of classes do not bind names that are also variables of the generator;
* expressions bind nothing and names are not in `Param` context (the syntax of Python sees to that). -/
def Neat (V : List Name) (inner : Bool) : Tree → Prop
  | .node a b => Neat V inner a ∧ Neat V inner b
  | .name _ c => c ≠ .param
  | .bind _ v => Neat V inner v
  | .lam p d _ body =>
      (p.kwonly = [] ∧ p.posonly = [] ∧ IsExpr d ∧ IsExpr body) ∧ Neat V inner d ∧ Neat V true body
  | .comp elt t i f more =>
      ((∀ x ∈ V, ¬ Binds t x ∧ ¬ BindsG more x) ∧ IsExpr elt ∧ IsExpr i ∧ IsExpr f)
        ∧ Neat V true elt ∧ Neat V inner i ∧ Neat V true f ∧ NeatG V more
  | .funDef _ p ap ao d _ body decorators returns =>
      (p.kwonly = [] ∧ p.posonly = [] ∧ NoAs body)
        ∧ (IsExpr ap ∧ IsExpr ao ∧ IsExpr d ∧ IsExpr decorators ∧ IsExpr returns)
        ∧ (inner = true → Without V ap ∧ Without V ao ∧ Without V d ∧ Without V decorators
            ∧ Without V returns)
        ∧ Neat V false ap ∧ Neat V false ao ∧ Neat V false d ∧ Neat V true body
        ∧ Neat V false decorators ∧ Neat V false returns
  | .classDef _ bases _ decorators body =>
      ((∀ x ∈ V, ¬ Binds body x) ∧ IsExpr bases ∧ IsExpr decorators)
        ∧ Neat V inner bases ∧ Neat V inner decorators ∧ Neat V inner body
  | _ => True
/-- The same for the further clauses of a comprehension. -/
def NeatG (V : List Name) : Gens → Prop
  | .nil => True
  | .cons _ i f more => (IsExpr i ∧ IsExpr f) ∧ Neat V true i ∧ Neat V true f ∧ NeatG V more
end

mutual
theorem rename_self : ∀ (t : Tree) (V B : List Name) (inner : Bool) (x : Name), Neat V inner t →
    (inner = false → B = []) → SelfUses (rename V B t) x →
    SelfUses t x ∨ (x ∈ V ∧ x ∉ B ∧ (Uses t x ∨ Binds t x))
  | .leaf, _, _, _, _, _, _, h => h.elim
  | .node a b, V, B, inner, x, hn, hB, h => by
      simp only [rename] at h
      rcases h with h | h
      · rcases rename_self a V B inner x hn.1 hB h with r | ⟨r1, r2, r3⟩
        · exact Or.inl (Or.inl r)
        · exact Or.inr ⟨r1, r2, r3.imp (fun r => r.imp Or.inl Or.inl) Or.inl⟩
      · rcases rename_self b V B inner x hn.2 hB h with r | ⟨r1, r2, r3⟩
        · exact Or.inl (Or.inr r)
        · exact Or.inr ⟨r1, r2, r3.imp (fun r => r.imp Or.inr Or.inr) Or.inr⟩
  | .name y c, V, B, inner, x, hn, hB, h => by
      simp only [rename] at h
      split at h
      · rename_i hc
        rw [contains_and] at hc
        have hxy : x = y := h
        subst hxy
        refine Or.inr ⟨hc.1, hc.2, ?_⟩
        have hn' : c ≠ .param := hn
        cases c
        · exact Or.inl (Or.inl ⟨rfl, Or.inl rfl⟩)
        · exact Or.inr ⟨rfl, Or.inl rfl⟩
        · exact Or.inr ⟨rfl, Or.inr (Or.inl rfl)⟩
        · exact Or.inl (Or.inl ⟨rfl, Or.inr rfl⟩)
        · exact Or.inr ⟨rfl, Or.inr (Or.inr rfl)⟩
        · exact absurd rfl hn'
      · exact h.elim
  | .bind y v, V, B, inner, x, hn, hB, h => by
      simp only [rename] at h
      split at h
      · rename_i hc
        rw [contains_and] at hc
        rcases h with h | h
        · have hxy : x = y := h
          subst hxy
          exact Or.inr ⟨hc.1, hc.2, Or.inr (Or.inl rfl)⟩
        · rcases rename_self v V B inner x hn hB h with r | ⟨r1, r2, r3⟩
          · exact Or.inl r
          · exact Or.inr ⟨r1, r2, r3.imp id Or.inr⟩
      · rcases rename_self v V B inner x hn hB h with r | ⟨r1, r2, r3⟩
        · exact Or.inl r
        · exact Or.inr ⟨r1, r2, r3.imp id Or.inr⟩
  | .selfVar _ _, _, _, _, _, _, _, h => Or.inl h
  | .hidden _, _, _, _, _, _, _, h => Or.inl h
  | .alias _ _, _, _, _, _, _, _, h => h.elim
  | .handler _ _ _, _, _, _, _, _, _, h => Or.inl h
  | .lam p d k body, V, B, inner, x, hn, hB, h => by
      obtain ⟨⟨h1, h2, ed, eb⟩, nd, nb⟩ := hn
      simp only [rename] at h
      rcases h with h | h | h
      · rcases rename_self d V B inner x nd hB h with r | ⟨r1, r2, r3⟩
        · exact Or.inl (Or.inl r)
        · exact Or.inr ⟨r1, r2, Or.inl ((r3.resolve_right (ed x)).imp Or.inl Or.inl)⟩
      · exact Or.inl (Or.inr (Or.inl h))
      · rcases rename_self body V (B ++ argNames p) true x nb (by simp) h with r | ⟨r1, r2, r3⟩
        · exact Or.inl (Or.inr (Or.inr r))
        · rw [List.mem_append] at r2
          exact Or.inr ⟨r1, fun hc => r2 (Or.inl hc), Or.inl (Or.inr (Or.inr (Or.inr
            ⟨fun hc => r2 (Or.inr (all_argNames h1 h2 hc)), r3.resolve_right (eb x)⟩)))⟩
  | .comp elt t i f more, V, B, inner, x, hn, hB, h => by
      obtain ⟨⟨hb, ee, ei, ef⟩, ne, ni, nf, nm⟩ := hn
      simp only [rename] at h
      rcases h with h | h | h | h | h
      · rcases rename_self elt V _ true x ne (by simp) h with r | ⟨r1, r2, r3⟩
        · exact Or.inl (Or.inl r)
        · rw [List.mem_append] at r2
          exact Or.inr ⟨r1, fun hc => r2 (Or.inl hc), Or.inl (Or.inr (Or.inr
            ⟨(hb x r1).1, (hb x r1).2, Or.inl (r3.resolve_right (ee x))⟩))⟩
      · exact Or.inl (Or.inr (Or.inl h))
      · rcases rename_self i V B inner x ni hB h with r | ⟨r1, r2, r3⟩
        · exact Or.inl (Or.inr (Or.inr (Or.inl r)))
        · exact Or.inr ⟨r1, r2, Or.inl ((r3.resolve_right (ei x)).imp id Or.inl)⟩
      · rcases rename_self f V _ true x nf (by simp) h with r | ⟨r1, r2, r3⟩
        · exact Or.inl (Or.inr (Or.inr (Or.inr (Or.inl r))))
        · rw [List.mem_append] at r2
          exact Or.inr ⟨r1, fun hc => r2 (Or.inl hc), Or.inl (Or.inr (Or.inr
            ⟨(hb x r1).1, (hb x r1).2, Or.inr (Or.inr (Or.inl (r3.resolve_right (ef x))))⟩))⟩
      · rcases renameG_self more V _ x nm h with r | ⟨r1, r2, r3⟩
        · exact Or.inl (Or.inr (Or.inr (Or.inr (Or.inr r))))
        · rw [List.mem_append] at r2
          exact Or.inr ⟨r1, fun hc => r2 (Or.inl hc), Or.inl (Or.inr (Or.inr
            ⟨(hb x r1).1, (hb x r1).2, Or.inr (Or.inr (Or.inr r3))⟩))⟩
  | .funDef nm p ap ao d k body de re, V, B, inner, x, hn, hB, h => by
      obtain ⟨⟨h1, h2, ha⟩, ⟨eap, eao, ed, ede, ere⟩, hin, nap, nao, nd, nb, nde, nre⟩ := hn
      have outB : ∀ u, (inner = true → Without V u) → x ∈ V → Uses u x → x ∉ B := fun u hw hv hu hc => by
        cases hi : inner with
        | false => rw [hB hi] at hc; simp at hc
        | true => exact hw hi x hv hu
      simp only [rename] at h
      rcases h with h | h | h | h | h | h | h
      · rcases rename_self ap V [] false x nap (fun _ => rfl) h with r | ⟨r1, _, r3⟩
        · exact Or.inl (Or.inl r)
        · have r4 := r3.resolve_right (eap x)
          exact Or.inr ⟨r1, outB ap (fun hi => (hin hi).1) r1 r4, Or.inl (r4.imp Or.inl Or.inl)⟩
      · rcases rename_self ao V [] false x nao (fun _ => rfl) h with r | ⟨r1, _, r3⟩
        · exact Or.inl (Or.inr (Or.inl r))
        · have r4 := r3.resolve_right (eao x)
          exact Or.inr ⟨r1, outB ao (fun hi => (hin hi).2.1) r1 r4,
            Or.inl (r4.imp (fun h => Or.inr (Or.inl h)) (fun h => Or.inr (Or.inl h)))⟩
      · rcases rename_self d V [] false x nd (fun _ => rfl) h with r | ⟨r1, _, r3⟩
        · exact Or.inl (Or.inr (Or.inr (Or.inl r)))
        · have r4 := r3.resolve_right (ed x)
          exact Or.inr ⟨r1, outB d (fun hi => (hin hi).2.2.1) r1 r4,
            Or.inl (r4.imp (fun h => Or.inr (Or.inr (Or.inl h))) (fun h => Or.inr (Or.inr (Or.inl h))))⟩
      · exact Or.inl (Or.inr (Or.inr (Or.inr (Or.inl h))))
      · rcases rename_self body V _ true x nb (by simp) h with r | ⟨r1, r2, r3⟩
        · exact Or.inl (Or.inr (Or.inr (Or.inr (Or.inr (Or.inl r)))))
        · simp only [List.mem_append] at r2
          have hnb : ¬ Binds body x := fun hc => r2 (Or.inr (binds_sites body x ha hc))
          refine Or.inr ⟨r1, fun hc => r2 (Or.inl (Or.inl hc)), Or.inl (Or.inr ?_)⟩
          exact Or.inr (Or.inr (Or.inr (Or.inr (Or.inr (Or.inr
            ⟨fun hc => r2 (Or.inl (Or.inr (all_argNames h1 h2 hc))), fun hc => hnb hc.1,
              (r3.resolve_right hnb).imp id Or.inl⟩)))))
      · rcases rename_self de V [] false x nde (fun _ => rfl) h with r | ⟨r1, _, r3⟩
        · exact Or.inl (Or.inr (Or.inr (Or.inr (Or.inr (Or.inr (Or.inl r))))))
        · have r4 := r3.resolve_right (ede x)
          exact Or.inr ⟨r1, outB de (fun hi => (hin hi).2.2.2.1) r1 r4,
            Or.inl (r4.imp (fun h => Or.inr (Or.inr (Or.inr (Or.inr (Or.inl h)))))
              (fun h => Or.inr (Or.inr (Or.inr (Or.inr (Or.inl h))))))⟩
      · rcases rename_self re V [] false x nre (fun _ => rfl) h with r | ⟨r1, _, r3⟩
        · exact Or.inl (Or.inr (Or.inr (Or.inr (Or.inr (Or.inr (Or.inr r))))))
        · have r4 := r3.resolve_right (ere x)
          exact Or.inr ⟨r1, outB re (fun hi => (hin hi).2.2.2.2) r1 r4,
            Or.inl (r4.imp (fun h => Or.inr (Or.inr (Or.inr (Or.inr (Or.inr h)))))
              (fun h => Or.inr (Or.inr (Or.inr (Or.inr (Or.inr (Or.inl h)))))))⟩
  | .classDef nm bases keywords decorators body, V, B, inner, x, hn, hB, h => by
      obtain ⟨⟨hb, eb, ed⟩, nb, nd, nbo⟩ := hn
      simp only [rename] at h
      rcases h with h | h | h | h
      · rcases rename_self bases V B inner x nb hB h with r | ⟨r1, r2, r3⟩
        · exact Or.inl (Or.inl r)
        · exact Or.inr ⟨r1, r2, Or.inl ((r3.resolve_right (eb x)).imp Or.inl Or.inl)⟩
      · exact Or.inl (Or.inr (Or.inl h))
      · rcases rename_self decorators V B inner x nd hB h with r | ⟨r1, r2, r3⟩
        · exact Or.inl (Or.inr (Or.inr (Or.inl r)))
        · exact Or.inr ⟨r1, r2, Or.inl ((r3.resolve_right (ed x)).imp
            (fun h => Or.inr (Or.inr h)) (fun h => Or.inr (Or.inr (Or.inl h))))⟩
      · rcases rename_self body V B inner x nbo hB h with r | ⟨r1, r2, r3⟩
        · exact Or.inl (Or.inr (Or.inr (Or.inr r)))
        · refine Or.inr ⟨r1, r2, Or.inl (Or.inr ?_)⟩
          rcases r3.resolve_right (hb x r1) with r | r
          · exact Or.inr (Or.inr (Or.inr (Or.inl ⟨r, hb x r1⟩)))
          · exact Or.inr (Or.inr (Or.inr (Or.inr r)))
  | .nonlocal _, _, _, _, _, _, _, h => h.elim
  | .rejected, _, _, _, _, _, _, h => h.elim
theorem renameG_self : ∀ (g : Gens) (V B : List Name) (x : Name), NeatG V g →
    SelfUsesG (renameGens V B g) x → SelfUsesG g x ∨ (x ∈ V ∧ x ∉ B ∧ UsesG g x)
  | .nil, _, _, _, _, h => h.elim
  | .cons t i f more, V, B, x, hn, h => by
      obtain ⟨⟨ei, ef⟩, ni, nf, nm⟩ := hn
      simp only [renameGens] at h
      rcases h with h | h | h | h
      · exact Or.inl (Or.inl h)
      · rcases rename_self i V B true x ni (by simp) h with r | ⟨r1, r2, r3⟩
        · exact Or.inl (Or.inr (Or.inl r))
        · exact Or.inr ⟨r1, r2, Or.inr (Or.inl (r3.resolve_right (ei x)))⟩
      · rcases rename_self f V _ true x nf (by simp) h with r | ⟨r1, r2, r3⟩
        · exact Or.inl (Or.inr (Or.inr (Or.inl r)))
        · rw [List.mem_append] at r2
          exact Or.inr ⟨r1, fun hc => r2 (Or.inl hc), Or.inr (Or.inr (Or.inl (r3.resolve_right (ef x))))⟩
      · rcases renameG_self more V _ x nm h with r | ⟨r1, r2, r3⟩
        · exact Or.inl (Or.inr (Or.inr (Or.inr r)))
        · rw [List.mem_append] at r2
          exact Or.inr ⟨r1, fun hc => r2 (Or.inl hc), Or.inr (Or.inr (Or.inr r3))⟩
end

end Verif.Scope
