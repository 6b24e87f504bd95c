import Verif.Scope.Spec
/-
What the analyses find, compared with Python's rules.
-/
namespace Verif.Scope

/-- The code is an expression: it binds nothing. -/
abbrev IsExpr (t : Tree) : Prop := ∀ x, ¬ Binds t x

mutual
/-- Programs for which nothing that is used goes unnoticed, apart from functions naming themselves:
* default values, annotations, decorators, bases and the parts of lambdas and comprehensions are
  expressions (the syntax of Python sees to that);
* targets of comprehensions are names (and not `a[i]` or `a.b`);
* positional-only parameters have no annotations;
* no return annotation mentions a parameter or local variable of its function or its name;
* no function declares `nonlocal` variables. -/
def Sane : Tree → Prop
  | .node a b => Sane a ∧ Sane b
  | .bind _ v => Sane v
  | .hidden t => Sane t
  | .handler ty _ body => Sane ty ∧ Sane body
  | .lam _ d k body => (IsExpr d ∧ IsExpr k ∧ IsExpr body) ∧ Sane d ∧ Sane k ∧ Sane body
  | .comp elt t i f more =>
      (IsExpr elt ∧ IsExpr i ∧ IsExpr f ∧ ∀ x, ¬ Uses t x)
        ∧ Sane elt ∧ Sane i ∧ Sane f ∧ SaneG more
  | .funDef nm p ap ao d k body decorators returns =>
      (IsExpr ao ∧ IsExpr d ∧ IsExpr k ∧ IsExpr decorators ∧ IsExpr returns)
        ∧ (∀ x, ¬ Uses ap x)
        ∧ (∀ x, Uses returns x → x ∉ p.all ∧ ¬ Binds body x ∧ x ≠ nm)
        ∧ (∀ x, ¬ Outer body x)
        ∧ Sane ao ∧ Sane d ∧ Sane k ∧ Sane body ∧ Sane decorators ∧ Sane returns
  | .classDef _ bases keywords decorators body =>
      (IsExpr bases ∧ IsExpr keywords ∧ IsExpr decorators)
        ∧ Sane bases ∧ Sane keywords ∧ Sane decorators ∧ Sane body
  | _ => True
/-- The same for the further clauses of a comprehension. -/
def SaneG : Gens → Prop
  | .nil => True
  | .cons t i f more =>
      (IsExpr i ∧ IsExpr f ∧ ∀ x, ¬ Uses t x) ∧ Sane i ∧ Sane f ∧ SaneG more
end

/-- No `except ... as name` in this scope. -/
def NoAs : Tree → Prop
  | .node a b => NoAs a ∧ NoAs b
  | .bind _ v => NoAs v
  | .hidden t => NoAs t
  | .handler ty nm body => nm = none ∧ NoAs ty ∧ NoAs body
  | _ => True

theorem mem_diff {a b : List Name} {x : Name} : x ∈ diff a b ↔ x ∈ a ∧ x ∉ b := by
  simp [diff]

theorem defines_binds : ∀ (t : Tree) (x : Name), Defines t x → Binds t x
  | .node a b, x, h => by
      rcases h with h | h
      · exact Or.inl (defines_binds a x h)
      · exact Or.inr (defines_binds b x h)
  | .bind _ v, x, h => Or.inr (defines_binds v x h)
  | .hidden t, x, h => defines_binds t x h
  | .handler ty _ body, x, h => by
      rcases h with h | h
      · exact Or.inr (Or.inl (defines_binds ty x h))
      · exact Or.inr (Or.inr (defines_binds body x h))
  | .funDef _ _ _ _ _ _ _ _ _, x, h => h
  | .leaf, _, h => h.elim
  | .name _ _, _, h => h.elim
  | .selfVar _ _, _, h => h.elim
  | .alias _ _, _, h => h.elim
  | .lam _ _ _ _, _, h => h.elim
  | .comp _ _ _ _ _, _, h => h.elim
  | .classDef _ _ _ _ _, _, h => h.elim
  | .nonlocal _, _, h => h.elim
  | .rejected, _, h => h.elim

theorem sites_binds : ∀ (t : Tree) (x : Name), x ∈ sites t → Binds t x
  | .node a b, x, h => by
      simp only [sites, List.mem_append] at h
      rcases h with h | h
      · exact Or.inl (sites_binds a x h)
      · exact Or.inr (sites_binds b x h)
  | .name y c, x, h => by
      cases c <;> simp [sites, counts] at h <;> simp [Binds, h]
  | .bind y v, x, h => by
      simp only [sites, List.mem_cons] at h
      rcases h with h | h
      · exact Or.inl h
      · exact Or.inr (sites_binds v x h)
  | .hidden t, x, h => sites_binds t x h
  | .alias top asname, x, h => by simpa [sites, Binds] using h
  | .handler ty _ body, x, h => by
      simp only [sites, List.mem_append] at h
      rcases h with h | h
      · exact Or.inr (Or.inl (sites_binds ty x h))
      · exact Or.inr (Or.inr (sites_binds body x h))
  | .funDef _ _ _ _ _ _ _ _ _, x, h => by simpa [sites, Binds] using h
  | .classDef _ _ _ _ _, x, h => by simpa [sites, Binds] using h
  | .leaf, _, h => by simp [sites] at h
  | .selfVar _ _, _, h => by simp [sites] at h
  | .lam _ _ _ _, _, h => by simp [sites] at h
  | .comp _ _ _ _ _, _, h => by simp [sites] at h
  | .nonlocal _, _, h => by simp [sites] at h
  | .rejected, _, h => by simp [sites] at h

theorem binds_sites : ∀ (t : Tree) (x : Name), NoAs t → Binds t x → x ∈ sites t
  | .node a b, x, hn, h => by
      simp only [sites, List.mem_append]
      rcases h with h | h
      · exact Or.inl (binds_sites a x hn.1 h)
      · exact Or.inr (binds_sites b x hn.2 h)
  | .name y c, x, _, h => by
      obtain ⟨rfl, h⟩ := h
      rcases h with rfl | rfl | rfl <;> simp [sites, counts]
  | .bind y v, x, hn, h => by
      simp only [sites, List.mem_cons]
      rcases h with h | h
      · exact Or.inl h
      · exact Or.inr (binds_sites v x hn h)
  | .hidden t, x, hn, h => binds_sites t x hn h
  | .alias top asname, x, _, h => by simpa [sites, Binds] using h
  | .handler ty nm body, x, hn, h => by
      simp only [sites, List.mem_append]
      rcases h with h | h | h
      · rw [hn.1] at h; exact absurd h (by simp)
      · exact Or.inl (binds_sites ty x hn.2.1 h)
      · exact Or.inr (binds_sites body x hn.2.2 h)
  | .funDef _ _ _ _ _ _ _ _ _, x, _, h => by simpa [sites, Binds] using h
  | .classDef _ _ _ _ _, x, _, h => by simpa [sites, Binds] using h
  | .leaf, _, _, h => h.elim
  | .selfVar _ _, _, _, h => h.elim
  | .lam _ _ _ _, _, _, h => h.elim
  | .comp _ _ _ _ _, _, _, h => h.elim
  | .nonlocal _, _, _, h => h.elim
  | .rejected, _, _, h => h.elim

theorem masks_bindsG : ∀ (g : Gens) (x : Name), x ∈ masks g → BindsG g x
  | .nil, _, h => by simp [masks] at h
  | .cons t _ _ more, x, h => by
      simp only [masks, List.mem_append] at h
      rcases h with h | h
      · exact Or.inl (sites_binds t x h)
      · exact Or.inr (masks_bindsG more x h)

theorem argNames_all {p : Params} {x : Name} (h : x ∈ argNames p) : x ∈ p.all := by
  simp only [argNames, Params.all, List.mem_append] at *
  rcases h with (h | h) | h
  · exact Or.inl (Or.inl (Or.inl (Or.inr h)))
  · exact Or.inl (Or.inl (Or.inr h))
  · exact Or.inr h

/-! ### Everything used is found -/

mutual
theorem uses_reads : ∀ (t : Tree) (cls : Bool) (x : Name), Sane t → Uses t x →
    x ∈ reads cls t ∨ (cls = false ∧ Defines t x)
  | .leaf, _, _, _, h => by rcases h with h | h <;> exact h.elim
  | .node a b, cls, x, hs, h => by
      have h' : Uses a x ∨ Uses b x := by
        rcases h with (h | h) | (h | h)
        · exact Or.inl (Or.inl h)
        · exact Or.inr (Or.inl h)
        · exact Or.inl (Or.inr h)
        · exact Or.inr (Or.inr h)
      simp only [reads, List.mem_append]
      rcases h' with h' | h'
      · rcases uses_reads a cls x hs.1 h' with r | r
        · exact Or.inl (Or.inl r)
        · exact Or.inr ⟨r.1, Or.inl r.2⟩
      · rcases uses_reads b cls x hs.2 h' with r | r
        · exact Or.inl (Or.inr r)
        · exact Or.inr ⟨r.1, Or.inr r.2⟩
  | .name y c, cls, x, _, h => by
      rcases h with ⟨rfl, h⟩ | h
      · rcases h with rfl | rfl <;> simp [reads, reading]
      · exact h.elim
  | .bind y v, cls, x, hs, h => uses_reads v cls x hs h
  | .selfVar y c, cls, x, _, h => by
      rcases h with h | h
      · simp only [Direct] at h; simp [reads, h]
      · exact h.elim
  | .hidden t, cls, x, hs, h => uses_reads t cls x hs h
  | .alias _ _, _, _, _, h => by rcases h with h | h <;> exact h.elim
  | .handler a _ b, cls, x, hs, h => by
      have h' : Uses a x ∨ Uses b x := by
        rcases h with (h | h) | (h | h)
        · exact Or.inl (Or.inl h)
        · exact Or.inr (Or.inl h)
        · exact Or.inl (Or.inr h)
        · exact Or.inr (Or.inr h)
      simp only [reads, List.mem_append]
      rcases h' with h' | h'
      · rcases uses_reads a cls x hs.1 h' with r | r
        · exact Or.inl (Or.inl r)
        · exact Or.inr ⟨r.1, Or.inl r.2⟩
      · rcases uses_reads b cls x hs.2 h' with r | r
        · exact Or.inl (Or.inr r)
        · exact Or.inr ⟨r.1, Or.inr r.2⟩
  | .lam p d k body, cls, x, hs, h => by
      obtain ⟨⟨ed, ek, eb⟩, sd, sk, sb⟩ := hs
      have expr : ∀ u, IsExpr u → Sane u → (x ∈ reads false u ∨ (false = false ∧ Defines u x)) →
          x ∈ reads false u := fun u hu _ r => r.elim id fun r => absurd (defines_binds u x r.2) (hu x)
      have h' : Uses d x ∨ Uses k x ∨ (x ∉ p.all ∧ Uses body x) := by
        rcases h with (h | h) | (h | h | h)
        · exact Or.inl (Or.inl h)
        · exact Or.inr (Or.inl (Or.inl h))
        · exact Or.inl (Or.inr h)
        · exact Or.inr (Or.inl (Or.inr h))
        · exact Or.inr (Or.inr h)
      left
      simp only [reads, List.mem_append, mem_diff]
      rcases h' with h' | h' | ⟨hp, h'⟩
      · exact Or.inr (Or.inr (expr d ed sd (uses_reads d false x sd h')))
      · exact Or.inr (Or.inl (expr k ek sk (uses_reads k false x sk h')))
      · refine Or.inl ⟨expr body eb sb (uses_reads body false x sb h'), ?_⟩
        rintro (hc | hc)
        · exact eb x (sites_binds body x hc)
        · exact hp (argNames_all hc)
  | .comp elt t i f more, cls, x, hs, h => by
      obtain ⟨⟨ee, ei, ef, ht⟩, se, si, sf, sm⟩ := hs
      have expr : ∀ u, IsExpr u → Sane u → (x ∈ reads false u ∨ (false = false ∧ Defines u x)) →
          x ∈ reads false u := fun u hu _ r => r.elim id fun r => absurd (defines_binds u x r.2) (hu x)
      have h' : Uses i x ∨ (¬ Binds t x ∧ ¬ BindsG more x ∧ (Uses elt x ∨ Uses f x ∨ UsesG more x)) := by
        rcases h with h | h | ⟨h1, h2, h | h | h | h⟩
        · exact Or.inl (Or.inl h)
        · exact Or.inl (Or.inr h)
        · exact Or.inr ⟨h1, h2, Or.inl h⟩
        · exact absurd h (ht x)
        · exact Or.inr ⟨h1, h2, Or.inr (Or.inl h)⟩
        · exact Or.inr ⟨h1, h2, Or.inr (Or.inr h)⟩
      left
      simp only [reads, List.mem_append, mem_diff]
      rcases h' with h' | ⟨h1, h2, h' | h' | h'⟩
      · exact Or.inl (Or.inl (Or.inl (expr i ei si (uses_reads i false x si h'))))
      · refine Or.inr ⟨expr elt ee se (uses_reads elt false x se h'), ?_⟩
        rintro (hc | hc)
        · exact h1 (sites_binds t x hc)
        · exact h2 (masks_bindsG more x hc)
      · exact Or.inl (Or.inl (Or.inr ⟨expr f ef sf (uses_reads f false x sf h'),
          fun hc => h1 (sites_binds t x hc)⟩))
      · exact Or.inl (Or.inr (usesG_reads more (sites t) x sm h'
          (fun hc => h1 (sites_binds t x hc)) h2))
  | .funDef nm p ap ao d k body decorators returns, cls, x, hs, h => by
      obtain ⟨⟨eao, ed, ek, ede, er⟩, hap, hret, hout, sao, sd, sk, sb, sde, sr⟩ := hs
      have expr : ∀ u, IsExpr u → Sane u → (x ∈ reads false u ∨ (false = false ∧ Defines u x)) →
          x ∈ reads false u := fun u hu _ r => r.elim id fun r => absurd (defines_binds u x r.2) (hu x)
      have h' : Uses ao x ∨ Uses d x ∨ Uses k x ∨ Uses decorators x ∨ Uses returns x
          ∨ (x ∉ p.all ∧ ¬ Local body x ∧ (Direct body x ∨ Captured body x ∨ Binds body x)) := by
        rcases h with (h | h | h | h | h | h) | (h | h | h | h | h | h | h)
        · exact absurd (Or.inl h) (hap x)
        · exact Or.inl (Or.inl h)
        · exact Or.inr (Or.inl (Or.inl h))
        · exact Or.inr (Or.inr (Or.inl (Or.inl h)))
        · exact Or.inr (Or.inr (Or.inr (Or.inl (Or.inl h))))
        · exact Or.inr (Or.inr (Or.inr (Or.inr (Or.inl (Or.inl h)))))
        · exact absurd (Or.inr h) (hap x)
        · exact Or.inl (Or.inr h)
        · exact Or.inr (Or.inl (Or.inr h))
        · exact Or.inr (Or.inr (Or.inl (Or.inr h)))
        · exact Or.inr (Or.inr (Or.inr (Or.inl (Or.inr h))))
        · exact Or.inr (Or.inr (Or.inr (Or.inr (Or.inl (Or.inr h)))))
        · exact Or.inr (Or.inr (Or.inr (Or.inr (Or.inr h))))
      simp only [reads, List.mem_append, mem_diff]
      rcases h' with h' | h' | h' | h' | h' | ⟨hp, hl, h'⟩
      · exact Or.inl (Or.inr (expr ao eao sao (uses_reads ao false x sao h')))
      · exact Or.inl (Or.inl (Or.inl (Or.inr (expr d ed sd (uses_reads d false x sd h')))))
      · exact Or.inl (Or.inl (Or.inr (expr k ek sk (uses_reads k false x sk h'))))
      · exact Or.inl (Or.inl (Or.inl (Or.inl (Or.inr
          (expr decorators ede sde (uses_reads decorators false x sde h'))))))
      · obtain ⟨h1, h2, h3⟩ := hret x h'
        refine Or.inl (Or.inl (Or.inl (Or.inl (Or.inl
          ⟨Or.inr (expr returns er sr (uses_reads returns false x sr h')), ?_⟩))))
        rintro ((hc | hc) | hc)
        · exact h2 (sites_binds body x hc)
        · exact h1 (argNames_all hc)
        · cases cls <;> simp at hc; exact h3 hc
      · have hnb : ¬ Binds body x := fun hb => hl ⟨hb, hout x⟩
        have hu : Uses body x := by
          rcases h' with h' | h' | h'
          · exact Or.inl h'
          · exact Or.inr h'
          · exact absurd h' hnb
        have hr : x ∈ reads false body :=
          (uses_reads body false x sb hu).elim id fun r => absurd (defines_binds body x r.2) hnb
        by_cases hx : cls = false ∧ x = nm
        · exact Or.inr ⟨hx.1, hx.2⟩
        · refine Or.inl (Or.inl (Or.inl (Or.inl (Or.inl ⟨Or.inl hr, ?_⟩))))
          rintro ((hc | hc) | hc)
          · exact hnb (sites_binds body x hc)
          · exact hp (argNames_all hc)
          · cases cls <;> simp at hc
            exact hx ⟨rfl, hc⟩
  | .classDef nm bases keywords decorators body, cls, x, hs, h => by
      obtain ⟨⟨e1, e2, e3⟩, s1, s2, s3, s4⟩ := hs
      have expr : ∀ u, IsExpr u → Sane u → (x ∈ reads false u ∨ (false = false ∧ Defines u x)) →
          x ∈ reads false u := fun u hu _ r => r.elim id fun r => absurd (defines_binds u x r.2) (hu x)
      have h' : Uses bases x ∨ Uses keywords x ∨ Uses decorators x ∨ Uses body x := by
        rcases h with (h | h | h) | (h | h | h | h | h)
        · exact Or.inl (Or.inl h)
        · exact Or.inr (Or.inl (Or.inl h))
        · exact Or.inr (Or.inr (Or.inl (Or.inl h)))
        · exact Or.inl (Or.inr h)
        · exact Or.inr (Or.inl (Or.inr h))
        · exact Or.inr (Or.inr (Or.inl (Or.inr h)))
        · exact Or.inr (Or.inr (Or.inr (Or.inl h.1)))
        · exact Or.inr (Or.inr (Or.inr (Or.inr h)))
      left
      simp only [reads, List.mem_append]
      rcases h' with h' | h' | h' | h'
      · exact Or.inl (Or.inl (Or.inl (expr bases e1 s1 (uses_reads bases false x s1 h'))))
      · exact Or.inl (Or.inl (Or.inr (expr keywords e2 s2 (uses_reads keywords false x s2 h'))))
      · exact Or.inl (Or.inr (expr decorators e3 s3 (uses_reads decorators false x s3 h')))
      · exact Or.inr ((uses_reads body true x s4 h').elim id fun r => absurd r.1 (by simp))
  | .nonlocal _, _, _, _, h => by rcases h with h | h <;> exact h.elim
  | .rejected, _, _, _, h => by rcases h with h | h <;> exact h.elim
theorem usesG_reads : ∀ (g : Gens) (m : List Name) (x : Name), SaneG g → UsesG g x →
    x ∉ m → ¬ BindsG g x → x ∈ readsGens m g
  | .nil, _, _, _, h, _, _ => h.elim
  | .cons t i f more, m, x, hs, h, hm, hb => by
      obtain ⟨⟨ei, ef, ht⟩, si, sf, sm⟩ := hs
      have expr : ∀ u, IsExpr u → Sane u → (x ∈ reads false u ∨ (false = false ∧ Defines u x)) →
          x ∈ reads false u := fun u hu _ r => r.elim id fun r => absurd (defines_binds u x r.2) (hu x)
      have h1 : ¬ Binds t x := fun hc => hb (Or.inl hc)
      have h2 : ¬ BindsG more x := fun hc => hb (Or.inr hc)
      have hm' : x ∉ m ++ sites t := by
        rw [List.mem_append]
        rintro (hc | hc)
        · exact hm hc
        · exact h1 (sites_binds t x hc)
      simp only [readsGens, List.mem_append, mem_diff]
      rcases h with h | h | h | h
      · exact absurd h (ht x)
      · exact Or.inl (Or.inl ⟨expr i ei si (uses_reads i false x si h), hm⟩)
      · refine Or.inl (Or.inr ⟨expr f ef sf (uses_reads f false x sf h), ?_⟩)
        simpa [List.mem_append] using hm'
      · exact Or.inr (usesG_reads more (m ++ sites t) x sm h hm' h2)
end

/-- Everything a nested scope takes from this one is among the variables found to be read by
closures, unless it is a function defined here. -/
theorem captured_closureReads : ∀ (t : Tree) (x : Name), Sane t → Captured t x →
    x ∈ closureReads t ∨ Defines t x
  | .leaf, _, _, h => h.elim
  | .node a b, x, hs, h => by
      simp only [closureReads, List.mem_append]
      rcases h with h | h
      · rcases captured_closureReads a x hs.1 h with r | r
        · exact Or.inl (Or.inl r)
        · exact Or.inr (Or.inl r)
      · rcases captured_closureReads b x hs.2 h with r | r
        · exact Or.inl (Or.inr r)
        · exact Or.inr (Or.inr r)
  | .name _ _, _, _, h => h.elim
  | .bind _ v, x, hs, h => captured_closureReads v x hs h
  | .selfVar _ _, _, _, h => h.elim
  | .hidden t, x, hs, h => captured_closureReads t x hs h
  | .alias _ _, _, _, h => h.elim
  | .handler a _ b, x, hs, h => by
      simp only [closureReads, List.mem_append]
      rcases h with h | h
      · rcases captured_closureReads a x hs.1 h with r | r
        · exact Or.inl (Or.inl r)
        · exact Or.inr (Or.inl r)
      · rcases captured_closureReads b x hs.2 h with r | r
        · exact Or.inl (Or.inr r)
        · exact Or.inr (Or.inr r)
  | .lam p d k body, x, hs, h => by
      rcases uses_reads (.lam p d k body) false x hs (Or.inr h) with r | r
      · exact Or.inl r
      · exact r.2.elim
  | .comp elt t i f more, x, hs, h => by
      rcases uses_reads (.comp elt t i f more) false x hs (Or.inr h) with r | r
      · exact Or.inl r
      · exact r.2.elim
  | .funDef nm p ap ao d k body de re, x, hs, h => by
      rcases uses_reads (.funDef nm p ap ao d k body de re) false x hs (Or.inr h) with r | r
      · exact Or.inl r
      · exact Or.inr r.2
  | .classDef nm bases keywords decorators body, x, hs, h => by
      obtain ⟨⟨e1, e2, e3⟩, s1, s2, s3, s4⟩ := hs
      left
      simp only [closureReads, List.mem_append]
      have expr : ∀ u, IsExpr u → (x ∈ closureReads u ∨ Defines u x) → x ∈ closureReads u :=
        fun u hu r => r.elim id fun r => absurd (defines_binds u x r) (hu x)
      have last : Uses body x → x ∈ reads true body := fun h =>
        (uses_reads body true x s4 h).elim id fun r => absurd r.1 (by simp)
      rcases h with h | h | h | h | h
      · exact Or.inl (Or.inl (Or.inl (expr bases e1 (captured_closureReads bases x s1 h))))
      · exact Or.inl (Or.inl (Or.inr (expr keywords e2 (captured_closureReads keywords x s2 h))))
      · exact Or.inl (Or.inr (expr decorators e3 (captured_closureReads decorators x s3 h)))
      · exact Or.inr (last (Or.inl h.1))
      · exact Or.inr (last (Or.inr h))
  | .nonlocal _, _, _, h => h.elim
  | .rejected, _, _, h => h.elim

/-! ### Nothing else is found -/

mutual
/-- Programs for which nothing is found that is not used:
* no function has keyword-only or positional-only parameters;
* no function has an `except ... as name`;
* no clause of a comprehension mentions what a later clause (or itself) binds;
* no body of a class reads what it binds. -/
def Tight : Tree → Prop
  | .node a b => Tight a ∧ Tight b
  | .bind _ v => Tight v
  | .hidden t => Tight t
  | .handler ty _ body => Tight ty ∧ Tight body
  | .lam p d k body => (p.kwonly = [] ∧ p.posonly = []) ∧ Tight d ∧ Tight k ∧ Tight body
  | .comp elt t i f more =>
      (NoAs t ∧ ∀ x, Uses f x → ¬ BindsG more x)
        ∧ Tight elt ∧ Tight i ∧ Tight f ∧ TightG more
  | .funDef _ p _ ao d k body decorators returns =>
      (p.kwonly = [] ∧ p.posonly = [] ∧ NoAs body)
        ∧ Tight ao ∧ Tight d ∧ Tight k ∧ Tight body ∧ Tight decorators ∧ Tight returns
  | .classDef _ bases keywords decorators body =>
      (∀ x, Direct body x → ¬ Binds body x)
        ∧ Tight bases ∧ Tight keywords ∧ Tight decorators ∧ Tight body
  | _ => True
/-- The same for the further clauses of a comprehension. -/
def TightG : Gens → Prop
  | .nil => True
  | .cons t i f more =>
      (NoAs t ∧ (∀ x, Uses i x → ¬ Binds t x ∧ ¬ BindsG more x) ∧ ∀ x, Uses f x → ¬ BindsG more x)
        ∧ Tight i ∧ Tight f ∧ TightG more
end

theorem all_argNames {p : Params} (h1 : p.kwonly = []) (h2 : p.posonly = []) {x : Name}
    (h : x ∈ p.all) : x ∈ argNames p := by
  simp only [argNames, Params.all, List.mem_append, h1, h2] at *
  rcases h with (((h | h) | h) | h) | h
  · simp at h
  · exact Or.inl (Or.inl h)
  · exact Or.inl (Or.inr h)
  · simp at h
  · exact Or.inr h

theorem bindsG_masks : ∀ (g : Gens) (x : Name), TightG g → BindsG g x → x ∈ masks g
  | .nil, _, _, h => h.elim
  | .cons t _ _ more, x, ht, h => by
      simp only [masks, List.mem_append]
      rcases h with h | h
      · exact Or.inl (binds_sites t x ht.1.1 h)
      · exact Or.inr (bindsG_masks more x ht.2.2.2 h)

mutual
theorem reads_uses : ∀ (t : Tree) (cls : Bool) (x : Name), Tight t → x ∈ reads cls t → Uses t x
  | .leaf, _, _, _, h => by simp [reads] at h
  | .node a b, cls, x, hs, h => by
      simp only [reads, List.mem_append] at h
      rcases h with h | h
      · exact (reads_uses a cls x hs.1 h).imp Or.inl Or.inl
      · exact (reads_uses b cls x hs.2 h).imp Or.inr Or.inr
  | .name y c, cls, x, _, h => by
      cases c <;> simp [reads, reading] at h <;> exact Or.inl ⟨h, by simp⟩
  | .bind y v, cls, x, hs, h => reads_uses v cls x hs h
  | .selfVar y c, cls, x, _, h => by
      simp only [reads, List.mem_singleton] at h
      exact Or.inl h
  | .hidden t, cls, x, hs, h => reads_uses t cls x hs h
  | .alias _ _, _, _, _, h => by simp [reads] at h
  | .handler a _ b, cls, x, hs, h => by
      simp only [reads, List.mem_append] at h
      rcases h with h | h
      · exact (reads_uses a cls x hs.1 h).imp Or.inl Or.inl
      · exact (reads_uses b cls x hs.2 h).imp Or.inr Or.inr
  | .lam p d k body, cls, x, hs, h => by
      obtain ⟨⟨hk, hp⟩, sd, sk, sb⟩ := hs
      simp only [reads, List.mem_append, mem_diff] at h
      rcases h with ⟨h, hn⟩ | h | h
      · exact Or.inr (Or.inr (Or.inr ⟨fun hc => hn (Or.inr (all_argNames hk hp hc)),
          reads_uses body false x sb h⟩))
      · exact (reads_uses k false x sk h).imp Or.inr fun h => Or.inr (Or.inl h)
      · exact (reads_uses d false x sd h).imp Or.inl Or.inl
  | .comp elt t i f more, cls, x, hs, h => by
      obtain ⟨⟨ht, hf⟩, se, si, sf, sm⟩ := hs
      simp only [reads, List.mem_append, mem_diff] at h
      rcases h with ((h | ⟨h, hn⟩) | h) | ⟨h, hn⟩
      · exact (reads_uses i false x si h).imp id Or.inl
      · have hu := reads_uses f false x sf h
        exact Or.inr (Or.inr ⟨fun hc => hn (binds_sites t x ht hc), hf x hu,
          Or.inr (Or.inr (Or.inl hu))⟩)
      · obtain ⟨hu, hm, hb⟩ := readsG_uses more (sites t) x sm h
        exact Or.inr (Or.inr ⟨fun hc => hm (binds_sites t x ht hc), hb,
          Or.inr (Or.inr (Or.inr hu))⟩)
      · exact Or.inr (Or.inr ⟨fun hc => hn (Or.inl (binds_sites t x ht hc)),
          fun hc => hn (Or.inr (bindsG_masks more x sm hc)),
          Or.inl (reads_uses elt false x se h)⟩)
  | .funDef nm p ap ao d k body de re, cls, x, hs, h => by
      obtain ⟨⟨hk, hp, ha⟩, sao, sd, sk, sb, sde, sre⟩ := hs
      simp only [reads, List.mem_append, mem_diff] at h
      rcases h with (((⟨h | h, hn⟩ | h) | h) | h) | h
      · refine Or.inr (Or.inr (Or.inr (Or.inr (Or.inr (Or.inr (Or.inr ⟨?_, ?_, ?_⟩))))))
        · exact fun hc => hn (Or.inl (Or.inr (all_argNames hk hp hc)))
        · exact fun hc => hn (Or.inl (Or.inl (binds_sites body x ha hc.1)))
        · exact (reads_uses body false x sb h).imp id Or.inl
      · exact (reads_uses re false x sre h).imp
          (fun h => Or.inr (Or.inr (Or.inr (Or.inr (Or.inr h)))))
          (fun h => Or.inr (Or.inr (Or.inr (Or.inr (Or.inr (Or.inl h))))))
      · exact (reads_uses de false x sde h).imp
          (fun h => Or.inr (Or.inr (Or.inr (Or.inr (Or.inl h)))))
          (fun h => Or.inr (Or.inr (Or.inr (Or.inr (Or.inl h)))))
      · exact (reads_uses d false x sd h).imp
          (fun h => Or.inr (Or.inr (Or.inl h))) (fun h => Or.inr (Or.inr (Or.inl h)))
      · exact (reads_uses k false x sk h).imp
          (fun h => Or.inr (Or.inr (Or.inr (Or.inl h)))) (fun h => Or.inr (Or.inr (Or.inr (Or.inl h))))
      · exact (reads_uses ao false x sao h).imp (fun h => Or.inr (Or.inl h)) (fun h => Or.inr (Or.inl h))
  | .classDef nm bases keywords decorators body, cls, x, hs, h => by
      obtain ⟨hb, s1, s2, s3, s4⟩ := hs
      simp only [reads, List.mem_append] at h
      rcases h with ((h | h) | h) | h
      · exact (reads_uses bases false x s1 h).imp Or.inl Or.inl
      · exact (reads_uses keywords false x s2 h).imp (fun h => Or.inr (Or.inl h)) (fun h => Or.inr (Or.inl h))
      · exact (reads_uses decorators false x s3 h).imp (fun h => Or.inr (Or.inr h))
          (fun h => Or.inr (Or.inr (Or.inl h)))
      · rcases reads_uses body true x s4 h with h | h
        · exact Or.inr (Or.inr (Or.inr (Or.inr (Or.inl ⟨h, hb x h⟩))))
        · exact Or.inr (Or.inr (Or.inr (Or.inr (Or.inr h))))
  | .nonlocal _, _, _, _, h => by simp [reads] at h
  | .rejected, _, _, _, h => by simp [reads] at h
theorem readsG_uses : ∀ (g : Gens) (m : List Name) (x : Name), TightG g → x ∈ readsGens m g →
    UsesG g x ∧ x ∉ m ∧ ¬ BindsG g x
  | .nil, _, _, _, h => by simp [readsGens] at h
  | .cons t i f more, m, x, hs, h => by
      obtain ⟨⟨ht, hi, hf⟩, si, sf, sm⟩ := hs
      simp only [readsGens, List.mem_append, mem_diff] at h
      rcases h with (⟨h, hn⟩ | ⟨h, hn⟩) | h
      · have hu := reads_uses i false x si h
        exact ⟨Or.inr (Or.inl hu), hn, fun hc => hc.elim (hi x hu).1 (hi x hu).2⟩
      · have hu := reads_uses f false x sf h
        refine ⟨Or.inr (Or.inr (Or.inl hu)), fun hc => hn (Or.inl hc), ?_⟩
        rintro (hc | hc)
        · exact hn (Or.inr (binds_sites t x ht hc))
        · exact hf x hu hc
      · obtain ⟨hu, hm, hb⟩ := readsG_uses more (m ++ sites t) x sm h
        rw [List.mem_append] at hm
        refine ⟨Or.inr (Or.inr (Or.inr hu)), fun hc => hm (Or.inl hc), ?_⟩
        rintro (hc | hc)
        · exact hm (Or.inr (binds_sites t x ht hc))
        · exact hb hc
end

/-- A variable found to be read by closures is used in this scope. -/
theorem closureReads_uses : ∀ (t : Tree) (x : Name), Tight t → x ∈ closureReads t → Uses t x
  | .leaf, _, _, h => by simp [closureReads] at h
  | .node a b, x, hs, h => by
      simp only [closureReads, List.mem_append] at h
      rcases h with h | h
      · exact (closureReads_uses a x hs.1 h).imp Or.inl Or.inl
      · exact (closureReads_uses b x hs.2 h).imp Or.inr Or.inr
  | .name _ _, _, _, h => by simp [closureReads] at h
  | .bind _ v, x, hs, h => closureReads_uses v x hs h
  | .selfVar _ _, _, _, h => by simp [closureReads] at h
  | .hidden t, x, hs, h => closureReads_uses t x hs h
  | .alias _ _, _, _, h => by simp [closureReads] at h
  | .handler a _ b, x, hs, h => by
      simp only [closureReads, List.mem_append] at h
      rcases h with h | h
      · exact (closureReads_uses a x hs.1 h).imp Or.inl Or.inl
      · exact (closureReads_uses b x hs.2 h).imp Or.inr Or.inr
  | .lam p d k body, x, hs, h => reads_uses (.lam p d k body) false x hs h
  | .comp elt t i f more, x, hs, h => reads_uses (.comp elt t i f more) false x hs h
  | .funDef nm p ap ao d k body de re, x, hs, h =>
      reads_uses (.funDef nm p ap ao d k body de re) false x hs h
  | .classDef nm bases keywords decorators body, x, hs, h => by
      have whole := reads_uses (.classDef nm bases keywords decorators body) false x hs
      obtain ⟨hb, s1, s2, s3, s4⟩ := hs
      simp only [closureReads, List.mem_append] at h
      rcases h with ((h | h) | h) | h
      · exact (closureReads_uses bases x s1 h).imp Or.inl Or.inl
      · exact (closureReads_uses keywords x s2 h).imp (fun h => Or.inr (Or.inl h)) (fun h => Or.inr (Or.inl h))
      · exact (closureReads_uses decorators x s3 h).imp (fun h => Or.inr (Or.inr h))
          (fun h => Or.inr (Or.inr (Or.inl h)))
      · exact whole (by simp only [reads, List.mem_append]; exact Or.inr h)
  | .nonlocal _, _, _, h => by simp [closureReads] at h
  | .rejected, _, _, h => by simp [closureReads] at h

end Verif.Scope
