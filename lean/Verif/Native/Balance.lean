import Verif.Native.Spec
import Verif.Native.Wf
/-
Temporaries are torn down exactly once.
-/
namespace Verif.Native

theorem life_snoc (strict : Bool) (t : Tag) (tr : List Ev) (e : Ev) :
    life strict t (tr ++ [e]) = lifeStep strict t (life strict t tr) e := by
  simp [life, List.foldl_append]

/-- A property of what is active and what has happened, of every result. -/
def Always (P : Active → List Ev → Prop) (r : Res) : Prop := ∀ o A tr, r = some (o, A, tr) → P A tr

theorem Always.some {P : Active → List Ev → Prop} {o A tr} (h : P A tr) :
    Always P (some (o, A, tr)) := by intro _ _ _ he; cases he; exact h

theorem Always.bind {P Q : Active → List Ev → Prop} {r : Res} {f : Active → List Ev → Res} (h : Always P r)
    (hPQ : ∀ A tr, P A tr → Q A tr) (h' : ∀ A tr, P A tr → Always Q (f A tr)) : Always Q (andThen r f) := by
  intro o A tr he
  rcases r with _ | ⟨o1, A1, tr1⟩
  · cases he
  · cases o1
    · exact h' A1 tr1 (h _ _ _ rfl) o A tr he
    · exact hPQ _ _ (h o A tr he)
    · exact hPQ _ _ (h o A tr he)

theorem Always.handle {P Q : Active → List Ev → Prop} {r : Res} {f : Active → List Ev → Res}
    (h : Always P r) (hPQ : ∀ A tr, P A tr → Q A tr) (h' : ∀ A tr, P A tr → Always Q (f A tr)) :
    Always Q (onExc r f) := by
  intro o A tr he
  rcases r with _ | ⟨o1, A1, tr1⟩
  · cases he
  · cases o1
    · exact hPQ _ _ (h o A tr he)
    · exact h' A1 tr1 (h _ _ _ rfl) o A tr he
    · exact hPQ _ _ (h o A tr he)

theorem Always.rounds {P : Active → List Ev → Prop} {pre body orelse : Active → List Ev → Res}
    {test : List Ev → Bool}
    (hp : ∀ A tr, P A tr → Always P (pre A tr)) (hb : ∀ A tr, P A tr → Always P (body A tr))
    (ho : ∀ A tr, P A tr → Always P (orelse A tr)) :
    ∀ (n : Nat) (A : Active) (tr : List Ev), P A tr → Always P (rounds pre body orelse test n A tr)
  | 0, A, tr, _ => by intro o A' tr' h; simp [Native.rounds] at h
  | n + 1, A, tr, h => by
      rw [Native.rounds]
      refine Always.bind (hp A tr h) (fun _ _ h => h) fun A1 tr1 h1 => ?_
      by_cases ht : test tr1 = true
      · rw [if_pos ht]
        exact Always.bind (hb A1 tr1 h1) (fun _ _ h => h) fun A2 tr2 h2 =>
          Always.rounds hp hb ho n A2 tr2 h2
      · rw [if_neg ht]; exact ho A1 tr1 h1

/-! ### Never twice -/

/-- What is active is alive. -/
def Alive (A : Active) (tr : List Ev) : Prop :=
  ∀ t, ∃ b, life false t tr = some b ∧ (A t = true → b = true)

theorem Alive.act {A tr} (h : Alive A tr) (a : Nat) : Alive A (tr ++ [.act a]) := by
  intro t; obtain ⟨b, h1, h2⟩ := h t
  exact ⟨b, by rw [life_snoc, h1]; rfl, h2⟩

theorem Alive.made {A tr} (h : Alive A tr) (u : Tag) : Alive (A.set u true) (tr ++ [.made u]) := by
  intro t; obtain ⟨b, h1, h2⟩ := h t
  rw [life_snoc, h1]
  by_cases ht : u = t
  · subst ht; exact ⟨true, by simp [lifeStep], fun _ => rfl⟩
  · refine ⟨b, by simp [lifeStep, ht], fun h' => h2 ?_⟩
    simpa [Active.set, Ne.symm ht] using h'

theorem Alive.torn {A tr} (h : Alive A tr) {u : Tag} (hu : A u = true) :
    Alive (A.set u false) (tr ++ [.torn u]) := by
  intro t; obtain ⟨b, h1, h2⟩ := h t
  rw [life_snoc, h1]
  by_cases ht : u = t
  · subst ht
    refine ⟨false, by simp [lifeStep, h2 hu], fun h' => ?_⟩
    simp [Active.set] at h'
  · refine ⟨b, by simp [lifeStep, ht], fun h' => h2 ?_⟩
    simpa [Active.set, Ne.symm ht] using h'

theorem Alive.clear {A tr} (h : Alive A tr) (ts : List Tag) : Alive (A.clear ts) tr := by
  intro t; obtain ⟨b, h1, h2⟩ := h t
  refine ⟨b, h1, fun h' => h2 ?_⟩
  simp only [Active.clear] at h'
  split at h'
  · cases h'
  · exact h'

mutual
theorem eval_alive {w : World} {fuel : Nat} :
    ∀ (e : E) (A : Active) (tr : List Ev), Alive A tr → Always Alive (eval w fuel e A tr)
  | .skip, A, tr, h => by rw [eval]; exact .some h
  | .act a ct, A, tr, h => by rw [eval]; exact .some (h.act a)
  | .activates u, A, tr, h => by rw [eval]; exact .some (h.made u)
  | .seq a b, A, tr, h => by
      rw [eval]
      exact (eval_alive a A tr h).bind (fun _ _ h => h) fun A1 tr1 h1 => eval_alive b A1 tr1 h1
  | .branch c a b, A, tr, h => by
      rw [eval]
      split
      · exact eval_alive a A tr h
      · exact eval_alive b A tr h
  | .loop p c b o, A, tr, h => by
      rw [eval]
      exact Always.rounds (fun A tr h => eval_alive p A tr h) (fun A tr h => eval_alive b A tr h)
        (fun A tr h => eval_alive o A tr h) fuel A tr h
  | .throw, A, tr, h => by rw [eval]; exact .some h
  | .ret nm, A, tr, h => by rw [eval]; exact .some h
  | .tryCatch e hd, A, tr, h => by
      rw [eval]
      exact (eval_alive e A tr h).handle (fun _ _ h => h) fun A1 tr1 h1 => eval_alive hd A1 tr1 h1
  | .propagate e hd, A, tr, h => by
      rw [eval]
      exact (eval_alive e A tr h).handle (fun _ _ h => h) fun A1 tr1 h1 => eval_alive hd A1 tr1 h1
  | .finally e tds nm, A, tr, h => by
      have h1 := eval_alive (w := w) (fuel := fuel) e _ tr (h.clear tds.tags)
      rw [eval]
      intro o A' tr' heq
      simp only [finish] at heq
      split at heq
      · cases heq
      · rename_i o1 A1 tr1 he1
        have h2 := evalTds_alive (w := w) (fuel := fuel) tds A1 tr1 (h1 _ _ _ he1)
        split at heq
        · cases heq
        · rename_i o2 A2 tr2 he2
          simp only [Option.some.injEq, Prod.mk.injEq] at heq
          rw [← heq.2.1, ← heq.2.2]
          exact (h2 _ _ _ he2).clear _
theorem evalTds_alive {w : World} {fuel : Nat} :
    ∀ (tds : Tds) (A : Active) (tr : List Ev), Alive A tr → Always Alive (evalTds w fuel tds A tr)
  | .nil, A, tr, h => by rw [evalTds]; exact .some h
  | .always e rest, A, tr, h => by
      rw [evalTds]
      exact (eval_alive e A tr h).bind (fun _ _ h => h) fun A1 tr1 h1 => evalTds_alive rest A1 tr1 h1
  | .byTag u e rest, A, tr, h => by
      rw [evalTds]
      split
      · rename_i hu
        exact (eval_alive e _ _ (h.torn hu)).bind (fun _ _ h => h)
          fun A1 tr1 h1 => evalTds_alive rest A1 tr1 h1
      · exact evalTds_alive rest A tr h
end

/-! ### Exactly once -/

/-- Exactly what is active is alive. -/
def Exact (A : Active) (tr : List Ev) : Prop := ∀ t, life true t tr = some (A t)

theorem Exact.act {A tr} (h : Exact A tr) (a : Nat) : Exact A (tr ++ [.act a]) := by
  intro t; rw [life_snoc, h t]; rfl

theorem Exact.made {A tr} (h : Exact A tr) {u : Tag} (hu : A u = false) :
    Exact (A.set u true) (tr ++ [.made u]) := by
  intro t
  rw [life_snoc, h t]
  by_cases ht : u = t
  · subst ht; simp [lifeStep, Active.set, hu]
  · simp [lifeStep, ht, Active.set, Ne.symm ht]

theorem Exact.torn {A tr} (h : Exact A tr) {u : Tag} (hu : A u = true) :
    Exact (A.set u false) (tr ++ [.torn u]) := by
  intro t
  rw [life_snoc, h t]
  by_cases ht : u = t
  · subst ht; simp [lifeStep, Active.set, hu]
  · simp [lifeStep, ht, Active.set, Ne.symm ht]

/-- Nothing quiet ends in any other way than normally. -/
def Normal (r : Res) : Prop := ∀ o A tr, r = some (o, A, tr) → o = .norm

theorem Normal.bind {r : Res} {f : Active → List Ev → Res} (h : Normal r)
    (h' : ∀ A tr, Normal (f A tr)) : Normal (andThen r f) := by
  intro o A tr he
  rcases r with _ | ⟨o1, A1, tr1⟩
  · cases he
  · have := h _ _ _ rfl; subst this; exact h' A1 tr1 o A tr he

theorem Normal.handle {r : Res} {f : Active → List Ev → Res} (h : Normal r) : Normal (onExc r f) := by
  intro o A tr he
  rcases r with _ | ⟨o1, A1, tr1⟩
  · cases he
  · have := h _ _ _ rfl; subst this; exact h o A tr he

theorem Normal.rounds {pre body orelse : Active → List Ev → Res} {test : List Ev → Bool}
    (hp : ∀ A tr, Normal (pre A tr)) (hb : ∀ A tr, Normal (body A tr))
    (ho : ∀ A tr, Normal (orelse A tr)) :
    ∀ (n : Nat) (A : Active) (tr : List Ev), Normal (rounds pre body orelse test n A tr)
  | 0, A, tr => by intro o A' tr' h; simp [Native.rounds] at h
  | n + 1, A, tr => by
      rw [Native.rounds]
      refine Normal.bind (hp A tr) fun A1 tr1 => ?_
      by_cases ht : test tr1 = true
      · rw [if_pos ht]; exact Normal.bind (hb A1 tr1) fun A2 tr2 => Normal.rounds hp hb ho n A2 tr2
      · rw [if_neg ht]; exact ho A1 tr1

mutual
theorem eval_quiet {w : World} {fuel : Nat} :
    ∀ (e : E), e.Quiet w → ∀ (A : Active) (tr : List Ev), Normal (eval w fuel e A tr)
  | .skip, _, A, tr => by rw [eval]; intro o A' tr' h; cases h; rfl
  | .act a ct, hq, A, tr => by
      have hq : ct = true → ∀ tr, w.throws tr a = false := hq
      rw [eval]; intro o A' tr' h
      cases ct
      · cases h; rfl
      · simp only [hq rfl tr, Bool.and_false, Bool.false_eq_true, if_false] at h
        cases h; rfl
  | .activates u, _, A, tr => by rw [eval]; intro o A' tr' h; cases h; rfl
  | .seq a b, hq, A, tr => by
      rw [eval]; exact (eval_quiet a hq.1 A tr).bind fun A1 tr1 => eval_quiet b hq.2 A1 tr1
  | .branch c a b, hq, A, tr => by
      rw [eval]
      split
      · exact eval_quiet a hq.1 A tr
      · exact eval_quiet b hq.2 A tr
  | .loop p c b o, hq, A, tr => by
      rw [eval]
      exact Normal.rounds (fun A tr => eval_quiet p hq.1 A tr) (fun A tr => eval_quiet b hq.2.1 A tr)
        (fun A tr => eval_quiet o hq.2.2 A tr) fuel A tr
  | .throw, hq, A, tr => hq.elim
  | .ret nm, hq, A, tr => hq.elim
  | .tryCatch e hd, hq, A, tr => by rw [eval]; exact (eval_quiet e hq.1 A tr).handle
  | .propagate e hd, hq, A, tr => by rw [eval]; exact (eval_quiet e hq.1 A tr).handle
  | .finally e tds nm, hq, A, tr => by
      have h1 := eval_quiet (w := w) (fuel := fuel) e hq.1 (A.clear tds.tags) tr
      rw [eval]
      intro o A' tr' heq
      simp only [finish] at heq
      split at heq
      · cases heq
      · rename_i o1 A1 tr1 he1
        have h2 := evalTds_quiet (w := w) (fuel := fuel) tds hq.2 A1 tr1
        have ho1 := h1 _ _ _ he1
        split at heq
        · cases heq
        · rename_i o2 A2 tr2 he2
          have ho2 := h2 _ _ _ he2
          simp only [Option.some.injEq, Prod.mk.injEq] at heq
          rw [← heq.1, ho1, ho2]; simp [settle]
theorem evalTds_quiet {w : World} {fuel : Nat} :
    ∀ (tds : Tds), tds.Quiet w → ∀ (A : Active) (tr : List Ev), Normal (evalTds w fuel tds A tr)
  | .nil, _, A, tr => by rw [evalTds]; intro o A' tr' h; cases h; rfl
  | .always e rest, hq, A, tr => by
      rw [evalTds]; exact (eval_quiet e hq.1 A tr).bind fun A1 tr1 => evalTds_quiet rest hq.2 A1 tr1
  | .byTag u e rest, hq, A, tr => by
      rw [evalTds]
      split
      · exact (eval_quiet e hq.1 _ _).bind fun A1 tr1 => evalTds_quiet rest hq.2 A1 tr1
      · exact evalTds_quiet rest hq.2 A tr
end

theorem Tds.Calm.quiet {w : World} : ∀ (tds : Tds), tds.Calm w → tds.Quiet w
  | .nil, _ => trivial
  | .always _ rest, h => ⟨h.1, Tds.Calm.quiet rest h.2.2⟩
  | .byTag _ _ rest, h => ⟨h.1, Tds.Calm.quiet rest h.2.2⟩

/-- Exactly what is active is alive, and these are not active. -/
def ExactBut (ds : List Tag) (A : Active) (tr : List Ev) : Prop := Exact A tr ∧ ∀ t ∈ ds, A t = false

/-- A result is exact, and leaves these alone. -/
theorem ExactBut.more {w : World} {fuel : Nat} {e : E} {own ds ds' : List Tag} {A : Active}
    {tr : List Ev} (h : Always (ExactBut ds) (eval w fuel e A tr)) (hd : e.Disc own)
    (hA : ∀ t ∈ ds', A t = false) (ho : ∀ t ∈ ds', t ∉ own ∧ t ∉ e.decl) :
    Always (ExactBut (ds ++ ds')) (eval w fuel e A tr) := by
  intro o A' tr' heq
  obtain ⟨h1, h2⟩ := h o A' tr' heq
  refine ⟨h1, fun t ht => ?_⟩
  rcases List.mem_append.mp ht with ht | ht
  · exact h2 t ht
  · rw [eval_keeps e own hd t (ho t ht).1 (ho t ht).2 A tr o A' tr' heq]; exact hA t ht

theorem Always.mono {P Q : Active → List Ev → Prop} {r : Res} (h : Always P r)
    (hPQ : ∀ A tr, P A tr → Q A tr) : Always Q r := fun o A tr he => hPQ _ _ (h o A tr he)

mutual
theorem eval_exact {w : World} {fuel : Nat} :
    ∀ (e : E) (names : List Name) (A : Active) (tr : List Ev), e.Wf names → e.Calm w → e.decl.Nodup →
      (∀ t ∈ e.acts, t ∉ e.decl) → (∀ t ∈ e.acts, A t = false) → ExactBut e.decl A tr →
      Always (ExactBut e.decl) (eval w fuel e A tr)
  | .skip, _, A, tr, _, _, _, _, _, h => by rw [eval]; exact .some h
  | .act a ct, _, A, tr, _, _, _, _, _, h => by rw [eval]; exact .some ⟨h.1.act a, h.2⟩
  | .activates u, _, A, tr, _, _, _, _, ha, h => by
      rw [eval]; exact .some ⟨h.1.made (ha u (by simp [E.acts])), by simp [E.decl]⟩
  | .seq a b, names, A, tr, hw, hc, hn, hap, ha, h => by
      simp only [E.decl, E.acts] at hap hn ha h ⊢
      have hda := E.Wf.disc a hw.1
      have hdb := E.Wf.disc b hw.2.1
      have ha1 := eval_exact (w := w) (fuel := fuel) a names A tr hw.1 hc.1 (nodup_left hn)
        (fun t ht hd => hap t (List.mem_append_left _ ht) (List.mem_append_left _ hd))
        (fun t ht => ha t (List.mem_append_left _ ht))
        ⟨h.1, fun t ht => h.2 t (List.mem_append_left _ ht)⟩
      -- and what comes next is still not active
      have ha2 := ExactBut.more (ds' := b.decl ++ b.acts.filter fun t => !a.decl.contains t) ha1 hda
        (fun t ht => by
          rcases List.mem_append.mp ht with ht | ht
          · exact h.2 t (List.mem_append_right _ ht)
          · exact ha t (List.mem_append_right _ (List.mem_filter.mp ht).1))
        (fun t ht => by
          rcases List.mem_append.mp ht with ht | ht
          · exact ⟨fun h' => hap t (List.mem_append_left _ h') (List.mem_append_right _ ht),
              fun h' => nodup_apart hn h' ht⟩
          · obtain ⟨h1, h2⟩ := List.mem_filter.mp ht
            exact ⟨fun h' => hw.2.2 t h' h1, by simpa using h2⟩)
      rw [eval]
      refine ha2.bind (fun A1 tr1 h1 => ⟨h1.1, fun t ht => h1.2 t ?_⟩) fun A1 tr1 h1 => ?_
      · rcases List.mem_append.mp ht with ht | ht
        · exact List.mem_append_left _ ht
        · exact List.mem_append_right _ (List.mem_append_left _ ht)
      · have hb := eval_exact (w := w) (fuel := fuel) b names A1 tr1 hw.2.1 hc.2 (nodup_right hn)
          (fun t ht hd => hap t (List.mem_append_right _ ht) (List.mem_append_right _ hd))
          (fun t ht => h1.2 t (by
            by_cases htd : t ∈ a.decl
            · exact List.mem_append_left _ htd
            · exact List.mem_append_right _ (List.mem_append_right _
                (List.mem_filter.mpr ⟨ht, by simpa using htd⟩))))
          ⟨h1.1, fun t ht => h1.2 t (List.mem_append_right _ (List.mem_append_left _ ht))⟩
        refine (ExactBut.more (ds' := a.decl) hb hdb
          (fun t ht => h1.2 t (List.mem_append_left _ ht))
          (fun t ht => ⟨fun h' => hap t (List.mem_append_right _ h') (List.mem_append_left _ ht),
            fun h' => nodup_apart hn ht h'⟩)).mono fun A2 tr2 h2 => ⟨h2.1, fun t ht => h2.2 t ?_⟩
        rcases List.mem_append.mp ht with ht | ht
        · exact List.mem_append_right _ ht
        · exact List.mem_append_left _ ht
  | .branch c a b, names, A, tr, hw, hc, hn, hap, ha, h => by
      simp only [E.decl, E.acts] at hap hn ha h ⊢
      rw [eval]
      split
      · refine (ExactBut.more (ds' := b.decl) (eval_exact a names A tr hw.1 hc.1 (nodup_left hn)
          (fun t ht hd => hap t (List.mem_append_left _ ht) (List.mem_append_left _ hd))
          (fun t ht => ha t (List.mem_append_left _ ht))
          ⟨h.1, fun t ht => h.2 t (List.mem_append_left _ ht)⟩) (E.Wf.disc a hw.1)
          (fun t ht => h.2 t (List.mem_append_right _ ht))
          (fun t ht => ⟨fun h' => hap t (List.mem_append_left _ h') (List.mem_append_right _ ht),
            fun h' => nodup_apart hn h' ht⟩))
      · refine (ExactBut.more (ds' := a.decl) (eval_exact b names A tr hw.2 hc.2 (nodup_right hn)
          (fun t ht hd => hap t (List.mem_append_right _ ht) (List.mem_append_right _ hd))
          (fun t ht => ha t (List.mem_append_right _ ht))
          ⟨h.1, fun t ht => h.2 t (List.mem_append_right _ ht)⟩) (E.Wf.disc b hw.2)
          (fun t ht => h.2 t (List.mem_append_left _ ht))
          (fun t ht => ⟨fun h' => hap t (List.mem_append_right _ h') (List.mem_append_left _ ht),
            fun h' => nodup_apart hn ht h'⟩)).mono fun A2 tr2 h2 => ⟨h2.1, fun t ht => h2.2 t ?_⟩
        rcases List.mem_append.mp ht with ht | ht
        · exact List.mem_append_right _ ht
        · exact List.mem_append_left _ ht
  | .loop p c b o, names, A, tr, hw, hc, hn, hap, ha, h => by
      obtain ⟨hwp, hwb, hwo, -, hpa, hba, hoa⟩ := hw
      simp only [E.decl] at hn h ⊢
      have hdp := E.Wf.disc p hwp
      have hdb := E.Wf.disc b hwb
      have hdo := E.Wf.disc o hwo
      rw [hpa] at hdp; rw [hba] at hdb; rw [hoa] at hdo
      rw [eval]
      refine Always.rounds (fun A tr h => ?_) (fun A tr h => ?_) (fun A tr h => ?_) fuel A tr h
      · exact (ExactBut.more (ds' := b.decl ++ o.decl) (eval_exact p names A tr hwp hc.1 (nodup_left hn)
          (by rw [hpa]; simp) (by rw [hpa]; simp)
          ⟨h.1, fun t ht => h.2 t (List.mem_append_left _ ht)⟩) hdp
          (fun t ht => h.2 t (List.mem_append_right _ ht))
          (fun t ht => ⟨by simp, fun h' => nodup_apart hn h' ht⟩))
      · refine (ExactBut.more (ds' := p.decl ++ o.decl) (eval_exact b names A tr hwb hc.2.1
          (nodup_left (nodup_right hn)) (by rw [hba]; simp) (by rw [hba]; simp)
          ⟨h.1, fun t ht => h.2 t (List.mem_append_right _ (List.mem_append_left _ ht))⟩) hdb
          (fun t ht => h.2 t (by
            rcases List.mem_append.mp ht with ht | ht
            · exact List.mem_append_left _ ht
            · exact List.mem_append_right _ (List.mem_append_right _ ht)))
          (fun t ht => ⟨by simp, fun h' => by
            rcases List.mem_append.mp ht with ht | ht
            · exact nodup_apart hn ht (List.mem_append_left _ h')
            · exact nodup_apart (nodup_right hn) h' ht⟩)).mono
          fun A2 tr2 h2 => ⟨h2.1, fun t ht => h2.2 t ?_⟩
        simp only [List.mem_append] at ht ⊢
        rcases ht with ht | ht | ht
        · exact .inr (.inl ht)
        · exact .inl ht
        · exact .inr (.inr ht)
      · refine (ExactBut.more (ds' := p.decl ++ b.decl) (eval_exact o names A tr hwo hc.2.2
          (nodup_right (nodup_right hn)) (by rw [hoa]; simp) (by rw [hoa]; simp)
          ⟨h.1, fun t ht => h.2 t (List.mem_append_right _ (List.mem_append_right _ ht))⟩) hdo
          (fun t ht => h.2 t (by
            rcases List.mem_append.mp ht with ht | ht
            · exact List.mem_append_left _ ht
            · exact List.mem_append_right _ (List.mem_append_left _ ht)))
          (fun t ht => ⟨by simp, fun h' => by
            rcases List.mem_append.mp ht with ht | ht
            · exact nodup_apart hn ht (List.mem_append_right _ h')
            · exact nodup_apart (nodup_right hn) ht h'⟩)).mono
          fun A2 tr2 h2 => ⟨h2.1, fun t ht => h2.2 t ?_⟩
        simp only [List.mem_append] at ht ⊢
        rcases ht with ht | ht | ht
        · exact .inr (.inl ht)
        · exact .inr (.inr ht)
        · exact .inl ht
  | .throw, _, A, tr, _, _, _, _, _, h => by rw [eval]; exact .some h
  | .ret nm, _, A, tr, _, _, _, _, _, h => by rw [eval]; exact .some h
  | .tryCatch e hd, names, A, tr, hw, hc, hn, hap, ha, h => by
      obtain ⟨hwe, hwh, hea, hha⟩ := hw
      simp only [E.decl] at hn h ⊢
      have hde := E.Wf.disc e hwe
      have hdh := E.Wf.disc hd hwh
      rw [hea] at hde; rw [hha] at hdh
      have he := ExactBut.more (ds' := hd.decl) (eval_exact (w := w) (fuel := fuel) e names A tr hwe hc.1
        (nodup_left hn) (by rw [hea]; simp) (by rw [hea]; simp)
        ⟨h.1, fun t ht => h.2 t (List.mem_append_left _ ht)⟩) hde
        (fun t ht => h.2 t (List.mem_append_right _ ht))
        (fun t ht => ⟨by simp, fun h' => nodup_apart hn h' ht⟩)
      rw [eval]
      refine he.handle (fun _ _ h => h) fun A1 tr1 h1 => ?_
      refine (ExactBut.more (ds' := e.decl) (eval_exact hd names A1 tr1 hwh hc.2 (nodup_right hn)
        (by rw [hha]; simp) (by rw [hha]; simp)
        ⟨h1.1, fun t ht => h1.2 t (List.mem_append_right _ ht)⟩) hdh
        (fun t ht => h1.2 t (List.mem_append_left _ ht))
        (fun t ht => ⟨by simp, fun h' => nodup_apart hn ht h'⟩)).mono
        fun A2 tr2 h2 => ⟨h2.1, fun t ht => h2.2 t ?_⟩
      rcases List.mem_append.mp ht with ht | ht
      · exact List.mem_append_right _ ht
      · exact List.mem_append_left _ ht
  | .propagate e hd, names, A, tr, hw, hc, hn, hap, ha, h => by
      obtain ⟨hwe, hwh, hha, -⟩ := hw
      simp only [E.decl, E.acts] at hn h hap ha ⊢
      have hde := E.Wf.disc e hwe
      have hdh := E.Wf.disc hd hwh
      rw [hha] at hdh
      have he := ExactBut.more (ds' := hd.decl) (eval_exact (w := w) (fuel := fuel) e names A tr hwe hc.1
        (nodup_left hn) (fun t ht hd => hap t (List.mem_append_left _ ht) (List.mem_append_left _ hd))
        (fun t ht => ha t (List.mem_append_left _ ht))
        ⟨h.1, fun t ht => h.2 t (List.mem_append_left _ ht)⟩) hde
        (fun t ht => h.2 t (List.mem_append_right _ ht))
        (fun t ht => ⟨fun h' => hap t (List.mem_append_left _ h') (List.mem_append_right _ ht),
          fun h' => nodup_apart hn h' ht⟩)
      rw [eval]
      refine he.handle (fun _ _ h => h) fun A1 tr1 h1 => ?_
      refine (ExactBut.more (ds' := e.decl) (eval_exact hd names A1 tr1 hwh hc.2 (nodup_right hn)
        (by rw [hha]; simp) (by rw [hha]; simp)
        ⟨h1.1, fun t ht => h1.2 t (List.mem_append_right _ ht)⟩) hdh
        (fun t ht => h1.2 t (List.mem_append_left _ ht))
        (fun t ht => ⟨by simp, fun h' => nodup_apart hn ht h'⟩)).mono
        fun A2 tr2 h2 => ⟨h2.1, fun t ht => h2.2 t ?_⟩
      rcases List.mem_append.mp ht with ht | ht
      · exact List.mem_append_right _ ht
      · exact List.mem_append_left _ ht
  | .finally e tds nm, names, A, tr, hw, hc, hn, hap, ha, h => by
      obtain ⟨hwe, hwt, -⟩ := hw
      have hde := E.Wf.disc e hwe
      have hn' := hn
      simp only [E.decl] at hn' h ⊢
      have hcl : A.clear tds.tags = A := by
        funext t
        simp only [Active.clear]
        split
        · rename_i ht; exact (h.2 t (List.mem_append_left _ ht)).symm
        · rfl
      have hea : ∀ t ∈ e.acts, t ∉ e.decl ++ tds.decl := fun t ht hd => by
        rcases mem_fin_acts (tds := tds) (nm := nm) ht with h' | h'
        · exact nodup_apart hn' h' hd
        · exact hap t h' (by simp only [E.decl]; exact List.mem_append_right _ hd)
      have he := ExactBut.more (ds' := tds.decl) (eval_exact (w := w) (fuel := fuel) e
        (nm.toList ++ names) A tr hwe hc.1 (nodup_left (nodup_right hn'))
        (fun t ht hd => hea t ht (List.mem_append_left _ hd))
        (fun t ht => by
          rcases mem_fin_acts (tds := tds) (nm := nm) ht with h' | h'
          · exact h.2 t (List.mem_append_left _ h')
          · exact ha t h')
        ⟨h.1, fun t ht => h.2 t (List.mem_append_right _ (List.mem_append_left _ ht))⟩) hde
        (fun t ht => h.2 t (List.mem_append_right _ (List.mem_append_right _ ht)))
        (fun t ht => ⟨fun h' => hea t h' (List.mem_append_right _ ht),
          fun h' => nodup_apart (nodup_right hn') h' ht⟩)
      rw [eval, hcl]
      intro o A' tr' heq
      simp only [finish] at heq
      split at heq
      · cases heq
      · rename_i o1 A1 tr1 he1
        have h1 := he _ _ _ he1
        have ht := evalTds_exact (w := w) (fuel := fuel) tds names A1 tr1 hwt hc.2
          (nodup_left hn') (nodup_right (nodup_right hn'))
          (fun t ht hd => nodup_apart hn' ht (List.mem_append_right _ hd))
          ⟨h1.1, fun t ht => h1.2 t (List.mem_append_right _ ht)⟩
        split at heq
        · cases heq
        · rename_i o2 A2 tr2 he2
          have h2 := ht _ _ _ he2
          have hk : ∀ t ∈ e.decl, A2 t = false := fun t ht => by
            rw [evalTds_keeps tds (Tds.Wf.disc tds hwt) t
              (fun h' => nodup_apart hn' h' (List.mem_append_left _ ht))
              (fun h' => nodup_apart (nodup_right hn') ht h') A1 tr1 _ _ _ he2]
            exact h1.2 t (List.mem_append_left _ ht)
          have hcl2 : A2.clear tds.tags = A2 := by
            funext t
            simp only [Active.clear]
            split
            · rename_i ht; exact (h2.2 t (List.mem_append_left _ ht)).symm
            · rfl
          simp only [Option.some.injEq, Prod.mk.injEq] at heq
          rw [← heq.2.1, ← heq.2.2, hcl2]
          refine ⟨h2.1, fun t ht => ?_⟩
          simp only [List.mem_append] at ht
          rcases ht with ht | ht | ht
          · exact h2.2 t (List.mem_append_left _ ht)
          · exact hk t ht
          · exact h2.2 t (List.mem_append_right _ ht)
theorem evalTds_exact {w : World} {fuel : Nat} :
    ∀ (tds : Tds) (names : List Name) (A : Active) (tr : List Ev), tds.Wf names → tds.Calm w →
      tds.tags.Nodup → tds.decl.Nodup → (∀ t ∈ tds.tags, t ∉ tds.decl) → ExactBut tds.decl A tr →
      Always (ExactBut (tds.tags ++ tds.decl)) (evalTds w fuel tds A tr)
  | .nil, _, A, tr, _, _, _, _, _, h => by
      rw [evalTds]; exact .some ⟨h.1, by simp [Tds.tags, Tds.decl]⟩
  | .always e rest, names, A, tr, hw, hc, hnt, hn, hap, h => by
      obtain ⟨hwe, hea, -, hwr⟩ := hw
      simp only [Tds.decl, Tds.tags] at hn h hap hnt ⊢
      have hde := E.Wf.disc e hwe
      rw [hea] at hde
      have he := ExactBut.more (ds' := rest.decl) (eval_exact (w := w) (fuel := fuel) e names A tr hwe
        hc.2.1 (nodup_left hn) (by rw [hea]; simp) (by rw [hea]; simp)
        ⟨h.1, fun t ht => h.2 t (List.mem_append_left _ ht)⟩) hde
        (fun t ht => h.2 t (List.mem_append_right _ ht))
        (fun t ht => ⟨by simp, fun h' => nodup_apart hn h' ht⟩)
      rw [evalTds]
      intro o A' tr' heq
      rcases hr : eval w fuel e A tr with _ | ⟨o1, A1, tr1⟩
      · rw [hr] at heq; cases heq
      · have ho1 := eval_quiet e hc.1 A tr _ _ _ hr
        subst ho1
        rw [hr] at heq
        have h1 := he _ _ _ hr
        have heq : evalTds w fuel rest A1 tr1 = some (o, A', tr') := heq
        have h2 := evalTds_exact rest names A1 tr1 hwr hc.2.2 hnt (nodup_right hn)
          (fun t ht hd => hap t ht (List.mem_append_right _ hd))
          ⟨h1.1, fun t ht => h1.2 t (List.mem_append_right _ ht)⟩ _ _ _ heq
        refine ⟨h2.1, fun t ht => ?_⟩
        simp only [List.mem_append] at ht
        rcases ht with ht | ht | ht
        · exact h2.2 t (List.mem_append_left _ ht)
        · rw [evalTds_keeps rest (Tds.Wf.disc rest hwr) t
            (fun h' => hap t h' (List.mem_append_left _ ht))
            (fun h' => nodup_apart hn ht h') A1 tr1 _ _ _ heq]
          exact h1.2 t (List.mem_append_left _ ht)
        · exact h2.2 t (List.mem_append_right _ ht)
  | .byTag u e rest, names, A, tr, hw, hc, hnt, hn, hap, h => by
      obtain ⟨hwe, hea, -, hwr⟩ := hw
      simp only [Tds.decl, Tds.tags] at hn h hap hnt ⊢
      have hde := E.Wf.disc e hwe
      rw [hea] at hde
      have hu := hap u (List.mem_cons_self ..)
      rw [List.mem_append, not_or] at hu
      have hur : u ∉ rest.tags := (List.nodup_cons.mp hnt).1
      -- after the teardown of this tag
      have key : ∀ A1 tr1, Exact A1 tr1 → A1 u = false → (∀ t ∈ e.decl ++ rest.decl, A1 t = false) →
          Always (ExactBut (u :: rest.tags ++ (e.decl ++ rest.decl))) (evalTds w fuel rest A1 tr1) := by
        intro A1 tr1 hx hxu hxd o A' tr' heq
        have h2 := evalTds_exact rest names A1 tr1 hwr hc.2.2 (List.nodup_cons.mp hnt).2 (nodup_right hn)
          (fun t ht hd => hap t (List.mem_cons_of_mem _ ht) (List.mem_append_right _ hd))
          ⟨hx, fun t ht => hxd t (List.mem_append_right _ ht)⟩ _ _ _ heq
        have hk : ∀ t, t ∉ rest.tags → t ∉ rest.decl → A' t = A1 t := fun t h1 h2 =>
          evalTds_keeps rest (Tds.Wf.disc rest hwr) t h1 h2 A1 tr1 _ _ _ heq
        refine ⟨h2.1, fun t ht => ?_⟩
        simp only [List.mem_append, List.mem_cons] at ht
        rcases ht with (ht | ht) | ht | ht
        · subst ht; rw [hk t hur hu.2]; exact hxu
        · exact h2.2 t (List.mem_append_left _ ht)
        · rw [hk t (fun h' => hap t (List.mem_cons_of_mem _ h') (List.mem_append_left _ ht))
            (fun h' => nodup_apart hn ht h')]
          exact hxd t (List.mem_append_left _ ht)
        · exact h2.2 t (List.mem_append_right _ ht)
      rw [evalTds]
      by_cases hA : A u = true
      · rw [if_pos hA]
        have hset : ∀ t, t ≠ u → (A.set u false) t = A t := fun t ht => by simp [Active.set, ht]
        have hdu : ∀ t ∈ e.decl ++ rest.decl, t ≠ u := fun t ht h' => by
          subst h'
          rcases List.mem_append.mp ht with ht | ht
          · exact hu.1 ht
          · exact hu.2 ht
        have he := ExactBut.more (ds' := u :: rest.decl) (eval_exact (w := w) (fuel := fuel) e names
          (A.set u false) (tr ++ [.torn u]) hwe hc.2.1 (nodup_left hn) (by rw [hea]; simp)
          (by rw [hea]; simp)
          ⟨h.1.torn hA, fun t ht => by
            rw [hset t (hdu t (List.mem_append_left _ ht))]; exact h.2 t (List.mem_append_left _ ht)⟩) hde
          (fun t ht => by
            rcases List.mem_cons.mp ht with ht | ht
            · subst ht; simp [Active.set]
            · rw [hset t (hdu t (List.mem_append_right _ ht))]
              exact h.2 t (List.mem_append_right _ ht))
          (fun t ht => ⟨by simp, fun h' => by
            rcases List.mem_cons.mp ht with ht | ht
            · subst ht; exact hu.1 h'
            · exact nodup_apart hn h' ht⟩)
        intro o A' tr' heq
        rcases hr : eval w fuel e (A.set u false) (tr ++ [.torn u]) with _ | ⟨o1, A1, tr1⟩
        · rw [hr] at heq; cases heq
        · have ho1 := eval_quiet e hc.1 _ _ _ _ _ hr
          subst ho1
          rw [hr] at heq
          have h1 := he _ _ _ hr
          refine key A1 tr1 h1.1 (h1.2 u (List.mem_append_right _ (List.mem_cons_self ..)))
            (fun t ht => h1.2 t ?_) _ _ _ heq
          rcases List.mem_append.mp ht with ht | ht
          · exact List.mem_append_left _ ht
          · exact List.mem_append_right _ (List.mem_cons_of_mem _ ht)
      · rw [if_neg hA]
        exact key A tr h.1 (by simpa using hA) h.2
end

end Verif.Native
