import Verif.Native.Sim
/-
Well formed expressions are converted without a failing assertion.
-/
namespace Verif.Native

theorem E.Disc.mono : ∀ (e : E) {own own' : List Tag}, e.Disc own → (∀ t ∈ own, t ∈ own') → e.Disc own'
  | .skip, _, _, h, _ => h
  | .act .., _, _, h, _ => h
  | .throw, _, _, h, _ => h
  | .ret _, _, _, h, _ => h
  | .activates t, _, _, h, hs => hs t h
  | .seq a b, _, _, h, hs => ⟨E.Disc.mono a h.1 hs, E.Disc.mono b h.2 hs⟩
  | .branch _ a b, _, _, h, hs => ⟨E.Disc.mono a h.1 hs, E.Disc.mono b h.2 hs⟩
  | .loop .., _, _, h, _ => h
  | .tryCatch .., _, _, h, _ => h
  | .propagate e _, _, _, h, hs => ⟨E.Disc.mono e h.1 hs, h.2⟩
  | .finally e tds nm, own, own', h, hs => by
      refine ⟨E.Disc.mono e h.1 fun t ht => ?_, h.2⟩
      rcases List.mem_append.mp ht with ht | ht
      · exact List.mem_append_left _ ht
      · refine List.mem_append_right _ ?_
        split at ht
        · rename_i hnm; rw [if_pos hnm]; exact hs t ht
        · simp at ht

theorem mem_fin_acts {e : E} {tds : Tds} {nm : Option Name} {t : Tag} (h : t ∈ e.acts) :
    t ∈ tds.tags ∨ t ∈ (E.finally e tds nm).acts := by
  by_cases ht : t ∈ tds.tags
  · exact .inl ht
  · refine .inr ?_
    simp only [E.acts, List.mem_append, List.mem_filter]
    exact .inl ⟨h, by simpa using ht⟩

mutual
theorem E.Wf.disc : ∀ (e : E) {names : List Name}, e.Wf names → e.Disc e.acts
  | .skip, _, _ => trivial
  | .act .., _, _ => trivial
  | .throw, _, _ => trivial
  | .ret _, _, _ => by simp [E.Disc]
  | .activates t, _, _ => by simp [E.Disc, E.acts]
  | .seq a b, _, h =>
      ⟨(E.Wf.disc a h.1).mono a fun t ht => List.mem_append_left _ ht,
        (E.Wf.disc b h.2.1).mono b fun t ht => List.mem_append_right _ ht⟩
  | .branch _ a b, _, h =>
      ⟨(E.Wf.disc a h.1).mono a fun t ht => List.mem_append_left _ ht,
        (E.Wf.disc b h.2).mono b fun t ht => List.mem_append_right _ ht⟩
  | .loop p _ b o, _, h =>
      ⟨by have := E.Wf.disc p h.1; rwa [h.2.2.2.2.1] at this,
        by have := E.Wf.disc b h.2.1; rwa [h.2.2.2.2.2.1] at this,
        by have := E.Wf.disc o h.2.2.1; rwa [h.2.2.2.2.2.2] at this⟩
  | .tryCatch e h, _, hw =>
      ⟨by have := E.Wf.disc e hw.1; rwa [hw.2.2.1] at this,
        by have := E.Wf.disc h hw.2.1; rwa [hw.2.2.2] at this⟩
  | .propagate e h, _, hw =>
      ⟨(E.Wf.disc e hw.1).mono e fun t ht => List.mem_append_left _ ht,
        by have := E.Wf.disc h hw.2.1; rwa [hw.2.2.1] at this⟩
  | .finally e tds nm, _, hw => by
      refine ⟨(E.Wf.disc e hw.1).mono e fun t ht => ?_, Tds.Wf.disc tds hw.2.1⟩
      by_cases hnm : nm = none
      · rw [if_pos hnm]
        rcases mem_fin_acts (tds := tds) (nm := nm) ht with h | h
        · exact List.mem_append_left _ h
        · exact List.mem_append_right _ h
      · exact List.mem_append_left _ (hw.2.2 hnm t ht)
theorem Tds.Wf.disc : ∀ (tds : Tds) {names : List Name}, tds.Wf names → tds.Disc
  | .nil, _, _ => trivial
  | .always e rest, _, h => by
      refine ⟨?_, Tds.Wf.disc rest h.2.2.2⟩
      have := E.Wf.disc e h.1; rwa [h.2.1] at this
  | .byTag _ e rest, _, h => by
      refine ⟨?_, Tds.Wf.disc rest h.2.2.2⟩
      have := E.Wf.disc e h.1; rwa [h.2.1] at this
end

/-- The conversion has a value for exactly those expressions that may end normally. -/
theorem conv_res : ∀ (e : E) (hs : List (Option Name)) (σ : STags), (conv hs e σ).res = e.falls
  | .skip, _, _ => by rw [conv, E.falls]
  | .act .., _, _ => by rw [conv, E.falls]
  | .throw, _, _ => by rw [conv, E.falls]
  | .ret none, _, _ => by rw [conv, E.falls]
  | .ret (some nm), _, _ => by rw [conv, E.falls]; split <;> rfl
  | .activates t, _, _ => by rw [conv, E.falls]
  | .seq a b, hs, σ => by
      rw [conv, E.falls]
      have ha := conv_res a hs σ
      simp only
      split
      · rename_i h; rw [← ha, h, conv_res b]; rfl
      · rename_i h; rw [← ha, Bool.eq_false_iff.mpr h]; rfl
  | .branch _ a b, hs, σ => by rw [conv, E.falls]; simp only [conv_res a, conv_res b]
  | .loop p _ b o, hs, σ => by rw [conv, E.falls]; simp only [conv_res o]
  | .tryCatch e h, hs, σ => by rw [conv, E.falls]; simp only [catching_res, Bool.true_or]
  | .propagate e h, hs, σ => by
      rw [conv, E.falls]; simp only [catching_res, Bool.false_or, conv_res e]
  | .finally e tds nm, hs, σ => by
      rw [conv, E.falls]; simp only [finalizing_res, conv_res e]

/-! ### The integers of jumps -/

/-- What the integer of a jump can be. -/
def Target (hs : List (Option Name)) (v : Int) : Prop :=
  v < 0 ∨ v = hs.length + 1 ∨ ∃ (nm : Name) (k : Nat), scopesTo nm hs = some k ∧ v = k

theorem Target.leave {h : Option Name} {hs : List (Option Name)} {v : Int} (ht : Target (h :: hs) v)
    (hv : v ≠ 0) : Target hs (v - 1) := by
  rcases ht with ht | ht | ⟨nm, k, hk, hv'⟩
  · exact .inl (by omega)
  · simp only [List.length_cons] at ht; exact .inr (.inl (by omega))
  · rw [scopesTo] at hk
    split at hk
    · cases hk; exact absurd hv' hv
    · cases hk' : scopesTo nm hs with
      | none => rw [hk'] at hk; cases hk
      | some k' =>
        rw [hk'] at hk
        simp only [Option.map_some, Option.some.injEq] at hk
        exact .inr (.inr ⟨nm, k', hk', by omega⟩)

theorem Target.zero {h : Option Name} {hs : List (Option Name)} (ht : Target (h :: hs) 0) :
    h ≠ none := by
  rcases ht with ht | ht | ⟨nm, k, hk, hv'⟩
  · omega
  · simp only [List.length_cons] at ht; omega
  · rw [scopesTo] at hk
    split at hk
    · rename_i h'; rw [h']; simp
    · cases hk' : scopesTo nm hs with
      | none => rw [hk'] at hk; cases hk
      | some k' => rw [hk'] at hk; simp only [Option.map_some, Option.some.injEq] at hk; omega

def Targets (hs : List (Option Name)) (es : List Edge) : Prop := ∀ x ∈ es, ∀ v, x.2 = some v → Target hs v

theorem Targets.append {hs es es'} (h : Targets hs es) (h' : Targets hs es') : Targets hs (es ++ es') :=
  fun x hx => (List.mem_append.mp hx).elim (h x) (h' x)

theorem Targets.agreed {hs es v} (h : Targets hs es) (ha : agreed es = some v) : Target hs v := by
  cases es with
  | nil => cases ha
  | cons x l => exact h x (List.mem_cons_self ..) v (agreed_all ha x (List.mem_cons_self ..))

theorem Targets.one {hs : List (Option Name)} {σ : STags} {v : Int} (h : Target hs v) :
    Targets hs [(σ, some v)] := by
  intro x hx u hu
  simp only [List.mem_singleton] at hx
  subst hx; cases hu; exact h

theorem catching_targets {hs : List (Option Name)} {ce ch : Conv} {σh : STags} {b : Bool}
    (he : Targets (none :: hs) ce.edges) (hh : Targets hs ch.edges) :
    Targets hs (catching ce ch σh b).edges := by
  by_cases hne : ce.edges = []
  · simp only [catching, hne]; intro x hx; simp at hx
  · cases ha : agreed ce.edges with
    | none =>
      rw [catching_dyn hne ha]
      intro x hx v hv
      rcases List.mem_cons.mp hx with hx | hx
      · subst hx; cases hv
      · exact hh x hx v hv
    | some v =>
      by_cases hv : v > 0
      · rw [catching_pass hne ha hv]
        exact Targets.one ((he.agreed ha).leave (by omega))
      · rw [catching_known hne ha hv]; exact hh

theorem finalizing_targets {hs : List (Option Name)} {ce cm ch : Conv} {nm : Option Name}
    (he : Targets (nm :: hs) ce.edges) (hm : Targets hs cm.edges) (hh : Targets hs ch.edges) :
    Targets hs (finalizing ce cm ch nm).edges := by
  have hm' : Targets hs (if ce.res then cm.edges else []) := by
    split
    · exact hm
    · intro x hx; simp at hx
  by_cases hne : ce.edges = []
  · rw [finalizing_nil hne]; exact hm'
  · rw [finalizing_cons hne]
    refine (hm'.append hh).append ?_
    unfold passOn
    cases ha : agreed ce.edges with
    | none => intro x hx v hv; simp only [List.mem_singleton] at hx; subst hx; cases hv
    | some v =>
      simp only
      split
      · intro x hx; simp at hx
      · rename_i hv; exact Targets.one ((he.agreed ha).leave hv)

mutual
theorem conv_targets : ∀ (e : E) (hs : List (Option Name)) (σ : STags), Targets hs (conv hs e σ).edges
  | .skip, _, _ => by rw [conv]; intro x hx; simp at hx
  | .act a ct, _, _ => by
      rw [conv]
      cases ct
      · intro x hx; simp at hx
      · exact Targets.one (.inl (by omega))
  | .throw, _, _ => by rw [conv]; exact Targets.one (.inl (by omega))
  | .ret none, _, _ => by rw [conv]; exact Targets.one (.inr (.inl rfl))
  | .ret (some nm), hs, _ => by
      rw [conv]
      cases h : scopesTo nm hs with
      | none => intro x hx; simp at hx
      | some k => exact Targets.one (.inr (.inr ⟨nm, k, h, rfl⟩))
  | .activates t, _, _ => by rw [conv]; intro x hx; simp at hx
  | .seq a b, hs, σ => by
      rw [conv]; simp only
      split
      · exact (conv_targets a hs σ).append (conv_targets b hs _)
      · exact conv_targets a hs σ
  | .branch _ a b, hs, σ => by rw [conv]; exact (conv_targets a hs σ).append (conv_targets b hs σ)
  | .loop p _ b o, hs, σ => by
      rw [conv]
      exact ((conv_targets p hs σ).append (conv_targets b hs _)).append (conv_targets o hs _)
  | .tryCatch e h, hs, σ => by
      rw [conv]; exact catching_targets (conv_targets e _ σ) (conv_targets h hs _)
  | .propagate e h, hs, σ => by
      rw [conv]; exact catching_targets (conv_targets e _ σ) (conv_targets h hs _)
  | .finally e tds nm, hs, σ => by
      rw [conv]
      exact finalizing_targets (conv_targets e _ σ) (convTds_targets tds hs _) (convTds_targets tds hs _)
theorem convTds_targets :
    ∀ (tds : Tds) (hs : List (Option Name)) (σ : STags), Targets hs (convTds hs tds σ).edges
  | .nil, _, _ => by rw [convTds]; intro x hx; simp at hx
  | .always e rest, hs, σ => by
      rw [convTds]; exact (conv_targets e hs σ).append (convTds_targets rest hs σ)
  | .byTag t e rest, hs, σ => by
      have h1 := convTds_targets rest hs σ
      have h2 := (conv_targets e hs (σ.set t .no)).append (convTds_targets rest hs (σ.set t .no))
      rw [convTds]
      cases σ t
      · exact h1
      · exact h2
      · exact h2
end

/-! ### No assertion fails -/

/-- The names of the scopes can be found. -/
def Found (names : List Name) (hs : List (Option Name)) : Prop := ∀ nm ∈ names, ∃ k, scopesTo nm hs = some k

theorem Found.cons {names : List Name} {hs : List (Option Name)} (h : Found names hs) (x : Option Name) :
    Found (x.toList ++ names) (x :: hs) := by
  intro nm hnm
  rw [scopesTo]
  by_cases hx : x = some nm
  · exact ⟨0, if_pos hx⟩
  · rw [if_neg hx]
    have : nm ∈ names := by
      rcases List.mem_append.mp hnm with h' | h'
      · cases x with
        | none => simp at h'
        | some y => simp only [Option.toList_some, List.mem_singleton] at h'; exact absurd (by rw [h']) hx
      · exact h'
    obtain ⟨k, hk⟩ := h nm this
    exact ⟨k + 1, by rw [hk]; rfl⟩

theorem Found.skip {names : List Name} {hs : List (Option Name)} (h : Found names hs) :
    Found names (none :: hs) := by have := h.cons none; simpa using this

theorem Free.sub {σ : STags} {own own' ds : List Tag} (h : Free σ own ds) (hs : ∀ t ∈ own', t ∈ own) :
    Free σ own' ds := fun t ht => ⟨(h t ht).1, fun h' => (h t ht).2 (hs t h')⟩

theorem catching_fine_of {ce ch : Conv} {hs : List (Option Name)} {σh : STags} {b : Bool}
    (he : ce.fine) (hh : ch.fine) (ht : Targets (none :: hs) ce.edges)
    (hr : b = false → ch.res = false) : (catching ce ch σh b).fine := by
  by_cases hne : ce.edges = []
  · simpa only [catching, hne] using he
  · cases ha : agreed ce.edges with
    | none => rw [catching_dyn hne ha]; exact ⟨he, hh, hr⟩
    | some v =>
      by_cases hv : v > 0
      · rw [catching_pass hne ha hv]; exact he
      · rw [catching_known hne ha hv]
        refine ⟨he, hh, fun h0 => ?_, hr⟩
        subst h0; exact (ht.agreed ha).zero rfl

mutual
/-- Converting a well formed expression raises nothing. -/
theorem wf_fine : ∀ (e : E) (hs : List (Option Name)) (names : List Name) (σ : STags),
    e.Wf names → Found names hs → e.decl.Nodup → Free σ e.acts e.decl → (∀ t ∈ e.acts, σ t = .no) →
    (conv hs e σ).fine
  | .skip, _, _, _, _, _, _, _, _ => by rw [conv]; trivial
  | .act .., _, _, _, _, _, _, _, _ => by rw [conv]; trivial
  | .throw, _, _, _, _, _, _, _, _ => by rw [conv]; trivial
  | .ret none, _, _, _, _, _, _, _, _ => by rw [conv]; trivial
  | .ret (some nm), hs, names, σ, hw, hfd, _, _, _ => by
      obtain ⟨k, hk⟩ := hfd nm hw
      rw [conv, hk]; trivial
  | .activates t, hs, names, σ, _, _, _, _, ha => by
      rw [conv]; exact ha t (by simp [E.acts])
  | .seq a b, hs, names, σ, hw, hfd, hn, hf, ha => by
      simp only [E.decl, E.acts] at hf hn ha
      have hfa := hf.left.sub (own' := a.acts) fun t h => List.mem_append_left _ h
      have h1 := wf_fine a hs names σ hw.1 hfd (nodup_left hn) hfa fun t h => ha t (List.mem_append_left _ h)
      have hta := conv_tags (hs := hs) a a.acts σ (E.Wf.disc a hw.1) (nodup_left hn) hfa
      rw [conv]; simp only
      split
      · refine ⟨h1, wf_fine b hs names _ hw.2.1 hfd (nodup_right hn) (fun t ht => ?_) fun t ht => ?_⟩
        · have := hf.right t ht
          rw [List.mem_append, not_or] at this
          exact ⟨(hta t this.2.1).trans this.1, this.2.2⟩
        · exact (hta t fun h => hw.2.2 t h ht).trans (ha t (List.mem_append_right _ ht))
      · exact h1
  | .branch _ a b, hs, names, σ, hw, hfd, hn, hf, ha => by
      simp only [E.decl, E.acts] at hf hn ha
      rw [conv]
      exact ⟨wf_fine a hs names σ hw.1 hfd (nodup_left hn)
          (hf.left.sub fun t h => List.mem_append_left _ h) fun t h => ha t (List.mem_append_left _ h),
        wf_fine b hs names σ hw.2 hfd (nodup_right hn)
          (hf.right.sub fun t h => List.mem_append_right _ h) fun t h => ha t (List.mem_append_right _ h)⟩
  | .loop p _ b o, hs, names, σ, hw, hfd, hn, hf, ha => by
      obtain ⟨hwp, hwb, hwo, hpf, hpa, hba, hoa⟩ := hw
      simp only [E.decl] at hf hn
      have hf := hf.nil
      have hdp := E.Wf.disc p hwp
      have hdb := E.Wf.disc b hwb
      have hdo := E.Wf.disc o hwo
      rw [hpa] at hdp; rw [hba] at hdb; rw [hoa] at hdo
      have hp : (conv hs p σ).tags = σ :=
        funext fun t => conv_tags p [] σ hdp (nodup_left hn) hf.left t (by simp)
      have hb : (conv hs b σ).tags = σ :=
        funext fun t => conv_tags b [] σ hdb (nodup_left (nodup_right hn)) hf.right.left t (by simp)
      have ho : (conv hs o σ).tags = σ :=
        funext fun t => conv_tags o [] σ hdo (nodup_right (nodup_right hn)) hf.right.right t (by simp)
      rw [conv]
      simp only [hp, hb]
      exact ⟨(conv_res p hs σ).trans hpf,
        wf_fine p hs names σ hwp hfd (nodup_left hn) (by rw [hpa]; exact hf.left) (by rw [hpa]; simp),
        wf_fine b hs names σ hwb hfd (nodup_left (nodup_right hn)) (by rw [hba]; exact hf.right.left)
          (by rw [hba]; simp),
        wf_fine o hs names σ hwo hfd (nodup_right (nodup_right hn)) (by rw [hoa]; exact hf.right.right)
          (by rw [hoa]; simp), ho⟩
  | .tryCatch e h, hs, names, σ, hw, hfd, hn, hf, ha => by
      obtain ⟨hwe, hwh, hea, hha⟩ := hw
      simp only [E.decl] at hf hn
      have hf := hf.nil
      have hde := E.Wf.disc e hwe
      rw [hea] at hde
      have hee := conv_edges (hs := none :: hs) e [] σ hde (nodup_left hn) hf.left
      rw [conv]
      refine catching_fine_of
        (wf_fine e (none :: hs) names σ hwe hfd.skip (nodup_left hn) (by rw [hea]; exact hf.left)
          (by rw [hea]; simp))
        (wf_fine h hs names _ hwh hfd (nodup_right hn) (fun u hu => ?_) (by rw [hha]; simp))
        (conv_targets e _ σ) (fun hb => by cases hb)
      refine ⟨?_, by rw [hha]; simp⟩
      by_cases hne : (conv (none :: hs) e σ).edges = []
      · rw [hne]; rfl
      · exact (collapse_const hne fun y hy =>
          hee y hy u (by simp) fun hu' => nodup_apart hn hu' hu).trans (hf.right u hu).1
  | .propagate e h, hs, names, σ, hw, hfd, hn, hf, ha => by
      obtain ⟨hwe, hwh, hha, hhf⟩ := hw
      simp only [E.decl, E.acts] at hf hn ha
      have hfe := hf.left.sub (own' := e.acts) fun t h => List.mem_append_left _ h
      have hee := conv_edges (hs := none :: hs) e e.acts σ (E.Wf.disc e hwe) (nodup_left hn) hfe
      rw [conv]
      refine catching_fine_of
        (wf_fine e (none :: hs) names σ hwe hfd.skip (nodup_left hn) hfe
          fun t h => ha t (List.mem_append_left _ h))
        (wf_fine h hs names _ hwh hfd (nodup_right hn) (fun u hu => ?_) (by rw [hha]; simp))
        (conv_targets e _ σ) (fun _ => (conv_res h hs _).trans hhf)
      refine ⟨?_, by rw [hha]; simp⟩
      by_cases hne : (conv (none :: hs) e σ).edges = []
      · rw [hne]; rfl
      · exact (collapse_const hne fun y hy => hee y hy u
          (fun h' => (hf.right u hu).2 (List.mem_append_left _ h'))
          fun hu' => nodup_apart hn hu' hu).trans (hf.right u hu).1
  | .finally e tds nm, hs, names, σ, hw, hfd, hn, hf, ha => by
      have hd : (E.finally e tds nm).Disc (E.finally e tds nm).acts := E.Wf.disc _ hw
      obtain ⟨hwe, hwt, hwn⟩ := hw
      have hn' := hn
      simp only [E.decl] at hn'
      have hft := Free.fin hn hf
      have hne' := nodup_left (nodup_right hn')
      have hnt := nodup_right (nodup_right hn')
      have het := conv_tags (hs := nm :: hs) e _ σ hd.1 hne' hft
      have hee := conv_edges (hs := nm :: hs) e _ σ hd.1 hne' hft
      have hfe : Free σ e.acts e.decl := fun t ht => by
        refine ⟨(hft t ht).1, fun h => ?_⟩
        rcases mem_fin_acts (tds := tds) (nm := nm) h with h | h
        · exact nodup_apart hn' h (List.mem_append_left _ ht)
        · exact (hf t (by simp only [E.decl, List.mem_append]; exact .inr (.inl ht))).2 h
      have hae : ∀ t ∈ e.acts, σ t = .no := fun t h => by
        rcases mem_fin_acts (tds := tds) (nm := nm) h with h | h
        · exact (hf t (by simp only [E.decl, List.mem_append]; exact .inl h)).1
        · exact ha t h
      have hefine := wf_fine e (nm :: hs) (nm.toList ++ names) σ hwe (hfd.cons nm) hne' hfe hae
      have hmain := wfTds_fine tds hs names (conv (nm :: hs) e σ).tags hwt hfd hnt
        (Free.tds hn hf fun u hu _ => het u hu)
      have hhand := wfTds_fine tds hs names (collapse (conv (nm :: hs) e σ).edges) hwt hfd hnt
        (fun u hu => by
          by_cases hne : (conv (nm :: hs) e σ).edges = []
          · rw [hne]; exact ⟨rfl, by simp⟩
          · exact Free.tds hn hf (fun v hv hv' => collapse_const hne fun y hy => hee y hy v hv hv') u hu)
      have hmain' : if (conv (nm :: hs) e σ).res = true then
          (convTds hs tds (conv (nm :: hs) e σ).tags).fine else True := by
        split
        · exact hmain
        · trivial
      rw [conv]
      by_cases hne : (conv (nm :: hs) e σ).edges = []
      · rw [finalizing_nil hne]; exact ⟨hefine, hmain'⟩
      · rw [finalizing_cons hne]
        exact ⟨hefine, hmain', hhand, fun h0 => ((conv_targets e (nm :: hs) σ).agreed h0).zero⟩
/-- The same for teardowns. -/
theorem wfTds_fine : ∀ (tds : Tds) (hs : List (Option Name)) (names : List Name) (σ : STags),
    tds.Wf names → Found names hs → tds.decl.Nodup → Free σ [] tds.decl → (convTds hs tds σ).fine
  | .nil, _, _, _, _, _, _, _ => by rw [convTds]; trivial
  | .always e rest, hs, names, σ, hw, hfd, hn, hf => by
      obtain ⟨hwe, hea, hef, hwr⟩ := hw
      simp only [Tds.decl] at hf hn
      have hde := E.Wf.disc e hwe
      rw [hea] at hde
      rw [convTds]
      exact ⟨wf_fine e hs names σ hwe hfd (nodup_left hn) (by rw [hea]; exact hf.left) (by rw [hea]; simp),
        (conv_res e hs σ).trans hef,
        funext fun t => conv_tags e [] σ hde (nodup_left hn) hf.left t (by simp),
        wfTds_fine rest hs names σ hwr hfd (nodup_right hn) hf.right⟩
  | .byTag u e rest, hs, names, σ, hw, hfd, hn, hf => by
      obtain ⟨hwe, hea, hef, hwr⟩ := hw
      simp only [Tds.decl] at hf hn
      have hde := E.Wf.disc e hwe
      rw [hea] at hde
      have hf' : Free (σ.set u .no) [] (e.decl ++ rest.decl) := fun v hv => by
        refine ⟨?_, by simp⟩
        simp only [STags.set]; split
        · rfl
        · exact (hf v hv).1
      have h1 := wfTds_fine rest hs names σ hwr hfd (nodup_right hn) hf.right
      have h2 : (conv hs e (σ.set u .no)).fine ∧ (conv hs e (σ.set u .no)).res = true ∧
          (conv hs e (σ.set u .no)).tags = σ.set u .no ∧ (convTds hs rest (σ.set u .no)).fine :=
        ⟨wf_fine e hs names _ hwe hfd (nodup_left hn) (by rw [hea]; exact hf'.left) (by rw [hea]; simp),
          (conv_res e hs _).trans hef,
          funext fun t => conv_tags e [] _ hde (nodup_left hn) hf'.left t (by simp),
          wfTds_fine rest hs names _ hwr hfd (nodup_right hn) hf'.right⟩
      rw [convTds]
      cases σ u
      · exact h1
      · exact h2
      · exact h2
end

end Verif.Native
