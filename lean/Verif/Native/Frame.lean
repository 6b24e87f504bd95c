import Verif.Native.Shape
/-
What well formed expressions leave alone.
-/
namespace Verif.Native

mutual
/-- Only tags in `own`, or of a `Finally` in here, are activated. -/
def E.Disc (own : List Tag) : E → Prop
  | .skip | .act .. | .throw | .ret _ => True
  | .activates t => t ∈ own
  | .seq a b => a.Disc own ∧ b.Disc own
  | .branch _ a b => a.Disc own ∧ b.Disc own
  | .loop p _ b o => p.Disc [] ∧ b.Disc [] ∧ o.Disc []
  | .tryCatch e h => e.Disc [] ∧ h.Disc []
  | .propagate e h => e.Disc own ∧ h.Disc []
  | .finally e tds name => e.Disc (tds.tags ++ (if name = none then own else [])) ∧ tds.Disc
/-- The same for teardowns, which activate nothing themselves. -/
def Tds.Disc : Tds → Prop
  | .nil => True
  | .always e rest => e.Disc [] ∧ rest.Disc
  | .byTag _ e rest => e.Disc [] ∧ rest.Disc
end

theorem mem_decl_tds {t : Tag} {tds : Tds} {e : E} {nm : Option Name} (h : t ∈ tds.decl) :
    t ∈ (E.finally e tds nm).decl := by
  simp only [E.decl, List.mem_append]; exact .inr (.inr h)

/-! ### Collapsing -/

theorem collapse_const {es : List Edge} {t : Tag} {x : S} (hne : es ≠ [])
    (h : ∀ e ∈ es, e.1 t = x) : collapse es t = x := by
  unfold collapse
  cases es with
  | nil => exact absurd rfl hne
  | cons a l =>
    cases x with
    | no =>
      have : ((a :: l).all fun e => e.1 t == .no) = true := by
        rw [List.all_eq_true]; intro e he; rw [h e he]; rfl
      rw [if_pos this]
    | yes =>
      have h1 : ((a :: l).all fun e => e.1 t == .no) = false := by
        rw [List.all_cons, h a (List.mem_cons_self ..)]; rfl
      have h2 : ((a :: l).all fun e => e.1 t == .yes) = true := by
        rw [List.all_eq_true]; intro e he; rw [h e he]; rfl
      rw [h1, if_neg (by simp), if_pos h2]
    | dyn =>
      have h1 : ((a :: l).all fun e => e.1 t == .no) = false := by
        rw [List.all_cons, h a (List.mem_cons_self ..)]; rfl
      have h2 : ((a :: l).all fun e => e.1 t == .yes) = false := by
        rw [List.all_cons, h a (List.mem_cons_self ..)]; rfl
      rw [h1, h2]; rfl

theorem collapse_nil (t : Tag) : collapse [] t = .no := rfl

/-! ### Teardowns -/

theorem convTds_tags {hs : List (Option Name)} :
    ∀ (tds : Tds) (σ : STags) (t : Tag),
      (convTds hs tds σ).tags t = if t ∈ tds.tags then .no else σ t
  | .nil, σ, t => by simp [convTds, Tds.tags]
  | .always e rest, σ, t => by
      rw [convTds]; simp only [Tds.tags]; exact convTds_tags rest σ t
  | .byTag u e rest, σ, t => by
      have h1 := convTds_tags (hs := hs) rest σ t
      have h2 := convTds_tags (hs := hs) rest (σ.set u .no) t
      rw [convTds]
      cases hu : σ u <;> simp only [Tds.tags, List.mem_cons]
      · rw [h1]
        by_cases htu : t = u
        · subst htu; simp [hu]
        · simp [htu]
      all_goals
        rw [h2]
        by_cases htu : t = u
        · subst htu; simp [STags.set]
        · simp [htu, STags.set]

theorem convTds_orig {hs : List (Option Name)} :
    ∀ (tds : Tds) (σ : STags) (t : Tag), t ∉ tds.tags → (convTds hs tds σ).orig t = σ t
  | .nil, σ, t, _ => by rw [convTds]
  | .always e rest, σ, t, ht => by
      have h1 := convTds_orig (hs := hs) rest σ t ht
      rw [convTds]; simp only
      split
      · rfl
      · exact h1
  | .byTag u e rest, σ, t, ht => by
      rw [Tds.tags, List.mem_cons, not_or] at ht
      have h1 := convTds_orig (hs := hs) rest σ t ht.2
      have h2 := convTds_orig (hs := hs) rest (σ.set u .no) t ht.2
      have h3 : (σ.set u .no) t = σ t := by simp [STags.set, ht.1]
      rw [convTds]
      cases hu : σ u <;> simp only
      · exact h1
      all_goals
        split
        · exact h3
        · rw [h2, h3]

/-! ### The conversion -/

theorem catching_tags (ce ch : Conv) (σh : STags) (b : Bool) : (catching ce ch σh b).tags = ce.tags := by
  unfold catching
  split
  · rfl
  · split
    · split <;> rfl
    · rfl

theorem finalizing_nil {ce cm ch : Conv} {nm : Option Name} (h : ce.edges = []) :
    finalizing ce cm ch nm =
      ⟨.fin ce.code (if ce.res then cm.code else .stuck) .stuck none (fun _ => .no) false,
        nm.isSome || ce.res, cm.tags, if ce.res then cm.edges else [],
        ce.fresh || (ce.res && cm.fresh), cm.tags, ce.fine ∧ if ce.res then cm.fine else True⟩ := by
  simp only [finalizing, h]

theorem finalizing_cons {ce cm ch : Conv} {nm : Option Name} (h : ce.edges ≠ []) :
    finalizing ce cm ch nm =
      ⟨.fin ce.code (if ce.res then cm.code else .stuck) ch.code (agreed ce.edges) ch.orig nm.isSome,
        nm.isSome || ce.res, cm.tags,
        (if ce.res then cm.edges else []) ++ ch.edges ++ passOn (agreed ce.edges) ch.orig,
        ce.fresh || (ce.res && cm.fresh), cm.tags,
        ce.fine ∧ (if ce.res then cm.fine else True) ∧ ch.fine ∧
          (agreed ce.edges = some 0 → nm ≠ none)⟩ := by
  simp only [finalizing]
  split
  · exact absurd ‹_› h
  · rfl

theorem finalizing_tags (ce cm ch : Conv) (nm : Option Name) :
    (finalizing ce cm ch nm).tags = cm.tags := by
  by_cases h : ce.edges = []
  · rw [finalizing_nil h]
  · rw [finalizing_cons h]

/-- The jumps out of a `TryCatch` come from its handler or pass it. -/
theorem catching_edges {ce ch : Conv} {σh : STags} {b : Bool} {x : Edge}
    (h : x ∈ (catching ce ch σh b).edges) : ce.edges ≠ [] ∧ (x.1 = σh ∨ x ∈ ch.edges) := by
  unfold catching at h
  split at h
  · simp at h
  · rename_i hne
    refine ⟨by rw [hne]; simp, ?_⟩
    split at h
    · split at h
      · simp only [List.mem_singleton] at h; subst h; exact .inl rfl
      · exact .inr h
    · rcases List.mem_cons.mp h with h | h
      · subst h; exact .inl rfl
      · exact .inr h

theorem passOn_edges {k : Option Int} {after : STags} {x : Edge} (h : x ∈ passOn k after) :
    x.1 = after := by
  unfold passOn at h
  split at h
  · split at h
    · simp at h
    · simp only [List.mem_singleton] at h; subst h; rfl
  · simp only [List.mem_singleton] at h; subst h; rfl

theorem finalizing_edges {ce cm ch : Conv} {nm : Option Name} {x : Edge}
    (h : x ∈ (finalizing ce cm ch nm).edges) :
    x ∈ cm.edges ∨ ce.edges ≠ [] ∧ (x ∈ ch.edges ∨ x.1 = ch.orig) := by
  by_cases hne : ce.edges = []
  · rw [finalizing_nil hne] at h
    simp only at h
    split at h
    · exact .inl h
    · simp at h
  · rw [finalizing_cons hne] at h
    simp only [List.mem_append] at h
    rcases h with (h | h) | h
    · split at h
      · exact .inl h
      · simp at h
    · exact .inr ⟨hne, .inl h⟩
    · exact .inr ⟨hne, .inr (passOn_edges h)⟩

theorem nodup_left {a b : List Tag} (h : (a ++ b).Nodup) : a.Nodup := (List.nodup_append.mp h).1
theorem nodup_right {a b : List Tag} (h : (a ++ b).Nodup) : b.Nodup := (List.nodup_append.mp h).2.1
theorem nodup_apart {a b : List Tag} (h : (a ++ b).Nodup) {t : Tag} (ha : t ∈ a) : t ∉ b :=
  fun hb => (List.nodup_append.mp h).2.2 t ha t hb rfl

/-- The tags that the expression of a `Finally` may activate. -/
def inner (tds : Tds) (nm : Option Name) (own : List Tag) : List Tag :=
  tds.tags ++ (if nm = none then own else [])

theorem mem_inner {tds : Tds} {nm : Option Name} {own : List Tag} {t : Tag}
    (h : t ∈ inner tds nm own) : t ∈ tds.tags ∨ t ∈ own := by
  rcases List.mem_append.mp h with h | h
  · exact .inl h
  · split at h
    · exact .inr h
    · simp at h

/-- No tag that is torn down in an expression is active before it. -/
def Free (σ : STags) (own : List Tag) (ds : List Tag) : Prop := ∀ t ∈ ds, σ t = .no ∧ t ∉ own

theorem Free.left {σ own a b} (h : Free σ own (a ++ b)) : Free σ own a :=
  fun t ht => h t (List.mem_append_left _ ht)
theorem Free.right {σ own a b} (h : Free σ own (a ++ b)) : Free σ own b :=
  fun t ht => h t (List.mem_append_right _ ht)
theorem Free.nil {σ own a} (h : Free σ own a) : Free σ [] a := fun t ht => ⟨(h t ht).1, by simp⟩
theorem Free.of {σ σ' own a} (h : Free σ own a) (h' : ∀ t, t ∉ own → σ' t = σ t) : Free σ' own a :=
  fun t ht => ⟨(h' t (h t ht).2).trans (h t ht).1, (h t ht).2⟩

/-- The expression of a `Finally` starts with its tags and those of expressions in it free. -/
theorem Free.fin {σ : STags} {own : List Tag} {e : E} {tds : Tds} {nm : Option Name}
    (hn : (E.finally e tds nm).decl.Nodup) (h : Free σ own (E.finally e tds nm).decl) :
    Free σ (inner tds nm own) e.decl := by
  intro t ht
  have ht' : t ∈ (E.finally e tds nm).decl := by
    simp only [E.decl, List.mem_append]; exact .inr (.inl ht)
  refine ⟨(h t ht').1, fun hi => ?_⟩
  rcases mem_inner hi with hi | hi
  · exact nodup_apart (by simpa only [E.decl] using hn) hi (List.mem_append_left _ ht)
  · exact (h t ht').2 hi

/-- The tags of the teardowns' own expressions are free wherever the expression leaves alone what is
not its own. -/
theorem Free.tds {σ σ' : STags} {own : List Tag} {e : E} {tds : Tds} {nm : Option Name}
    (hn : (E.finally e tds nm).decl.Nodup) (h : Free σ own (E.finally e tds nm).decl)
    (h' : ∀ t, t ∉ inner tds nm own → t ∉ e.decl → σ' t = σ t) :
    Free σ' [] tds.decl := by
  intro t ht
  have ht' : t ∈ (E.finally e tds nm).decl := mem_decl_tds ht
  simp only [E.decl] at hn
  refine ⟨(h' t (fun hi => ?_) (fun he => nodup_apart (nodup_right hn) he ht)).trans (h t ht').1, by simp⟩
  rcases mem_inner hi with hi | hi
  · exact nodup_apart hn hi (List.mem_append_right _ ht)
  · exact (h t ht').2 hi

/-- Only the tags in `own` are different after an expression. -/
theorem conv_tags {hs : List (Option Name)} :
    ∀ (e : E) (own : List Tag) (σ : STags), e.Disc own → e.decl.Nodup → Free σ own e.decl →
      ∀ t, t ∉ own → (conv hs e σ).tags t = σ t
  | .skip, _, _, _, _, _, _, _ => by rw [conv]
  | .act .., _, _, _, _, _, _, _ => by rw [conv]
  | .activates u, own, σ, hd, _, _, t, ht => by
      have : t ≠ u := fun h => ht (h ▸ hd)
      rw [conv]; simp [STags.set, this]
  | .seq a b, own, σ, hd, hn, hf, t, ht => by
      simp only [E.Disc] at hd
      simp only [E.decl] at hf hn
      have ha := conv_tags (hs := hs) a own σ hd.1 (nodup_left hn) hf.left
      rw [conv]; simp only
      split
      · rw [conv_tags b own _ hd.2 (nodup_right hn) (hf.right.of ha) t ht, ha t ht]
      · exact ha t ht
  | .branch c a b, own, σ, hd, hn, hf, t, ht => by
      simp only [E.Disc] at hd
      simp only [E.decl] at hf hn
      have ha := conv_tags (hs := hs) a own σ hd.1 (nodup_left hn) hf.left t ht
      have hb := conv_tags (hs := hs) b own σ hd.2 (nodup_right hn) hf.right t ht
      rw [conv]; simp only
      split
      · split
        · simp only [merge, ha, hb]; cases σ t <;> rfl
        · exact ha
      · split
        · exact hb
        · rfl
  | .loop p c b o, own, σ, hd, hn, hf, t, ht => by
      simp only [E.Disc] at hd
      simp only [E.decl] at hf hn
      have hf := hf.nil
      have hp := conv_tags (hs := hs) p [] σ hd.1 (nodup_left hn) hf.left
      have hb := conv_tags (hs := hs) b [] _ hd.2.1 (nodup_left (nodup_right hn)) (hf.right.left.of hp)
      have ho := conv_tags (hs := hs) o [] _ hd.2.2 (nodup_right (nodup_right hn))
        ((hf.right.right.of hp).of hb)
      rw [conv]; simp only
      rw [ho t (by simp), hb t (by simp), hp t (by simp)]
  | .throw, _, _, _, _, _, _, _ => by rw [conv]
  | .ret none, _, _, _, _, _, _, _ => by rw [conv]
  | .ret (some nm), _, _, _, _, _, _, _ => by rw [conv]; split <;> rfl
  | .tryCatch e h, own, σ, hd, hn, hf, t, ht => by
      simp only [E.Disc] at hd
      simp only [E.decl] at hf hn
      rw [conv]; simp only [catching_tags]
      exact conv_tags e [] σ hd.1 (nodup_left hn) hf.left.nil t (by simp)
  | .propagate e h, own, σ, hd, hn, hf, t, ht => by
      simp only [E.Disc] at hd
      simp only [E.decl] at hf hn
      rw [conv]; simp only [catching_tags]
      exact conv_tags e own σ hd.1 (nodup_left hn) hf.left t ht
  | .finally e tds nm, own, σ, hd, hn, hf, t, ht => by
      simp only [E.Disc] at hd
      have he := conv_tags (hs := nm :: hs) e (inner tds nm own) σ hd.1
        (nodup_left (nodup_right (by simpa only [E.decl] using hn))) (Free.fin hn hf) t
      rw [conv]; simp only [finalizing_tags, convTds_tags]
      by_cases hm : t ∈ tds.tags
      · rw [if_pos hm]
        exact ((hf t (by simp only [E.decl, List.mem_append]; exact .inl hm)).1).symm
      · rw [if_neg hm]
        exact he (fun hi => (mem_inner hi).elim hm ht)

mutual
/-- Jumps out of an expression leave alone the tags that are neither in `own` nor torn down in it. -/
theorem conv_edges {hs : List (Option Name)} :
    ∀ (e : E) (own : List Tag) (σ : STags), e.Disc own → e.decl.Nodup → Free σ own e.decl →
      ∀ x ∈ (conv hs e σ).edges, ∀ t, t ∉ own → t ∉ e.decl → x.1 t = σ t
  | .skip, _, _, _, _, _, x, hx, _, _, _ => by rw [conv] at hx; simp at hx
  | .act a ct, _, σ, _, _, _, x, hx, t, _, _ => by
      rw [conv] at hx
      cases ct
      · simp at hx
      · simp only [if_true, List.mem_singleton] at hx; subst hx; rfl
  | .activates u, own, σ, hd, _, _, x, hx, _, _, _ => by rw [conv] at hx; simp at hx
  | .seq a b, own, σ, hd, hn, hf, x, hx, t, ht, htd => by
      simp only [E.Disc] at hd
      simp only [E.decl] at hf hn htd
      rw [List.mem_append, not_or] at htd
      have ha := conv_tags (hs := hs) a own σ hd.1 (nodup_left hn) hf.left
      have hea := conv_edges (hs := hs) a own σ hd.1 (nodup_left hn) hf.left
      have heb := conv_edges (hs := hs) b own _ hd.2 (nodup_right hn) (hf.right.of ha)
      rw [conv] at hx; simp only at hx
      split at hx
      · rcases List.mem_append.mp hx with hx | hx
        · exact hea x hx t ht htd.1
        · rw [heb x hx t ht htd.2, ha t ht]
      · exact hea x hx t ht htd.1
  | .branch c a b, own, σ, hd, hn, hf, x, hx, t, ht, htd => by
      simp only [E.Disc] at hd
      simp only [E.decl] at hf hn htd
      rw [List.mem_append, not_or] at htd
      rw [conv] at hx
      rcases List.mem_append.mp hx with hx | hx
      · exact conv_edges a own σ hd.1 (nodup_left hn) hf.left x hx t ht htd.1
      · exact conv_edges b own σ hd.2 (nodup_right hn) hf.right x hx t ht htd.2
  | .loop p c b o, own, σ, hd, hn, hf, x, hx, t, ht, htd => by
      simp only [E.Disc] at hd
      simp only [E.decl] at hf hn htd
      rw [List.mem_append, List.mem_append, not_or, not_or] at htd
      have hf := hf.nil
      have hp := conv_tags (hs := hs) p [] σ hd.1 (nodup_left hn) hf.left
      have hb := conv_tags (hs := hs) b [] _ hd.2.1 (nodup_left (nodup_right hn)) (hf.right.left.of hp)
      rw [conv] at hx
      rcases List.mem_append.mp hx with hx | hx
      · rcases List.mem_append.mp hx with hx | hx
        · exact conv_edges p [] σ hd.1 (nodup_left hn) hf.left x hx t (by simp) htd.1
        · rw [conv_edges b [] _ hd.2.1 (nodup_left (nodup_right hn)) (hf.right.left.of hp) x hx t
            (by simp) htd.2.1, hp t (by simp)]
      · rw [conv_edges o [] _ hd.2.2 (nodup_right (nodup_right hn))
          ((hf.right.right.of hp).of hb) x hx t (by simp) htd.2.2, hb t (by simp), hp t (by simp)]
  | .throw, _, _, _, _, _, x, hx, _, _, _ => by
      rw [conv, List.mem_singleton] at hx; subst hx; rfl
  | .ret none, _, _, _, _, _, x, hx, _, _, _ => by
      rw [conv, List.mem_singleton] at hx; subst hx; rfl
  | .ret (some nm), _, _, _, _, _, x, hx, _, _, _ => by
      rw [conv] at hx
      split at hx
      · rw [List.mem_singleton] at hx; subst hx; rfl
      · simp at hx
  | .tryCatch e h, own, σ, hd, hn, hf, x, hx, t, ht, htd => by
      simp only [E.Disc] at hd
      simp only [E.decl] at hf hn htd
      rw [List.mem_append, not_or] at htd
      have he := conv_edges (hs := none :: hs) e [] σ hd.1 (nodup_left hn) hf.left.nil
      rw [conv] at hx
      obtain ⟨hne, hx⟩ := catching_edges hx
      have hc : collapse (conv (none :: hs) e σ).edges t = σ t :=
        collapse_const hne fun y hy => he y hy t (by simp) htd.1
      rcases hx with hx | hx
      · rw [hx, hc]
      · rw [conv_edges h [] _ hd.2 (nodup_right hn) (fun u hu => ⟨(collapse_const hne fun y hy =>
          he y hy u (by simp) fun hu' => nodup_apart hn hu' hu).trans (hf.right u hu).1, by simp⟩)
          x hx t (by simp) htd.2, hc]
  | .propagate e h, own, σ, hd, hn, hf, x, hx, t, ht, htd => by
      simp only [E.Disc] at hd
      simp only [E.decl] at hf hn htd
      rw [List.mem_append, not_or] at htd
      have he := conv_edges (hs := none :: hs) e own σ hd.1 (nodup_left hn) hf.left
      rw [conv] at hx
      obtain ⟨hne, hx⟩ := catching_edges hx
      have hc : collapse (conv (none :: hs) e σ).edges t = σ t :=
        collapse_const hne fun y hy => he y hy t ht htd.1
      rcases hx with hx | hx
      · rw [hx, hc]
      · rw [conv_edges h [] _ hd.2 (nodup_right hn) (fun u hu => ⟨(collapse_const hne fun y hy =>
          he y hy u (hf.right u hu).2 fun hu' => nodup_apart hn hu' hu).trans (hf.right u hu).1, by simp⟩)
          x hx t (by simp) htd.2, hc]
  | .finally e tds nm, own, σ, hd, hn, hf, x, hx, t, ht, htd => by
      simp only [E.Disc] at hd
      have hn' := hn
      simp only [E.decl] at hn' htd
      rw [List.mem_append, List.mem_append, not_or, not_or] at htd
      have hi : t ∉ inner tds nm own := fun hi => (mem_inner hi).elim htd.1 ht
      have hft := Free.fin hn hf
      have hne' := nodup_left (nodup_right hn')
      have het := conv_tags (hs := nm :: hs) e (inner tds nm own) σ hd.1 hne' hft
      have hee := conv_edges (hs := nm :: hs) e (inner tds nm own) σ hd.1 hne' hft
      rw [conv] at hx
      rcases finalizing_edges hx with hx | ⟨hne, hx⟩
      · rw [convTds_edges tds _ hd.2 (nodup_right (nodup_right hn'))
          (Free.tds hn hf fun u hu _ => het u hu) x hx t htd.1 htd.2.2, het t hi]
      · have hc : ∀ u, u ∉ inner tds nm own → u ∉ e.decl →
            collapse (conv (nm :: hs) e σ).edges u = σ u :=
          fun u hu hu' => collapse_const hne fun y hy => hee y hy u hu hu'
        rcases hx with hx | hx
        · rw [convTds_edges tds _ hd.2 (nodup_right (nodup_right hn'))
            (Free.tds hn hf hc) x hx t htd.1 htd.2.2, hc t hi htd.2.1]
        · rw [hx, convTds_orig tds _ t htd.1, hc t hi htd.2.1]
/-- The same for teardowns. -/
theorem convTds_edges {hs : List (Option Name)} :
    ∀ (tds : Tds) (σ : STags), tds.Disc → tds.decl.Nodup → Free σ [] tds.decl →
      ∀ x ∈ (convTds hs tds σ).edges, ∀ t, t ∉ tds.tags → t ∉ tds.decl → x.1 t = σ t
  | .nil, _, _, _, _, x, hx, _, _, _ => by rw [convTds] at hx; simp at hx
  | .always e rest, σ, hd, hn, hf, x, hx, t, ht, htd => by
      simp only [Tds.Disc] at hd
      simp only [Tds.decl] at hf hn htd
      simp only [Tds.tags] at ht
      rw [List.mem_append, not_or] at htd
      rw [convTds] at hx
      rcases List.mem_append.mp hx with hx | hx
      · exact conv_edges e [] σ hd.1 (nodup_left hn) hf.left x hx t (by simp) htd.1
      · exact convTds_edges rest σ hd.2 (nodup_right hn) hf.right x hx t ht htd.2
  | .byTag u e rest, σ, hd, hn, hf, x, hx, t, ht, htd => by
      simp only [Tds.Disc] at hd
      simp only [Tds.decl] at hf hn htd
      rw [Tds.tags, List.mem_cons, not_or] at ht
      rw [List.mem_append, not_or] at htd
      have h3 : (σ.set u .no) t = σ t := by simp [STags.set, ht.1]
      have hf' : Free (σ.set u .no) [] (e.decl ++ rest.decl) := fun v hv => by
        refine ⟨?_, by simp⟩
        simp only [STags.set]; split
        · rfl
        · exact (hf v hv).1
      have h1 := convTds_edges (hs := hs) rest σ hd.2 (nodup_right hn) hf.right
      have h2 := convTds_edges (hs := hs) rest _ hd.2 (nodup_right hn) hf'.right
      have he := conv_edges (hs := hs) e [] _ hd.1 (nodup_left hn) hf'.left
      rw [convTds] at hx
      cases hu : σ u <;> simp only [hu] at hx
      · exact h1 x hx t ht.2 htd.2
      all_goals
        rcases List.mem_append.mp hx with hx | hx
        · rw [he x hx t (by simp) htd.1, h3]
        · rw [h2 x hx t ht.2 htd.2, h3]
end

/-! ### Evaluation -/

/-- A result leaves a tag alone. -/
def Keeps (t : Tag) (A : Active) (r : Res) : Prop := ∀ o A' tr', r = some (o, A', tr') → A' t = A t

theorem Keeps.bind {t : Tag} {A : Active} {r : Res} {f : Active → List Ev → Res} (h : Keeps t A r)
    (h' : ∀ A1 tr1, Keeps t A1 (f A1 tr1)) : Keeps t A (andThen r f) := by
  intro o A' tr' heq
  rcases r with _ | ⟨o1, A1, tr1⟩
  · cases heq
  · cases o1
    · exact (h' A1 tr1 o A' tr' heq).trans (h _ _ _ rfl)
    · exact h o A' tr' heq
    · exact h o A' tr' heq

theorem Keeps.handle {t : Tag} {A : Active} {r : Res} {f : Active → List Ev → Res} (h : Keeps t A r)
    (h' : ∀ A1 tr1, Keeps t A1 (f A1 tr1)) : Keeps t A (onExc r f) := by
  intro o A' tr' heq
  rcases r with _ | ⟨o1, A1, tr1⟩
  · cases heq
  · cases o1
    · exact h o A' tr' heq
    · exact (h' A1 tr1 o A' tr' heq).trans (h _ _ _ rfl)
    · exact h o A' tr' heq

theorem Keeps.rounds {t : Tag} {pre body orelse : Active → List Ev → Res} {test : List Ev → Bool}
    (hp : ∀ A tr, Keeps t A (pre A tr)) (hb : ∀ A tr, Keeps t A (body A tr))
    (ho : ∀ A tr, Keeps t A (orelse A tr)) :
    ∀ (n : Nat) (A : Active) (tr : List Ev), Keeps t A (rounds pre body orelse test n A tr)
  | 0, A, tr => by intro o A' tr' h; simp [Native.rounds] at h
  | n + 1, A, tr => by
      rw [Native.rounds]
      refine Keeps.bind (hp A tr) fun A1 tr1 => ?_
      by_cases h : test tr1 = true
      · rw [if_pos h]
        exact Keeps.bind (hb A1 tr1) fun A2 tr2 => Keeps.rounds hp hb ho n A2 tr2
      · rw [if_neg h]; exact ho A1 tr1

mutual
/-- Only the tags in `own` and those torn down in an expression are different after it. -/
theorem eval_keeps {w : World} {fuel : Nat} :
    ∀ (e : E) (own : List Tag), e.Disc own → ∀ t, t ∉ own → t ∉ e.decl →
      ∀ A tr, Keeps t A (eval w fuel e A tr)
  | .skip, _, _, t, _, _, A, tr => by intro o A' tr' h; simp [eval] at h; rw [← h.2.1]
  | .act a ct, _, _, t, _, _, A, tr => by intro o A' tr' h; simp [eval] at h; rw [← h.2.1]
  | .activates u, own, hd, t, ht, _, A, tr => by
      have : t ≠ u := fun h => ht (h ▸ hd)
      intro o A' tr' h; simp [eval] at h; rw [← h.2.1]; simp [Active.set, this]
  | .seq a b, own, hd, t, ht, htd, A, tr => by
      simp only [E.Disc] at hd
      rw [E.decl, List.mem_append, not_or] at htd
      rw [eval]
      exact Keeps.bind (eval_keeps a own hd.1 t ht htd.1 A tr)
        fun A1 tr1 => eval_keeps b own hd.2 t ht htd.2 A1 tr1
  | .branch c a b, own, hd, t, ht, htd, A, tr => by
      simp only [E.Disc] at hd
      rw [E.decl, List.mem_append, not_or] at htd
      rw [eval]
      split
      · exact eval_keeps a own hd.1 t ht htd.1 A tr
      · exact eval_keeps b own hd.2 t ht htd.2 A tr
  | .loop p c b o, own, hd, t, ht, htd, A, tr => by
      simp only [E.Disc] at hd
      rw [E.decl, List.mem_append, List.mem_append, not_or, not_or] at htd
      rw [eval]
      exact Keeps.rounds (fun A tr => eval_keeps p [] hd.1 t (by simp) htd.1 A tr)
        (fun A tr => eval_keeps b [] hd.2.1 t (by simp) htd.2.1 A tr)
        (fun A tr => eval_keeps o [] hd.2.2 t (by simp) htd.2.2 A tr) fuel A tr
  | .throw, _, _, t, _, _, A, tr => by intro o A' tr' h; simp [eval] at h; rw [← h.2.1]
  | .ret nm, _, _, t, _, _, A, tr => by intro o A' tr' h; simp [eval] at h; rw [← h.2.1]
  | .tryCatch e h, own, hd, t, ht, htd, A, tr => by
      simp only [E.Disc] at hd
      rw [E.decl, List.mem_append, not_or] at htd
      rw [eval]
      exact Keeps.handle (eval_keeps e [] hd.1 t (by simp) htd.1 A tr)
        fun A1 tr1 => eval_keeps h [] hd.2 t (by simp) htd.2 A1 tr1
  | .propagate e h, own, hd, t, ht, htd, A, tr => by
      simp only [E.Disc] at hd
      rw [E.decl, List.mem_append, not_or] at htd
      rw [eval]
      exact Keeps.handle (eval_keeps e own hd.1 t ht htd.1 A tr)
        fun A1 tr1 => eval_keeps h [] hd.2 t (by simp) htd.2 A1 tr1
  | .finally e tds nm, own, hd, t, ht, htd, A, tr => by
      simp only [E.Disc] at hd
      rw [E.decl, List.mem_append, List.mem_append, not_or, not_or] at htd
      have hi : t ∉ inner tds nm own := fun hi => (mem_inner hi).elim htd.1 ht
      have h1 := eval_keeps (w := w) (fuel := fuel) e (inner tds nm own) hd.1 t hi htd.2.1
        (A.clear tds.tags) tr
      intro o A' tr' heq
      simp only [eval, finish] at heq
      split at heq
      · cases heq
      · rename_i o1 A1 tr1 he1
        have h2 := evalTds_keeps (w := w) (fuel := fuel) tds hd.2 t htd.1 htd.2.2 A1 tr1
        split at heq
        · cases heq
        · rename_i o2 A2 tr2 he2
          simp only [Option.some.injEq, Prod.mk.injEq] at heq
          rw [← heq.2.1]
          simp only [Active.clear, if_neg htd.1]
          rw [h2 _ _ _ he2, h1 _ _ _ he1]
          simp only [Active.clear, if_neg htd.1]
/-- The same for teardowns. -/
theorem evalTds_keeps {w : World} {fuel : Nat} :
    ∀ (tds : Tds), tds.Disc → ∀ t, t ∉ tds.tags → t ∉ tds.decl →
      ∀ A tr, Keeps t A (evalTds w fuel tds A tr)
  | .nil, _, t, _, _, A, tr => by intro o A' tr' h; simp [evalTds] at h; rw [← h.2.1]
  | .always e rest, hd, t, ht, htd, A, tr => by
      simp only [Tds.Disc] at hd
      rw [Tds.decl, List.mem_append, not_or] at htd
      rw [evalTds]
      exact Keeps.bind (eval_keeps e [] hd.1 t (by simp) htd.1 A tr)
        fun A1 tr1 => evalTds_keeps rest hd.2 t ht htd.2 A1 tr1
  | .byTag u e rest, hd, t, ht, htd, A, tr => by
      simp only [Tds.Disc] at hd
      rw [Tds.decl, List.mem_append, not_or] at htd
      rw [Tds.tags, List.mem_cons, not_or] at ht
      rw [evalTds]
      split
      · have h1 := eval_keeps (w := w) (fuel := fuel) e [] hd.1 t (by simp) htd.1 (A.set u false)
          (tr ++ [.torn u])
        have h3 : (A.set u false) t = A t := by simp [Active.set, ht.1]
        refine Keeps.bind (fun o A' tr' h => (h1 o A' tr' h).trans h3)
          fun A1 tr1 => evalTds_keeps rest hd.2 t ht.2 htd.2 A1 tr1
      · exact evalTds_keeps rest hd.2 t ht.2 htd.2 A tr
end

end Verif.Native
