import Verif.Native.Frame
/-
The code generated for a well formed expression does what the expression means.
-/
namespace Verif.Native

theorem val_val (σ : STags) (ρ : Active) : val σ (val σ ρ) = val σ ρ := by
  funext t; simp only [val]; cases σ t <;> rfl

theorem val_merge_left (σ1 σ2 : STags) (ρ : Active) : val (merge σ1 σ2) (val σ1 ρ) = val σ1 ρ := by
  funext t; simp only [val, merge]; cases σ1 t <;> cases σ2 t <;> rfl

theorem val_merge_right (σ1 σ2 : STags) (ρ : Active) : val (merge σ1 σ2) (val σ2 ρ) = val σ2 ρ := by
  funext t; simp only [val, merge]; cases σ1 t <;> cases σ2 t <;> rfl

/-- A jump with these values comes from one of the places the handler knows of. -/
def EdgeOk (es : List Edge) (sw : Int) (s : Active) : Prop :=
  ∃ x ∈ es, val x.1 s = s ∧ ∀ v, x.2 = some v → v = sw

theorem EdgeOk.mono {es es' : List Edge} {sw s} (h : EdgeOk es sw s) (hs : ∀ x ∈ es, x ∈ es') :
    EdgeOk es' sw s := by
  obtain ⟨x, hx, h⟩ := h; exact ⟨x, hs x hx, h⟩

theorem EdgeOk.here (σ : STags) (ρ : Active) (k : Int) : EdgeOk [(σ, some k)] k (val σ ρ) :=
  ⟨_, List.mem_singleton.mpr rfl, val_val σ ρ, fun v h => by cases h; rfl⟩

theorem EdgeOk.ne {es : List Edge} {sw s} (h : EdgeOk es sw s) : es ≠ [] := by
  obtain ⟨x, hx, -⟩ := h; intro he; rw [he] at hx; simp at hx

theorem EdgeOk.collapse {es : List Edge} {sw s} (h : EdgeOk es sw s) : val (collapse es) s = s := by
  obtain ⟨x, hx, hv, -⟩ := h
  funext t
  have hv := congrFun hv t
  simp only [val, Native.collapse] at hv ⊢
  by_cases h1 : (es.all fun e => e.1 t == .no) = true
  · rw [if_pos h1]
    have := List.all_eq_true.mp h1 x hx
    simp only [beq_iff_eq] at this
    rw [this] at hv; exact hv
  · rw [if_neg h1]
    by_cases h2 : (es.all fun e => e.1 t == .yes) = true
    · rw [if_pos h2]
      have := List.all_eq_true.mp h2 x hx
      simp only [beq_iff_eq] at this
      rw [this] at hv; exact hv
    · rw [if_neg h2]

theorem agreed_all {es : List Edge} {v : Int} (h : agreed es = some v) :
    ∀ x ∈ es, x.2 = some v := by
  unfold agreed at h
  split at h
  · cases h
  · cases h
  · rename_i k rest
    split at h
    · rename_i hall
      cases h
      intro x hx
      rcases List.mem_cons.mp hx with hx | hx
      · subst hx; rfl
      · simpa using List.all_eq_true.mp hall x hx
    · cases h

theorem EdgeOk.agreed {es : List Edge} {sw s v} (h : EdgeOk es sw s) (ha : agreed es = some v) :
    v = sw := by
  obtain ⟨x, hx, -, hv⟩ := h
  exact hv v (agreed_all ha x hx)

theorem EdgeOk.getD {es : List Edge} {sw s} (h : EdgeOk es sw s) : (Native.agreed es).getD sw = sw := by
  cases ha : Native.agreed es with
  | none => rfl
  | some v => exact h.agreed ha

/-- The integer of a jump says how the expression ended. -/
def Corr (hs : List (Option Name)) : Out → Int → Prop
  | .norm, _ => False
  | .exc, sw => sw < 0
  | .ret none, sw => sw = hs.length + 1
  | .ret (some nm), sw => ∃ k : Nat, scopesTo nm hs = some k ∧ sw = k

/-- Leaving a scope that the jump does not end in. -/
theorem Corr.leave {h : Option Name} {hs : List (Option Name)} {o : Out} {sw : Int}
    (hc : Corr (h :: hs) o sw) (hne : ∀ nm, o = .ret (some nm) → h ≠ some nm) :
    Corr hs o (sw - 1) ∧ sw ≠ 0 ∧ (o ≠ .exc → sw > 0) := by
  match o, hc with
  | .exc, hc =>
    have hc : sw < 0 := hc
    exact ⟨show sw - 1 < 0 by omega, by omega, fun h => absurd rfl h⟩
  | .ret none, hc =>
    have hc : sw = ((h :: hs).length : Int) + 1 := hc
    simp only [List.length_cons] at hc
    refine ⟨show sw - 1 = (hs.length : Int) + 1 by omega, by omega, fun _ => by omega⟩
  | .ret (some nm), hc =>
    obtain ⟨k, hk, hsw⟩ := hc
    rw [scopesTo, if_neg (hne nm rfl)] at hk
    cases hk' : scopesTo nm hs with
    | none => rw [hk'] at hk; cases hk
    | some k' =>
      rw [hk'] at hk
      simp only [Option.map_some, Option.some.injEq] at hk
      exact ⟨⟨k', hk', by omega⟩, by omega, fun _ => by omega⟩

/-- How what an expression means and what its code does are related. -/
inductive Rel (S : List Tag) (hs : List (Option Name)) (res : Bool) (tags : STags) (edges : List Edge) :
    Res → CRes → Prop
  | none : Rel S hs res tags edges none none
  | norm {A ρ : Active} {tr : List Ev} (hres : res = true) (hm : ∀ t ∈ S, A t = val tags ρ t) :
      Rel S hs res tags edges (some (.norm, A, tr)) (some (.norm, ρ, tr))
  | jump {o : Out} {A s : Active} {tr : List Ev} {sw : Int} (hc : Corr hs o sw)
      (hm : ∀ t ∈ S, A t = s t) (he : EdgeOk edges sw s) :
      Rel S hs res tags edges (some (o, A, tr)) (some (.jump sw, s, tr))

theorem Rel.mono {S hs res tags edges edges' r q} (h : Rel S hs res tags edges r q)
    (hs' : ∀ x ∈ edges, x ∈ edges') : Rel S hs res tags edges' r q := by
  cases h with
  | none => exact .none
  | norm h1 h2 => exact .norm h1 h2
  | jump h1 h2 h3 => exact .jump h1 h2 (h3.mono hs')

theorem Rel.bind {S hs res res' tags tags' edges edges' r q} {f : Active → List Ev → Res}
    {g : Active → List Ev → CRes}
    (h : Rel S hs res tags edges r q) (he : ∀ x ∈ edges, x ∈ edges')
    (h' : ∀ A ρ tr, res = true → (∀ t ∈ S, A t = val tags ρ t) →
      Rel S hs res' tags' edges' (f A tr) (g ρ tr)) :
    Rel S hs res' tags' edges' (andThen r f) (cthen q g) := by
  cases h with
  | none => exact .none
  | norm h1 h2 => exact h' _ _ _ h1 h2
  | @jump o A s tr sw hc hm hee =>
    cases o with
    | norm => exact hc.elim
    | exc => exact .jump (o := .exc) hc hm (hee.mono he)
    | ret nm => exact .jump (o := .ret nm) hc hm (hee.mono he)

theorem Rel.rounds {S hs tags res' tags' edges edges1 edges2 edges'} {w : List Ev → Bool}
    {pre body orelse : Active → List Ev → Res} {cpre cbody corelse : Active → List Ev → CRes}
    {rp rb : Bool}
    (hp : ∀ A ρ tr, (∀ t ∈ S, A t = val tags ρ t) → Rel S hs rp tags edges (pre A tr) (cpre ρ tr))
    (hb : ∀ A ρ tr, (∀ t ∈ S, A t = val tags ρ t) → Rel S hs rb tags edges1 (body A tr) (cbody ρ tr))
    (ho : ∀ A ρ tr, (∀ t ∈ S, A t = val tags ρ t) →
      Rel S hs res' tags' edges2 (orelse A tr) (corelse ρ tr))
    (he : ∀ x ∈ edges, x ∈ edges') (he1 : ∀ x ∈ edges1, x ∈ edges') (he2 : ∀ x ∈ edges2, x ∈ edges') :
    ∀ (n : Nat) (A ρ : Active) (tr : List Ev), (∀ t ∈ S, A t = val tags ρ t) →
      Rel S hs res' tags' edges' (Native.rounds pre body orelse w n A tr)
        (crounds cpre cbody corelse w n ρ tr)
  | 0, A, ρ, tr, hm => by rw [Native.rounds, crounds]; exact .none
  | n + 1, A, ρ, tr, hm => by
      rw [Native.rounds, crounds]
      refine (hp A ρ tr hm).bind he fun A1 ρ1 tr1 _ hm1 => ?_
      by_cases h : w tr1 = true
      · rw [if_pos h, if_pos h]
        exact (hb A1 ρ1 tr1 hm1).bind he1 fun A2 ρ2 tr2 _ hm2 =>
          Rel.rounds hp hb ho he he1 he2 n A2 ρ2 tr2 hm2
      · rw [if_neg h, if_neg h]
        exact (ho A1 ρ1 tr1 hm1).mono he2

/-! ### `TryCatch` and `Finally` -/

theorem catching_pass {ce ch : Conv} {σh : STags} {b : Bool} {v : Int} (hne : ce.edges ≠ [])
    (ha : agreed ce.edges = some v) (hv : v > 0) :
    catching ce ch σh b = ⟨.try ce.code .stuck (some v) σh, b || ce.res, ce.tags,
      [(σh, some (v - 1))], ce.fresh, ce.tags, ce.fine⟩ := by
  unfold catching
  split
  · exact absurd ‹_› hne
  · rw [ha]; simp only [if_pos hv]

theorem catching_known {ce ch : Conv} {σh : STags} {b : Bool} {v : Int} (hne : ce.edges ≠ [])
    (ha : agreed ce.edges = some v) (hv : ¬ v > 0) :
    catching ce ch σh b = ⟨.try ce.code ch.code (some v) σh, b || ce.res, ce.tags, ch.edges, ce.fresh,
      ce.tags, ce.fine ∧ ch.fine ∧ v ≠ 0 ∧ (b = false → ch.res = false)⟩ := by
  unfold catching
  split
  · exact absurd ‹_› hne
  · rw [ha]; simp only [if_neg hv]

theorem catching_dyn {ce ch : Conv} {σh : STags} {b : Bool} (hne : ce.edges ≠ [])
    (ha : agreed ce.edges = none) :
    catching ce ch σh b = ⟨.try ce.code ch.code none σh, b || ce.res, ce.tags,
      (σh, none) :: ch.edges, ce.fresh, ce.tags,
      ce.fine ∧ ch.fine ∧ (b = false → ch.res = false)⟩ := by
  unfold catching
  split
  · exact absurd ‹_› hne
  · rw [ha]

theorem catching_fine {ce ch : Conv} {σh : STags} {b : Bool} (h : (catching ce ch σh b).fine) :
    ce.fine := by
  by_cases hne : ce.edges = []
  · simpa [catching, hne] using h
  · cases ha : agreed ce.edges with
    | none => rw [catching_dyn hne ha] at h; exact h.1
    | some v =>
      by_cases hv : v > 0
      · rw [catching_pass hne ha hv] at h; exact h
      · rw [catching_known hne ha hv] at h; exact h.1

theorem catching_res (ce ch : Conv) (σh : STags) (b : Bool) :
    (catching ce ch σh b).res = (b || ce.res) := by
  by_cases hne : ce.edges = []
  · simp [catching, hne]
  · cases ha : agreed ce.edges with
    | none => rw [catching_dyn hne ha]
    | some v =>
      by_cases hv : v > 0
      · rw [catching_pass hne ha hv]
      · rw [catching_known hne ha hv]

/-- A `TryCatch` whose expression and handler are converted right is converted right. -/
theorem catching_sim {w : World} {fuel : Nat} {S : List Tag} {hs : List (Option Name)} {ce ch : Conv}
    {b : Bool} {A ρ : Active} {tr : List Ev} {e h : E}
    (hfine : (catching ce ch (collapse ce.edges) b).fine)
    (he : Rel S (none :: hs) ce.res ce.tags ce.edges (eval w fuel e A tr) (run w fuel ce.code ρ tr))
    (hh : ch.fine → ∀ A1 s tr1, (∀ t ∈ S, A1 t = val (collapse ce.edges) s t) →
      Rel S hs ch.res ch.tags ch.edges (eval w fuel h A1 tr1) (run w fuel ch.code s tr1))
    (hback : b = true → ∀ A2 tr2, onExc (eval w fuel e A tr) (eval w fuel h) = some (.norm, A2, tr2) →
      ∀ t ∈ S, A2 t = val ce.tags ρ t) :
    Rel S hs (catching ce ch (collapse ce.edges) b).res (catching ce ch (collapse ce.edges) b).tags
      (catching ce ch (collapse ce.edges) b).edges
      (onExc (eval w fuel e A tr) (eval w fuel h))
      (run w fuel (catching ce ch (collapse ce.edges) b).code ρ tr) := by
  have hcode : ∃ hc k, (catching ce ch (collapse ce.edges) b).code = .try ce.code hc k (collapse ce.edges) := by
    by_cases hne : ce.edges = []
    · exact ⟨.stuck, none, by simp [catching, hne]⟩
    · cases ha : agreed ce.edges with
      | none => exact ⟨_, _, by rw [catching_dyn hne ha]⟩
      | some v =>
        by_cases hv : v > 0
        · exact ⟨_, _, by rw [catching_pass hne ha hv]⟩
        · exact ⟨_, _, by rw [catching_known hne ha hv]⟩
  rw [catching_tags, catching_res]
  generalize hr : eval w fuel e A tr = r at he hback
  generalize hq : run w fuel ce.code ρ tr = q at he
  cases he with
  | none =>
    obtain ⟨hc, k, hcode⟩ := hcode
    rw [hcode, run, hq]; exact .none
  | norm h1 h2 =>
    obtain ⟨hc, k, hcode⟩ := hcode
    rw [hcode, run, hq]; exact .norm (by rw [h1]; simp) h2
  | @jump o A1 s tr1 sw hc hm hee =>
    clear hcode
    have hne := hee.ne
    have hcv := hee.collapse
    -- jumps that pass
    have pass : o ≠ .exc → o ≠ .norm →
        Corr hs o (sw - 1) ∧ sw > 0 ∧ onExc (some (o, A1, tr1)) (eval w fuel h) = some (o, A1, tr1) := by
      intro h1 h2
      have := hc.leave (fun nm _ => by simp)
      refine ⟨this.1, this.2.2 h1, ?_⟩
      cases o with
      | norm => exact absurd rfl h2
      | exc => exact absurd rfl h1
      | ret nm => rfl
    have hnorm : o ≠ .norm := by intro h; subst h; exact hc
    by_cases hexc : o = .exc
    · subst hexc
      have hneg : sw < 0 := hc
      have hpos : ¬ sw > 0 := by omega
      -- the handler
      have key : ch.fine → (b = false → ch.res = false) → ∀ edges', (∀ x ∈ ch.edges, x ∈ edges') →
          Rel S hs (b || ce.res) ce.tags edges' (eval w fuel h A1 tr1)
            (cthen (run w fuel ch.code s tr1) fun _ tr2 => some (.norm, ρ, tr2)) := by
        intro hcf hcr edges' hsub
        have hh' := hh hcf A1 s tr1 (by rw [hcv]; exact hm)
        have hb' : b = true → ∀ A2 tr2, eval w fuel h A1 tr1 = some (.norm, A2, tr2) →
            ∀ t ∈ S, A2 t = val ce.tags ρ t := hback
        generalize eval w fuel h A1 tr1 = r' at hh' hb'
        generalize run w fuel ch.code s tr1 = q' at hh'
        cases hh' with
        | none => exact .none
        | norm h1 h2 =>
          cases b with
          | false => rw [hcr rfl] at h1; cases h1
          | true => exact .norm rfl (hb' rfl _ _ rfl)
        | jump h1 h2 h3 => exact .jump h1 h2 (h3.mono hsub)
      show Rel S hs _ _ _ (eval w fuel h A1 tr1) _
      cases ha : agreed ce.edges with
      | none =>
        rw [catching_dyn hne ha] at hfine ⊢
        rw [run, hq]
        show Rel S hs _ _ _ _ (if sw > 0 then _ else _)
        rw [if_neg hpos]
        exact key hfine.2.1 hfine.2.2 _ fun x hx => List.mem_cons_of_mem _ hx
      | some v =>
        have hv := hee.agreed ha
        subst hv
        rw [catching_known hne ha hpos] at hfine ⊢
        rw [run, hq]
        show Rel S hs _ _ _ _ (if v > 0 then _ else _)
        rw [if_neg hpos]
        exact key hfine.2.1 hfine.2.2.2 _ fun x hx => hx
    · obtain ⟨hc', hpos, heq⟩ := pass hexc hnorm
      rw [heq]
      cases ha : agreed ce.edges with
      | none =>
        rw [catching_dyn hne ha, run, hq]
        show Rel S hs _ _ _ _ (if sw > 0 then some (.jump (sw - 1), val (collapse ce.edges) s, tr1) else _)
        rw [if_pos hpos, hcv]
        exact .jump hc' hm ⟨_, List.mem_cons_self .., hcv, fun v hv => by cases hv⟩
      | some v =>
        have hv := hee.agreed ha
        subst hv
        rw [catching_pass hne ha hpos, run, hq]
        show Rel S hs _ _ _ _ (if v > 0 then some (.jump (v - 1), val (collapse ce.edges) s, tr1) else _)
        rw [if_pos hpos, hcv]
        exact .jump hc' hm ⟨_, List.mem_singleton.mpr rfl, hcv, fun u hu => by cases hu; rfl⟩

theorem finalizing_fine {ce cm ch : Conv} {nm : Option Name} (h : (finalizing ce cm ch nm).fine) :
    ce.fine ∧ (ce.res = true → cm.fine) ∧ (ce.edges ≠ [] → ch.fine) := by
  by_cases hne : ce.edges = []
  · rw [finalizing_nil hne] at h
    refine ⟨h.1, fun hr => ?_, fun h' => absurd hne h'⟩
    have := h.2; rwa [if_pos hr] at this
  · rw [finalizing_cons hne] at h
    refine ⟨h.1, fun hr => ?_, fun _ => h.2.2.1⟩
    have := h.2.1; rwa [if_pos hr] at this

theorem finalizing_res (ce cm ch : Conv) (nm : Option Name) :
    (finalizing ce cm ch nm).res = (nm.isSome || ce.res) := by
  by_cases hne : ce.edges = []
  · rw [finalizing_nil hne]
  · rw [finalizing_cons hne]

theorem settle_of_ne {name : Option Name} {o o2 : Out} (h : o2 ≠ .norm) : settle name o o2 = o2 := by
  cases o2 with
  | norm => exact absurd rfl h
  | exc => rfl
  | ret _ => rfl

theorem Corr.ne {hs : List (Option Name)} {o : Out} {sw : Int} (h : Corr hs o sw) : o ≠ .norm := by
  intro he; subst he; exact h

/-- A `Finally` whose expression and teardowns are converted right is converted right. -/
theorem finalizing_sim {w : World} {fuel : Nat} {S : List Tag} {hs : List (Option Name)}
    {ce cm ch : Conv} {nm : Option Name} {ρ : Active} {tr : List Ev} {tds : Tds} {r : Res}
    (hfine : (finalizing ce cm ch nm).fine)
    (hS : ∀ t ∈ S, t ∉ tds.tags)
    (he : Rel (tds.tags ++ S) (nm :: hs) ce.res ce.tags ce.edges r (run w fuel ce.code ρ tr))
    (hmain : cm.fine → ∀ A1 ρ1 tr1, (∀ t ∈ tds.tags ++ S, A1 t = val ce.tags ρ1 t) →
      Rel (tds.tags ++ S) hs true cm.tags cm.edges (evalTds w fuel tds A1 tr1)
        (run w fuel cm.code ρ1 tr1))
    (hh : ch.fine → ∀ A1 s tr1, (∀ t ∈ tds.tags ++ S, A1 t = val (collapse ce.edges) s t) →
      Rel (tds.tags ++ S) hs true ch.tags ch.edges (evalTds w fuel tds A1 tr1)
        (run w fuel ch.code s tr1))
    (horig : ∀ t ∈ S, ch.orig t = ch.tags t)
    (hback : nm ≠ none → ∀ A2 tr2, finish (evalTds w fuel tds) tds.tags nm r = some (.norm, A2, tr2) →
      ∀ t ∈ S, A2 t = val cm.tags ρ t) :
    Rel S hs (finalizing ce cm ch nm).res (finalizing ce cm ch nm).tags (finalizing ce cm ch nm).edges
      (finish (evalTds w fuel tds) tds.tags nm r) (run w fuel (finalizing ce cm ch nm).code ρ tr) := by
  have hfine' := finalizing_fine hfine
  have hclear : ∀ (A2 : Active), ∀ t ∈ S, (A2.clear tds.tags) t = A2 t := by
    intro A2 t ht; simp only [Active.clear, if_neg (hS t ht)]
  have hcode : ∃ hc k after named, (finalizing ce cm ch nm).code =
      .fin ce.code (if ce.res then cm.code else .stuck) hc k after named := by
    by_cases hne : ce.edges = []
    · rw [finalizing_nil hne]; exact ⟨_, _, _, _, rfl⟩
    · rw [finalizing_cons hne]; exact ⟨_, _, _, _, rfl⟩
  have hedges : ce.res = true → ∀ x ∈ cm.edges, x ∈ (finalizing ce cm ch nm).edges := by
    intro hr x hx
    by_cases hne : ce.edges = []
    · rw [finalizing_nil hne]; simp only [if_pos hr]; exact hx
    · rw [finalizing_cons hne]; simp only [if_pos hr, List.mem_append]; exact .inl (.inl hx)
  rw [finalizing_tags, finalizing_res]
  generalize hq : run w fuel ce.code ρ tr = q at he
  cases he with
  | none =>
    obtain ⟨hc, k, after, named, hcode⟩ := hcode
    rw [hcode, run, hq]; exact .none
  | @norm A1 ρ1 tr1 hres hm =>
    obtain ⟨hc, k, after, named, hcode⟩ := hcode
    rw [hcode, run, hq]
    simp only [if_pos hres, finish]
    have hsim := hmain (hfine'.2.1 hres) A1 ρ1 tr1 hm
    generalize evalTds w fuel tds A1 tr1 = r2 at hsim
    generalize run w fuel cm.code ρ1 tr1 = q2 at hsim
    cases hsim with
    | none => exact .none
    | @norm A2 ρ2 tr2 _ hm2 =>
      have hst : settle nm .norm .norm = .norm := by simp [settle]
      simp only [hst]
      refine .norm (by rw [hres]; simp) fun t ht => ?_
      rw [hclear A2 t ht]; exact hm2 t (List.mem_append_right _ ht)
    | @jump o2 A2 s2 tr2 sw2 hc2 hm2 he2 =>
      have := settle_of_ne (name := nm) (o := .norm) hc2.ne
      simp only [this]
      refine .jump hc2 (fun t ht => ?_) (he2.mono (hedges hres))
      rw [hclear A2 t ht]; exact hm2 t (List.mem_append_right _ ht)
  | @jump o A1 s tr1 sw hc hm hee =>
    have hne := hee.ne
    have hcv := hee.collapse
    have hk := hee.getD
    clear hcode
    have hsim := hh (hfine'.2.2 hne) A1 s tr1 (by rw [hcv]; exact hm)
    have hback' := hback
    rw [finalizing_cons hne, run, hq]
    simp only [hk, finish] at hback' ⊢
    generalize evalTds w fuel tds A1 tr1 = r2 at hsim hback'
    generalize run w fuel ch.code s tr1 = q2 at hsim
    cases hsim with
    | none => exact .none
    | @norm A2 ρ2 tr2 _ hm2 =>
      simp only [cthen, settle] at hback' ⊢
      by_cases hend : o = .ret nm ∧ nm ≠ none
      · obtain ⟨ho, hnm⟩ := hend
        cases nm with
        | none => exact absurd rfl hnm
        | some n =>
          subst ho
          obtain ⟨k, hk', hsw⟩ := hc
          rw [scopesTo, if_pos rfl] at hk'
          have hsw0 : sw = 0 := by cases hk'; simpa using hsw
          subst hsw0
          have hcond : Out.ret (some n) = Out.ret (some n) ∧ some n ≠ none := ⟨rfl, hnm⟩
          rw [if_pos hcond] at hback'
          rw [if_pos hcond, if_pos (show ((some n).isSome && (0 : Int) == 0) = true from rfl)]
          exact .norm rfl (hback' hnm _ _ rfl)
      · rw [if_neg hend]
        have hl := hc.leave (fun n ho hn => hend ⟨by rw [ho, hn], by rw [hn]; simp⟩)
        have hsw : ¬ ((nm.isSome && sw == 0) = true) := by simp [hl.2.1]
        rw [if_neg hsw]
        refine .jump hl.1 (fun t ht => ?_) ?_
        · rw [hclear A2 t ht, hm2 t (List.mem_append_right _ ht)]
          simp only [val, horig t ht]
        · refine EdgeOk.mono (es := passOn (agreed ce.edges) ch.orig) ?_ fun x hx => by
            simp only [List.mem_append]; exact .inr hx
          cases ha : agreed ce.edges with
          | none => exact ⟨_, List.mem_singleton.mpr rfl, val_val .., fun v hv => by cases hv⟩
          | some v =>
            have hv := hee.agreed ha
            subst hv
            refine ⟨(ch.orig, some (v - 1)), ?_, val_val .., fun u hu => by cases hu; rfl⟩
            simp only [passOn, if_neg hl.2.1, List.mem_singleton]
    | @jump o2 A2 s2 tr2 sw2 hc2 hm2 he2 =>
      have := settle_of_ne (name := nm) (o := o) hc2.ne
      simp only [cthen]
      simp only [this]
      refine .jump hc2 (fun t ht => ?_) (he2.mono fun x hx => by
        simp only [List.mem_append]; exact .inl (.inr hx))
      rw [hclear A2 t ht]; exact hm2 t (List.mem_append_right _ ht)

/-! ### All expressions -/

/-- The result of converting an expression is related to what it means. -/
def Conv.Sim (c : Conv) (S : List Tag) (hs : List (Option Name)) (r : Res) (q : CRes) : Prop :=
  Rel S hs c.res c.tags c.edges r q

mutual
/-- The code of a well formed expression does what it means. -/
theorem conv_sim {w : World} {fuel : Nat} :
    ∀ (e : E) (hs : List (Option Name)) (own S : List Tag) (σ : STags) (A ρ : Active) (tr : List Ev),
      e.Disc own → e.decl.Nodup → Free σ own e.decl → (∀ t ∈ own, t ∈ S) → (∀ t ∈ S, t ∉ e.decl) →
      (conv hs e σ).fine → (∀ t ∈ S, A t = val σ ρ t) →
      (conv hs e σ).Sim S hs (eval w fuel e A tr) (run w fuel (conv hs e σ).code ρ tr)
  | .skip, hs, own, S, σ, A, ρ, tr, _, _, _, _, _, _, hm => by
      rw [conv, eval, run]; exact .norm rfl hm
  | .act a ct, hs, own, S, σ, A, ρ, tr, _, _, _, _, _, _, hm => by
      rw [conv, eval, run]
      by_cases h : (ct && w.throws tr a) = true
      · rw [if_pos h, if_pos h]
        have hct : ct = true := by cases ct <;> simp_all
        refine .jump (show (-1 : Int) < 0 by omega) hm ?_
        simp only [hct, if_true]
        exact EdgeOk.here σ ρ (-1)
      · rw [if_neg h, if_neg h]; exact .norm rfl hm
  | .activates u, hs, own, S, σ, A, ρ, tr, _, _, _, _, _, _, hm => by
      rw [conv, eval, run]
      refine .norm rfl fun t ht => ?_
      simp only [Active.set, val, STags.set]
      by_cases h : t = u
      · simp [h]
      · simp only [h, if_false]; exact hm t ht
  | .seq a b, hs, own, S, σ, A, ρ, tr, hd, hn, hf, ho, hS, hfine, hm => by
      simp only [E.Disc] at hd
      simp only [E.decl] at hf hn hS
      have hta := conv_tags (hs := hs) a own σ hd.1 (nodup_left hn) hf.left
      have hSa : ∀ t ∈ S, t ∉ a.decl := fun t ht h => hS t ht (List.mem_append_left _ h)
      have hSb : ∀ t ∈ S, t ∉ b.decl := fun t ht h => hS t ht (List.mem_append_right _ h)
      rw [eval]
      rw [conv] at hfine ⊢
      simp only at hfine ⊢
      by_cases hr : (conv hs a σ).res = true
      · rw [if_pos hr] at hfine ⊢
        rw [run]
        refine (conv_sim a hs own S σ A ρ tr hd.1 (nodup_left hn) hf.left ho hSa hfine.1 hm).bind
          (fun x hx => List.mem_append_left _ hx) fun A1 ρ1 tr1 _ hm1 => ?_
        exact (conv_sim b hs own S _ A1 ρ1 tr1 hd.2 (nodup_right hn) (hf.right.of hta) ho hSb
          hfine.2 hm1).mono fun x hx => List.mem_append_right _ hx
      · rw [if_neg hr] at hfine ⊢
        have hsim := conv_sim (w := w) (fuel := fuel) a hs own S σ A ρ tr hd.1 (nodup_left hn) hf.left
          ho hSa hfine hm
        unfold Conv.Sim at hsim ⊢
        generalize eval w fuel a A tr = r at hsim
        generalize run w fuel (conv hs a σ).code ρ tr = q at hsim
        cases hsim with
        | none => exact .none
        | norm h1 _ => exact absurd h1 hr
        | @jump o A1 s tr1 sw hc hm1 he =>
          cases o with
          | norm => exact hc.elim
          | exc => exact .jump (o := .exc) hc hm1 he
          | ret nm => exact .jump (o := .ret nm) hc hm1 he
  | .branch c a b, hs, own, S, σ, A, ρ, tr, hd, hn, hf, ho, hS, hfine, hm => by
      simp only [E.Disc] at hd
      simp only [E.decl] at hf hn hS
      have hSa : ∀ t ∈ S, t ∉ a.decl := fun t ht h => hS t ht (List.mem_append_left _ h)
      have hSb : ∀ t ∈ S, t ∉ b.decl := fun t ht h => hS t ht (List.mem_append_right _ h)
      rw [eval]
      rw [conv] at hfine ⊢
      simp only at hfine ⊢
      rw [run]
      by_cases h : w.test tr c = true
      · rw [if_pos h, if_pos h]
        have hsim := conv_sim (w := w) (fuel := fuel) a hs own S σ A ρ tr hd.1 (nodup_left hn) hf.left
          ho hSa hfine.1 hm
        unfold Conv.Sim at hsim ⊢
        generalize eval w fuel a A tr = r at hsim
        generalize run w fuel (conv hs a σ).code ρ tr = q at hsim
        cases hsim with
        | none => exact .none
        | @norm A1 ρ1 tr1 h1 h2 =>
          refine .norm (by simp [h1]) fun t ht => ?_
          simp only [if_pos h1]
          rw [h2 t ht]
          split
          · exact (congrFun (val_merge_left ..) t).symm
          · exact (congrFun (val_val ..) t).symm
        | @jump o A1 s tr1 sw hc hm1 he =>
          exact .jump hc hm1 (he.mono fun x hx => List.mem_append_left _ hx)
      · rw [if_neg h, if_neg h]
        have hsim := conv_sim (w := w) (fuel := fuel) b hs own S σ A ρ tr hd.2 (nodup_right hn) hf.right
          ho hSb hfine.2 hm
        unfold Conv.Sim at hsim ⊢
        generalize eval w fuel b A tr = r at hsim
        generalize run w fuel (conv hs b σ).code ρ tr = q at hsim
        cases hsim with
        | none => exact .none
        | @norm A1 ρ1 tr1 h1 h2 =>
          refine .norm (by simp [h1]) fun t ht => ?_
          simp only [if_pos h1]
          rw [h2 t ht]
          split
          · exact (congrFun (val_merge_right ..) t).symm
          · exact (congrFun (val_val ..) t).symm
        | @jump o A1 s tr1 sw hc hm1 he =>
          exact .jump hc hm1 (he.mono fun x hx => List.mem_append_right _ hx)
  | .loop p c b o, hs, own, S, σ, A, ρ, tr, hd, hn, hf, ho, hS, hfine, hm => by
      simp only [E.Disc] at hd
      simp only [E.decl] at hf hn hS
      have hf := hf.nil
      have hSp : ∀ t ∈ S, t ∉ p.decl := fun t ht h => hS t ht (List.mem_append_left _ h)
      have hSb : ∀ t ∈ S, t ∉ b.decl := fun t ht h =>
        hS t ht (List.mem_append_right _ (List.mem_append_left _ h))
      have hSo : ∀ t ∈ S, t ∉ o.decl := fun t ht h =>
        hS t ht (List.mem_append_right _ (List.mem_append_right _ h))
      have hp : (conv hs p σ).tags = σ :=
        funext fun t => conv_tags p [] σ hd.1 (nodup_left hn) hf.left t (by simp)
      have hb : (conv hs b σ).tags = σ :=
        funext fun t => conv_tags b [] σ hd.2.1 (nodup_left (nodup_right hn)) hf.right.left t (by simp)
      rw [eval]
      rw [conv] at hfine ⊢
      simp only [hp, hb] at hfine ⊢
      rw [run]
      refine Rel.rounds (tags := σ)
        (fun A ρ tr hm => ?_)
        (fun A ρ tr hm => ?_)
        (fun A ρ tr hm => conv_sim o hs [] S σ A ρ tr hd.2.2 (nodup_right (nodup_right hn))
          hf.right.right (by simp) hSo hfine.2.2.2.1 hm)
        (edges := (conv hs p σ).edges) (edges1 := (conv hs b σ).edges)
        (rp := (conv hs p σ).res) (rb := (conv hs b σ).res)
        (fun x hx => List.mem_append_left _ (List.mem_append_left _ hx))
        (fun x hx => List.mem_append_left _ (List.mem_append_right _ hx))
        (fun x hx => List.mem_append_right _ hx) fuel A ρ tr hm
      · have := conv_sim (w := w) (fuel := fuel) p hs [] S σ A ρ tr hd.1 (nodup_left hn) hf.left
          (by simp) hSp hfine.2.1 hm
        unfold Conv.Sim at this; rwa [hp] at this
      · have := conv_sim (w := w) (fuel := fuel) b hs [] S σ A ρ tr hd.2.1
          (nodup_left (nodup_right hn)) hf.right.left (by simp) hSb hfine.2.2.1 hm
        unfold Conv.Sim at this; rwa [hb] at this
  | .throw, hs, own, S, σ, A, ρ, tr, _, _, _, _, _, _, hm => by
      rw [conv, eval, run]
      exact .jump (o := .exc) (show (-1 : Int) < 0 by omega) hm (EdgeOk.here σ ρ (-1))
  | .ret none, hs, own, S, σ, A, ρ, tr, _, _, _, _, _, _, hm => by
      rw [conv, eval, run]
      exact .jump (o := .ret none) rfl hm (EdgeOk.here σ ρ _)
  | .ret (some nm), hs, own, S, σ, A, ρ, tr, _, _, _, _, _, hfine, hm => by
      rw [eval]
      rw [conv] at hfine ⊢
      cases h : scopesTo nm hs with
      | none => rw [h] at hfine; exact hfine.elim
      | some k =>
        simp only
        rw [run]
        exact .jump (o := .ret (some nm)) ⟨k, h, rfl⟩ hm (EdgeOk.here σ ρ _)
  | .tryCatch e h, hs, own, S, σ, A, ρ, tr, hd, hn, hf, ho, hS, hfine, hm => by
      simp only [E.Disc] at hd
      simp only [E.decl] at hf hn hS
      have hSe : ∀ t ∈ S, t ∉ e.decl := fun t ht h => hS t ht (List.mem_append_left _ h)
      have hSh : ∀ t ∈ S, t ∉ h.decl := fun t ht h' => hS t ht (List.mem_append_right _ h')
      have hte := conv_tags (hs := none :: hs) e [] σ hd.1 (nodup_left hn) hf.left.nil
      have hee := conv_edges (hs := none :: hs) e [] σ hd.1 (nodup_left hn) hf.left.nil
      have hfh : Free (collapse (conv (none :: hs) e σ).edges) [] h.decl := fun u hu => by
        refine ⟨?_, by simp⟩
        by_cases hne : (conv (none :: hs) e σ).edges = []
        · rw [hne]; rfl
        · exact (collapse_const hne fun y hy =>
            hee y hy u (by simp) fun hu' => nodup_apart hn hu' hu).trans (hf.right u hu).1
      rw [conv] at hfine ⊢
      rw [eval]
      refine catching_sim hfine
        (conv_sim e (none :: hs) [] S σ A ρ tr hd.1 (nodup_left hn) hf.left.nil (by simp) hSe
          (catching_fine hfine) hm)
        (fun hcf A1 s tr1 hm1 => conv_sim h hs [] S _ A1 s tr1 hd.2 (nodup_right hn) hfh
          (by simp) hSh hcf hm1)
        (fun _ A2 tr2 heq t ht => ?_)
      have hk : Keeps t A (onExc (eval w fuel e A tr) (eval w fuel h)) :=
        Keeps.handle (eval_keeps e [] hd.1 t (by simp) (hSe t ht) A tr)
          fun A1 tr1 => eval_keeps h [] hd.2 t (by simp) (hSh t ht) A1 tr1
      rw [hk _ _ _ heq, hm t ht]
      simp only [val, hte t (by simp)]
  | .propagate e h, hs, own, S, σ, A, ρ, tr, hd, hn, hf, ho, hS, hfine, hm => by
      simp only [E.Disc] at hd
      simp only [E.decl] at hf hn hS
      have hSe : ∀ t ∈ S, t ∉ e.decl := fun t ht h => hS t ht (List.mem_append_left _ h)
      have hSh : ∀ t ∈ S, t ∉ h.decl := fun t ht h' => hS t ht (List.mem_append_right _ h')
      have hee := conv_edges (hs := none :: hs) e own σ hd.1 (nodup_left hn) hf.left
      have hfh : Free (collapse (conv (none :: hs) e σ).edges) [] h.decl := fun u hu => by
        refine ⟨?_, by simp⟩
        by_cases hne : (conv (none :: hs) e σ).edges = []
        · rw [hne]; rfl
        · exact (collapse_const hne fun y hy =>
            hee y hy u (hf.right u hu).2 fun hu' => nodup_apart hn hu' hu).trans (hf.right u hu).1
      rw [conv] at hfine ⊢
      rw [eval]
      exact catching_sim hfine
        (conv_sim e (none :: hs) own S σ A ρ tr hd.1 (nodup_left hn) hf.left ho hSe
          (catching_fine hfine) hm)
        (fun hcf A1 s tr1 hm1 => conv_sim h hs [] S _ A1 s tr1 hd.2 (nodup_right hn) hfh
          (by simp) hSh hcf hm1)
        (fun hb => by cases hb)
  | .finally e tds nm, hs, own, S, σ, A, ρ, tr, hd, hn, hf, ho, hS, hfine, hm => by
      simp only [E.Disc] at hd
      have hft := Free.fin hn hf
      have hn' := hn
      simp only [E.decl] at hn' hS
      have hST : ∀ t ∈ S, t ∉ tds.tags := fun t ht h => hS t ht (List.mem_append_left _ h)
      have hSe : ∀ t ∈ tds.tags ++ S, t ∉ e.decl := fun t ht h => by
        rcases List.mem_append.mp ht with ht | ht
        · exact nodup_apart hn' ht (List.mem_append_left _ h)
        · exact hS t ht (List.mem_append_right _ (List.mem_append_left _ h))
      have hSd : ∀ t ∈ tds.tags ++ S, t ∉ tds.decl := fun t ht h => by
        rcases List.mem_append.mp ht with ht | ht
        · exact nodup_apart hn' ht (List.mem_append_right _ h)
        · exact hS t ht (List.mem_append_right _ (List.mem_append_right _ h))
      have hTS : ∀ t ∈ tds.tags, t ∈ tds.tags ++ S := fun t ht => List.mem_append_left _ ht
      have hne' := nodup_left (nodup_right hn')
      have hnt := nodup_right (nodup_right hn')
      have het := conv_tags (hs := nm :: hs) e (inner tds nm own) σ hd.1 hne' hft
      have hee := conv_edges (hs := nm :: hs) e (inner tds nm own) σ hd.1 hne' hft
      have hin : ∀ t ∈ inner tds nm own, t ∈ tds.tags ++ S := fun t ht =>
        (mem_inner ht).elim (fun h => List.mem_append_left _ h)
          (fun h => List.mem_append_right _ (ho t h))
      have hm' : ∀ t ∈ tds.tags ++ S, (A.clear tds.tags) t = val σ ρ t := fun t ht => by
        by_cases htt : t ∈ tds.tags
        · simp only [Active.clear, if_pos htt, val]
          rw [(hf t (by simp only [E.decl, List.mem_append]; exact .inl htt)).1]
        · simp only [Active.clear, if_neg htt]
          exact hm t ((List.mem_append.mp ht).resolve_left htt)
      rw [conv] at hfine ⊢
      rw [eval]
      refine finalizing_sim hfine hST
        (conv_sim e (nm :: hs) (inner tds nm own) (tds.tags ++ S) σ _ ρ tr hd.1 hne' hft hin hSe
          (finalizing_fine hfine).1 hm')
        (fun hcf A1 ρ1 tr1 hm1 => convTds_sim tds hs (tds.tags ++ S) _ A1 ρ1 tr1 hd.2 hnt
          (Free.tds hn hf fun u hu _ => het u hu) hSd hTS hcf hm1)
        (fun hcf A1 s tr1 hm1 => ?_) (fun t ht => ?_) (fun hnm A2 tr2 heq t ht => ?_)
      · refine convTds_sim tds hs (tds.tags ++ S) _ A1 s tr1 hd.2 hnt (fun u hu => ?_) hSd hTS hcf hm1
        by_cases hne : (conv (nm :: hs) e σ).edges = []
        · rw [hne]; exact ⟨rfl, by simp⟩
        · exact Free.tds hn hf (fun v hv hv' => collapse_const hne fun y hy => hee y hy v hv hv') u hu
      · rw [convTds_orig tds _ t (hST t ht), convTds_tags, if_neg (hST t ht)]
      · have hk := eval_keeps (w := w) (fuel := fuel) (.finally e tds nm) []
          (by simp only [E.Disc]; rw [if_neg hnm] at hd; exact ⟨by simpa [hnm] using hd.1, hd.2⟩)
          t (by simp) (by simp only [E.decl]; exact hS t ht) A tr
        rw [eval] at hk
        rw [hk _ _ _ heq, hm t ht]
        have hti : t ∉ inner tds nm own := fun hi => by
          simp only [inner, if_neg hnm, List.append_nil] at hi
          exact hST t ht hi
        simp only [val, convTds_tags, if_neg (hST t ht), het t hti]
/-- The same for teardowns. -/
theorem convTds_sim {w : World} {fuel : Nat} :
    ∀ (tds : Tds) (hs : List (Option Name)) (S : List Tag) (σ : STags) (A ρ : Active) (tr : List Ev),
      tds.Disc → tds.decl.Nodup → Free σ [] tds.decl → (∀ t ∈ S, t ∉ tds.decl) →
      (∀ t ∈ tds.tags, t ∈ S) → (convTds hs tds σ).fine → (∀ t ∈ S, A t = val σ ρ t) →
      Rel S hs true (convTds hs tds σ).tags (convTds hs tds σ).edges (evalTds w fuel tds A tr)
        (run w fuel (convTds hs tds σ).code ρ tr)
  | .nil, hs, S, σ, A, ρ, tr, _, _, _, _, _, _, hm => by
      rw [convTds, evalTds, run]; exact .norm rfl hm
  | .always e rest, hs, S, σ, A, ρ, tr, hd, hn, hf, hS, hT, hfine, hm => by
      simp only [Tds.Disc] at hd
      simp only [Tds.decl] at hf hn hS
      have hSe : ∀ t ∈ S, t ∉ e.decl := fun t ht h => hS t ht (List.mem_append_left _ h)
      have hSr : ∀ t ∈ S, t ∉ rest.decl := fun t ht h => hS t ht (List.mem_append_right _ h)
      rw [evalTds]
      rw [convTds] at hfine ⊢
      simp only at hfine ⊢
      rw [run]
      refine (conv_sim e hs [] S σ A ρ tr hd.1 (nodup_left hn) hf.left (by simp) hSe hfine.1 hm).bind
        (fun x hx => List.mem_append_left _ hx) fun A1 ρ1 tr1 _ hm1 => ?_
      exact (convTds_sim rest hs S σ A1 ρ1 tr1 hd.2 (nodup_right hn) hf.right hSr hT
        hfine.2.2.2 (by rw [hfine.2.2.1] at hm1; exact hm1)).mono fun x hx => List.mem_append_right _ hx
  | .byTag u e rest, hs, S, σ, A, ρ, tr, hd, hn, hf, hS, hT, hfine, hm => by
      have hTr : ∀ t ∈ rest.tags, t ∈ S := fun t ht => hT t (List.mem_cons_of_mem _ ht)
      simp only [Tds.Disc] at hd
      simp only [Tds.decl] at hf hn hS
      have hSe : ∀ t ∈ S, t ∉ e.decl := fun t ht h => hS t ht (List.mem_append_left _ h)
      have hSr : ∀ t ∈ S, t ∉ rest.decl := fun t ht h => hS t ht (List.mem_append_right _ h)
      have hf' : Free (σ.set u .no) [] (e.decl ++ rest.decl) := fun v hv => by
        refine ⟨?_, by simp⟩
        simp only [STags.set]; split
        · rfl
        · exact (hf v hv).1
      have hm' : ∀ t ∈ S, (A.set u false) t = val (σ.set u .no) ρ t := fun t ht => by
        simp only [Active.set, val, STags.set]
        by_cases h : t = u
        · simp [h]
        · simp only [h, if_false]; exact hm t ht
      -- what is done if the tag is active
      have key : (conv hs e (σ.set u .no)).fine ∧ (conv hs e (σ.set u .no)).res = true ∧
          (conv hs e (σ.set u .no)).tags = σ.set u .no ∧ (convTds hs rest (σ.set u .no)).fine →
          Rel S hs true (convTds hs rest (σ.set u .no)).tags
            ((conv hs e (σ.set u .no)).edges ++ (convTds hs rest (σ.set u .no)).edges)
            (andThen (eval w fuel e (A.set u false) (tr ++ [.torn u])) (evalTds w fuel rest))
            (cthen (run w fuel (.seq (.mark (.torn u)) (conv hs e (σ.set u .no)).code) ρ tr)
              (run w fuel (convTds hs rest (σ.set u .no)).code)) := by
        intro hfine
        rw [run, run]
        refine (conv_sim e hs [] S _ _ ρ (tr ++ [.torn u]) hd.1 (nodup_left hn) hf'.left (by simp) hSe
          hfine.1 hm').bind (fun x hx => List.mem_append_left _ hx) fun A1 ρ1 tr1 _ hm1 => ?_
        exact (convTds_sim rest hs S _ A1 ρ1 tr1 hd.2 (nodup_right hn) hf'.right hSr hTr
          hfine.2.2.2 (by rw [hfine.2.2.1] at hm1; exact hm1)).mono
          fun x hx => List.mem_append_right _ hx
      have hu := hm u (hT u (List.mem_cons_self ..))
      simp only [val] at hu
      rw [evalTds]
      rw [convTds] at hfine ⊢
      cases hσ : σ u with
      | no =>
        rw [hσ] at hfine hu
        simp only at hfine ⊢
        rw [hu]
        exact convTds_sim rest hs S σ A ρ tr hd.2 (nodup_right hn) hf.right hSr hTr hfine hm
      | yes =>
        rw [hσ] at hfine hu
        simp only at hfine ⊢
        rw [hu, run]
        exact key hfine
      | dyn =>
        rw [hσ] at hfine hu
        simp only at hfine hu ⊢
        rw [run, run]
        by_cases hA : A u = true
        · rw [if_pos hA, if_pos (hu ▸ hA)]
          exact key hfine
        · rw [if_neg hA, if_neg (hu ▸ hA)]
          refine (convTds_sim rest hs S _ A ρ tr hd.2 (nodup_right hn) hf'.right hSr hTr
            hfine.2.2.2 fun t ht => ?_).mono fun x hx => List.mem_append_right _ hx
          by_cases h : t = u
          · subst h; simp only [val, STags.set, if_true]; simpa using hA
          · rw [hm t ht]; simp [val, STags.set, h]
end

end Verif.Native
