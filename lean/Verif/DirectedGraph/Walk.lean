import Verif.DirectedGraph.Edges
/-
The depth-first walks of `levels` and `createsCycle`.
-/
namespace Verif.DirectedGraph
open Spec Relation

variable {N : Type} [DecidableEq N]

section Levels

variable (children : N → List N) (U : List N)

/-- The level of `n` is final. -/
structure LevelAt (L : Levels N) (n : N) (v : Int) : Prop where
  nonneg : 0 ≤ v
  above : ∀ c ∈ children n, ∃ w, L c = some w ∧ 0 ≤ w ∧ w + 1 ≤ v
  leaf : children n = [] → v = 0
  tight : children n ≠ [] → ∃ c ∈ children n, ∃ w, L c = some w ∧ 0 ≤ w ∧ v = w + 1

def LInv (L : Levels N) : Prop := ∀ n v, L n = some v → v = -2 ∨ LevelAt children L n v

/-- Nothing is forgotten and no new node is being visited. -/
structure Ext (L L' : Levels N) : Prop where
  keep : ∀ n v, L n = some v → L' n = some v
  gray : ∀ n, L' n = some (-2) → L n = some (-2)

theorem Ext.refl (L : Levels N) : Ext L L := ⟨fun _ _ h => h, fun _ h => h⟩

theorem Ext.trans {L L' L'' : Levels N} (h : Ext L L') (h' : Ext L' L'') : Ext L L'' :=
  ⟨fun n v e => h'.keep n v (h.keep n v e), fun n e => h.gray n (h'.gray n e)⟩

/-- How many nodes have not been seen. -/
def free (L : Levels N) : Nat := U.countP (fun x => (L x).isNone)

theorem free_ext {L L' : Levels N} (h : Ext L L') : free U L' ≤ free U L := by
  apply List.countP_mono_left
  intro x _ hx
  cases hl : L x with
  | none => rfl
  | some v =>
    rw [h.keep x v hl] at hx
    cases hx

theorem free_set (L : Levels N) (n : N) (v : Int) (hn : n ∈ U) (hl : L n = none) : free U (L.set n v) + 1 ≤ free U L := by
  unfold free
  induction U with
  | nil => cases hn
  | cons x U ih =>
    have hmono : U.countP (fun x => (L.set n v x).isNone) ≤ U.countP (fun x => (L x).isNone) := by
      apply List.countP_mono_left
      intro y _ hy
      unfold Levels.set at hy
      split at hy
      · cases hy
      · exact hy
    rw [List.countP_cons, List.countP_cons]
    by_cases hx : x = n
    · subst hx
      simp [Levels.set, hl]
      simpa [Levels.set] using hmono
    · have hn' : n ∈ U := by
        rcases List.mem_cons.mp hn with e | e
        · exact absurd e.symm hx
        · exact e
      have := ih hn'
      simp only [Levels.set, hx, if_false] at this ⊢
      omega

/-- What a walk gives. -/
def WalkOk (f : Nat) (n : N) (L : Levels N) (r : Except Err (Levels N × Int)) : Prop :=
  match r with
  | .ok (L', v) => LInv children L' ∧ Ext L L' ∧ L' n = some v ∧ 0 ≤ v
  | .error .cycle => Cyclic (fun a b => b ∈ children a)
  | .error .fuel => f ≤ free U L
  | .error _ => False

/-- What the walks over the children give. -/
def MaxOk (f : Nat) (cs : List N) (L : Levels N) (m : Option Int) (r : Except Err (Levels N × Option Int)) : Prop :=
  match r with
  | .ok (L', m') => LInv children L' ∧ Ext L L' ∧
      (∀ c ∈ cs, ∃ w, L' c = some w ∧ 0 ≤ w ∧ ∃ k, m' = some k ∧ w ≤ k) ∧
      (∀ u, m = some u → ∃ k, m' = some k ∧ u ≤ k) ∧
      (m' = m ∨ ∃ c ∈ cs, ∃ w, L' c = some w ∧ 0 ≤ w ∧ m' = some w)
  | .error .cycle => Cyclic (fun a b => b ∈ children a)
  | .error .fuel => f ≤ free U L
  | .error _ => False

theorem maxWalk_ok (f : Nat) (w : N → Levels N → Except Err (Levels N × Int)) (cs : List N)
    (hw : ∀ c ∈ cs, ∀ L, LInv children L → (∀ g, L g = some (-2) → TransGen (fun a b => b ∈ children a) g c) →
      WalkOk children U f c L (w c L))
    (L : Levels N) (m : Option Int) (hL : LInv children L)
    (hg : ∀ c ∈ cs, ∀ g, L g = some (-2) → TransGen (fun a b => b ∈ children a) g c) :
    MaxOk children U f cs L m (maxWalk w cs L m) := by
  induction cs generalizing L m with
  | nil =>
    exact ⟨hL, Ext.refl L, by simp, fun u hu => ⟨u, hu, Int.le_refl u⟩, .inl rfl⟩
  | cons c cs ih =>
    have h1 := hw c (by simp) L hL (hg c (by simp))
    simp only [maxWalk]
    cases hwc : w c L with
    | error e =>
      rw [hwc] at h1
      cases e <;> exact h1
    | ok p =>
      obtain ⟨L1, v⟩ := p
      rw [hwc] at h1
      obtain ⟨hL1, he1, hv, hv0⟩ := h1
      have h2 := ih (fun c' hc' => hw c' (by simp [hc'])) L1
        (some (pickMax m v)) hL1
        (fun c' hc' g hgg => hg c' (by simp [hc']) g (he1.gray g hgg))
      have hmv : ∃ k, pickMax m v = k ∧ v ≤ k ∧
          (∀ u, m = some u → u ≤ k) ∧ (k = v ∨ m = some k) := by
        cases m with
        | none => exact ⟨v, rfl, Int.le_refl v, by simp, .inl rfl⟩
        | some u =>
          refine ⟨max u v, rfl, Int.le_max_right u v, ?_, ?_⟩
          · intro u' hu'
            cases hu'
            exact Int.le_max_left u v
          · rcases Int.le_total u v with h | h
            · left; exact Int.max_eq_right h
            · right; rw [Int.max_eq_left h]
      obtain ⟨k, hk, hvk, huk, hkk⟩ := hmv
      simp only [hk] at h2 ⊢
      cases hm : maxWalk w cs L1 (some k) with
      | error e =>
        rw [hm] at h2
        cases e with
        | fuel => exact Nat.le_trans h2 (free_ext U he1)
        | _ => exact h2
      | ok p =>
        obtain ⟨L2, m2⟩ := p
        rw [hm] at h2
        obtain ⟨hL2, he2, hall, hmm, hlast⟩ := h2
        obtain ⟨k2, hk2, hkk2⟩ := hmm k rfl
        refine ⟨hL2, he1.trans he2, ?_, ?_, ?_⟩
        · intro c' hc'
          rcases List.mem_cons.mp hc' with rfl | hc'
          · exact ⟨v, he2.keep _ _ hv, hv0, k2, hk2, by omega⟩
          · exact hall c' hc'
        · intro u hu
          exact ⟨k2, hk2, by have := huk u hu; omega⟩
        · rcases hlast with h | ⟨c', hc', w', hw', hw0, h⟩
          · rcases hkk with hkv | hkm
            · right
              exact ⟨c, by simp, v, he2.keep _ _ hv, hv0, by rw [h, hkv]⟩
            · left
              rw [h, hkm]
          · right
            exact ⟨c', by simp [hc'], w', hw', hw0, h⟩

theorem walk_ok (hU : ∀ n, ∀ c ∈ children n, c ∈ U) (f : Nat) (n : N) (hn : n ∈ U) (L : Levels N)
    (hL : LInv children L) (hg : ∀ g, L g = some (-2) → TransGen (fun a b => b ∈ children a) g n) :
    WalkOk children U f n L (walk children f n L) := by
  induction f generalizing n L with
  | zero => exact Nat.zero_le _
  | succ f ih =>
    simp only [walk, visit]
    cases hl : L n with
    | some v =>
      simp only [hl]
      by_cases hv : v = -2
      · subst hv
        simp only [if_true]
        exact ⟨n, hg n hl⟩
      · simp only [hv, if_false]
        rcases hL n v hl with h | h
        · exact absurd h hv
        · exact ⟨hL, Ext.refl L, hl, h.nonneg⟩
    | none =>
      have hL1 : LInv children (L.set n (-2)) := by
        intro x v hx
        unfold Levels.set at hx
        split at hx
        · cases hx
          exact .inl rfl
        · rename_i hxn
          rcases hL x v hx with h | h
          · exact .inl h
          · right
            have hk : ∀ c w, L c = some w → (L.set n (-2)) c = some w := by
              intro c w hc
              unfold Levels.set
              split
              · rename_i e
                rw [e, hl] at hc
                cases hc
              · exact hc
            refine ⟨h.nonneg, ?_, h.leaf, ?_⟩
            · intro c hc
              obtain ⟨w, h1, h2, h3⟩ := h.above c hc
              exact ⟨w, hk c w h1, h2, h3⟩
            · intro hne
              obtain ⟨c, hc, w, h1, h2, h3⟩ := h.tight hne
              exact ⟨c, hc, w, hk c w h1, h2, h3⟩
      have hg1 : ∀ c ∈ children n, ∀ g, (L.set n (-2)) g = some (-2) → TransGen (fun a b => b ∈ children a) g c := by
        intro c hc g hgg
        unfold Levels.set at hgg
        split at hgg
        · rename_i e
          rw [e]
          exact TransGen.single hc
        · exact TransGen.tail (hg g hgg) hc
      have hm := maxWalk_ok children U f (walk children f) (children n)
        (fun c hc L' hL' hg' => ih c (hU n c hc) L' hL' hg') (L.set n (-2)) none hL1 hg1
      cases hmw : maxWalk (walk children f) (children n) (L.set n (-2)) none with
      | error e =>
        rw [hmw] at hm
        cases e with
        | fuel =>
          have h1 : f ≤ free U (L.set n (-2)) := hm
          have h2 := free_set U L n (-2) hn hl
          show f + 1 ≤ free U L
          omega
        | cycle => exact hm
        | noEdge => exact hm
        | changedDuringIteration => exact hm
        | keyError => exact hm
      | ok p =>
        obtain ⟨L2, m⟩ := p
        rw [hmw] at hm
        obtain ⟨hL2, he, hall, _, hlast⟩ := hm
        have hn2 : L2 n = some (-2) := he.keep n (-2) (by simp [Levels.set])
        have hv0 : 0 ≤ 1 + m.getD (-1) := by
          rcases hlast with h | ⟨c, _, w, _, hw0, h⟩
          · rw [h]; simp
          · rw [h]; simp; omega
        have hne : ¬ (1 + m.getD (-1) = -2) := by omega
        have hset : (L2.set n (1 + m.getD (-1))) n = some (1 + m.getD (-1)) := by simp [Levels.set]
        simp only [hset, if_neg hne]
        have hk : ∀ c w, 0 ≤ w → L2 c = some w → (L2.set n (1 + m.getD (-1))) c = some w := by
          intro c w hw0 hc
          unfold Levels.set
          split
          · rename_i e
            rw [e, hn2] at hc
            cases hc
            omega
          · exact hc
        refine ⟨?_, ⟨?_, ?_⟩, hset, hv0⟩
        · intro x v hx
          unfold Levels.set at hx
          split at hx
          · rename_i e
            subst e
            cases hx
            right
            refine ⟨hv0, ?_, ?_, ?_⟩
            · intro c hc
              obtain ⟨w, h1, h2, k, h3, h4⟩ := hall c hc
              refine ⟨w, hk c w h2 h1, h2, ?_⟩
              rw [h3]
              simp
              omega
            · intro hnil
              rcases hlast with h | ⟨c, hc, _⟩
              · rw [h]; rfl
              · rw [hnil] at hc
                cases hc
            · intro hne'
              rcases hlast with h | ⟨c, hc, w, h1, h2, h3⟩
              · obtain ⟨c, hc⟩ := List.exists_mem_of_ne_nil _ hne'
                obtain ⟨w, _, _, k, h3, _⟩ := hall c hc
                rw [h] at h3
                cases h3
              · refine ⟨c, hc, w, hk c w h2 h1, h2, ?_⟩
                rw [h3]
                simp
                omega
          · rcases hL2 x v hx with h | h
            · exact .inl h
            · right
              refine ⟨h.nonneg, ?_, h.leaf, ?_⟩
              · intro c hc
                obtain ⟨w, h1, h2, h3⟩ := h.above c hc
                exact ⟨w, hk c w h2 h1, h2, h3⟩
              · intro hne'
                obtain ⟨c, hc, w, h1, h2, h3⟩ := h.tight hne'
                exact ⟨c, hc, w, hk c w h2 h1, h2, h3⟩
        · intro x v hx
          have hxn : x ≠ n := by
            rintro rfl
            rw [hl] at hx
            cases hx
          have : (L.set n (-2)) x = some v := by simp [Levels.set, hxn, hx]
          simp [Levels.set, hxn, he.keep x v this]
        · intro x hx
          unfold Levels.set at hx
          split at hx
          · exact absurd (Option.some.inj hx) hne
          · rename_i hxn
            have := he.gray x hx
            simpa [Levels.set, hxn] using this

/-- What walking from all nodes gives. -/
theorem walkFrom_ok (hU : ∀ n, ∀ c ∈ children n, c ∈ U) (f : Nat) (hf : U.length < f) (ns : List N) (hns : ∀ n ∈ ns, n ∈ U)
    (L : Levels N) (hL : LInv children L) (hg : ∀ g, L g ≠ some (-2)) :
    (∃ L', walkFrom children f ns L = .ok L' ∧ LInv children L' ∧ (∀ g, L' g ≠ some (-2)) ∧
      (∀ n v, L n = some v → L' n = some v) ∧ ∀ n ∈ ns, ∃ v, L' n = some v) ∨
    (walkFrom children f ns L = .error .cycle ∧ Cyclic (fun a b => b ∈ children a)) := by
  induction ns generalizing L with
  | nil => exact .inl ⟨L, rfl, hL, hg, fun _ _ h => h, by simp⟩
  | cons n ns ih =>
    have h1 := walk_ok children U hU f n (hns n (by simp)) L hL (fun g h => absurd h (hg g))
    simp only [walkFrom]
    cases hw : walk children f n L with
    | error e =>
      rw [hw] at h1
      cases e with
      | cycle => exact .inr ⟨rfl, h1⟩
      | fuel =>
        have h2 : f ≤ free U L := h1
        have h3 : free U L ≤ U.length := List.countP_le_length
        omega
      | noEdge => exact h1.elim
      | changedDuringIteration => exact h1.elim
      | keyError => exact h1.elim
    | ok p =>
      obtain ⟨L1, v⟩ := p
      rw [hw] at h1
      obtain ⟨hL1, he1, hv, _⟩ := h1
      rcases ih (fun n hn => hns n (by simp [hn])) L1 hL1 (fun g h => hg g (he1.gray g h)) with ⟨L', h2, h3, h4, h5, h6⟩ | h2
      · refine .inl ⟨L', h2, h3, h4, fun x w hx => h5 x w (he1.keep x w hx), ?_⟩
        intro x hx
        rcases List.mem_cons.mp hx with rfl | hx
        · exact ⟨v, h5 _ _ hv⟩
        · exact h6 x hx
      · exact .inr h2

end Levels

section Down

variable (out : N → List N) (U : List N)

/-- Nodes of `U` not yet seen. -/
def unseen (seen : List N) : Nat := U.countP (fun x => decide (x ∉ seen))

theorem unseen_mono {s s' : List N} (h : ∀ x ∈ s, x ∈ s') : unseen U s' ≤ unseen U s := by
  apply List.countP_mono_left
  intro x _ hx
  simp only [decide_eq_true_eq] at hx ⊢
  exact fun e => hx (h x e)

theorem unseen_cons (s : List N) (n : N) (hn : n ∈ U) (hs : n ∉ s) : unseen U (n :: s) + 1 ≤ unseen U s := by
  unfold unseen
  induction U with
  | nil => cases hn
  | cons x U ih =>
    have hmono : U.countP (fun x => decide (x ∉ n :: s)) ≤ U.countP (fun x => decide (x ∉ s)) := by
      apply List.countP_mono_left
      intro y _ hy
      simp only [decide_eq_true_eq, List.mem_cons, not_or] at hy ⊢
      exact hy.2
    rw [List.countP_cons, List.countP_cons]
    by_cases hx : x = n
    · subst hx
      simp only [List.mem_cons, true_or, not_true, decide_false, hs, not_false_iff, decide_true]
      simp only [List.mem_cons] at hmono
      simpa using hmono
    · have hn' : n ∈ U := by
        rcases List.mem_cons.mp hn with e | e
        · exact absurd e.symm hx
        · exact e
      have := ih hn'
      simp only [List.mem_cons, hx, false_or] at this ⊢
      omega

/-- What `walkDown` gives: everything seen before, the node, and for the nodes newly seen their successors; each newly seen node
is reachable from the start. -/
def DownOk (f : Nat) (x : N) (seen : List N) (r : Except Err (List N)) : Prop :=
  match r with
  | .ok s => (∀ y ∈ seen, y ∈ s) ∧ x ∈ s ∧
      (∀ y ∈ s, y ∈ seen ∨ (ReflTransGen (fun a b => b ∈ out a) x y ∧ ∀ z ∈ out y, z ∈ s))
  | .error e => e = .fuel ∧ f ≤ unseen U seen

theorem walkDown_ok (hU : ∀ n, ∀ c ∈ out n, c ∈ U) (f : Nat) (x : N) (hx : x ∈ U) (seen : List N) :
    DownOk out U f x seen (walkDown out f x seen) := by
  induction f generalizing x seen with
  | zero => exact ⟨rfl, Nat.zero_le _⟩
  | succ f ih =>
    simp only [walkDown]
    by_cases hs : x ∈ seen
    · simp only [hs, if_true]
      exact ⟨fun y h => h, hs, fun y h => .inl h⟩
    · simp only [hs, if_false]
      -- the loop over the successors
      have hloop : ∀ (l : List N), (∀ y ∈ l, y ∈ out x) → ∀ (s : List N), (∀ y ∈ x :: seen, y ∈ s) →
          match l.foldl (fun acc y => match acc with
            | .error e => .error e
            | .ok s => walkDown out f y s) (Except.ok (ε := Err) s) with
          | .ok s' => (∀ y ∈ s, y ∈ s') ∧ (∀ y ∈ l, y ∈ s') ∧
              ∀ y ∈ s', y ∈ s ∨ (ReflTransGen (fun a b => b ∈ out a) x y ∧ ∀ z ∈ out y, z ∈ s')
          | .error e => e = .fuel ∧ f ≤ unseen U (x :: seen) := by
        intro l
        induction l with
        | nil =>
          intro _ s _
          exact ⟨fun y h => h, by simp, fun y h => .inl h⟩
        | cons c l ihl =>
          intro hl s hs'
          have h1 := ih c (hU x c (hl c (by simp))) s
          rw [List.foldl_cons]
          cases hw : walkDown out f c s with
          | error e =>
            rw [hw] at h1
            have hconst : ∀ l : List N, l.foldl (fun acc y => match acc with
                | .error e => .error e
                | .ok s => walkDown out f y s) (Except.error e) = Except.error e := by
              intro l
              induction l with
              | nil => rfl
              | cons _ _ ih => exact ih
            simp only
            rw [hw, hconst]
            exact ⟨h1.1, Nat.le_trans h1.2 (unseen_mono U hs')⟩
          | ok s1 =>
            rw [hw] at h1
            obtain ⟨k1, k2, k3⟩ := h1
            have h2 := ihl (fun y hy => hl y (by simp [hy])) s1 (fun y hy => k1 y (hs' y hy))
            simp only
            rw [hw]
            revert h2
            generalize l.foldl (fun acc y => match acc with
              | .error e => .error e
              | .ok s => walkDown out f y s) (Except.ok (ε := Err) s1) = r
            intro h2
            cases r with
            | error e => exact h2
            | ok s2 =>
              obtain ⟨j1, j2, j3⟩ := h2
              refine ⟨fun y hy => j1 y (k1 y hy), ?_, ?_⟩
              · intro y hy
                rcases List.mem_cons.mp hy with rfl | hy
                · exact j1 _ k2
                · exact j2 y hy
              · intro y hy
                rcases j3 y hy with h | h
                · rcases k3 y h with h | ⟨ha, hb⟩
                  · exact .inl h
                  · exact .inr ⟨ReflTransGen.head (hl c (by simp)) ha, fun z hz => j1 z (hb z hz)⟩
                · exact .inr h
      have h1 := hloop (out x) (fun y h => h) (x :: seen) (fun y h => h)
      revert h1
      generalize (out x).foldl (fun acc y => match acc with
        | .error e => .error e
        | .ok s => walkDown out f y s) (Except.ok (ε := Err) (x :: seen)) = r
      intro h1
      cases r with
      | error e =>
        have := unseen_cons U seen x hx hs
        exact ⟨h1.1, by have := h1.2; omega⟩
      | ok s =>
        obtain ⟨j1, j2, j3⟩ := h1
        refine ⟨fun y hy => j1 y (by simp [hy]), j1 x (by simp), ?_⟩
        intro y hy
        rcases j3 y hy with h | h
        · rcases List.mem_cons.mp h with rfl | h
          · exact .inr ⟨ReflTransGen.refl, j2⟩
          · exact .inl h
        · exact .inr h

end Down

end Verif.DirectedGraph
