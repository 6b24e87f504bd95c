import Verif.Sorting.Model
import Verif.Sorting.Spec
import Mathlib.Data.List.Chain
/-
Lemmas about the sorting model: indexing into decomposed lists, the partition loop, the scans, the recursion.
-/
namespace Verif.Sorting
open Spec
variable {α : Type}

theorem normIx_nat {n k : Nat} (h : k < n) : normIx n (k : Int) = .ok k := by
  unfold normIx
  rw [if_pos ⟨by omega, by omega⟩]
  simp

theorem getAt_nat {vs : List α} {k : Nat} (h : k < vs.length) : getAt vs (k : Int) = .ok vs[k] := by
  unfold getAt
  rw [normIx_nat h]
  simp [Except.bind, h]

theorem setAt_nat {vs : List α} {k : Nat} (h : k < vs.length) (x : α) : setAt vs (k : Int) x = .ok (vs.set k x) := by
  unfold setAt
  rw [normIx_nat h]
  rfl

theorem get_mid (A : List α) (x : α) (B : List α) {i : Int} (hi : i = A.length) : getAt (A ++ x :: B) i = .ok x := by
  rw [hi, getAt_nat (by simp)]
  simp

theorem set_mid (A : List α) (x : α) (B : List α) (y : α) {i : Int} (hi : i = A.length) :
    setAt (A ++ x :: B) i y = .ok (A ++ y :: B) := by
  rw [hi, setAt_nat (by simp)]
  simp

theorem swap_same (A : List α) (x : α) (B : List α) {i j : Int} (hi : i = A.length) (hj : j = A.length) :
    swap (A ++ x :: B) i j = .ok (A ++ x :: B) := by
  unfold swap
  simp only [get_mid A x B hi, get_mid A x B hj, Except.bind, set_mid A x B x hi, set_mid A x B x hj]

theorem swap_lr (A : List α) (x : α) (B : List α) (y : α) (C : List α) {i j : Int} (hi : i = A.length)
    (hj : j = A.length + 1 + B.length) : swap (A ++ x :: (B ++ y :: C)) i j = .ok (A ++ y :: (B ++ x :: C)) := by
  have e : ∀ z, A ++ z :: (B ++ y :: C) = (A ++ z :: B) ++ y :: C := by simp
  have hl : ∀ z, j = ((A ++ z :: B).length : Int) := by intro z; simp; omega
  unfold swap
  rw [get_mid A x _ hi, e x, get_mid (A ++ x :: B) y C (hl x)]
  simp only [Except.bind]
  rw [← e x, set_mid A x _ y hi]
  simp only
  rw [e y, set_mid (A ++ y :: B) y C x (hl y)]
  simp

theorem swap_rl (A : List α) (x : α) (B : List α) (y : α) (C : List α) {i j : Int} (hi : i = A.length)
    (hj : j = A.length + 1 + B.length) : swap (A ++ x :: (B ++ y :: C)) j i = .ok (A ++ y :: (B ++ x :: C)) := by
  have e : ∀ z w, A ++ z :: (B ++ w :: C) = (A ++ z :: B) ++ w :: C := by simp
  have hl : ∀ z, j = ((A ++ z :: B).length : Int) := by intro z; simp; omega
  unfold swap
  rw [e x y, get_mid (A ++ x :: B) y C (hl x), ← e x y, get_mid A x _ hi]
  simp only [Except.bind]
  rw [e x y, set_mid (A ++ x :: B) y C x (hl x), ← e x x]
  simp only
  rw [set_mid A x _ y hi]

theorem partLoop_succ (less : α → α → Bool) (pivot : α) (stop : Int) (f : Nat) (vs : List α) (i j : Int) :
    partLoop less pivot stop (f + 1) vs i j = if j ≤ stop then
      (getAt vs j).bind fun x =>
        if !less pivot x then (swap vs j i).bind fun vs => partLoop less pivot stop f vs (i + 1) (j + 1)
        else partLoop less pivot stop f vs i (j + 1)
    else .ok (vs, i) := rfl

/-- The partition loop keeps "not larger" elements before "larger" ones. -/
theorem partLoop_spec (less : α → α → Bool) (p : α) (A B : List α) : ∀ (R L G : List α) (f : Nat) (i j stop : Int),
    R.length < f → i = A.length + 1 + L.length → j = i + G.length → stop = j + R.length - 1 →
    (∀ x ∈ L, less p x = false) → (∀ x ∈ G, less p x = true) →
    ∃ L' G', partLoop less p stop f (A ++ p :: (L ++ G ++ R ++ B)) i j
        = .ok (A ++ p :: (L' ++ G' ++ B), (A.length : Int) + 1 + L'.length) ∧
      (∀ x ∈ L', less p x = false) ∧ (∀ x ∈ G', less p x = true) ∧ (L' ++ G').Perm (L ++ G ++ R) := by
  intro R
  induction R with
  | nil =>
    intro L G f i j stop hf hi hj hs hL hG
    match f, hf with
    | f + 1, _ =>
      refine ⟨L, G, ?_, hL, hG, by simp⟩
      rw [partLoop_succ, if_neg (by simp at hs; omega), hi]
      simp
  | cons x R ih =>
    intro L G f i j stop hf hi hj hs hL hG
    match f, hf with
    | f + 1, hf =>
      have hget : getAt (A ++ p :: (L ++ G ++ (x :: R) ++ B)) j = .ok x := by
        have : A ++ p :: (L ++ G ++ (x :: R) ++ B) = (A ++ p :: (L ++ G)) ++ x :: (R ++ B) := by simp
        rw [this]
        exact get_mid _ _ _ (by simp; omega)
      simp only [List.length_cons] at hs hf
      rw [partLoop_succ, if_pos (by omega), hget]
      simp only [Except.bind]
      cases hx : less p x with
      | true =>
        simp only [Bool.not_true, Bool.false_eq_true, ↓reduceIte]
        obtain ⟨L', G', h1, h2, h3, h4⟩ := ih L (G ++ [x]) f i (j + 1) stop (by omega) hi (by simp; omega)
          (by omega) hL (by
            intro y hy
            rcases List.mem_append.1 hy with h | h
            · exact hG y h
            · rw [List.mem_singleton.1 h]; exact hx)
        refine ⟨L', G', ?_, h2, h3, h4.trans (by simp)⟩
        rw [← h1]
        simp
      | false =>
        simp only [Bool.not_false, ↓reduceIte]
        have hL' : ∀ y ∈ L ++ [x], less p y = false := by
          intro y hy
          rcases List.mem_append.1 hy with h | h
          · exact hL y h
          · rw [List.mem_singleton.1 h]; exact hx
        match G, hG with
        | [], hG =>
          have hsw : swap (A ++ p :: (L ++ [] ++ (x :: R) ++ B)) j i = .ok (A ++ p :: ((L ++ [x]) ++ [] ++ R ++ B)) := by
            have : A ++ p :: (L ++ [] ++ (x :: R) ++ B) = (A ++ p :: L) ++ x :: (R ++ B) := by simp
            rw [this, swap_same _ _ _ (by simp at hj ⊢; omega) (by simp; omega)]
            simp
          rw [hsw]
          simp only
          obtain ⟨L', G', h1, h2, h3, h4⟩ := ih (L ++ [x]) [] f (i + 1) (j + 1) stop (by omega) (by simp; omega)
            (by simp at hj ⊢; omega) (by omega) hL' hG
          exact ⟨L', G', h1, h2, h3, h4.trans (by simp)⟩
        | g :: G, hG =>
          have hsw : swap (A ++ p :: (L ++ (g :: G) ++ (x :: R) ++ B)) j i
              = .ok (A ++ p :: ((L ++ [x]) ++ (G ++ [g]) ++ R ++ B)) := by
            have : A ++ p :: (L ++ (g :: G) ++ (x :: R) ++ B) = (A ++ p :: L) ++ g :: (G ++ x :: (R ++ B)) := by simp
            rw [this, swap_rl _ _ _ _ _ (i := i) (by simp; omega) (by simp at hj ⊢; omega)]
            simp
          rw [hsw]
          simp only
          obtain ⟨L', G', h1, h2, h3, h4⟩ := ih (L ++ [x]) (G ++ [g]) f (i + 1) (j + 1) stop (by omega) (by simp; omega)
            (by simp at hj ⊢; omega) (by omega) hL' (by
              intro y hy
              apply hG
              simp at hy ⊢
              tauto)
          refine ⟨L', G', h1, h2, h3, h4.trans ?_⟩
          have e1 : L ++ [x] ++ (G ++ [g]) ++ R = L ++ ([x] ++ (G ++ [g]) ++ R) := by simp
          have e2 : L ++ g :: G ++ x :: R = L ++ (g :: G ++ x :: R) := by simp
          rw [e1, e2]
          apply List.Perm.append_left
          have : ([x] ++ (G ++ [g]) ++ R).Perm (x :: (g :: G ++ R)) := by
            simp only [List.singleton_append, List.cons_append]
            apply List.Perm.cons
            have := (List.perm_append_comm (l₁ := G) (l₂ := [g])).append_right R
            simpa using this
          refine this.trans ?_
          have := (List.perm_middle (a := x) (l₁ := g :: G) (l₂ := R)).symm
          exact this

/-- After `_sortAroundPivot` the segment is "not larger than the pivot", the pivot, "larger than the pivot". -/
theorem sortAroundPivot_spec (less : α → α → Bool) (A S B : List α) (f : Nat) (k : Nat) (hk : k < S.length)
    (hf : S.length ≤ f) (start stop ix : Int) (h0 : start = A.length) (h1 : stop = start + S.length - 1)
    (h2 : ix = start + k) :
    ∃ L p G, sortAroundPivot less f (A ++ S ++ B) start stop ix
        = .ok (A ++ (L ++ p :: G) ++ B, (A.length : Int) + L.length) ∧
      (∀ x ∈ L, less p x = false) ∧ (∀ x ∈ G, less p x = true) ∧ (L ++ p :: G).Perm S := by
  -- bring the pivot to the front
  have hsw : ∃ p T, swap (A ++ S ++ B) start ix = .ok (A ++ p :: (T ++ B)) ∧ (p :: T).Perm S := by
    match S, k, hk with
    | s :: S, 0, _ =>
      refine ⟨s, S, ?_, List.Perm.refl _⟩
      have : A ++ s :: S ++ B = A ++ s :: (S ++ B) := by simp
      rw [this, swap_same _ _ _ h0 (by simp at h2; omega)]
    | s :: S, k + 1, hk =>
      simp only [List.length_cons] at hk
      have hk' : k < S.length := by omega
      have hS : S = S.take k ++ S[k] :: S.drop (k + 1) := by
        rw [List.getElem_cons_drop, List.take_append_drop]
      refine ⟨S[k], S.take k ++ s :: S.drop (k + 1), ?_, ?_⟩
      · have : A ++ s :: S ++ B = A ++ s :: (S.take k ++ S[k] :: (S.drop (k + 1) ++ B)) := by
          have h := congrArg (fun l => A ++ s :: (l ++ B)) hS
          simp only [List.append_assoc, List.cons_append] at h ⊢
          exact h
        rw [this, swap_lr _ _ _ _ _ h0 (by simp at h2 ⊢; omega)]
        simp
      · conv_rhs => rw [hS]
        refine (List.Perm.cons _ List.perm_middle).trans ?_
        refine (List.Perm.swap _ _ _).trans ?_
        exact List.Perm.cons _ List.perm_middle.symm
  obtain ⟨p, T, hsw, hT⟩ := hsw
  have hlen : T.length + 1 = S.length := by have := hT.length_eq; simpa using this
  unfold sortAroundPivot
  rw [hsw]
  simp only [Except.bind]
  rw [get_mid A p _ h0]
  simp only
  obtain ⟨L, G, g1, g2, g3, g4⟩ := partLoop_spec less p A B T [] [] f (start + 1) (start + 1) stop (by omega)
    (by simp; omega) (by simp) (by omega) (by simp) (by simp)
  simp only [List.nil_append] at g1 g4
  rw [g1]
  simp only
  rcases List.eq_nil_or_concat L with hL | ⟨L', l, hL⟩
  · subst hL
    refine ⟨[], p, G, ?_, by simp, g3, ?_⟩
    · rw [swap_same A p _ h0 (by simp)]
      simp
    · exact (List.Perm.cons p (by simpa using g4)).trans hT
  · rw [List.concat_eq_append] at hL
    subst hL
    refine ⟨l :: L', p, G, ?_, ?_, g3, ?_⟩
    · have e : A ++ p :: (L' ++ [l] ++ G ++ B) = A ++ p :: (L' ++ l :: (G ++ B)) := by simp
      rw [e, swap_lr A p L' l _ h0 (by simp; omega)]
      simp
      omega
    · intro x hx
      apply g2
      simp at hx ⊢
      tauto
    · refine List.Perm.trans ?_ hT
      refine List.perm_middle.trans (List.Perm.cons p (List.Perm.trans ?_ g4))
      have := (List.perm_append_comm (l₁ := [l]) (l₂ := L')).append_right G
      simpa using this

theorem scanDown_succ (eqv : α → α → Bool) (vs : List α) (start : Int) (f : Nat) (i : Int) :
    scanDown eqv vs start (f + 1) i = if i > start then
      (getAt vs (i - 1)).bind fun a => (getAt vs i).bind fun b =>
        if eqv a b then scanDown eqv vs start f (i - 1) else .ok i
    else .ok i := rfl

theorem scanUp_succ (eqv : α → α → Bool) (vs : List α) (stop : Int) (f : Nat) (i : Int) :
    scanUp eqv vs stop (f + 1) i = if i < stop then
      (getAt vs i).bind fun a => (getAt vs (i + 1)).bind fun b =>
        if eqv a b then scanUp eqv vs stop f (i + 1) else .ok i
    else .ok i := rfl

/-- The downward scan stops after a run of values each `==` to the next. -/
theorem scanDown_spec (eqv : α → α → Bool) (A : List α) (start : Int) (h0 : start = A.length) :
    ∀ (n : Nat) (L : List α) (p : α) (C : List α) (f : Nat) (i : Int), L.length = n → n < f →
    i = A.length + L.length →
    ∃ L' E, L = L' ++ E ∧ scanDown eqv (A ++ L ++ p :: C) start f i = .ok ((A.length : Int) + L'.length) ∧
      List.IsChain (fun a b => eqv a b = true) (E ++ [p]) := by
  intro n
  induction n with
  | zero =>
    intro L p C f i hn hf hi
    match f, hf with
    | f + 1, _ =>
      refine ⟨L, [], by simp, ?_, by simp⟩
      rw [scanDown_succ, if_neg (by omega), hi]
  | succ n ih =>
    intro L p C f i hn hf hi
    match f, hf with
    | f + 1, hf =>
      rcases List.eq_nil_or_concat L with hL | ⟨L₁, l, hL⟩
      · subst hL; simp at hn
      · rw [List.concat_eq_append] at hL
        subst hL
        have hl : L₁.length = n := by simpa using hn
        have e1 : A ++ (L₁ ++ [l]) ++ p :: C = (A ++ L₁) ++ l :: (p :: C) := by simp
        have g1 : getAt (A ++ (L₁ ++ [l]) ++ p :: C) (i - 1) = .ok l := by
          rw [e1]; exact get_mid _ _ _ (by simp at hi ⊢; omega)
        have g2 : getAt (A ++ (L₁ ++ [l]) ++ p :: C) i = .ok p := get_mid _ _ _ (by simp at hi ⊢; omega)
        rw [scanDown_succ, if_pos (by simp at hi; omega), g1, g2]
        simp only [Except.bind]
        cases he : eqv l p with
        | false =>
          refine ⟨L₁ ++ [l], [], by simp, ?_, by simp⟩
          simp only [Bool.false_eq_true, ↓reduceIte, hi]
        | true =>
          simp only [↓reduceIte]
          obtain ⟨L', E, k1, k2, k3⟩ := ih L₁ l (p :: C) f (i - 1) hl (by omega) (by simp at hi ⊢; omega)
          refine ⟨L', E ++ [l], by simp [k1], ?_, ?_⟩
          · rw [← k2]; congr 1
          · have : E ++ [l] ++ [p] = (E ++ [l]) ++ [p] := rfl
            rw [List.isChain_append]
            refine ⟨k3, by simp, ?_⟩
            intro x hx y hy
            simp at hx hy
            subst hx hy
            exact he

/-- The upward scan likewise. -/
theorem scanUp_spec (eqv : α → α → Bool) (B : List α) (stop : Int) :
    ∀ (G A : List α) (p : α) (f : Nat) (i : Int), G.length < f → i = A.length → stop = i + G.length →
    ∃ E G', G = E ++ G' ∧ scanUp eqv (A ++ p :: (G ++ B)) stop f i = .ok ((A.length : Int) + E.length) ∧
      List.IsChain (fun a b => eqv a b = true) (p :: E) := by
  intro G
  induction G with
  | nil =>
    intro A p f i hf hi hs
    match f, hf with
    | f + 1, _ =>
      refine ⟨[], [], by simp, ?_, by simp⟩
      rw [scanUp_succ, if_neg (by simp at hs; omega), hi]
      simp
  | cons g G ih =>
    intro A p f i hf hi hs
    match f, hf with
    | f + 1, hf =>
      have e1 : A ++ p :: (g :: G ++ B) = (A ++ [p]) ++ g :: (G ++ B) := by simp
      have g1 : getAt (A ++ p :: (g :: G ++ B)) i = .ok p := get_mid _ _ _ hi
      have g2 : getAt (A ++ p :: (g :: G ++ B)) (i + 1) = .ok g := by
        rw [e1]; exact get_mid _ _ _ (by simp; omega)
      simp only [List.length_cons] at hs hf
      rw [scanUp_succ, if_pos (by omega), g1, g2]
      simp only [Except.bind]
      cases he : eqv p g with
      | false =>
        refine ⟨[], g :: G, by simp, ?_, by simp⟩
        simp only [Bool.false_eq_true, ↓reduceIte, hi]
        simp
      | true =>
        simp only [↓reduceIte]
        obtain ⟨E, G', k1, k2, k3⟩ := ih (A ++ [p]) g f (i + 1) (by omega) (by simp; omega) (by omega)
        refine ⟨g :: E, G', by simp [k1], ?_, ?_⟩
        · rw [e1, k2]; simp; omega
        · exact List.isChain_cons_cons.2 ⟨he, k3⟩

theorem quicksort_succ (wrap : Int → Int) (eqv less : α → α → Bool) (f : Nat) (vs : List α) (start stop seed : Int) :
    quicksort wrap eqv less (f + 1) vs start stop seed = if stop - start < 1 then .ok vs
    else
      (sortAroundPivot less (f + 1) vs start stop
        (start + (wrap (1013904223 + wrap (1664525 * seed))) % (stop - start + 1))).bind fun r =>
      (scanDown eqv r.1 start (f + 1) r.2).bind fun i =>
      (scanUp eqv r.1 stop (f + 1) r.2).bind fun iTop =>
      (quicksort wrap eqv less f r.1 start (i - 1) (wrap (1013904223 + wrap (1664525 * seed)))).bind fun vs =>
      quicksort wrap eqv less f vs (iTop + 1) stop (wrap (wrap (1013904223 + wrap (1664525 * seed)) + 1)) := rfl

theorem StrictWeak.irrefl {lt : α → α → Bool} (h : StrictWeak lt) (a : α) : lt a a = false := by
  cases e : lt a a with
  | false => rfl
  | true => have := h.asymm a a e; simp_all

/-- A run of equal values is a run of incomparable ones. -/
theorem chain_equiv {eqv lt : α → α → Bool} (h : StrictWeak lt) (he : EqRespects eqv lt) : ∀ (l : List α),
    List.IsChain (fun a b => eqv a b = true) l → l.Pairwise (fun a b => lt a b = false ∧ lt b a = false)
  | [], _ => List.Pairwise.nil
  | [a], _ => by simp
  | a :: b :: l, hc => by
    rw [List.isChain_cons_cons] at hc
    have ih := chain_equiv h he (b :: l) hc.2
    refine List.Pairwise.cons ?_ ih
    intro x hx
    have hab := he a b hc.1
    rcases List.mem_cons.1 hx with rfl | hx
    · exact hab
    · have hbx := (List.pairwise_cons.1 ih).1 x hx
      exact ⟨h.ntrans _ _ _ hab.1 hbx.1, h.ntrans _ _ _ hbx.2 hab.2⟩

/-- The recursion: it only permutes the segment, always finishes, and sorts it when the order is one. -/
theorem quicksort_spec (wrap : Int → Int) (eqv less : α → α → Bool) : ∀ (f : Nat) (A S B : List α)
    (start stop seed : Int), S.length < f → start = A.length → stop = start + S.length - 1 →
    ∃ S', quicksort wrap eqv less f (A ++ S ++ B) start stop seed = .ok (A ++ S' ++ B) ∧ S'.Perm S ∧
      (StrictWeak less → EqRespects eqv less → Sorted less S') := by
  intro f
  induction f with
  | zero => intro A S B start stop seed h; omega
  | succ f ih =>
    intro A S B start stop seed hf h0 h1
    rw [quicksort_succ]
    by_cases hsz : stop - start < 1
    · rw [if_pos hsz]
      refine ⟨S, rfl, List.Perm.refl _, fun _ _ => ?_⟩
      match S with
      | [] => exact List.Pairwise.nil
      | [x] => exact List.pairwise_singleton _ _
      | _ :: _ :: _ => simp at h1; omega
    · rw [if_neg hsz]
      generalize wrap (1013904223 + wrap (1664525 * seed)) = sd
      have hpos : (0 : Int) < stop - start + 1 := by omega
      have hm0 := Int.emod_nonneg sd (show stop - start + 1 ≠ 0 by omega)
      have hm1 := Int.emod_lt_of_pos sd hpos
      obtain ⟨L, p, G, e1, hL, hG, hp⟩ := sortAroundPivot_spec less A S B (f + 1)
        (sd % (stop - start + 1)).toNat (by omega) (by omega) start stop
        (start + sd % (stop - start + 1)) h0 h1 (by omega)
      rw [e1]
      simp only [Except.bind]
      have hlen : L.length + G.length + 1 = S.length := by
        have := hp.length_eq; simp at this; omega
      obtain ⟨L', E, f1, f2, f3⟩ := scanDown_spec eqv A start h0 L.length L p (G ++ B) (f + 1)
        ((A.length : Int) + L.length) rfl (by omega) rfl
      have eq1 : A ++ (L ++ p :: G) ++ B = A ++ L ++ p :: (G ++ B) := by simp
      obtain ⟨E', G', g1, g2, g3⟩ := scanUp_spec eqv B stop G (A ++ L) p (f + 1) ((A.length : Int) + L.length)
        (by omega) (by simp) (by omega)
      rw [eq1, f2]
      simp only
      rw [g2]
      simp only
      subst f1 g1
      simp only [List.length_append] at hlen
      obtain ⟨L'', k1, k2, k3⟩ := ih A L' (E ++ p :: (E' ++ G' ++ B)) start ((A.length : Int) + L'.length - 1) sd
        (by omega) h0 (by omega)
      have eq2 : A ++ (L' ++ E) ++ p :: (E' ++ G' ++ B) = A ++ L' ++ (E ++ p :: (E' ++ G' ++ B)) := by simp
      rw [eq2, k1]
      simp only
      have hl2 : L''.length = L'.length := k2.length_eq
      obtain ⟨G'', m1, m2, m3⟩ := ih (A ++ L'' ++ E ++ [p] ++ E') G' B
        (((A ++ (L' ++ E)).length : Int) + E'.length + 1) stop (wrap (sd + 1)) (by omega)
        (by simp; omega) (by simp; omega)
      have eq3 : A ++ L'' ++ (E ++ p :: (E' ++ G' ++ B)) = (A ++ L'' ++ E ++ [p] ++ E') ++ G' ++ B := by simp
      rw [eq3, m1]
      refine ⟨L'' ++ E ++ [p] ++ E' ++ G'', by simp, ?_, ?_⟩
      · refine List.Perm.trans ?_ hp
        have a1 : (L'' ++ E ++ [p] ++ E' ++ G'').Perm (L' ++ E ++ [p] ++ E' ++ G'') := by
          simp only [List.append_assoc]
          exact k2.append_right _
        have a2 : (L' ++ E ++ [p] ++ E' ++ G'').Perm (L' ++ E ++ [p] ++ E' ++ G') := m2.append_left _
        refine a1.trans (a2.trans ?_)
        simp
      · intro hw he
        -- values after the pivot are larger, so the upward scan never moves
        have hE' : E' = [] := by
          match E', g3, hG with
          | [], _, _ => rfl
          | x :: E', g3, hG =>
            rw [List.isChain_cons_cons] at g3
            have := (he p x g3.1).1
            have := hG x (by simp)
            simp_all
        subst hE'
        have hch := chain_equiv hw he _ f3
        rw [List.pairwise_append] at hch
        have hEp : ∀ x ∈ E, less x p = false ∧ less p x = false := fun x hx => hch.2.2 x hx p (by simp)
        have hL'p : ∀ x ∈ L'', less p x = false := fun x hx => hL x (by
          rw [List.mem_append]; exact Or.inl (k2.mem_iff.1 hx))
        have hGp : ∀ x ∈ G'', less p x = true := fun x hx => hG x (by simpa using m2.mem_iff.1 hx)
        have sE : (L'' ++ E ++ [p] ++ [] ++ G'') = L'' ++ (E ++ ([p] ++ G'')) := by simp
        rw [sE]
        unfold Sorted
        have hGx : ∀ x ∈ G'', less x p = false := fun x hx => hw.asymm _ _ (hGp x hx)
        rw [List.pairwise_append, List.pairwise_append, List.pairwise_append]
        refine ⟨k3 hw he, ⟨hch.1.imp (fun h => h.2), ⟨by simp, m3 hw he, ?_⟩, ?_⟩, ?_⟩
        · intro a ha b hb
          simp at ha; subst ha
          exact hGx b hb
        · intro a ha b hb
          rcases List.mem_append.1 hb with hb | hb
          · simp at hb; subst hb; exact (hEp a ha).2
          · exact hw.ntrans _ _ _ (hGx b hb) (hEp a ha).2
        · intro a ha b hb
          have pa := hL'p a ha
          rcases List.mem_append.1 hb with hb | hb
          · exact hw.ntrans _ _ _ (hEp b hb).1 pa
          · rcases List.mem_append.1 hb with hb | hb
            · simp at hb; subst hb; exact pa
            · exact hw.ntrans _ _ _ (hGx b hb) pa

theorem searchLoop_succ (lt eqv : α → α → Bool) (item : α) (vs : List α) (f : Nat) (low high : Int) :
    searchLoop lt eqv item vs (f + 1) low high = if low < high then
      (getAt vs ((low + high).fdiv 2)).bind fun x => (compareValues lt eqv x item).bind fun c =>
        if c < 0 then searchLoop lt eqv item vs f ((low + high).fdiv 2 + 1) high
        else if c > 0 then searchLoop lt eqv item vs f low ((low + high).fdiv 2)
        else .ok ((low + high).fdiv 2)
    else .ok low := rfl

/-- Binary search keeps "smaller before `low`, larger from `high` on". -/
theorem searchLoop_spec {lt eqv : α → α → Bool} (hw : StrictWeak lt) (item : α) (vs : List α) (hs : Sorted lt vs)
    : ∀ (f : Nat) (low high : Nat), high - low < f → low ≤ high → high ≤ vs.length →
    (∀ (j : Nat) (x : α), vs[j]? = some x → j < low → lt x item = true) →
    (∀ (j : Nat) (x : α), vs[j]? = some x → high ≤ j → lt item x = true) →
    (∃ i : Nat, searchLoop lt eqv item vs f low high = .ok (i : Int) ∧ i ≤ vs.length ∧
      ((∃ x, vs[i]? = some x ∧ eqv x item = true ∧ lt x item = false ∧ lt item x = false) ∨
       ((∀ (j : Nat) (x : α), vs[j]? = some x → j < i → lt x item = true) ∧
        (∀ (j : Nat) (x : α), vs[j]? = some x → i ≤ j → lt item x = true)))) ∨
    (searchLoop lt eqv item vs f low high = .error .nonTotal ∧
      ∃ x ∈ vs, lt x item = false ∧ lt item x = false ∧ eqv x item = false) := by
  have hsorted : ∀ (j k : Nat) (x y : α), vs[j]? = some x → vs[k]? = some y → j < k → lt y x = false := by
    intro j k x y hj hk hjk
    obtain ⟨hj', rfl⟩ := List.getElem?_eq_some_iff.1 hj
    obtain ⟨hk', rfl⟩ := List.getElem?_eq_some_iff.1 hk
    exact List.pairwise_iff_getElem.1 hs j k hj' hk' hjk
  have trans1 : ∀ a b c, lt a b = false → lt c b = true → lt c a = true := by
    intro a b c h1 h2
    cases h3 : lt c a with
    | true => rfl
    | false => have := hw.ntrans _ _ _ h3 h1; simp_all
  have trans2 : ∀ a b c, lt b a = false → lt b c = true → lt a c = true := by
    intro a b c h1 h2
    cases h3 : lt a c with
    | true => rfl
    | false => have := hw.ntrans _ _ _ h1 h3; simp_all
  intro f
  induction f with
  | zero => intro low high h; omega
  | succ f ih =>
    intro low high hf hlh hh hlow hhigh
    rw [searchLoop_succ]
    by_cases hc : (low : Int) < (high : Int)
    · rw [if_pos hc]
      have hmid : ((low : Int) + high).fdiv 2 = (((low + high) / 2 : Nat) : Int) := by
        rw [Int.fdiv_eq_ediv_of_nonneg _ (by omega)]; omega
      rw [hmid]
      have hm1 : low ≤ (low + high) / 2 := by omega
      have hm2 : (low + high) / 2 < high := by omega
      generalize (low + high) / 2 = mid at hm1 hm2
      have hml : mid < vs.length := by omega
      rw [getAt_nat hml]
      have hgm : vs[mid]? = some vs[mid] := List.getElem?_eq_getElem hml
      generalize vs[mid] = x at hgm
      simp only [Except.bind, compareValues]
      cases h1 : lt x item with
      | true =>
        simp only [↓reduceIte]
        rw [if_pos (by omega)]
        have := ih (mid + 1) high (by omega) (by omega) hh (by
          intro j y hj hjm
          rcases Nat.lt_or_ge j mid with hjm | hjm
          · exact trans2 y x item (hsorted j mid y x hj hgm hjm) h1
          · have : j = mid := by omega
            subst this
            rw [hj] at hgm
            injection hgm with e
            rw [e]; exact h1) hhigh
        simpa using this
      | false =>
        cases h2 : lt item x with
        | true =>
          simp only [Bool.false_eq_true, ↓reduceIte]
          rw [if_neg (by omega), if_pos (by omega)]
          exact ih low mid (by omega) (by omega) (by omega) hlow (by
            intro j y hj hjm
            rcases Nat.lt_or_ge mid j with hjm | hjm
            · exact trans1 y x item (hsorted mid j x y hgm hj hjm) h2
            · have : j = mid := by omega
              subst this
              rw [hj] at hgm
              injection hgm with e
              rw [e]; exact h2)
        | false =>
          cases h3 : eqv x item with
          | true =>
            left
            refine ⟨mid, by simp, by omega, Or.inl ⟨x, hgm, h3, h1, h2⟩⟩
          | false =>
            right
            refine ⟨by simp, x, List.mem_of_getElem? hgm, h1, h2, h3⟩
    · rw [if_neg hc]
      left
      have : low = high := by omega
      subst this
      exact ⟨low, rfl, hh, Or.inr ⟨hlow, hhigh⟩⟩

end Verif.Sorting
