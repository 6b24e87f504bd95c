import Verif.Loops.Proof
/-
The native code of a loop does what the loop does in Python.
-/
namespace Verif.Loops
open Verif.Gen

variable {σ E V Q T I X P α : Type}

/-- The same outcome and state; of the hidden variables, `R` holds. -/
def Sim (R : Hid Q I → Prop) : Res (G σ Q I) E V P → Res σ E V P → Prop
  | none, none => True
  | some (o', g), some (o, s) => o' = o ∧ g.1 = s ∧ R g.2
  | _, _ => False

/-- The hidden variables outside `L` are as in `h`. -/
def Same (L : List Nat) (h h' : Hid Q I) : Prop := ∀ k, k ∉ L → h' k = h k

theorem Sim.mono {R R' : Hid Q I → Prop} (hR : ∀ h, R h → R' h) {r' : Res (G σ Q I) E V P}
    {r : Res σ E V P} (h : Sim R r' r) : Sim R' r' r := by
  rcases r' with _ | ⟨o', g⟩ <;> rcases r with _ | ⟨o, s⟩
  · trivial
  · exact False.elim h
  · exact False.elim h
  · exact ⟨h.1, h.2.1, hR _ h.2.2⟩

theorem Same.refl (L : List Nat) (h : Hid Q I) : Same L h h := fun _ _ => rfl

theorem Same.trans {L L' M : List Nat} {h h' h'' : Hid Q I} (hL : ∀ k ∈ L, k ∈ M)
    (hL' : ∀ k ∈ L', k ∈ M) (a : Same L h h') (b : Same L' h' h'') : Same M h h'' :=
  fun k hk => (b k (fun x => hk (hL' k x))).trans (a k (fun x => hk (hL k x)))

theorem Same.mono {L M : List Nat} {h h' : Hid Q I} (hL : ∀ k ∈ L, k ∈ M) (a : Same L h h') :
    Same M h h' := fun k hk => a k (fun x => hk (hL k x))

/-- One after the other. -/
theorem sim_seqR {R R' : Hid Q I → Prop} {k' : G σ Q I → Res (G σ Q I) E V P}
    {k : σ → Res σ E V P} {r' : Res (G σ Q I) E V P} {r : Res σ E V P} (h : Sim R r' r)
    (hR : ∀ h, R h → R' h) (hk : ∀ g, R g.2 → Sim R' (k' g) (k g.1)) :
    Sim R' (seqR k' r') (seqR k r) := by
  rcases r' with _ | ⟨o', g⟩ <;> rcases r with _ | ⟨o, s⟩
  · trivial
  · exact False.elim h
  · exact False.elim h
  · obtain ⟨h1, h2, h3⟩ := h
    subst h1; subst h2
    cases o' with
    | norm => exact hk g h3
    | _ => exact ⟨rfl, rfl, hR _ h3⟩

/-- Expressions without hidden variables. -/
theorem sim_bindUp {R : Hid Q I → Prop} {f : Act σ E V α}
    {k' : α → G σ Q I → Res (G σ Q I) E V P} {k : α → σ → Res σ E V P} (g : G σ Q I)
    (hR : R g.2) (hk : ∀ a s, f g.1 = (s, .ok a) → Sim R (k' a (s, g.2)) (k a s)) :
    Sim R (bindR (up f) k' g) (bindR f k g.1) := by
  unfold bindR up
  rcases hf : f g.1 with ⟨s, e | a⟩
  · exact ⟨rfl, rfl, hR⟩
  · exact hk a s hf

/-- Tests without hidden variables. -/
theorem sim_condUp {R : Hid Q I → Prop} {t : Act σ E V Bool}
    {b' c' : G σ Q I → Res (G σ Q I) E V P} {b c : σ → Res σ E V P} (g : G σ Q I)
    (hR : R g.2) (hb : ∀ s, Sim R (b' (s, g.2)) (b s)) (hc : ∀ s, Sim R (c' (s, g.2)) (c s)) :
    Sim R (condR (up t) b' c' g) (condR t b c g.1) := by
  unfold condR up
  rcases t g.1 with ⟨s, e | _ | _⟩
  · exact ⟨rfl, rfl, hR⟩
  · exact hc s
  · exact hb s

theorem labelBreak_nonbrk {S : Type} {o : Out E V P} {s : S} (h : o ≠ .brk) :
    labelBreak (some (o, s)) = some (o, s) := by
  cases o <;> first | rfl | exact absurd rfl h

/-- A round: the body with its two labels does what a body of a loop does. -/
theorem sim_round {R R' : Hid Q I → Prop} {k' : G σ Q I → Res (G σ Q I) E V P}
    {k : σ → Res σ E V P} {r' : Res (G σ Q I) E V P} {r : Res σ E V P} (h : Sim R r' r)
    (hR : ∀ h, R h → R' h)
    (hk : ∀ o g, r = some (o, g.1) → o = .norm ∨ o = .cont → R g.2 →
      Sim R' (labelBreak (k' g)) (k g.1)) :
    Sim R' (labelBreak (seqR k' (labelContinue r'))) (againR k r) := by
  rcases r' with _ | ⟨o', g⟩ <;> rcases r with _ | ⟨o, s⟩
  · trivial
  · exact False.elim h
  · exact False.elim h
  · obtain ⟨h1, h2, h3⟩ := h
    subst h1; subst h2
    cases o' with
    | norm => exact hk _ g rfl (.inl rfl) h3
    | cont => exact hk _ g rfl (.inr rfl) h3
    | _ => exact ⟨rfl, rfl, hR _ h3⟩

theorem sim_labelBreak {R : Hid Q I → Prop} {r' : Res (G σ Q I) E V P} {r : Res σ E V P}
    (h : Sim R r' r) (hb : Not .brk r) : Sim R (labelBreak r') r := by
  rcases r' with _ | ⟨o', g⟩ <;> rcases r with _ | ⟨o, s⟩
  · trivial
  · exact False.elim h
  · exact False.elim h
  · obtain ⟨h1, h2, h3⟩ := h
    subst h1; subst h2
    rw [labelBreak_nonbrk (by intro e; subst e; exact hb _ rfl)]
    exact ⟨rfl, rfl, h3⟩

/-- `while`. -/
theorem while_sim {L L' : List Nat} {t : Act σ E V Bool} {b' c' : G σ Q I → Res (G σ Q I) E V P}
    {b c : σ → Res σ E V P} (hb : ∀ g, Sim (Same L g.2) (b' g) (b g.1))
    (hc : ∀ g, Sim (Same L' g.2) (c' g) (c g.1)) (hn : ∀ s, Not .brk (c s)) (h : Hid Q I) :
    ∀ n g, Same L h g.2 →
      Sim (Same (L ++ L') h)
        (labelBreak (nativeWhile (up t) (fun g => labelContinue (b' g)) c' n g)) (loopN t b c n g.1)
  | 0, _, _ => trivial
  | n + 1, g, hs => by
    rw [nativeWhile, loopN]
    unfold condR up
    have hs' : Same (L ++ L') h g.2 := hs.mono (by simp +contextual)
    rcases t g.1 with ⟨s, e | _ | _⟩
    · exact ⟨rfl, rfl, hs'⟩
    · exact sim_labelBreak ((hc (s, g.2)).mono (fun h' a =>
        Same.trans (by simp +contextual) (by simp +contextual) hs a)) (hn s)
    · refine sim_round (hb (s, g.2)) (fun h' a => ?_) (fun o g' _ _ a => ?_)
      · exact Same.trans (by simp +contextual) (by simp +contextual) hs a
      · exact while_sim hb hc hn h n g' (Same.trans (fun _ x => x) (fun _ x => x) hs a)

/-- Loops that are unrolled. -/
theorem unrolled_sim {L L' : List Nat} {target : X → Act σ E V Unit}
    {get : Nat → Act σ E V Unit} {bf : Bool} {e : Nat → X} {n : Nat} {W : σ → Prop}
    {b' c' : G σ Q I → Res (G σ Q I) E V P} {b c : σ → Res σ E V P}
    (hget : ∀ k s, k < n → W s → get k s = target (e k) s)
    (hW : ∀ k s s₁ s₂ o, k < n → W s → target (e k) s = (s₁, .ok ()) → b s₁ = some (o, s₂) →
      o = .norm ∨ o = .cont → W s₂)
    (hb : ∀ g, Sim (Same L g.2) (b' g) (b g.1)) (hc : ∀ g, Sim (Same L' g.2) (c' g) (c g.1))
    (hn : ∀ s, Not .brk (c s))
    (hbf : bf = false → ∀ s, Not .norm (b s) ∧ Not .brk (b s) ∧ Not .cont (b s))
    (h : Hid Q I) :
    ∀ l, (∀ k ∈ l, k < n) → ∀ g, W g.1 → Same L h g.2 →
      Sim (Same (L ++ L') h) (labelBreak (unrolled (fun k => up (get k)) bf b' c' l g))
        (listFor target b c (l.map e) g.1)
  | [], _, g, _, hs => by
    exact sim_labelBreak ((hc g).mono (fun h' a =>
        Same.trans (by simp +contextual) (by simp +contextual) hs a)) (hn g.1)
  | k :: l, hl, g, hw, hs => by
    rw [List.map_cons, unrolled, listFor]
    unfold bindR up
    have hk : k < n := hl k (by simp)
    have hs' : Same (L ++ L') h g.2 := hs.mono (by simp +contextual)
    rw [hget k g.1 hk hw]
    rcases ht : target (e k) g.1 with ⟨s, x | x⟩
    · exact ⟨rfl, rfl, hs'⟩
    · cases bf with
      | true =>
        refine sim_round (hb (s, g.2)) (fun h' a => ?_) (fun o g' hr ho a => ?_)
        · exact Same.trans (by simp +contextual) (by simp +contextual) hs a
        · exact unrolled_sim hget hW hb hc hn hbf h l (fun k hk => hl k (by simp [hk])) g'
            (hW k g.1 s _ o hk hw ht hr ho) (Same.trans (fun _ x => x) (fun _ x => x) hs a)
      | false =>
        obtain ⟨n1, n2, n3⟩ := hbf rfl s
        have hB := hb (s, g.2)
        change Sim (Same L g.2) (b' (s, g.2)) (b s) at hB
        change Sim _ (labelBreak (labelContinue (b' (s, g.2))))
          (againR (listFor target b c (l.map e)) (b s))
        generalize b' (s, g.2) = r' at hB
        generalize b s = r at hB n1 n2 n3
        rcases r' with _ | ⟨o', g'⟩ <;> rcases r with _ | ⟨o, s'⟩
        · trivial
        · exact False.elim hB
        · exact False.elim hB
        · obtain ⟨h1, h2, h3⟩ := hB
          subst h1; subst h2
          have h3' := Same.trans (M := L ++ L') (by simp +contextual) (by simp +contextual) hs h3
          cases o' with
          | norm => exact absurd rfl (n1 _)
          | brk => exact absurd rfl (n2 _)
          | cont => exact absurd rfl (n3 _)
          | ret v => exact ⟨rfl, rfl, h3'⟩
          | exc v => exact ⟨rfl, rfl, h3'⟩
          | susp v => exact ⟨rfl, rfl, h3'⟩

theorem set_self (h : Hid Q I) (k : Nat) (f : HVars Q I → HVars Q I) : h.set k f k = f (h k) := by
  simp [Hid.set]

theorem set_other (h : Hid Q I) {k k' : Nat} (f : HVars Q I → HVars Q I) (hk : k' ≠ k) :
    h.set k f k' = h k' := by
  simp [Hid.set, hk]

theorem condR_err {S : Type} {t : S → S × Except (Exc E V) Bool} {b c : S → Res S E V P} {s s' : S}
    {e : Exc E V} (h : t s = (s', .error e)) : condR t b c s = some (.exc e, s') := by
  unfold condR; rw [h]

theorem condR_true {S : Type} {t : S → S × Except (Exc E V) Bool} {b c : S → Res S E V P}
    {s s' : S} (h : t s = (s', .ok true)) : condR t b c s = b s' := by
  unfold condR; rw [h]

theorem condR_false {S : Type} {t : S → S × Except (Exc E V) Bool} {b c : S → Res S E V P}
    {s s' : S} (h : t s = (s', .ok false)) : condR t b c s = c s' := by
  unfold condR; rw [h]

theorem bindR_err {S : Type} {f : S → S × Except (Exc E V) α} {k : α → S → Res S E V P} {s s' : S}
    {e : Exc E V} (h : f s = (s', .error e)) : bindR f k s = some (.exc e, s') := by
  unfold bindR; rw [h]

theorem bindR_ok {S : Type} {f : S → S × Except (Exc E V) α} {k : α → S → Res S E V P} {s s' : S}
    {a : α} (h : f s = (s', .ok a)) : bindR f k s = k a s' := by
  unfold bindR; rw [h]

theorem iterTest_eq (p : Iter σ E V Q T I X) {k : Nat} {i : I} (target : X → Act σ E V Unit)
    {g : G σ Q I} (h : (g.2 k).iter = some i) :
    iterTest p k target g =
      (((iterCond p target i g.1).1, g.2), (iterCond p target i g.1).2) := by
  unfold iterTest up
  rw [h]
  rfl

/-- Loops over an iterator. -/
theorem iter_sim {L L' : List Nat} {k : Nat} (p : Iter σ E V Q T I X) (i : I)
    {target : X → Act σ E V Unit} {b' c' : G σ Q I → Res (G σ Q I) E V P} {b c : σ → Res σ E V P}
    (hk : k ∉ L)
    (hb : ∀ g, Sim (Same L g.2) (b' g) (b g.1)) (hc : ∀ g, Sim (Same L' g.2) (c' g) (c g.1))
    (hn : ∀ s, Not .brk (c s)) (h : Hid Q I) :
    ∀ n g, (g.2 k).iter = some i → Same (k :: L) h g.2 →
      Sim (Same (k :: (L ++ L')) h)
        (labelBreak (nativeWhile (iterTest p k target) (fun g => labelContinue (b' g)) c' n g))
        (iterFor p i target b c n g.1)
  | 0, _, _, _ => trivial
  | n + 1, g, hi, hs => by
    rw [nativeWhile, iterFor]
    have hM : ∀ x ∈ k :: L, x ∈ k :: (L ++ L') := fun x hx => by
        rcases List.mem_cons.mp hx with hx | hx
        · exact List.mem_cons.mpr (.inl hx)
        · exact List.mem_cons_of_mem _ (List.mem_append_left _ hx)
    have hs' : Same (k :: (L ++ L')) h g.2 := hs.mono hM
    have hM1 : ∀ x ∈ L, x ∈ k :: (L ++ L') := fun x hx => hM x (List.mem_cons_of_mem _ hx)
    have hM2 : ∀ x ∈ L', x ∈ k :: (L ++ L') := fun x hx =>
      List.mem_cons_of_mem _ (List.mem_append_right _ hx)
    have htest := iterTest_eq p target hi
    rcases hst : p.step i g.1 with ⟨s, e | _ | x⟩
    · have hc' : iterCond p target i g.1 = (s, .error e) := by unfold iterCond; rw [hst]
      rw [hc'] at htest
      rw [condR_err htest, bindR_err hst]
      exact ⟨rfl, rfl, hs'⟩
    · have hc' : iterCond p target i g.1 = (s, .ok false) := by unfold iterCond; rw [hst]
      rw [hc'] at htest
      rw [condR_false htest, bindR_ok hst]
      exact sim_labelBreak ((hc (s, g.2)).mono (fun h' a => Same.trans hM hM2 hs a)) (hn s)
    · rcases ht : target x s with ⟨s1, e | u⟩
      · have hc' : iterCond p target i g.1 = (s1, .error e) := by
          unfold iterCond; rw [hst]; simp only [ht]
        rw [hc'] at htest
        rw [condR_err htest, bindR_ok hst]
        change Sim _ _ (bindR (target x) _ s)
        rw [bindR_err ht]
        exact ⟨rfl, rfl, hs'⟩
      · have hc' : iterCond p target i g.1 = (s1, .ok true) := by
          unfold iterCond; rw [hst]; simp only [ht]
        rw [hc'] at htest
        rw [condR_true htest, bindR_ok hst]
        change Sim _ _ (bindR (target x) _ s)
        rw [bindR_ok ht]
        refine sim_round (hb (s1, g.2)) (fun h' a => Same.trans hM hM1 hs a)
          (fun o g' hr ho a => ?_)
        refine iter_sim p i hk hb hc hn h n g' ?_
          (Same.trans (fun _ x => x) (fun x hx => List.mem_cons_of_mem _ hx) hs a)
        rw [a k hk]
        exact hi

theorem seqItem_eq {value : Q → Nat → Act σ E V X} {k i : Nat} {q : Q}
    (target : X → Act σ E V Unit) {g : G σ Q I} (h : (g.2 k).over = some q)
    (hi : (g.2 k).idx = i) :
    seqItem value k target g =
      match value q i g.1 with
      | (s', .error x) => ((s', g.2), .error x)
      | (s', .ok x) => (((target x s').1, g.2), (target x s').2) := by
  unfold seqItem up
  rw [h, hi]
  unfold getOr
  dsimp only
  rcases value q i g.1 with ⟨s1, e | x⟩ <;> rfl

/-- Loops over a sequence that keeps its length. -/
theorem seq_sim {L : List Nat} {k : Nat} (p : Iter σ E V Q T I X)
    {value : Q → Nat → Act σ E V X} (hv : ∀ q i s, i < p.size q s → value q i s = p.item q i s)
    (q : Q) (m : Nat) {J : σ → Prop} (hJ : ∀ s, J s → p.size q s = m)
    {target : X → Act σ E V Unit} {b' : G σ Q I → Res (G σ Q I) E V P} {b : σ → Res σ E V P}
    (hstep : ∀ i s x s₁ s₂ s₃ o, J s → i < m → p.item q i s = (s₁, .ok x) →
      target x s₁ = (s₂, .ok ()) → b s₂ = some (o, s₃) → o = .norm ∨ o = .cont → J s₃)
    (hk : k ∉ L) (hb : ∀ g, Sim (Same L g.2) (b' g) (b g.1)) (h : Hid Q I) :
    ∀ n i g, J g.1 → (g.2 k).over = some q → (g.2 k).max = m → (g.2 k).idx = i →
      (g.2 k).trigger = false → Same (k :: L) h g.2 →
      Sim (fun h' => Same (k :: L) h h' ∧ (h' k).trigger = false)
        (seqWhile value n k target b' g)
        (seqFor p q target b (fun s => some (.norm, s)) n i g.1)
  | 0, _, _, _, _, _, _, _, _ => trivial
  | n + 1, i, g, hj, ho, hm, hi, ht, hs => by
    rw [seqWhile, nativeWhile, seqFor]
    have hsz := hJ g.1 hj
    rw [hsz]
    have htest : seqTest (E := E) (V := V) k g = (g, .ok (decide (i < m))) := by
      unfold seqTest; rw [hm, hi]
    by_cases hlt : i < m
    · rw [decide_eq_true hlt] at htest
      rw [condR_true htest, if_pos hlt]
      change Sim _ (labelBreak (seqR _ (labelContinue (bindR _ _ _)))) _
      have hval : value q i g.1 = p.item q i g.1 := hv q i g.1 (by rw [hsz]; exact hlt)
      have hup := seqItem_eq (value := value) target ho hi
      rw [hval] at hup
      rcases hit : p.item q i g.1 with ⟨s1, e | x⟩
      · rw [hit] at hup
        rw [bindR_err hup, bindR_err hit]
        exact ⟨rfl, rfl, hs, ht⟩
      · rw [hit] at hup
        rw [bindR_ok hit]
        change Sim _ _ (bindR (target x) _ s1)
        rcases htg : target x s1 with ⟨s2, e | u⟩
        · change _ = (((target x s1).1, g.2), (target x s1).2) at hup
          rw [htg] at hup
          rw [bindR_err hup, bindR_err htg]
          exact ⟨rfl, rfl, hs, ht⟩
        · change _ = (((target x s1).1, g.2), (target x s1).2) at hup
          rw [htg] at hup
          rw [bindR_ok hup, bindR_ok htg]
          have hB := hb (s2, g.2.set k (fun v => { v with idx := v.idx + 1 }))
          have hS : Same (k :: L) h (g.2.set k (fun v => { v with idx := v.idx + 1 })) := by
            intro k' hk'
            rw [set_other _ _ (by intro e; exact hk' (by simp [e]))]
            exact hs k' hk'
          refine sim_round hB (fun h' a => ⟨Same.trans (fun _ x => x)
            (fun x hx => List.mem_cons_of_mem _ hx) hS a, ?_⟩) (fun o g' hr ho' a => ?_)
          · rw [a k hk]
            change (g.2.set k _ k).trigger = false
            rw [set_self]; exact ht
          · have hak : g'.2 k = { g.2 k with idx := (g.2 k).idx + 1 } :=
              by have := a k hk; dsimp only at this; rw [set_self] at this; exact this
            exact seq_sim p hv q m hJ hstep hk hb h n (i + 1) g'
              (hstep i g.1 x s1 s2 _ o hj hlt hit htg hr ho')
              (by rw [hak]; exact ho) (by rw [hak]; exact hm) (by rw [hak, ← hi])
              (by rw [hak]; exact ht)
              (Same.trans (fun _ x => x) (fun x hx => List.mem_cons_of_mem _ hx) hS a)
    · rw [decide_eq_false hlt] at htest
      rw [condR_false htest, if_neg hlt]
      exact ⟨rfl, rfl, hs, ht⟩

/-! ### Statements -/

theorem hset_err {k : Nat} {e : HVars Q I → Act σ E V α} {put : α → HVars Q I → HVars Q I}
    {g : G σ Q I} {s : σ} {x : Exc E V} (h : e (g.2 k) g.1 = (s, .error x)) :
    hset k e put g = ((s, g.2), .error x) := by
  unfold hset; rw [h]

theorem hset_ok {k : Nat} {e : HVars Q I → Act σ E V α} {put : α → HVars Q I → HVars Q I}
    {g : G σ Q I} {s : σ} {a : α} (h : e (g.2 k) g.1 = (s, .ok a)) :
    hset k e put g = ((s, g.2.set k (put a)), .ok ()) := by
  unfold hset; rw [h]

theorem same_set (h : Hid Q I) (k : Nat) (L : List Nat) (f : HVars Q I → HVars Q I) :
    Same (k :: L) h (h.set k f) := fun k' hk' =>
  set_other _ _ (by intro e; exact hk' (by simp [e]))

/-- What the code of a loop over a sequence does before the loop. -/
theorem seqCode_start (p : Iter σ E V Q T I X) (value : Q → Nat → Act σ E V X) (N k : Nat)
    {it : Act σ E V Q} (target : X → Act σ E V Unit)
    (body orelse : G σ Q I → Res (G σ Q I) E V P) (g : G σ Q I) {s : σ} {q : Q}
    (h : it g.1 = (s, .ok q)) :
    ∃ h', h' k = { g.2 k with over := some q, max := p.size q s, idx := 0, trigger := false } ∧
      Same [k] g.2 h' ∧
      seqCode p value N k it target body orelse g =
        seqR (condR (fun g => (g, .ok (g.2 k).trigger)) orelse (fun g => some (.norm, g)))
          (seqWhile value N k target body (s, h')) := by
  refine ⟨(((g.2.set k (fun v => { v with over := some q })).set k
      (fun v => { v with max := p.size q s })).set k (fun v => { v with idx := 0 })).set k
      (fun v => { v with trigger := false }), ?_, ?_, ?_⟩
  · rw [set_self, set_self, set_self, set_self]
  · intro k' hk'
    have : k' ≠ k := by intro e; exact hk' (by simp [e])
    rw [set_other _ _ this, set_other _ _ this, set_other _ _ this, set_other _ _ this]
  · unfold seqCode thenR
    rw [bindR_ok (hset_ok h)]
    have h2 : getOr ((g.2.set k (fun v => { v with over := some q }) k).over)
        (fun q s => ((s, .ok (p.size q s)) : σ × Except (Exc E V) Nat)) s
        = (s, .ok (p.size q s)) := by
      rw [set_self]; rfl
    rw [bindR_ok (hset_ok h2), bindR_ok (hset_ok rfl), bindR_ok (hset_ok rfl)]

theorem seqCode_err (p : Iter σ E V Q T I X) (value : Q → Nat → Act σ E V X) (N k : Nat)
    {it : Act σ E V Q} (target : X → Act σ E V Unit)
    (body orelse : G σ Q I → Res (G σ Q I) E V P) (g : G σ Q I) {s : σ} {x : Exc E V}
    (h : it g.1 = (s, .error x)) :
    seqCode p value N k it target body orelse g = some (.exc x, (s, g.2)) := by
  unfold seqCode thenR
  rw [bindR_err (hset_err h)]

theorem tup_flag (p : Iter σ E V Q T I X) (N : Nat) {n : Nat} {b c : Block σ E V Q T I X}
    (hp : plainTup n b c) (hg : b.Good p) :
    b.flows = false → n ≠ 0 →
      ∀ s, Not .norm (execB p N b s) ∧ Not .brk (execB p N b s) ∧ Not .cont (execB p N b s) := by
  intro hbf hn s
  obtain ⟨_, _, h3⟩ := hp
  have hj : b.hasBrk = false ∧ b.hasCont = false := by
    rcases h3 with h3 | h3 | h3
    · exact absurd h3 hn
    · rw [hbf] at h3; cases h3
    · exact h3
  exact ⟨execB_ends p N b hg hbf s, execB_noBrk p N hj.1 s, execB_noCont p N hj.2 s⟩

mutual
/-- The native code of a statement does what the statement does. -/
theorem lower_sim (p : Iter σ E V Q T I X) {value : Q → Nat → Act σ E V X}
    (hv : ∀ q i s, i < p.size q s → value q i s = p.item q i s) (N : Nat) :
    ∀ (x : Stmt σ E V Q T I X), x.Good p →
      ∀ g, Sim (Same x.lines g.2) (lower p value N x g) (exec p N x g.1)
  | .prim f, _, g => by
    rw [lower, exec]
    exact sim_bindUp g (Same.refl _ _) (fun _ s _ => ⟨rfl, rfl, Same.refl _ _⟩)
  | .ite t b c, hg, g => by
    rw [lower, exec, Stmt.lines]
    exact sim_condUp g (Same.refl _ _)
      (fun s => (lowerB_sim p hv N b hg.1 (s, g.2)).mono
        (fun _ a => a.mono (fun _ x => List.mem_append_left _ x)))
      (fun s => (lowerB_sim p hv N c hg.2 (s, g.2)).mono
        (fun _ a => a.mono (fun _ x => List.mem_append_right _ x)))
  | .whl t b c, hg, g => by
    rw [lower, exec, Stmt.lines]
    exact while_sim (lowerB_sim p hv N b hg.1) (lowerB_sim p hv N c hg.2.1)
      (execB_noBrk p N hg.2.2.1) g.2 N g (Same.refl _ _)
  | .forSeq k it target b c, hg, g => by
    obtain ⟨g1, g2, rfl, J, j1, j2, j3⟩ := hg
    rw [lower, exec]
    rcases hit : it g.1 with ⟨s, e | q⟩
    · rw [seqCode_err p value N k target _ _ g hit, bindR_err hit]
      exact ⟨rfl, rfl, Same.refl _ _⟩
    · obtain ⟨h', e1, e2, e3⟩ := seqCode_start p value N k target (lowerB p value N b)
        (lowerB p value N .nil) g hit
      rw [e3, bindR_ok hit]
      have hM : ∀ x ∈ k :: b.lines, x ∈ (Stmt.forSeq k it target b .nil).lines := by
        intro x hx
        rw [Stmt.lines]
        rcases List.mem_cons.mp hx with hx | hx
        · exact List.mem_cons.mpr (.inl hx)
        · exact List.mem_cons_of_mem _ (List.mem_append_left _ hx)
      have hS : Same (k :: b.lines) g.2 h' := e2.mono (by simp)
      have hnil : execB p N (Block.nil : Block σ E V Q T I X) = fun s => some (.norm, s) := by
        funext s; rw [execB]
      have key := seq_sim p hv q (p.size q s) (J := J q (p.size q s)) (fun s' => j2 q _ s')
        (fun i s₀ x s₁ s₂ s₃ o => j3 N q (p.size q s) i s₀ x s₁ s₂ s₃ o) g2
        (lowerB_sim p hv N b g1) g.2 N 0 (s, h') (j1 _ _ _ hit) (by dsimp only; rw [e1])
        (by dsimp only; rw [e1]) (by dsimp only; rw [e1]) (by dsimp only; rw [e1]) hS
      rw [hnil]
      generalize seqWhile value N k target (lowerB p value N b) (s, h') = r' at key
      generalize seqFor p q target (execB p N b) (fun s => some (.norm, s)) N 0 s = r at key
      rcases r' with _ | ⟨o', g'⟩ <;> rcases r with _ | ⟨o, s'⟩
      · trivial
      · exact False.elim key
      · exact False.elim key
      · obtain ⟨h1, h2, h3, h4⟩ := key
        subst h1; subst h2
        cases o' with
        | norm =>
          rw [seqR, condR_false (s' := g') (by rw [h4])]
          exact ⟨rfl, rfl, h3.mono hM⟩
        | _ => exact ⟨rfl, rfl, h3.mono hM⟩
  | .forTup n it target b c, hg, g => by
    rw [lower, exec, Stmt.lines]
    refine sim_bindUp g (Same.refl _ _) (fun t s _ => ?_)
    by_cases hn : n = 0
    · subst hn
      exact sim_labelBreak ((lowerB_sim p hv N c hg.2.1 (s, g.2)).mono
        (fun _ a => a.mono (fun _ x => List.mem_append_right _ x)))
        (execB_noBrk p N hg.2.2.1 s)
    · exact unrolled_sim (n := n) (e := p.elem t) (get := fun k => target (p.elem t k))
        (W := fun _ => True) (fun _ _ _ _ => rfl)
        (fun _ _ _ _ _ _ _ _ _ _ => trivial) (lowerB_sim p hv N b hg.1)
        (lowerB_sim p hv N c hg.2.1) (execB_noBrk p N hg.2.2.1)
        (fun hb => tup_flag p N hg.2.2 hg.1 hb hn) g.2 (List.range n)
        (fun k hk => List.mem_range.mp hk) (s, g.2) trivial (Same.refl _ _)
  | .forVar n read target b c, hg, g => by
    rw [lower, exec, Stmt.lines]
    by_cases hn : n = 0
    · subst hn
      exact sim_labelBreak ((lowerB_sim p hv N c hg.2.1 g).mono
        (fun _ a => a.mono (fun _ x => List.mem_append_right _ x)))
        (execB_noBrk p N hg.2.2.1.1 g.1)
    · exact unrolled_sim (n := n) (e := p.elem (read g.1)) (W := fun s => read s = read g.1)
        (fun k s _ hw => by change target (p.elem (read s) k) s = _; rw [hw])
        (fun k s s₁ s₂ o hk hw ht hb ho => by
          rw [← hw] at ht
          exact (hg.2.2.2 N k s s₁ s₂ o hk ht hb ho).trans hw)
        (lowerB_sim p hv N b hg.1)
        (lowerB_sim p hv N c hg.2.1) (execB_noBrk p N hg.2.2.1.1)
        (fun hb => tup_flag p N hg.2.2.1 hg.1 hb hn) g.2 (List.range n)
        (fun k hk => List.mem_range.mp hk) g rfl (Same.refl _ _)
  | .forIter k it target b c, hg, g => by
    rw [lower, exec, Stmt.lines]
    unfold iterCode thenR
    rcases hit : it g.1 with ⟨s, e | i⟩
    · rw [bindR_err (hset_err hit), bindR_err hit]
      exact ⟨rfl, rfl, Same.refl _ _⟩
    · rw [bindR_ok (hset_ok hit), bindR_ok hit]
      exact iter_sim p i hg.2.2.2 (lowerB_sim p hv N b hg.1) (lowerB_sim p hv N c hg.2.1)
        (execB_noBrk p N hg.2.2.1.1) g.2 N (s, _) (by change (g.2.set k _ k).iter = _; rw [set_self])
        (by dsimp only; exact same_set _ _ _ _)
  | .brk, _, g => by rw [lower, exec]; exact ⟨rfl, rfl, Same.refl _ _⟩
  | .cont, _, g => by rw [lower, exec]; exact ⟨rfl, rfl, Same.refl _ _⟩
  | .ret e, _, g => by
    rw [lower, exec]
    exact sim_bindUp g (Same.refl _ _) (fun _ s _ => ⟨rfl, rfl, Same.refl _ _⟩)
/-- The native code of a list of statements does what the statements do. -/
theorem lowerB_sim (p : Iter σ E V Q T I X) {value : Q → Nat → Act σ E V X}
    (hv : ∀ q i s, i < p.size q s → value q i s = p.item q i s) (N : Nat) :
    ∀ (x : Block σ E V Q T I X), x.Good p →
      ∀ g, Sim (Same x.lines g.2) (lowerB p value N x g) (execB p N x g.1)
  | .nil, _, g => by rw [lowerB, execB]; exact ⟨rfl, rfl, Same.refl _ _⟩
  | .cons x r, hg, g => by
    rw [lowerB, execB, Block.lines]
    have hx := lower_sim p hv N x hg.1 g
    by_cases hf : x.flows = true
    · rw [if_pos hf]
      exact sim_seqR hx (fun _ a => a.mono (fun _ x => List.mem_append_left _ x))
        (fun g' a => (lowerB_sim p hv N r hg.2 g').mono (fun _ b => Same.trans
          (fun _ x => List.mem_append_left _ x) (fun _ x => List.mem_append_right _ x) a b))
    · rw [if_neg hf]
      have hn := exec_ends p N x hg.1 (by simpa using hf) g.1
      generalize exec p N x g.1 = r₀ at hx hn
      have hs : seqR (execB p N r) r₀ = r₀ := by
        rcases r₀ with _ | ⟨o, s⟩
        · rfl
        · cases o <;> first | rfl | exact absurd rfl (hn s)
      rw [hs]
      exact hx.mono (fun _ a => a.mono (fun _ x => List.mem_append_left _ x))
end

end Verif.Loops
