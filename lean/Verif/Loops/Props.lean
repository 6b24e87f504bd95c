import Verif.Loops.Sim
import Verif.Common
/-
C57: loops in compiled functions that are not generators.
-/
namespace Verif.Loops
open Verif.Gen

variable {σ E V Q T I X P α : Type}

/-- C57 `loops_compiled_as_python_partial`.

A compiled function whose body consists of simple statements, `if`, `while`, `for`, `break`,
`continue` and `return` ends as it does in Python, with the same value or exception and in the
same state, for every program and every state, if `Block.Good` holds of the body, and if reading
an item of a sequence is right for the items that there are.

Missing: the programs of which `Block.Good` does not hold; `loops_compiled_as_python_refuted` shows
what then happens. -/
theorem loops_compiled_as_python_partial (p : Iter σ E V Q T I X)
    (value : Q → Nat → Act σ E V X)
    (hv : ∀ q i s, i < p.size q s → value q i s = p.item q i s)
    (b : Block σ E V Q T I X) (hb : b.Good p) (N : Nat) (s : σ) :
    callCompiled p value N b s = call p N b s := by
  have h := lowerB_sim p hv N b hb (s, Hid.empty)
  change Sim _ _ (execB p N b s) at h
  unfold callCompiled call
  generalize lowerB p value N b (s, Hid.empty) = r' at h
  rcases hr : execB p N b s with _ | ⟨o, s'⟩ <;> rw [hr] at h <;> rcases r' with _ | ⟨o', g⟩
  · rfl
  · exact False.elim h
  · exact False.elim h
  · obtain ⟨h1, h2, _⟩ := h
    subst h1; subst h2
    cases o' with
    | norm =>
      have hf : b.flows = true := by
        cases hf : b.flows with
        | true => rfl
        | false => exact absurd hr (execB_ends p N b hb hf s _)
      simp only [hf, if_true]
    | _ => rfl

/-! ### What the code of a statement leaves alone -/

/-- The hidden variables outside `L` are as in `h`. -/
def Frame (L : List Nat) (h : Hid Q I) (r : Res (G σ Q I) E V P) : Prop :=
  ∀ o g, r = some (o, g) → Same L h g.2

theorem frame_none (L : List Nat) (h : Hid Q I) : Frame L h (none : Res (G σ Q I) E V P) := by
  intro o g e; cases e

theorem frame_some {L : List Nat} {h : Hid Q I} {o : Out E V P} {g : G σ Q I}
    (hs : Same L h g.2) : Frame L h (some (o, g)) := by
  intro o g e; cases e; exact hs

theorem Frame.mono {L M : List Nat} {h : Hid Q I} {r : Res (G σ Q I) E V P}
    (hL : ∀ k ∈ L, k ∈ M) (hr : Frame L h r) : Frame M h r :=
  fun o g e => (hr o g e).mono hL

theorem frame_seqR {L : List Nat} {h : Hid Q I} {k : G σ Q I → Res (G σ Q I) E V P}
    {r : Res (G σ Q I) E V P} (hr : Frame L h r) (hk : ∀ g, Same L h g.2 → Frame L h (k g)) :
    Frame L h (seqR k r) := by
  rcases r with _ | ⟨o, g⟩
  · exact hr
  · cases o with
    | norm => exact hk g (hr _ g rfl)
    | _ => exact hr

theorem frame_labelBreak {L : List Nat} {h : Hid Q I} {r : Res (G σ Q I) E V P}
    (hr : Frame L h r) : Frame L h (labelBreak r) := by
  rcases r with _ | ⟨o, g⟩
  · exact hr
  · cases o with
    | brk => exact frame_some (hr _ g rfl)
    | _ => exact hr

theorem frame_labelContinue {L : List Nat} {h : Hid Q I} {r : Res (G σ Q I) E V P}
    (hr : Frame L h r) : Frame L h (labelContinue r) := by
  rcases r with _ | ⟨o, g⟩
  · exact hr
  · cases o with
    | cont => exact frame_some (hr _ g rfl)
    | _ => exact hr

theorem frame_bindR {L : List Nat} {h : Hid Q I} {f : G σ Q I → G σ Q I × Except (Exc E V) α}
    {k : α → G σ Q I → Res (G σ Q I) E V P} {g : G σ Q I} (hf : Same L h (f g).1.2)
    (hk : ∀ a g, Same L h g.2 → Frame L h (k a g)) : Frame L h (bindR f k g) := by
  unfold bindR
  rcases hfg : f g with ⟨g', e | a⟩
  · rw [hfg] at hf; exact frame_some hf
  · rw [hfg] at hf; exact hk a g' hf

theorem frame_condR {L : List Nat} {h : Hid Q I} {t : G σ Q I → G σ Q I × Except (Exc E V) Bool}
    {b c : G σ Q I → Res (G σ Q I) E V P} {g : G σ Q I} (ht : Same L h (t g).1.2)
    (hb : ∀ g, Same L h g.2 → Frame L h (b g)) (hc : ∀ g, Same L h g.2 → Frame L h (c g)) :
    Frame L h (condR t b c g) := by
  unfold condR
  rcases htg : t g with ⟨g', e | _ | _⟩
  · rw [htg] at ht; exact frame_some ht
  · rw [htg] at ht; exact hc g' ht
  · rw [htg] at ht; exact hb g' ht

theorem frame_while {L : List Nat} {h : Hid Q I} {t : G σ Q I → G σ Q I × Except (Exc E V) Bool}
    {b c : G σ Q I → Res (G σ Q I) E V P} (ht : ∀ g, (t g).1.2 = g.2)
    (hb : ∀ g, Same L h g.2 → Frame L h (b g)) (hc : ∀ g, Same L h g.2 → Frame L h (c g)) :
    ∀ n g, Same L h g.2 → Frame L h (nativeWhile t b c n g)
  | 0, _, _ => frame_none _ _
  | n + 1, g, hs => by
    rw [nativeWhile]
    exact frame_condR (by rw [ht]; exact hs)
      (fun g' hg' => frame_seqR (hb g' hg') (frame_while ht hb hc n)) hc

theorem frame_unrolled {L : List Nat} {h : Hid Q I}
    {get : Nat → G σ Q I → G σ Q I × Except (Exc E V) Unit} {bf : Bool}
    {b c : G σ Q I → Res (G σ Q I) E V P} (ht : ∀ k g, (get k g).1.2 = g.2)
    (hb : ∀ g, Same L h g.2 → Frame L h (b g)) (hc : ∀ g, Same L h g.2 → Frame L h (c g)) :
    ∀ l g, Same L h g.2 → Frame L h (unrolled get bf b c l g)
  | [], g, hs => hc g hs
  | k :: l, g, hs => by
    rw [unrolled]
    refine frame_bindR (by rw [ht]; exact hs) (fun _ g' hg' => ?_)
    cases bf with
    | true => exact frame_seqR (frame_labelContinue (hb g' hg')) (frame_unrolled ht hb hc l)
    | false => exact frame_labelContinue (hb g' hg')

theorem same_step {k : Nat} {L : List Nat} {h h' : Hid Q I} (f : HVars Q I → HVars Q I)
    (hs : Same (k :: L) h h') : Same (k :: L) h (h'.set k f) :=
  Same.trans (fun _ x => x) (fun _ x => x) hs (same_set h' k L f)

theorem frame_hset {k : Nat} {L : List Nat} {h : Hid Q I} {e : HVars Q I → Act σ E V α}
    {put : α → HVars Q I → HVars Q I} {next : G σ Q I → Res (G σ Q I) E V P} {g : G σ Q I}
    (hs : Same (k :: L) h g.2) (hk : ∀ g, Same (k :: L) h g.2 → Frame (k :: L) h (next g)) :
    Frame (k :: L) h (thenR (hset k e put) next g) := by
  unfold thenR
  refine frame_bindR ?_ (fun _ => hk)
  rcases he : e (g.2 k) g.1 with ⟨s, x | a⟩
  · rw [hset_err he]; exact hs
  · rw [hset_ok he]; exact same_step _ hs

theorem frame_seqWhile {value : Q → Nat → Act σ E V X} {k : Nat} {L : List Nat} {h : Hid Q I}
    {target : X → Act σ E V Unit} {b : G σ Q I → Res (G σ Q I) E V P}
    (hb : ∀ g, Same (k :: L) h g.2 → Frame (k :: L) h (b g)) (N : Nat) (g : G σ Q I)
    (hs : Same (k :: L) h g.2) : Frame (k :: L) h (seqWhile value N k target b g) := by
  refine frame_labelBreak (frame_while (fun g => rfl) (fun g hg => ?_)
    (fun g hg => frame_some hg) N g hs)
  refine frame_labelContinue ?_
  change Frame _ _ (bindR _ _ g)
  exact frame_bindR (by exact hg) (fun _ g' hg' => frame_hset hg' hb)

mutual
theorem lower_frame (p : Iter σ E V Q T I X) (value : Q → Nat → Act σ E V X) (N : Nat) :
    ∀ (x : Stmt σ E V Q T I X) (g : G σ Q I), Frame x.lines g.2 (lower p value N x g)
  | .prim f, g => by
    rw [lower]
    exact frame_bindR (Same.refl _ _) (fun _ g' hg' => frame_some hg')
  | .ite t b c, g => by
    rw [lower, Stmt.lines]
    have hb := lowerB_frame p value N b
    have hc := lowerB_frame p value N c
    refine frame_condR (Same.refl _ _) (fun g' hg' => ?_) (fun g' hg' => ?_)
    · intro o g'' e
      exact Same.trans (fun _ x => x) (fun _ x => List.mem_append_left _ x) hg' (hb g' o g'' e)
    · intro o g'' e
      exact Same.trans (fun _ x => x) (fun _ x => List.mem_append_right _ x) hg' (hc g' o g'' e)
  | .whl t b c, g => by
    rw [lower, Stmt.lines]
    have hb := lowerB_frame p value N b
    have hc := lowerB_frame p value N c
    refine frame_labelBreak (frame_while (fun g => rfl) (fun g' hg' => frame_labelContinue ?_)
      (fun g' hg' => ?_) N g (Same.refl _ _))
    · intro o g'' e
      exact Same.trans (fun _ x => x) (fun _ x => List.mem_append_left _ x) hg' (hb g' o g'' e)
    · intro o g'' e
      exact Same.trans (fun _ x => x) (fun _ x => List.mem_append_right _ x) hg' (hc g' o g'' e)
  | .forSeq k it target b c, g => by
    rw [lower, Stmt.lines]
    have hb := lowerB_frame p value N b
    have hc := lowerB_frame p value N c
    unfold seqCode
    refine frame_hset (Same.refl _ _) (fun g hg => frame_hset hg (fun g hg => frame_hset hg
      (fun g hg => frame_hset hg (fun g hg => ?_))))
    refine frame_seqR (frame_seqWhile (fun g' hg' => ?_) N g hg) (fun g' hg' =>
      frame_condR hg' (fun g' hg' => ?_) (fun g' hg' => frame_some hg'))
    · intro o g'' e
      exact Same.trans (fun _ x => x)
        (fun _ x => List.mem_cons_of_mem _ (List.mem_append_left _ x)) hg' (hb g' o g'' e)
    · intro o g'' e
      exact Same.trans (fun _ x => x)
        (fun _ x => List.mem_cons_of_mem _ (List.mem_append_right _ x)) hg' (hc g' o g'' e)
  | .forTup n it target b c, g => by
    rw [lower, Stmt.lines]
    have hb := lowerB_frame p value N b
    have hc := lowerB_frame p value N c
    refine frame_bindR (Same.refl _ _) (fun t g' hg' => frame_labelBreak (frame_unrolled
      (fun _ _ => rfl) (fun g' hg' => ?_) (fun g' hg' => ?_) _ g' hg'))
    · intro o g'' e
      exact Same.trans (fun _ x => x) (fun _ x => List.mem_append_left _ x) hg' (hb g' o g'' e)
    · intro o g'' e
      exact Same.trans (fun _ x => x) (fun _ x => List.mem_append_right _ x) hg' (hc g' o g'' e)
  | .forVar n read target b c, g => by
    rw [lower, Stmt.lines]
    have hb := lowerB_frame p value N b
    have hc := lowerB_frame p value N c
    refine frame_labelBreak (frame_unrolled
      (fun _ _ => rfl) (fun g' hg' => ?_) (fun g' hg' => ?_) _ g (Same.refl _ _))
    · intro o g'' e
      exact Same.trans (fun _ x => x) (fun _ x => List.mem_append_left _ x) hg' (hb g' o g'' e)
    · intro o g'' e
      exact Same.trans (fun _ x => x) (fun _ x => List.mem_append_right _ x) hg' (hc g' o g'' e)
  | .forIter k it target b c, g => by
    rw [lower, Stmt.lines]
    have hb := lowerB_frame p value N b
    have hc := lowerB_frame p value N c
    unfold iterCode
    refine frame_hset (Same.refl _ _) (fun g hg => frame_labelBreak (frame_while (fun g => rfl)
      (fun g' hg' => frame_labelContinue ?_) (fun g' hg' => ?_) N g hg))
    · intro o g'' e
      exact Same.trans (fun _ x => x)
        (fun _ x => List.mem_cons_of_mem _ (List.mem_append_left _ x)) hg' (hb g' o g'' e)
    · intro o g'' e
      exact Same.trans (fun _ x => x)
        (fun _ x => List.mem_cons_of_mem _ (List.mem_append_right _ x)) hg' (hc g' o g'' e)
  | .brk, g => by rw [lower]; exact frame_some (Same.refl _ _)
  | .cont, g => by rw [lower]; exact frame_some (Same.refl _ _)
  | .ret e, g => by
    rw [lower]
    exact frame_bindR (Same.refl _ _) (fun _ g' hg' => frame_some hg')
theorem lowerB_frame (p : Iter σ E V Q T I X) (value : Q → Nat → Act σ E V X) (N : Nat) :
    ∀ (x : Block σ E V Q T I X) (g : G σ Q I), Frame x.lines g.2 (lowerB p value N x g)
  | .nil, g => by rw [lowerB]; exact frame_some (Same.refl _ _)
  | .cons x r, g => by
    rw [lowerB, Block.lines]
    have hx := (lower_frame p value N x g).mono (M := x.lines ++ r.lines)
      (fun _ x => List.mem_append_left _ x)
    split
    · exact frame_seqR hx (fun g' hg' o g'' e => Same.trans (fun _ x => x)
        (fun _ x => List.mem_append_right _ x) hg' (lowerB_frame p value N r g' o g'' e))
    · exact hx
end

/-! ### `else` after a loop over a sequence -/

/-- The hidden flag that would run `else` stays as it is. -/
def Untriggered (k : Nat) (r : Res (G σ Q I) E V P) : Prop :=
  ∀ o g, r = some (o, g) → (g.2 k).trigger = false

theorem untriggered_while {k : Nat} {t : G σ Q I → G σ Q I × Except (Exc E V) Bool}
    {b : G σ Q I → Res (G σ Q I) E V P} (ht : ∀ g, (t g).1.2 = g.2)
    (hb : ∀ g, (g.2 k).trigger = false → Untriggered k (b g)) :
    ∀ n g, (g.2 k).trigger = false →
      Untriggered k (nativeWhile t b (fun g => some (.norm, g)) n g)
  | 0, _, _ => by intro o g e; cases e
  | n + 1, g, hg => by
    rw [nativeWhile]
    have h2 := ht g
    unfold condR
    rcases htg : t g with ⟨g', e | _ | _⟩
    · rw [htg] at h2
      intro o g'' e'; cases e'; change (g'.2 k).trigger = false; rw [h2]; exact hg
    · rw [htg] at h2
      intro o g'' e'; cases e'; change (g'.2 k).trigger = false; rw [h2]; exact hg
    · rw [htg] at h2
      have h3 : (g'.2 k).trigger = false := by change g'.2 = g.2 at h2; rw [h2]; exact hg
      have h4 := hb g' h3
      rcases hr : b g' with _ | ⟨o, g''⟩
      · dsimp only
        rw [hr]
        intro o g e; cases e
      · have h5 := h4 o g'' hr
        dsimp only
        rw [hr]
        cases o with
        | norm => exact untriggered_while ht hb n g'' h5
        | _ => intro o g e; cases e; exact h5

theorem untriggered_labelBreak {k : Nat} {r : Res (G σ Q I) E V P} (hr : Untriggered k r) :
    Untriggered k (labelBreak r) := by
  rcases r with _ | ⟨o, g⟩
  · exact hr
  · cases o with
    | brk => intro o' g' e; cases e; exact hr _ g rfl
    | _ => exact hr

theorem untriggered_labelContinue {k : Nat} {r : Res (G σ Q I) E V P} (hr : Untriggered k r) :
    Untriggered k (labelContinue r) := by
  rcases r with _ | ⟨o, g⟩
  · exact hr
  · cases o with
    | cont => intro o' g' e; cases e; exact hr _ g rfl
    | _ => exact hr

/-- C57 `sequence_else_never_runs`.

Whatever the loop is over, as long as it is a sequence (a list, a `TupleOf`, a string, bytes or a
range), whatever its body and whatever happens in it, the compiled loop does exactly what it
would do if it had no `else` clause: that clause never runs.

(The loop is not on the line of a loop in its body.) -/
theorem sequence_else_never_runs (p : Iter σ E V Q T I X) (value : Q → Nat → Act σ E V X)
    (N k : Nat) (it : Act σ E V Q) (target : X → Act σ E V Unit)
    (body orelse : Block σ E V Q T I X) (hk : k ∉ body.lines) (g : G σ Q I) :
    lower p value N (.forSeq k it target body orelse) g =
      lower p value N (.forSeq k it target body .nil) g := by
  rw [lower, lower]
  rcases hit : it g.1 with ⟨s, e | q⟩
  · rw [seqCode_err p value N k target _ _ g hit, seqCode_err p value N k target _ _ g hit]
  · unfold seqCode thenR
    have h2 : getOr ((g.2.set k (fun v => { v with over := some q }) k).over)
        (fun q s => ((s, .ok (p.size q s)) : σ × Except (Exc E V) Nat)) s
        = (s, .ok (p.size q s)) := by
      rw [set_self]; rfl
    rw [bindR_ok (hset_ok hit), bindR_ok (hset_ok h2), bindR_ok (hset_ok rfl),
      bindR_ok (hset_ok rfl), bindR_ok (hset_ok hit), bindR_ok (hset_ok h2),
      bindR_ok (hset_ok rfl), bindR_ok (hset_ok rfl)]
    generalize hh : ((((g.2.set k (fun v => { v with over := some q })).set k
      (fun v => { v with max := p.size q s })).set k (fun v => { v with idx := 0 })).set k
      (fun v => { v with trigger := false })) = h
    have ht : (h k).trigger = false := by rw [← hh, set_self]
    have hu : Untriggered k (seqWhile value N k target (lowerB p value N body) (s, h)) := by
      refine untriggered_labelBreak (untriggered_while (fun g => rfl) (fun g hg => ?_) N (s, h) ht)
      refine untriggered_labelContinue ?_
      intro o g' e
      unfold thenR at e
      have e0 : (seqItem value k target g).1.2 = g.2 := rfl
      rcases hi : seqItem value k target g with ⟨g1, x | u⟩
      · rw [bindR_err hi] at e
        rw [hi] at e0
        change g1.2 = g.2 at e0
        cases e
        rw [e0]; exact hg
      · rw [bindR_ok hi] at e
        rw [hi] at e0
        change g1.2 = g.2 at e0
        rw [seqNext, bindR_ok (hset_ok rfl)] at e
        have := lowerB_frame p value N body _ o g' e k hk
        rw [this]
        change (g1.2.set k _ k).trigger = false
        rw [set_self, e0]; exact hg
    generalize seqWhile value N k target (lowerB p value N body) (s, h) = r at hu
    rcases r with _ | ⟨o, g'⟩
    · rfl
    · cases o with
      | norm =>
        have := hu _ g' rfl
        rw [seqR, seqR, condR_false (s' := g') (by rw [this]),
          condR_false (s' := g') (by rw [this])]
      | _ => rfl

end Verif.Loops
