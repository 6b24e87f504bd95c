import Verif.Flow.Sim2
/-
The generated code simulates Python: `while`.
-/
namespace Verif.Flow

variable {n : Nat} {H : Hier} {σ : Slots n} {K : Nat} {ω : Nat → Nat} {N : Nat}

theorem fixLoop_head {pass : VS n → Option (Pass n)}
    (hp : ∀ A A', pass A = some (.again A') → ∀ (V : Fin n → Prop) env,
      Cov H σ V A env → Cov H σ V A' env) :
    ∀ (k : Nat) (A : VS n) (r : Conv n), fixLoop pass k A = some r →
      ∃ I, fixHead pass k A = some I ∧ pass I = some (.done r) ∧
        ∀ (V : Fin n → Prop) env, Cov H σ V A env → Cov H σ V I env
  | 0, A, r, h => by simp [fixLoop] at h
  | k + 1, A, r, h => by
    simp only [fixLoop] at h
    cases hA : pass A with
    | none => rw [hA] at h; simp at h
    | some q =>
      rw [hA] at h
      cases q with
      | done r' =>
        simp only [Option.some.injEq] at h
        subst h
        exact ⟨A, by simp [fixHead, hA], hA, fun _ _ h => h⟩
      | again A' =>
        simp only at h
        obtain ⟨I, h1, h2, h3⟩ := fixLoop_head hp k A' r h
        exact ⟨I, by simp only [fixHead, hA, h1], h2, fun V env hc => h3 V env (hp A A' hA V env hc)⟩

theorem whilePass_again {t : Test n} {body orelse : VS n → Option (Conv n)} {A A' : VS n}
    (h : whilePass H σ t body orelse A = some (.again A')) (V : Fin n → Prop)
    (env : Fin n → Option Val) (hc : Cov H σ V A env) : Cov H σ V A' env := by
  unfold whilePass at h
  split at h
  · simp at h
  · split at h <;> simp at h
  · split at h
    · dsimp only at h
      split at h
      · simp at h
      · simp only [Option.some.injEq, Pass.again.injEq] at h
        subst h
        exact hc.becomeMerge_right
    · simp at h

theorem blockOut_of_ne {l : Label} {x : Out × St n} (h : x.1 ≠ .jump l) : blockOut l x = x := by
  unfold blockOut
  split
  · rename_i k hk
    split
    · rename_i hkl; subst hkl; exact absurd hk h
    · rfl
  · rfl

/-- What the proof of a loop needs to know: the tests, the body and the `else` part. -/
theorem loop_sim {b : Blocks} (hw : b.WF) {V : Fin n → Prop} {I T F : VS n} {rt rf R : Bool}
    {t : Test n} {a d : Stmt n} {ct cf : Code n} {cur : Option Val}
    (hsd : t.Sound H) (hVt : ∀ y, y ∈ t.reads → V y) (hex : exactTest H σ I t = true)
    (hbody : ∀ st : St n, SlotOK H σ st.env → Cov H σ V (restrictBy H I t true) st.env →
      (a.usesReraise = true → st.info = cur) →
      Rel H σ b.pushLoop V T rt a.noTry st (run H ω N ct st) (py H ω N a cur st.py))
    (horelse : ∀ st : St n, SlotOK H σ st.env → Cov H σ V (restrictBy H I t false) st.env →
      (d.usesReraise = true → st.info = cur) →
      Rel H σ b V F rf d.noTry st (run H ω N cf st) (py H ω N d cur st.py))
    (hT : rt = true → ∀ env, Cov H σ V T env → Cov H σ V I env)
    (hF : rf = true → ∀ env, Cov H σ V F env → Cov H σ V I env)
    (hRF : rf = true → (convTest H σ I t).2.2 ≠ some true → R = true)
    (hRB : a.freeBrk = true → ct.targets .brk = true → R = true)
    (hfb : d.freeBrk = false)
    (hre : (a.usesReraise || d.usesReraise) = true → a.noTry = true)
    (hfree : (a.freeBrk || a.freeCont) = true → ∀ x, (I.defInit x = true → a.hnames x = false) ∧
      (narrowable (σ x) = true → a.assigns x = false ∧ a.hnames x = false)) :
    ∀ (k : Nat) (st : St n), SlotOK H σ st.env → Cov H σ V I st.env →
      ((a.usesReraise || d.usesReraise) = true → st.info = cur) →
      Rel H σ b V I R (a.noTry && d.noTry) st
        (blockOut .brk (doLoop (doTest H ω t (convTest H σ I t).1) (run H ω N (.block .cont ct))
          (run H ω N cf) k st))
        (pyLoop (pyEval ω t.reads (t.eval H)) (py H ω N a cur) (py H ω N d cur) k st.py)
  | 0, st, _, _, _ => ⟨fun _ => rfl, fun h => absurd rfl h⟩
  | k + 1, st, hs, hcov, hinfo => by
    have hwl : b.pushLoop.WF := hw
    rcases doTest_eq ω t hsd st hs hcov hVt with ⟨w, p, h1, h2⟩ | ⟨v, p, h1, h2, h3, h4, vs, h5, h6⟩
    · simp only [doLoop, pyLoop, h1, h2]
      exact Rel.raised hs
    · have hR := Cov.restrictBy hs hcov hVt hex h5 h6
      cases v with
      | false =>
        simp only [doLoop, pyLoop, h1, h2]
        have hr := horelse { st with pos := p } hs hR
          (fun hu => hinfo (by rw [hu, Bool.or_true]))
        have hj := py_jump H ω N d cur ({ st with pos := p } : St n).py
        rw [hfb] at hj
        have hne : (py H ω N d cur ({ st with pos := p } : St n).py).1 ≠ .timeout →
            (run H ω N cf { st with pos := p }).1 ≠ .jump .brk := by
          intro hto hc
          have hm := (hr.2 hto).out
          rw [hc] at hm
          cases hpo : (py H ω N d cur ({ st with pos := p } : St n).py).1 with
          | normal => rw [hpo] at hm; simp [Matches] at hm
          | brk => exact absurd (hj.1 hpo) (by simp)
          | cont =>
            rw [hpo] at hm
            rcases hm with ⟨_, ⟨_, h⟩ | ⟨_, rr, hret, h, _⟩⟩
            · simp at h
            · simp only [Out.jump.injEq] at h; exact (WF.ret_ne hw hret).1 h.symm
          | raised v => rw [hpo] at hm; simp [Matches] at hm
          | returned v =>
            rw [hpo] at hm
            rcases hm with ⟨_, h⟩ | ⟨rr, hret, h, _⟩
            · simp at h
            · simp only [Out.jump.injEq] at h; exact (WF.ret_ne hw hret).1 h.symm
          | timeout => exact hto hpo
        refine Rel.pos (q := p) ?_
        by_cases hto : (py H ω N d cur ({ st with pos := p } : St n).py).1 = .timeout
        · refine ⟨fun _ => ?_, fun h => absurd hto h⟩
          have := hr.1 hto
          rw [blockOut_of_ne (by rw [this]; simp)]
          exact this
        · rw [blockOut_of_ne (hne hto)]
          refine hr.conseq ?_ ?_
          · simp only [Bool.and_eq_true]; exact fun h => h.2
          · intro _ hrf hcv
            refine ⟨hRF hrf (fun hc => ?_), hF hrf _ hcv⟩
            have := h4 true hc
            simp at this
      | true =>
        have hr := hbody { st with pos := p } hs hR
          (fun hu => hinfo (by rw [hu, Bool.true_or]))
        have hfr := py_frame H ω N a cur ({ st with pos := p } : St n).py
        have hj := py_jump H ω N a cur ({ st with pos := p } : St n).py
        obtain ⟨xo, xs, hrun⟩ : ∃ o s', run H ω N ct { st with pos := p } = (o, s') := ⟨_, _, rfl⟩
        obtain ⟨yo, ys, hpy⟩ : ∃ o s', py H ω N a cur ({ st with pos := p } : St n).py = (o, s') :=
          ⟨_, _, rfl⟩
        have hpy' : py H ω N a cur { env := st.env, pos := p } = (yo, ys) := hpy
        rw [hrun, hpy] at hr
        rw [hpy] at hj hfr
        simp only [doLoop, pyLoop, h1, h2, run_block, hrun]
        rw [hpy']
        by_cases hto : yo = .timeout
        · subst hto
          have : xo = .timeout := hr.1 rfl
          subst this
          exact ⟨fun _ => rfl, fun h => absurd rfl h⟩
        · have hres := hr.2 hto
          have hfr := hfr hto
          have hnl : ∀ o : Out, (o = .normal ∨ o = .jump .cont ∨ o = .jump .brk) → ¬ Leaves b o := by
            rintro o ho ⟨l, hl, hjl⟩
            have := WF.ret_ne hw hl
            rcases ho with ho | ho | ho <;> rw [ho] at hjl <;> simp at hjl
            · exact this.2.1 hjl.symm
            · exact this.1 hjl.symm
          -- the loop goes on
          have again : xo = .normal ∨ xo = .jump .cont → Cov H σ V I xs.env →
              Rel H σ b V I R (a.noTry && d.noTry) st
                (blockOut .brk (doLoop (doTest H ω t (convTest H σ I t).1)
                  (run H ω N (.block .cont ct)) (run H ω N cf) k xs))
                (pyLoop (pyEval ω t.reads (t.eval H)) (py H ω N a cur) (py H ω N d cur) k ys) := by
            intro hxo hcv
            have hpx : xs.py = ys := hres.py
            rw [← hpx]
            have hnl' : ¬ Leaves b xo := hnl xo (by
              rcases hxo with h | h
              · exact .inl h
              · exact .inr (.inl h))
            refine Rel.prefix (st₁ := xs) (loop_sim hw hsd hVt hex hbody horelse hT hF hRF hRB hfb hre
              hfree k xs hres.slot hcv ?_) ?_ ?_
            · intro hu
              rw [((hres.noTry (hre hu)).2 hnl').1]
              exact hinfo hu
            · intro j hjd
              refine hres.flow j hjd (fun l hl hjl => absurd ⟨l, hl, hjl⟩ hnl')
            · intro hnt
              simp only [Bool.and_eq_true] at hnt
              have h3 := hres.noTry hnt.1
              exact ⟨h3.1, (h3.2 hnl').1, (h3.2 hnl').2⟩
          have jumpCov : (a.freeBrk || a.freeCont) = true → Cov H σ V I xs.env := by
            intro hf
            have hpx : xs.py = ys := hres.py
            have : xs.env = ys.env := by rw [← hpx]; rfl
            rw [this]
            refine Cov.frame hcov hfr ?_ ?_
            · exact fun x _ hd => ⟨hd, (hfree hf x).1 hd⟩
            · exact fun x _ hn => ⟨((hfree hf x).2 hn).1, ((hfree hf x).2 hn).2, rfl⟩
          cases yo with
          | timeout => exact absurd rfl hto
          | normal =>
            have hxo : xo = .normal := hres.out
            subst hxo
            exact again (.inl rfl) (hT (hres.norm rfl).1 _ (hres.norm rfl).2)
          | cont =>
            have hxo : xo = .jump .cont := by
              rcases hres.out with ⟨_, ⟨_, h⟩ | ⟨h, _⟩⟩
              · exact h
              · simp [Blocks.pushLoop] at h
            subst hxo
            simp only [blockOut, if_true]
            exact again (.inr rfl) (jumpCov (by rw [hj.2 rfl, Bool.or_true]))
          | brk =>
            have hxo : xo = .jump .brk := by
              rcases hres.out with ⟨_, ⟨_, h⟩ | ⟨h, _⟩⟩
              · exact h
              · simp [Blocks.pushLoop] at h
            subst hxo
            have hb : blockOut .brk (blockOut .cont ((.jump .brk, xs) : Out × St n)) = (.normal, xs) := by
              simp [blockOut]
            have hb2 : blockOut .cont ((.jump .brk, xs) : Out × St n) = (.jump .brk, xs) := by
              simp [blockOut]
            rw [hb2]
            simp only [blockOut, if_true]
            have hfb' := hj.1 rfl
            refine ⟨fun h => by simp at h, fun _ => ?_⟩
            have hnl' := hnl _ (.inr (.inr rfl))
            exact { py := hres.py, slot := hres.slot, out := rfl
                    norm := fun _ => ⟨hRB hfb' (run_targets ct _ _ hrun),
                      jumpCov (by rw [hfb', Bool.true_or])⟩
                    flow := fun j hjd _ => hres.flow j hjd (fun l hl hjl => absurd ⟨l, hl, hjl⟩ hnl')
                    noTry := fun hnt => by
                      simp only [Bool.and_eq_true] at hnt
                      have h3 := hres.noTry hnt.1
                      exact ⟨h3.1, fun _ => h3.2 hnl'⟩ }
          | raised v =>
            have hxo : xo = .raised v := hres.out
            subst hxo
            refine ⟨fun h => by simp [blockOut] at h, fun _ => ?_⟩
            exact { py := hres.py, slot := hres.slot, out := rfl, norm := fun h => by simp at h
                    flow := hres.flow
                    noTry := fun hnt => by
                      simp only [Bool.and_eq_true] at hnt; exact hres.noTry hnt.1 }
          | returned v =>
            have hne : xo ≠ .jump .brk ∧ xo ≠ .jump .cont ∧ xo ≠ .normal := by
              rcases hres.out with ⟨_, h⟩ | ⟨rr, hret, h, _⟩
              · subst h; simp
              · subst h
                have := WF.ret_ne hw hret
                exact ⟨fun h => this.1 (by simpa using h), fun h => this.2.1 (by simpa using h), by simp⟩
            have hb2 : blockOut .cont ((xo, xs) : Out × St n) = (xo, xs) := blockOut_of_ne hne.2.1
            have hb3 : blockOut .brk ((xo, xs) : Out × St n) = (xo, xs) := blockOut_of_ne hne.1
            rw [hb2]
            have hgo : Rel H σ b V I R (a.noTry && d.noTry) st (xo, xs) (.returned v, ys) := by
              refine ⟨fun h => by simp at h, fun _ => ?_⟩
              exact { py := hres.py, slot := hres.slot, out := hres.out, norm := fun h => by simp at h
                      flow := hres.flow
                      noTry := fun hnt => by
                        simp only [Bool.and_eq_true] at hnt; exact hres.noTry hnt.1 }
            cases xo <;> first | (simp only [hb3]; exact hgo) | exact absurd rfl hne.2.2

theorem P_while (hN : 0 < N) {t : Test n} {a d : Stmt n} (ha : P H σ K ω N a)
    (hd : P H σ K ω N d) : P H σ K ω N (.whileS t a d) := by
  intro b hw A c A' r hc hg hsd V hV cur st hs hcov hinfo
  have hVt : ∀ y, y ∈ t.reads → V y :=
    fun y hy => hV y (by simp only [Stmt.mentions, mem_reads hy, Bool.true_or])
  have hVa : ∀ x, a.mentions x = true → V x := fun x hx => hV x (by simp [Stmt.mentions, hx])
  have hVd : ∀ x, d.mentions x = true → V x := fun x hx => hV x (by simp [Stmt.mentions, hx])
  have hid : d.usesReraise = true → st.info = cur := fun hx => hinfo (by simp [Stmt.usesReraise, hx])
  obtain ⟨N', hN'⟩ : ∃ N', N = N' + 1 := ⟨N - 1, by omega⟩
  have hnd : (Stmt.whileS t a d).noTry = true → d.noTry = true := by
    simp only [Stmt.noTry, Bool.and_eq_true]; exact fun h => h.2
  have hpyN : py H ω N (.whileS t a d) cur st.py =
      pyLoop (pyEval ω t.reads (t.eval H)) (py H ω N a cur) (py H ω N d cur) (N' + 1) st.py := by
    simp only [py]
    rw [← hN']
  simp only [conv] at hc
  obtain ⟨I, hI1, hI2, hI3⟩ := fixLoop_head (H := H) (σ := σ)
    (fun A A' h V env hc => whilePass_again h V env hc) K A (c, A', r) hc
  have hcovI := hI3 V _ hcov
  simp only [good, hI1] at hg
  unfold whilePass at hI2
  split at hI2
  · -- the condition can only raise
    rename_i rs k heq
    simp only [Option.some.injEq, Pass.done.injEq, Prod.mk.injEq] at hI2
    obtain ⟨rfl, rfl, rfl⟩ := hI2
    rcases doTest_eq ω t hsd.1 st hs hcovI hVt with ⟨w, p, h1, h2⟩ | ⟨v, p, h1, h2, h3, _⟩
    · rw [heq] at h2
      rw [hpyN]
      simp only [pyLoop, h1, run, h2]
      exact Rel.raised hs
    · rw [heq] at h3; simp at h3
  · -- the condition is always false
    rename_i rs heq
    rw [heq] at hg
    simp only at hg
    split at hI2
    · simp at hI2
    · rename_i c₁ A₁ r₁ hc1
      simp only [Option.some.injEq, Pass.done.injEq, Prod.mk.injEq] at hI2
      obtain ⟨rfl, rfl, rfl⟩ := hI2
      rw [hpyN]
      rcases doTest_eq ω t hsd.1 st hs hcovI hVt with ⟨w, p, h1, h2⟩ | ⟨v, p, h1, h2, h3, h4, _⟩
      · rw [heq] at h2
        simp only [pyLoop, h1, run, h2]
        exact Rel.raised hs
      · rw [heq] at h2 h4
        have hv := h4 false rfl
        subst hv
        rw [run_seq_normal (st' := { st with pos := p }) (by simp only [run, h2])]
        simp only [pyLoop, h1]
        refine Rel.pos (q := p) ?_
        exact (hd b hw I c₁ A₁ r₁ hc1 hg hsd.2.2 V hVd cur { st with pos := p } hs hcovI
          hid).conseq hnd (fun _ a b => ⟨a, b⟩)
  · -- a loop
    rename_i rs k hk heq
    rw [heq] at hg
    simp only [Bool.and_eq_true, Bool.not_eq_true', Bool.or_eq_true] at hg
    split at hI2
    · rename_i ct T rt cf F rf hct hcf
      dsimp only at hI2
      split at hI2
      · rename_i heqv
        have hM := eqv_eq heqv
        rw [hM] at hI2
        simp only [Option.some.injEq, Pass.done.injEq, Prod.mk.injEq] at hI2
        obtain ⟨rfl, rfl, hr⟩ := hI2
        obtain ⟨⟨⟨⟨⟨hex, hga⟩, hgd⟩, hfb⟩, hre⟩, hfree⟩ := hg
        simp only [hct, hcf, Bool.or_eq_true, decide_eq_true_eq] at hfree
        rw [hpyN, ← hN', run_block]
        have hrs : rs = (convTest H σ I t).1 := by rw [heq]
        subst hrs
        simp only [run]
        refine loop_sim hw hsd.1 hVt hex
          (fun st hs hcv hu => ha b.pushLoop hw _ ct T rt hct hga hsd.2.1 V hVa cur st hs hcv hu)
          (fun st hs hcv hu => hd b hw _ cf F rf hcf hgd hsd.2.2 V hVd cur st hs hcv hu)
          ?_ ?_ ?_ ?_ hfb ?_ ?_ N st hs hcovI ?_
        · intro hrt env hcv
          subst hrt
          rw [← hM]
          unfold loopMerge
          exact Cov.becomeMerge_left (Cov.becomeMerge_left hcv)
        · intro hrf env hcv
          subst hrf
          rw [← hM]
          unfold loopMerge
          exact Cov.becomeMerge_left (Cov.becomeMerge_right hcv)
        · intro hrf hne
          rw [← hr, hrf]
          rw [heq] at hne
          simp only at hne
          simp [hne]
        · intro hab htg
          rw [← hr]
          rcases hfree with h | h
          · simp [hab] at h
          · simp [h.1, htg]
        · intro hu
          rcases hre with h | h
          · rw [Bool.or_eq_true] at hu
            rcases hu with hu | hu <;> simp [hu] at h
          · exact h
        · intro hf x
          rcases hfree with h | h
          · rw [Bool.or_eq_true] at hf
            rcases hf with hf | hf <;> simp [hf] at h
          · exact h.2 x
        · intro hu
          exact hinfo (by simpa [Stmt.usesReraise] using hu)
      · simp at hI2
    · simp at hI2

end Verif.Flow
