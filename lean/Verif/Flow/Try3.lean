import Verif.Flow.Try2
import Mathlib.Tactic.Tauto
/-
The generated code simulates Python: `finally`, and what follows it.
-/
namespace Verif.Flow

variable {n : Nat} {H : Hier} {σ : Slots n} {K : Nat} {ω : Nat → Nat} {N : Nat}

/-- `finally`, after what was recorded. -/
theorem try_final {b : Blocks} {final : Stmt n} (hf : P H σ K ω N final) {A₂ A₃ : VS n} {cf : Code n}
    {rf : Bool} (hcf : conv H σ K final (b.pushTry (.endFin b.depth)) A₂ = some (cf, A₃, rf))
    (hgf : good H σ K final (b.pushTry (.endFin b.depth)) A₂ = true) (hnt : final.noTry = true)
    (hnr : final.usesReraise = false) (hsf : final.Sound H) {V : Fin n → Prop}
    (hV : ∀ x, final.mentions x = true → V x) {cur : Option Val} {st s : St n} {po : POut} {p : PSt n}
    (hmid : Mid H σ b.depth b.inLoopEver st s po p) (hcov : Cov H σ V A₂ s.env) :
    let x := run H ω N (.tryCatch (.block (.endFin b.depth) cf) (.seq (.setExc true) (caught b.depth))) s
    let y := afterFinal po (py H ω N final cur p)
    (y.1 = .timeout → x.1 = .timeout) ∧
    (y.1 ≠ .timeout → x.1 = .normal ∧ Mid H σ b.depth b.inLoopEver st x.2 y.1 y.2 ∧
      (y.1 = .normal → po = .normal ∧ Cov H σ V A₃ x.2.env)) := by
  intro x y
  let L : Label := .endFin b.depth
  have hd1 : L.depth = b.depth := rfl
  have hr := hf (b.pushTry L) (WF_push (.inr rfl)) A₂ cf A₃ rf hcf hgf hsf V hV cur s hmid.slot hcov
    (fun h => by rw [hnr] at h; simp at h)
  rw [hmid.py] at hr
  have hx : x = match blockOut L (run H ω N cf s) with
      | (.raised v, s) => (.normal, excSt { s with exc := true } v b.depth)
      | r => r := by
    simp only [x]
    rw [run_catch_exc, run_block]
    rfl
  have hy : y = afterFinal po (py H ω N final cur p) := rfl
  rw [hx, hy]
  have hpto : po ≠ .timeout := by
    intro h; subst h; exact hmid.pend
  have hmm : ∀ {s' : St n} {po' : POut} {p' : PSt n}, Mid H σ b.depth b.inLoopEver s s' po' p' →
      Mid H σ b.depth b.inLoopEver st s' po' p' := by
    intro s' po' p' h
    exact { py := h.py, slot := h.slot, pend := h.pend
            flow := fun j hj => (h.flow j hj).trans (hmid.flow j hj) }
  generalize run H ω N cf s = xx at hr ⊢
  generalize py H ω N final cur p = yy at hr ⊢
  obtain ⟨xo, xs⟩ := xx
  obtain ⟨yo, ys⟩ := yy
  by_cases hto : yo = .timeout
  · subst hto
    have : xo = .timeout := hr.1 rfl
    subst this
    exact ⟨fun _ => rfl, fun h => absurd rfl h⟩
  · by_cases hno : yo = .normal
    · subst hno
      have h2 := hr.2 (by simp)
      have hxo : xo = .normal := h2.out
      subst hxo
      have hfl : ∀ j, j < b.depth + 1 → xs.flow j = s.flow j :=
        fun j hj => h2.flow j hj (fun l _ h => by simp at h)
      have hir := (h2.noTry hnt).2 (by rintro ⟨l, _, h⟩; simp at h)
      have hi1 : xs.info = s.info := hir.1
      have hi2 : xs.rv = s.rv := hir.2
      refine ⟨fun h => absurd h hpto, fun _ => ⟨rfl, hmm ?_, fun h => ⟨h, (h2.norm rfl).2⟩⟩⟩
      refine { py := h2.py, slot := h2.slot, pend := ?_, flow := fun j hj => hfl j (by omega) }
      have hp := hmid.pend
      have h1 : xs.flow b.depth = s.flow b.depth := hfl _ (by omega)
      show Pend b.depth b.inLoopEver xs po
      cases po <;> simp only [Pend, h1, hi1, hi2] at hp ⊢ <;> exact hp
    · have hya : afterFinal po (yo, ys) = (yo, ys) := by
        cases yo <;> first | rfl | exact absurd rfl hno
      rw [hya]
      refine ⟨fun h => absurd h hto, fun _ => ?_⟩
      rcases hr.abnormal hd1 hto hno with ⟨v, hv1, hv2, hv3⟩ | ⟨hj1, hj2⟩
      · simp only at hv2
        subst hv2
        exact ⟨rfl, hmm (hv3 { xs with exc := true } rfl rfl rfl), fun h => absurd h hno⟩
      · simp only at hj1
        subst hj1
        rw [blockOut_jump]
        exact ⟨rfl, hmm hj2, fun h => absurd h hno⟩

theorem run_ifFlow_ne {d : Nat} {k : Deferred} {a : Code n} {s : St n} (h : s.flow d ≠ k) :
    run H ω N (.ifFlow d k a) s = (.normal, s) := by
  simp only [run, if_neg h]

theorem run_ifFlow_eq {d : Nat} {k : Deferred} {a : Code n} {s : St n} (h : s.flow d = k) :
    run H ω N (.ifFlow d k a) s = run H ω N a s := by
  simp only [run, if_pos h]

/-- a deferred `break` or `continue` that did not happen -/
theorem run_deferred_ne {b : Blocks} {l : Label} {k : Deferred} {c : Code n}
    (h : deferredJump b l k = some c) {s : St n} (hne : s.flow b.depth ≠ k) :
    run H ω N c s = (.normal, s) := by
  unfold deferredJump at h
  split at h
  · split at h
    · simp at h
    · simp only [Option.some.injEq] at h
      subst h
      exact run_ifFlow_ne hne
  · simp only [Option.some.injEq] at h
    subst h
    rfl

theorem run_deferred_eq {b : Blocks} {l : Label} {k : Deferred} {c : Code n}
    (h : deferredJump b l k = some c) {s : St n} (he : b.inLoopEver = true)
    (hk : s.flow b.depth = k) :
    ∃ o st', run H ω N c s = (o, st') ∧ o ≠ .normal ∧ st'.env = s.env ∧ st'.pos = s.pos ∧
      Jumped b k l o st' ∧
      (∀ d, d < b.depth → (∀ l, b.ret = some l → o = .jump l → d ≠ l.depth) →
        st'.flow d = s.flow d) := by
  unfold deferredJump at h
  rw [if_pos he] at h
  split at h
  · simp at h
  · rename_i j hj
    simp only [Option.some.injEq] at h
    subst h
    rw [run_ifFlow_eq hk, run_seq_normal (run_clear _)]
    obtain ⟨o, st', h1, h2, h3, h4, h5, _⟩ := jumpCode_run (H := H) (ω := ω) (N := N) hj he
      { s with info := if s.exc then none else s.info }
    refine ⟨o, st', h1, ?_, h2, h3, h4, h5⟩
    rcases h4 with ⟨_, ⟨_, h⟩ | ⟨_, r, _, h, _⟩⟩ <;> rw [h] <;> simp

/-- What follows `finally`: what was recorded happens. -/
theorem try_tail {b : Blocks} (hw : b.WF) {V : Fin n → Prop} {A₃ : VS n} {brkC contC : Code n}
    (hbk : deferredJump b .brk .brk = some brkC) (hct : deferredJump b .cont .cont = some contC)
    {st s : St n} {po : POut} {p : PSt n} (hmid : Mid H σ b.depth b.inLoopEver st s po p)
    (hcov : po = .normal → Cov H σ V A₃ s.env) :
    Rel H σ b V A₃ true false st
      (run H ω N (.seq (.ifFlow b.depth .ret (.seq (.ifExc .clearInfo .skip) (retSavedCode b)))
        (.seq brkC (.seq contC (.ifFlow b.depth .exception (.reraise true))))) s) (po, p) := by
  have hpto : po ≠ .timeout := by
    intro h; subst h; exact hmid.pend
  refine ⟨fun h => absurd h hpto, fun _ => ?_⟩
  have hp := hmid.pend
  have notret : s.flow b.depth ≠ .ret → run H ω N (.seq (.ifFlow b.depth .ret (.seq (.ifExc .clearInfo .skip)
      (retSavedCode b))) (.seq brkC (.seq contC (.ifFlow b.depth .exception (.reraise true))))) s =
      run H ω N (.seq brkC (.seq contC (.ifFlow b.depth .exception (.reraise true)))) s :=
    fun h => run_seq_normal (run_ifFlow_ne h)
  have notbrk : s.flow b.depth ≠ .brk →
      run H ω N (.seq brkC (.seq contC (.ifFlow b.depth .exception (.reraise true)))) s =
      run H ω N (.seq contC (.ifFlow b.depth .exception (.reraise true))) s :=
    fun h => run_seq_normal (run_deferred_ne hbk h)
  have notcont : s.flow b.depth ≠ .cont →
      run H ω N (.seq contC (.ifFlow b.depth .exception (.reraise true))) s =
      run H ω N (.ifFlow b.depth .exception (.reraise true)) s :=
    fun h => run_seq_normal (run_deferred_ne hct h)
  cases po with
  | timeout => exact absurd rfl hpto
  | normal =>
    have hd : s.flow b.depth = .default := hp
    rw [notret (by rw [hd]; simp), notbrk (by rw [hd]; simp), notcont (by rw [hd]; simp),
      run_ifFlow_ne (by rw [hd]; simp)]
    exact { py := hmid.py, slot := hmid.slot, out := rfl, norm := fun h => ⟨rfl, hcov h⟩
            flow := fun d h _ => hmid.flow d h, noTry := fun h => by simp at h }
  | raised v =>
    obtain ⟨hd, hi⟩ := hp
    rw [notret (by rw [hd]; simp), notbrk (by rw [hd]; simp), notcont (by rw [hd]; simp),
      run_ifFlow_eq hd]
    have : run H ω N (.reraise true) s = (.raised v, if s.exc then { s with info := none } else s) := by
      simp only [run, hi, Bool.true_and]
    rw [this]
    refine { py := ?_, slot := ?_, out := rfl, norm := fun h => by simp at h
             flow := fun d h _ => ?_, noTry := fun h => by simp at h }
    · show St.py (if s.exc then { s with info := none } else s) = p
      rw [← hmid.py]; split <;> rfl
    · show SlotOK H σ (if s.exc then { s with info := none } else s : St n).env
      split <;> exact hmid.slot
    · show (if s.exc then { s with info := none } else s : St n).flow d = _
      split <;> exact hmid.flow d h
  | brk =>
    obtain ⟨he, hd⟩ := hp
    rw [notret (by rw [hd]; simp)]
    obtain ⟨o, s', h1, h2, h3, h4, h5, h6⟩ := run_deferred_eq (H := H) (ω := ω) (N := N) hbk he hd
    rw [run_seq_abn h1 h2]
    refine { py := ?_, slot := by rw [h3]; exact hmid.slot, out := h5, norm := fun h => by simp at h
             flow := fun d h hl => (h6 d h hl).trans (hmid.flow d h), noTry := fun h => by simp at h }
    rw [← hmid.py]; simp only [St.py, h3, h4]
  | cont =>
    obtain ⟨he, hd⟩ := hp
    rw [notret (by rw [hd]; simp), notbrk (by rw [hd]; simp)]
    obtain ⟨o, s', h1, h2, h3, h4, h5, h6⟩ := run_deferred_eq (H := H) (ω := ω) (N := N) hct he hd
    rw [run_seq_abn h1 h2]
    refine { py := ?_, slot := by rw [h3]; exact hmid.slot, out := h5, norm := fun h => by simp at h
             flow := fun d h hl => (h6 d h hl).trans (hmid.flow d h), noTry := fun h => by simp at h }
    rw [← hmid.py]; simp only [St.py, h3, h4]
  | returned v =>
    obtain ⟨hd, hrv⟩ := hp
    have h1 : run H ω N (.ifFlow b.depth .ret (.seq (.ifExc .clearInfo .skip) (retSavedCode b))) s =
        run H ω N (retSavedCode b) { s with info := if s.exc then none else s.info } := by
      rw [run_ifFlow_eq hd, run_seq_normal (run_clear _)]
    unfold retSavedCode at h1 ⊢
    split at h1
    · rename_i hret
      have h2 : run H ω N (.retSaved : Code n) { s with info := if s.exc then none else s.info } =
          (.returned v, { s with info := if s.exc then none else s.info }) := by
        simp only [run, hrv]
      rw [h2] at h1
      rw [run_seq_abn h1 (by simp)]
      exact { py := hmid.py, slot := hmid.slot, out := .inl ⟨hret, rfl⟩, norm := fun h => by simp at h
              flow := fun d h _ => hmid.flow d h, noTry := fun h => by simp at h }
    · rename_i rr hret
      rw [run_defer] at h1
      have h2 : run H ω N (.jump rr : Code n) (deferSt { s with info := if s.exc then none else s.info }
          rr.depth .ret) = (.jump rr, deferSt { s with info := if s.exc then none else s.info }
          rr.depth .ret) := rfl
      rw [h2] at h1
      rw [run_seq_abn h1 (by simp)]
      refine { py := hmid.py, slot := hmid.slot
               out := .inr ⟨rr, hret, rfl, by simp [deferSt], hrv⟩, norm := fun h => by simp at h
               flow := fun d h hl => ?_, noTry := fun h => by simp at h }
      have := hl rr hret rfl
      simp only [deferSt, if_neg this]
      exact hmid.flow d h

/-- `try` -/
theorem P_try {body orelse final : Stmt n} {hs : Handlers n} (hb : P H σ K ω N body)
    (hh : PH H σ K ω N hs) (ho : P H σ K ω N orelse) (hf : P H σ K ω N final) :
    P H σ K ω N (.tryS body hs orelse final) := by
  intro b hw A c A' r hc hg hsd V hV cur st hslot hcov hinfo
  simp only [conv] at hc
  simp only [good] at hg
  split at hc
  · simp at hc
  rename_i cb A₁ rb hcb
  simp only [hcb] at hg
  split at hc
  · simp at hc
  rename_i working A₁' hch
  simp only [hch] at hg
  split at hc
  · simp at hc
  rename_i co A₂ ro hco
  simp only [hco] at hg
  split at hc
  · simp at hc
  rename_i cf A₃ rf hcf
  split at hc
  case h_2 => simp at hc
  rename_i brkC contC hbk hct
  simp only [Option.some.injEq, Prod.mk.injEq] at hc
  obtain ⟨rfl, rfl, rfl⟩ := hc
  simp only [Bool.and_eq_true, decide_eq_true_eq, Bool.not_eq_true', Bool.or_eq_true] at hg
  obtain ⟨⟨⟨⟨⟨⟨⟨⟨hgb, hgh⟩, hgo⟩, hgf⟩, hhn⟩, hnt⟩, hnr⟩, hfin⟩, hel⟩ := hg
  obtain ⟨hsb, hsh, hso, hsf⟩ := hsd
  have hV' : ∀ x, (body.mentions x = true ∨ hs.mentions x = true ∨ orelse.mentions x = true ∨
      final.mentions x = true) → V x := by
    intro x hx
    refine hV x ?_
    simp only [Stmt.mentions, Bool.or_eq_true]
    tauto
  have hel' : orelse.isPass = true ∨ (body.noTry = true ∧ hs.noTry = true ∧
      (hs.isNil = true ∨ ∀ x, (A₂.defInit x = true → A₁'.defInit x = true) ∧
        (narrowable (σ x) = true → A₂.types x = A₁'.types x))) := by
    rcases hel with h | ⟨⟨h1, h2⟩, h4⟩
    · exact .inl h
    · exact .inr ⟨h1, h2, h4⟩
  have hmid := try_mid hb hh ho hcb hch hco hgb hgh hgo hhn hel' hsb hsh hso
    (fun x h => hV' x (.inl h)) (fun x h => hV' x (.inr (.inl h)))
    (fun x h => hV' x (.inr (.inr (.inl h)))) hslot hcov
    (fun h => hinfo (by simp only [Stmt.usesReraise, h, Bool.true_or]))
    (fun h => hinfo (by simp only [Stmt.usesReraise, h, Bool.true_or, Bool.or_true]))
  -- what the parts before `finally` leave unchanged
  have hfr : ∀ y : POut × PSt n, tryPre (py H ω N orelse cur) (pyHandlers H ω N hs) (py H ω N body cur st.py) = y → y.1 ≠ .timeout →
      Frame (fun x => body.assigns x || hs.assigns x || orelse.assigns x)
        (fun x => body.hnames x || hs.hnames x || orelse.hnames x) st.env y.2.env := by
    intro y hy hne
    have h1 := py_frame H ω N body cur st.py
    generalize py H ω N body cur st.py = yb at hy h1
    obtain ⟨yo, ys⟩ := yb
    have e1 : yo ≠ .timeout → Frame (fun x => body.assigns x || hs.assigns x || orelse.assigns x)
        (fun x => body.hnames x || hs.hnames x || orelse.hnames x) st.env ys.env := fun h =>
      (h1 h).mono (fun x hx => by simp [hx]) (fun x hx => by simp [hx])
    cases yo with
    | normal =>
      simp only [tryPre] at hy
      have h2 := py_frame H ω N orelse cur ys
      rw [hy] at h2
      exact (e1 (by simp)).trans
        ((h2 hne).mono (fun x hx => by simp [hx]) (fun x hx => by simp [hx]))
    | raised v =>
      simp only [tryPre] at hy
      have h2 := pyHandlers_frame H ω N hs v ys
      rw [hy] at h2
      exact (e1 (by simp)).trans
        ((h2 hne).mono (fun x hx => by simp [hx]) (fun x hx => by simp [hx]))
    | timeout => simp only [tryPre] at hy; subst hy; exact absurd rfl hne
    | _ => simp only [tryPre] at hy; subst hy; exact e1 (by simp)
  have hrun : run H ω N (tryCode b cb working co cf brkC contC) st =
      run H ω N (.seq (.block (.endTry b.depth) (.seq (.seq (.setExc false) (.setFlow b.depth .default))
      (.seq (.tryCatch cb (.seq (.setExc true) (.tryCatch working (caught b.depth))))
        (.ifExc .skip (.tryCatch co (.seq (.setExc true) (caught b.depth)))))))
        (.seq (.tryCatch (.block (.endFin b.depth) cf) (.seq (.setExc true) (caught b.depth)))
          (.seq (.ifFlow b.depth .ret (.seq (.ifExc .clearInfo .skip) (retSavedCode b)))
        (.seq brkC (.seq contC (.ifFlow b.depth .exception (.reraise true))))))) st := rfl
  rw [hrun]
  have hpy : py H ω N (.tryS body hs orelse final) cur st.py = pyFinally cur (py H ω N final)
      (tryPre (py H ω N orelse cur) (pyHandlers H ω N hs) (py H ω N body cur st.py)) := by
    simp only [py]
    congr 1
  rw [hpy]
  simp only at hmid
  generalize hpre : tryPre (py H ω N orelse cur) (pyHandlers H ω N hs) (py H ω N body cur st.py) = y at hmid hfr ⊢
  have hfr := hfr y rfl
  generalize hx1 : run H ω N (.block (.endTry b.depth) (.seq (.seq (.setExc false) (.setFlow b.depth .default))
      (.seq (.tryCatch cb (.seq (.setExc true) (.tryCatch working (caught b.depth))))
        (.ifExc .skip (.tryCatch co (.seq (.setExc true) (caught b.depth))))))) st = x1 at hmid
  obtain ⟨yo, ys⟩ := y
  obtain ⟨xo, xs⟩ := x1
  by_cases hto : yo = .timeout
  · subst hto
    have : xo = .timeout := hmid.1 rfl
    subst this
    rw [run_seq_abn hx1 (by simp)]
    exact ⟨fun _ => rfl, fun h => absurd rfl h⟩
  · obtain ⟨h1, h2, h3⟩ := hmid.2 hto
    simp only at h1
    subst h1
    rw [run_seq_normal hx1, pyFinally_eq _ _ _ hto]
    have hxs : xs.env = ys.env := congrArg PSt.env h2.py
    -- the variables about which something is known when `finally` starts
    have hcv : Cov H σ (fun x => V x ∧ (yo = .normal ∨ final.mentions x = true)) A₂ xs.env := by
      by_cases hno : yo = .normal
      · exact fun x hx => h3 hno x hx.1
      · have h4 : Cov H σ (fun x => V x ∧ final.mentions x = true) A₂ xs.env := by
          have h5 : Cov H σ (fun x => V x ∧ final.mentions x = true) A st.env :=
            fun x hx => hcov x hx.1
          refine h5.frame (by rw [hxs]; exact hfr hto) ?_ ?_
          · intro x hx; exact (hfin x hx.2).1
          · intro x hx hna
            exact (hfin x hx.2).2 hna
        intro x hx
        exact h4 x ⟨hx.1, hx.2.resolve_left hno⟩
    have hfinal := try_final (ω := ω) (N := N) hf hcf hgf hnt hnr hsf
      (fun x hx => ⟨hV' x (.inr (.inr (.inr hx))), .inr hx⟩) (cur := pending cur yo) h2 hcv
    simp only at hfinal
    generalize afterFinal yo (py H ω N final (pending cur yo) ys) = y2 at hfinal ⊢
    generalize hx2 : run H ω N (.tryCatch (.block (.endFin b.depth) cf)
      (.seq (.setExc true) (caught b.depth))) xs = x2 at hfinal
    obtain ⟨yo', ys'⟩ := y2
    obtain ⟨xo', xs'⟩ := x2
    by_cases hto' : yo' = .timeout
    · subst hto'
      have : xo' = .timeout := hfinal.1 rfl
      subst this
      rw [run_seq_abn hx2 (by simp)]
      exact ⟨fun _ => rfl, fun h => absurd rfl h⟩
    · obtain ⟨h4, h5, h6⟩ := hfinal.2 hto'
      simp only at h4
      subst h4
      rw [run_seq_normal hx2]
      refine try_tail hw hbk hct h5 (fun h => ?_)
      obtain ⟨h7, h8⟩ := h6 h
      exact fun x hx => h8 x ⟨hx, .inl h7⟩

mutual
/-- The generated code simulates Python. -/
theorem sim (hN : 0 < N) : ∀ s : Stmt n, P H σ K ω N s
  | .pass => P_pass
  | .seq a b => P_seq (sim hN a) (sim hN b)
  | .assign _ _ => P_assign
  | .expr _ => P_expr
  | .ret _ => P_ret
  | .raiseE _ => P_raiseE
  | .reraise => P_reraise
  | .assertS _ => P_assert
  | .ifS _ a b => P_if (sim hN a) (sim hN b)
  | .whileS _ a b => P_while hN (sim hN a) (sim hN b)
  | .brk => P_brk
  | .cont => P_cont
  | .tryS a hs b c => P_try (sim hN a) (simH hN hs) (sim hN b) (sim hN c)
theorem simH (hN : 0 < N) : ∀ hs : Handlers n, PH H σ K ω N hs
  | .nil => PH_nil
  | .cons _ _ b rest => PH_cons (sim hN b) (simH hN rest)
end

end Verif.Flow
