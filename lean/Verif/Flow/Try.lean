import Verif.Flow.Loop
/-
The generated code simulates Python: `try`.
-/
namespace Verif.Flow

variable {n : Nat} {H : Hier} {σ : Slots n} {K : Nat} {ω : Nat → Nat} {N : Nat}

/-- The handlers of a `try` at depth `d`, compared with Python's. An exception that leaves them is
thrown, or is already recorded. -/
structure ResH (H : Hier) (σ : Slots n) (b : Blocks) (d : Nat) (V : Fin n → Prop) (A' : VS n)
    (nt : Bool) (st : St n) (o : Out) (st' : St n) (po : POut) (p : PSt n) : Prop where
  py : st'.py = p
  slot : SlotOK H σ st'.env
  out : Matches b o st' po ∨
    ∃ v, po = .raised v ∧ o = .normal ∧ st'.flow d = .exception ∧ st'.info = some v
  norm : po = .normal → Cov H σ V A' st'.env ∧ st'.flow d = st.flow d
  flow : ∀ j, j < d → st'.flow j = st.flow j
  noTry : nt = true → st'.exc = st.exc

def RelH (H : Hier) (σ : Slots n) (b : Blocks) (d : Nat) (V : Fin n → Prop) (A' : VS n)
    (nt : Bool) (st : St n) (x : Out × St n) (y : POut × PSt n) : Prop :=
  (y.1 = .timeout → x.1 = .timeout) ∧
  (y.1 ≠ .timeout → ResH H σ b d V A' nt st x.1 x.2 y.1 y.2)

/-- The claim about handlers. -/
def PH (H : Hier) (σ : Slots n) (K : Nat) (ω : Nat → Nat) (N : Nat) (hs : Handlers n) : Prop :=
  ∀ (b : Blocks) (d : Nat), b.WF → b.ret = some (.endTry d) → b.depth = d + 1 →
    ∀ (AH A : VS n) (c : Code n) (A' : VS n),
    convHandlers H σ K hs b AH A = some (c, A') → goodHandlers H σ K hs b AH = true → hs.Sound H →
    ∀ (V : Fin n → Prop), (∀ x, hs.mentions x = true → V x) → ∀ (v : Val) (st : St n),
      SlotOK H σ st.env → Cov H σ V AH st.env → st.err = some v →
      RelH H σ b d V A' hs.noTry st (run H ω N c st) (pyHandlers H ω N hs v st.py)

/-- the state after the handlers describes what the state after the body describes -/
theorem convHandlers_cov : ∀ (hs : Handlers n) (b : Blocks) (AH A : VS n) (c : Code n) (A' : VS n),
    convHandlers H σ K hs b AH A = some (c, A') → ∀ (V : Fin n → Prop) env,
      Cov H σ V A env → Cov H σ V A' env
  | .nil, b, AH, A, c, A', h, V, env, hc => by
    simp only [convHandlers, Option.some.injEq, Prod.mk.injEq] at h
    rw [← h.2]; exact hc
  | .cons cl name body rest, b, AH, A, c, A', h, V, env, hc => by
    simp only [convHandlers] at h
    split at h
    · simp at h
    · rename_i w A1 h1
      have ih := convHandlers_cov rest b AH A w A1 h1 V env hc
      split at h
      · split at h
        · simp at h
        · rename_i ch Ah r hch
          simp only [Option.some.injEq, Prod.mk.injEq] at h
          rw [← h.2]
          cases r with
          | true => rw [if_pos rfl]; exact Cov.becomeMerge_left ih
          | false => exact ih
      · split at h
        · simp at h
        · rename_i ch Ah r hch
          simp only [Option.some.injEq, Prod.mk.injEq] at h
          rw [← h.2]
          cases r with
          | true => rw [if_pos rfl]; exact Cov.becomeMerge_left ih
          | false => exact ih

theorem PH_nil : PH H σ K ω N .nil := by
  intro b d hw hret hdep AH A c A' hc _ _ V _ v st hs hcov herr
  simp only [convHandlers, Option.some.injEq, Prod.mk.injEq] at hc
  obtain ⟨rfl, rfl⟩ := hc
  have hd : b.depth - 1 = d := by omega
  rw [hd]
  refine ⟨fun h => by simp [pyHandlers] at h, fun _ => ?_⟩
  rw [run_seq_normal (st' := { st with info := st.err }) rfl]
  exact { py := rfl, slot := hs
          out := .inr ⟨v, rfl, rfl, by simp [run], herr⟩
          norm := fun h => by simp [pyHandlers] at h
          flow := fun j hj => by
            have : j ≠ d := by omega
            simp [run, this]
          noTry := fun _ => rfl }

/-- the end of a handler: the exception is forgotten -/
theorem run_handler_end (c : Code n) (st : St n) :
    run H ω N (.seq c (.ifExc .clearInfo .skip)) st =
      match run H ω N c st with
      | (.normal, s) => (.normal, { s with info := if s.exc then none else s.info })
      | r => r := by
  simp only [run]
  generalize run H ω N c st = x
  obtain ⟨o, s⟩ := x
  cases o <;> first | rfl | exact run_clear (H := H) (ω := ω) (N := N) s

theorem PH_cons {cl : Nat} {name : Option (Fin n)} {body : Stmt n} {rest : Handlers n}
    (hb : P H σ K ω N body) (hr : PH H σ K ω N rest) : PH H σ K ω N (.cons cl name body rest) := by
  intro b d hw hret hdep AH A c A' hc hg hsd V hV v st hs hcov herr
  have hVb : ∀ x, body.mentions x = true → V x := fun x hx => hV x (by simp [Handlers.mentions, hx])
  have hVr : ∀ x, rest.mentions x = true → V x := fun x hx => hV x (by simp [Handlers.mentions, hx])
  have hnb : (Handlers.cons cl name body rest).noTry = true → body.noTry = true := by
    simp only [Handlers.noTry, Bool.and_eq_true]; exact fun h => h.1
  have hnr : (Handlers.cons cl name body rest).noTry = true → rest.noTry = true := by
    simp only [Handlers.noTry, Bool.and_eq_true]; exact fun h => h.2
  simp only [convHandlers] at hc
  simp only [goodHandlers, Bool.and_eq_true] at hg
  split at hc
  · simp at hc
  · rename_i working A1 hcr
    -- the exception is not for this handler
    have hrest : inAtom H v (.cls cl) = false → ∀ (hcode : Code n) (A2 : VS n),
        (∀ env, Cov H σ V A1 env → Cov H σ V A2 env) →
        RelH H σ b d V A2 (Handlers.cons cl name body rest).noTry st
          (run H ω N (.matchExc cl hcode working) st)
          (pyHandlers H ω N (.cons cl name body rest) v st.py) := by
      intro hno hcode A2 hA2
      have h1 := hr b d hw hret hdep AH A working A1 hcr hg.1 hsd.2 V hVr v st hs hcov herr
      have hrun : run H ω N (.matchExc cl hcode working) st = run H ω N working st := by
        simp only [run, herr, hno, Bool.false_eq_true, if_false]
      have hpy : pyHandlers H ω N (.cons cl name body rest) v st.py =
          pyHandlers H ω N rest v st.py := by
        simp only [pyHandlers, hno, Bool.false_eq_true, if_false]
      rw [hrun, hpy]
      refine ⟨h1.1, fun e => ?_⟩
      have h2 := h1.2 e
      exact { py := h2.py, slot := h2.slot, out := h2.out
              norm := fun e' => ⟨hA2 _ (h2.norm e').1, (h2.norm e').2⟩
              flow := h2.flow, noTry := fun e' => h2.noTry (hnr e') }
    split at hc
    · -- no name
      split at hc
      · simp at hc
      · rename_i hname ch Ah r hch
        simp only [Option.some.injEq, Prod.mk.injEq] at hc
        obtain ⟨rfl, rfl⟩ := hc
        cases hm : inAtom H v (.cls cl) with
        | false =>
          refine hrest hm _ _ (fun env hcv => ?_)
          cases r with
          | true => rw [if_pos rfl]; exact Cov.becomeMerge_left hcv
          | false => exact hcv
        | true =>
          have hrun : run H ω N (.matchExc cl (.seq .catchExc (.seq ch (.ifExc .clearInfo .skip)))
              working) st = run H ω N (.seq ch (.ifExc .clearInfo .skip)) { st with info := some v } := by
            simp only [run, herr, hm, if_true]
          have hpy : pyHandlers H ω N (.cons cl none body rest) v st.py =
              py H ω N body (some v) ({ st with info := some v } : St n).py := by
            simp only [pyHandlers, hm, if_true]; rfl
          rw [hrun, hpy, run_handler_end]
          have h1 := hb b hw AH ch Ah r hch hg.2 hsd.1 V hVb (some v) { st with info := some v }
            hs hcov (fun _ => rfl)
          generalize hx : run H ω N ch { st with info := some v } = x at h1 ⊢
          generalize hy : py H ω N body (some v) ({ st with info := some v } : St n).py = y at h1 ⊢
          obtain ⟨xo, xs⟩ := x
          obtain ⟨yo, ys⟩ := y
          refine ⟨fun e => ?_, fun e => ?_⟩
          · have := h1.1 e
            simp only at this
            subst this
            rfl
          · have h2 := h1.2 e
            have hfl : ∀ j, j < d → xs.flow j = st.flow j := by
              intro j hj
              refine h2.flow j (by omega) (fun l hl _ => ?_)
              rw [hret] at hl
              simp only [Option.some.injEq] at hl
              subst hl
              simp only [Label.depth]; omega
            by_cases hyo : yo = .normal
            · subst hyo
              have hxo : xo = .normal := h2.out
              subst hxo
              obtain ⟨hrt, hcv⟩ := h2.norm rfl
              subst hrt
              refine { py := ?_, slot := h2.slot, out := .inl rfl, norm := fun _ => ⟨?_, ?_⟩
                       flow := hfl, noTry := fun hn => (h2.noTry (hnb hn)).1 }
              · exact h2.py
              · rw [if_pos rfl]; exact Cov.becomeMerge_right hcv
              · exact h2.flow d (by omega) (fun l _ h => by simp at h)
            · have hxo := h2.out.ne_normal hyo
              have hgo : ResH H σ b d V (if r = true then VS.becomeMerge H (some A1) (some Ah) else A1)
                  (Handlers.cons cl none body rest).noTry st xo xs yo ys :=
                { py := h2.py, slot := h2.slot, out := .inl h2.out
                  norm := fun e => absurd e hyo, flow := hfl
                  noTry := fun hn => (h2.noTry (hnb hn)).1 }
              cases xo <;> first | exact hgo | exact absurd rfl hxo
    · -- the exception is bound to a name
      rename_i x
      split at hc
      · simp at hc
      · rename_i ch Ah r hch
        simp only [Option.some.injEq, Prod.mk.injEq] at hc
        obtain ⟨rfl, rfl⟩ := hc
        simp only [Bool.and_eq_true, Bool.not_eq_true'] at hg
        have hVx : V x := hV x (by simp [Handlers.mentions])
        cases hm : inAtom H v (.cls cl) with
        | false =>
          refine hrest hm _ _ (fun env hcv => ?_)
          cases r with
          | true => rw [if_pos rfl]; exact Cov.becomeMerge_left hcv
          | false => exact hcv
        | true =>
          have hin : inTy H v [.cls cl] = true := by simp [inTy, hm]
          obtain ⟨hsafe, s, hsx, hss⟩ := settled_safe hg.2.1.1 hin
          have hpod : (storeMode σ AH x).2 = false := by
            simp only [storeMode, hsx]
            cases v with
            | inst c i => exact not_pod_of_inst hss
            | prim _ => simp [inAtom] at hm
            | none => simp [inAtom] at hm
            | other _ _ => simp [inAtom] at hm
          let st1 : St n := { st with info := some v, env := setVar st.env x (some v) }
          have hrun : run H ω N (.matchExc cl (.seq
              (.storeExc x (storeMode σ AH x).1 (storeMode σ AH x).2)
              (.seq (.cleanup ch x (storeMode σ AH x).2) (.ifExc .clearInfo .skip))) working) st =
              run H ω N (.seq (.cleanup ch x false) (.ifExc .clearInfo .skip)) st1 := by
            have h0 : run H ω N (.matchExc cl (.seq
              (.storeExc x (storeMode σ AH x).1 (storeMode σ AH x).2)
              (.seq (.cleanup ch x (storeMode σ AH x).2) (.ifExc .clearInfo .skip))) working) st =
              run H ω N (.seq (.storeExc x (storeMode σ AH x).1 (storeMode σ AH x).2)
              (.seq (.cleanup ch x (storeMode σ AH x).2) (.ifExc .clearInfo .skip))) st := by
              simp only [run, herr, hm, if_true]
            rw [h0, hpod]
            refine run_seq_normal ?_
            have h9 := doStore_eq (st := { st with info := some v }) hcov hVx v false
            simp only [herr] at h9
            simp only [run, herr, st1]
            exact h9
          have hpy : pyHandlers H ω N (.cons cl (some x) body rest) v st.py =
              match py H ω N body (some v) st1.py with
              | (.timeout, st') => (.timeout, st')
              | (o, st') => (o, { st' with env := setVar st'.env x none }) := by
            simp only [pyHandlers, hm, if_true]; rfl
          rw [hrun, hpy, run_handler_end]
          have h1 := hb b hw _ ch Ah r hch hg.2.2 hsd.1 V hVb (some v) st1
            (hs.set ⟨s, hsx, hss⟩) (hcov.assigned hsafe) (fun _ => rfl)
          have hfr := py_frame H ω N body (some v) st1.py
          simp only [run]
          generalize hx : run H ω N ch st1 = xx at h1 ⊢
          generalize hy : py H ω N body (some v) st1.py = y at h1 hfr ⊢
          obtain ⟨xo, xs⟩ := xx
          obtain ⟨yo, ys⟩ := y
          by_cases hto : yo = .timeout
          · subst hto
            have hxo : xo = .timeout := h1.1 rfl
            subst hxo
            exact ⟨fun _ => rfl, fun h => absurd rfl h⟩
          · have h2 := h1.2 hto
            have hpx : xs.py = ys := h2.py
            have hbound : (xs.env x).isNone = false := by
              have h3 := (hfr hto x).2 hg.2.1.2 (by simp [St.py, st1, setVar])
              simp only [← hpx, St.py] at h3
              cases hxe : xs.env x with
              | none => exact absurd hxe h3
              | some _ => rfl
            have hfl : ∀ j, j < d → xs.flow j = st.flow j := by
              intro j hj
              refine h2.flow j (by omega) (fun l hl _ => ?_)
              rw [hret] at hl
              simp only [Option.some.injEq] at hl
              subst hl
              simp only [Label.depth]; omega
            have hpy2 : ({ xs with env := setVar xs.env x none } : St n).py =
                { ys with env := setVar ys.env x none } := by
              rw [← hpx]; rfl
            by_cases hyo : yo = .normal
            · subst hyo
              have hxo : xo = .normal := h2.out
              subst hxo
              obtain ⟨hrt, hcv⟩ := h2.norm rfl
              subst hrt
              simp only [hbound, Bool.not_false, Bool.and_true, Bool.false_eq_true, if_false]
              refine ⟨fun h => by simp at h, fun _ => ?_⟩
              refine { py := ?_, slot := h2.slot.unset, out := .inl rfl, norm := fun _ => ⟨?_, ?_⟩
                       flow := hfl, noTry := fun hn => (h2.noTry (hnb hn)).1 }
              · exact hpy2
              · rw [if_pos trivial]; exact Cov.becomeMerge_right hcv.uninit
              · exact h2.flow d (by omega) (fun l _ h => by simp at h)
            · have hxo := h2.out.ne_normal hyo
              have hxt : xo ≠ .timeout ∧ xo ≠ .fault := by
                have hm2 := h2.out
                cases yo with
                | normal => exact absurd rfl hyo
                | timeout => exact absurd rfl hto
                | brk => rcases hm2 with ⟨_, ⟨_, h⟩ | ⟨_, _, _, h, _⟩⟩ <;> subst h <;> simp
                | cont => rcases hm2 with ⟨_, ⟨_, h⟩ | ⟨_, _, _, h, _⟩⟩ <;> subst h <;> simp
                | raised v => have h : xo = .raised v := hm2; subst h; simp
                | returned v => rcases hm2 with ⟨_, h⟩ | ⟨_, _, h, _⟩ <;> subst h <;> simp
              have hmm : Matches b xo { xs with env := setVar xs.env x none } yo := by
                have hm2 := h2.out
                cases yo <;> exact hm2
              have hgo : ResH H σ b d V
                  (if r = true then VS.becomeMerge H (some A1) (some (Ah.uninit x)) else A1)
                  (Handlers.cons cl (some x) body rest).noTry st xo
                  { xs with env := setVar xs.env x none } yo
                  { ys with env := setVar ys.env x none } :=
                { py := hpy2, slot := h2.slot.unset, out := .inl hmm
                  norm := fun e => absurd e hyo, flow := hfl
                  noTry := fun hn => (h2.noTry (hnb hn)).1 }
              refine ⟨?_, ?_⟩
              · intro h
                exfalso
                cases yo <;> simp at h
                exact hto rfl
              · intro _
                cases xo <;>
                  first
                  | exact absurd rfl hxo
                  | exact absurd rfl hxt.1
                  | exact absurd rfl hxt.2
                  | (simp only [hbound, Bool.not_false, Bool.and_true, Bool.false_eq_true, if_false]
                     cases yo <;> first | exact absurd rfl hto | exact hgo)

end Verif.Flow
