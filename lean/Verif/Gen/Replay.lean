import Verif.Gen.Good
/-
The specification runs the body once, with the consumer's actions in the middle; `run` and
`resume` cut that run at the `yield`s.  Here the pieces are put together again (`drive`)
and shown to be the whole.
-/
namespace Verif.Gen

variable {σ E V : Type}

/-- Go on from suspension to suspension as long as the consumer does. -/
def drive (R : Nat → σ → Res σ E V (Nat × V)) : List (σ → σ) → Res σ E V (Nat × V) →
    Res (World σ) E V V
  | _, none => none
  | env, some (.norm, s) => some (.norm, (s, env))
  | env, some (.brk, s) => some (.brk, (s, env))
  | env, some (.cont, s) => some (.cont, (s, env))
  | env, some (.ret v, s) => some (.ret v, (s, env))
  | env, some (.exc e, s) => some (.exc e, (s, env))
  | [], some (.susp (_, v), s) => some (.susp v, (s, []))
  | a :: rest, some (.susp (k, _), s) => drive R rest (R k (a s))

/-- Go on with `f` after an end that is not a suspension. -/
def andThen (x : Res (World σ) E V V)
    (f : Out E V (Nat × V) → World σ → Res (World σ) E V V) : Res (World σ) E V V :=
  match x with
  | none => none
  | some (.norm, w) => f .norm w
  | some (.brk, w) => f .brk w
  | some (.cont, w) => f .cont w
  | some (.ret v, w) => f (.ret v) w
  | some (.exc e, w) => f (.exc e) w
  | some (.susp v, w) => some (.susp v, w)

theorem drive_none (R : Nat → σ → Res σ E V (Nat × V)) (env : List (σ → σ)) :
    drive R env none = none := by cases env <;> rfl

/-- Inside a context that lets suspensions pass. -/
theorem drive_ctx {Rin Rout : Nat → σ → Res σ E V (Nat × V)}
    {C : Res σ E V (Nat × V) → Res σ E V (Nat × V)} {lo hi : Nat}
    (hn : C none = none) (hs : ∀ p s, C (some (.susp p, s)) = some (.susp p, s))
    (hR : ∀ k s, lo ≤ k → k < hi → Rout k s = C (Rin k s))
    (hI : ∀ k s, Always (InR lo hi) (Rin k s)) :
    ∀ (env : List (σ → σ)) (X : Res σ E V (Nat × V)), Always (InR lo hi) X →
    drive Rout env (C X) =
      andThen (drive Rin env X) (fun o w => drive Rout w.2 (C (some (o, w.1)))) := by
  intro env
  induction env with
  | nil =>
    intro X hX
    rcases X with _ | ⟨o, s⟩
    · rw [hn]; rfl
    · rcases o with _ | _ | _ | v | e | ⟨k, v⟩ <;> first | rfl | (rw [hs]; rfl)
  | cons a rest ih =>
    intro X hX
    rcases X with _ | ⟨o, s⟩
    · rw [hn]; rfl
    · rcases o with _ | _ | _ | v | e | ⟨k, v⟩ <;> try rfl
      rw [hs]
      have hk := hX _ _ rfl
      simp only [drive]
      rw [hR k (a s) hk.1 hk.2]
      exact ih _ (hI k (a s))

theorem drive_congr {R R' : Nat → σ → Res σ E V (Nat × V)} {lo hi : Nat}
    (hR : ∀ k s, lo ≤ k → k < hi → R k s = R' k s)
    (hI : ∀ k s, Always (InR lo hi) (R' k s)) :
    ∀ (env : List (σ → σ)) (X : Res σ E V (Nat × V)), Always (InR lo hi) X →
    drive R env X = drive R' env X := by
  intro env
  induction env with
  | nil => intro X hX; rcases X with _ | ⟨_ | _ | _ | v | e | ⟨k, v⟩, s⟩ <;> rfl
  | cons a rest ih =>
    intro X hX
    rcases X with _ | ⟨_ | _ | _ | v | e | ⟨k, v⟩, s⟩ <;> try rfl
    have hk := hX _ _ rfl
    simp only [drive]
    rw [hR k (a s) hk.1 hk.2]
    exact ih _ (hI k (a s))

theorem drive_len {R : Nat → σ → Res σ E V (Nat × V)} :
    ∀ (env : List (σ → σ)) (X : Res σ E V (Nat × V)) {o : Out E V V} {w : World σ},
    drive R env X = some (o, w) → w.2.length ≤ env.length := by
  intro env
  induction env with
  | nil =>
    intro X o w h
    rcases X with _ | ⟨_ | _ | _ | v | e | ⟨k, v⟩, s⟩ <;> simp [drive] at h <;>
      obtain ⟨_, rfl⟩ := h <;> simp
  | cons a rest ih =>
    intro X o w h
    rcases X with _ | ⟨_ | _ | _ | v | e | ⟨k, v⟩, s⟩
    · simp [drive] at h
    all_goals try (simp [drive] at h; obtain ⟨_, rfl⟩ := h; simp; done)
    have := ih _ h
    simp only [List.length_cons]
    omega

theorem andThen_congr {x y : Res (World σ) E V V}
    {f : Out E V (Nat × V) → World σ → Res (World σ) E V V} (h : ∀ o w, x = some (o, w) →
      y = andThen (some (o, w)) f) (hn : x = none → y = none) : y = andThen x f := by
  rcases x with _ | ⟨o, w⟩
  · exact hn rfl
  · exact h o w rfl

/-! ### One lemma per construct -/

theorem replay_seq {K' : World σ → Res (World σ) E V V} {K : σ → Res σ E V (Nat × V)}
    {Rin Rout Rk : Nat → σ → Res σ E V (Nat × V)} {lo mid hi : Nat}
    (hIn : ∀ k s, lo ≤ k → k < mid → Rout k s = seqR K (Rin k s))
    (hOut : ∀ k s, mid ≤ k → k < hi → Rout k s = Rk k s)
    (iIn : ∀ k s, Always (InR lo mid) (Rin k s)) (iK : ∀ s, Always (InR mid hi) (K s))
    (iRk : ∀ k s, Always (InR mid hi) (Rk k s))
    (hK : ∀ s env, K' (s, env) = drive Rk env (K s))
    (env : List (σ → σ)) (X : Res σ E V (Nat × V)) (hX : Always (InR lo mid) X) :
    seqR K' (drive Rin env X) = drive Rout env (seqR K X) := by
  rw [drive_ctx (C := seqR K) rfl (fun _ _ => rfl) hIn iIn env X hX]
  apply andThen_congr
  · rintro o ⟨s, e⟩ h
    rw [h]
    rcases o with _ | _ | _ | v | x | v <;> try (cases e <;> rfl)
    simp only [seqR, andThen]
    rw [hK, drive_congr hOut iRk e (K s) (iK s)]
  · intro h; rw [h]; rfl

theorem cond_drive {t : Act σ E V Bool} {B' O' : World σ → Res (World σ) E V V}
    {B O : σ → Res σ E V (Nat × V)} {R : Nat → σ → Res σ E V (Nat × V)}
    {env : List (σ → σ)}
    (hb : ∀ s, B' (s, env) = drive R env (B s)) (ho : ∀ s, O' (s, env) = drive R env (O s))
    (s : σ) : condR (act t) B' O' (s, env) = drive R env (condR t B O s) := by
  simp only [condR, act]
  rcases t s with ⟨s', e | (_ | _)⟩
  · cases env <;> rfl
  · exact ho s'
  · exact hb s'

theorem replay_loop {t : Act σ E V Bool} {B' O' : World σ → Res (World σ) E V V}
    {B O : σ → Res σ E V (Nat × V)} {Rb Ro Rout : Nat → σ → Res σ E V (Nat × V)}
    {lo mid hi : Nat}
    (hIn : ∀ k s, lo ≤ k → k < mid → Rout k s = againR (loopL t B O) (Rb k s))
    (hOut : ∀ k s, mid ≤ k → k < hi → Rout k s = Ro k s)
    (iRb : ∀ k s, Always (InR lo mid) (Rb k s)) (iB : ∀ s, Always (InR lo mid) (B s))
    (iRo : ∀ k s, Always (InR mid hi) (Ro k s)) (iO : ∀ s, Always (InR mid hi) (O s))
    (hB : ∀ s env, B' (s, env) = drive Rb env (B s))
    (hO : ∀ s env, O' (s, env) = drive Ro env (O s)) (s : σ) (env : List (σ → σ)) :
    loopL (act t) B' O' (s, env) = drive Rout env (loopL t B O s) := by
  have hO' : ∀ s env, O' (s, env) = drive Rout env (O s) := by
    intro s env; rw [hO, drive_congr hOut iRo env (O s) (iO s)]
  have ctx := drive_ctx (C := againR (loopL t B O)) (Rin := Rb) (Rout := Rout) rfl
    (fun _ _ => rfl) hIn iRb
  have one : ∀ n s env, Le (loopN (act t) B' O' n (s, env)) (drive Rout env (loopL t B O s)) := by
    intro n
    induction n with
    | zero => intro s env; exact Le.none _
    | succ n ih =>
      intro s env
      rw [loopL_unfold]
      simp only [loopN, condR, act]
      rcases t s with ⟨s', e | (_ | _)⟩
      · cases env <;> exact Le.refl _
      · simp only []; rw [hO']; exact Le.refl _
      · simp only []
        rw [ctx env (B s') (iB s'), hB]
        rcases drive Rb env (B s') with _ | ⟨o, ⟨s2, e2⟩⟩
        · exact Le.none _
        · rcases o with _ | _ | _ | v | x | v
          · exact ih s2 e2
          · cases e2 <;> exact Le.refl _
          · exact ih s2 e2
          · cases e2 <;> exact Le.refl _
          · cases e2 <;> exact Le.refl _
          · exact Le.refl _
  have two : ∀ len, ∀ env : List (σ → σ), env.length ≤ len → ∀ n s,
      Le (drive Rout env (loopN t B O n s)) (loopL (act t) B' O' (s, env)) := by
    intro len
    induction len with
    | zero =>
      intro env he
      have : env = [] := List.eq_nil_of_length_eq_zero (by omega)
      subst this
      intro n
      induction n with
      | zero => intro s; exact Le.none _
      | succ n ih =>
        intro s
        rw [loopL_unfold]
        simp only [loopN, condR, act]
        rcases t s with ⟨s', e | (_ | _)⟩
        · exact Le.refl _
        · simp only []; rw [hO']; exact Le.refl _
        · simp only []
          rw [hB]
          rcases B s' with _ | ⟨_ | _ | _ | v | e | ⟨k, v⟩, s2⟩
          · exact Le.none _
          · exact ih s2
          · exact Le.refl _
          · exact ih s2
          · exact Le.refl _
          · exact Le.refl _
          · exact Le.refl _
    | succ len ihl =>
      intro env he n
      induction n with
      | zero => intro s; rw [loopN, drive_none]; exact Le.none _
      | succ n ih =>
        intro s
        rw [loopL_unfold]
        simp only [loopN, condR, act]
        rcases t s with ⟨s', e | (_ | _)⟩
        · cases env <;> exact Le.refl _
        · simp only []; rw [hO']; exact Le.refl _
        · simp only []
          rw [hB]
          have hBs := iB s'
          rcases hb : B s' with _ | ⟨_ | _ | _ | v | e | ⟨k, v⟩, s2⟩
          · simp only [againR, drive_none]; exact Le.none _
          · cases env <;> exact ih s2
          · cases env <;> exact Le.refl _
          · cases env <;> exact ih s2
          · cases env <;> exact Le.refl _
          · cases env <;> exact Le.refl _
          · rw [hb] at hBs
            have hk := hBs _ _ rfl
            cases env with
            | nil => exact Le.refl _
            | cons a rest =>
              simp only [againR, drive]
              rw [hIn k (a s2) hk.1 hk.2, ctx rest _ (iRb k (a s2))]
              rcases hd : drive Rb rest (Rb k (a s2)) with _ | ⟨o, ⟨s3, e3⟩⟩
              · exact Le.none _
              · have hl := drive_len rest _ hd
                have he3 : e3.length ≤ len := by
                  simp only [List.length_cons] at he
                  exact Nat.le_trans hl (by omega)
                have fin : Le (drive Rout e3 (loopL t B O s3))
                    (loopL (act t) B' O' (s3, e3)) := by
                  intro r hr
                  rcases hL : loopL t B O s3 with _ | q
                  · rw [hL, drive_none] at hr; cases hr
                  · obtain ⟨m, hm⟩ := (loopL_eq_some _).1 hL
                    rw [hL, ← hm] at hr
                    exact ihl e3 he3 m s3 r hr
                rcases o with _ | _ | _ | v | x | v
                · exact fin
                · cases e3 <;> exact Le.refl _
                · exact fin
                · cases e3 <;> exact Le.refl _
                · cases e3 <;> exact Le.refl _
                · exact Le.refl _
  apply opt_ext
  intro r
  constructor
  · intro h
    obtain ⟨n, hn⟩ := (loopL_eq_some _).1 h
    exact one n s env r hn
  · intro h
    rcases hL : loopL t B O s with _ | q
    · rw [hL, drive_none] at h; cases h
    · obtain ⟨m, hm⟩ := (loopL_eq_some _).1 hL
      rw [hL, ← hm] at h
      exact two env.length env (Nat.le_refl _) m s r h

/-- A block without `yield` does not look at the consumer. -/
theorem drive_noyield {R R' : Nat → σ → Res σ E V (Nat × V)} {lo : Nat}
    {X : Res σ E V (Nat × V)} (h : Always (InR lo lo) X) (env : List (σ → σ)) :
    drive R env X = drive R' env X := by
  rcases X with _ | ⟨_ | _ | _ | v | e | ⟨k, v⟩, s⟩ <;> try (cases env <;> rfl)
  have := h _ _ rfl
  exact absurd this.2 (Nat.not_lt.2 this.1)

theorem seq_drive_noyield {R R' : Nat → σ → Res σ E V (Nat × V)} {lo : Nat}
    {X : Res σ E V (Nat × V)} (h : Always (InR lo lo) X) (env : List (σ → σ))
    {o' : Out E V V} {o : Out E V (Nat × V)}
    (ho : ∀ s, drive R' env (some (o, s)) = some (o', (s, env))) :
    seqR (fun w => some (o', w)) (drive R env X) =
      drive R' env (seqR (fun s => some (o, s)) X) := by
  rcases X with _ | ⟨_ | _ | _ | v | e | ⟨k, v⟩, s⟩ <;>
    try (cases env <;> first | rfl | exact (ho s).symm)
  have := h _ _ rfl
  exact absurd this.2 (Nat.not_lt.2 this.1)

/-- `finally` around something. -/
theorem replay_fin {F' : Option (Exc E V) → World σ → Res (World σ) E V V}
    {F : Option (Exc E V) → σ → Res σ E V (Nat × V)} {cur : Option (Exc E V)}
    {Rin Rout Rf : Nat → σ → Res σ E V (Nat × V)} {lo hi l0 : Nat}
    (hIn : ∀ k s, lo ≤ k → k < hi → Rout k s = finR F cur (Rin k s))
    (iIn : ∀ k s, Always (InR lo hi) (Rin k s))
    (iF : ∀ c s, Always (InR l0 l0) (F c s))
    (hF : ∀ c s env, F' c (s, env) = drive Rf env (F c s))
    (env : List (σ → σ)) (X : Res σ E V (Nat × V)) (hX : Always (InR lo hi) X) :
    finR F' cur (drive Rin env X) = drive Rout env (finR F cur X) := by
  rw [drive_ctx (C := finR F cur) rfl (fun _ _ => rfl) hIn iIn env X hX]
  apply andThen_congr
  · rintro o ⟨s, e⟩ h
    rw [h]
    rcases o with _ | _ | _ | v | x | v
    · simp only [finR, andThen, hF]
      exact drive_noyield (iF cur s) e
    · simp only [finR, andThen, hF]
      exact seq_drive_noyield (iF _ _) e (fun s => by cases e <;> rfl)
    · simp only [finR, andThen, hF]
      exact seq_drive_noyield (iF _ _) e (fun s => by cases e <;> rfl)
    · simp only [finR, andThen, hF]
      exact seq_drive_noyield (iF _ _) e (fun s => by cases e <;> rfl)
    · simp only [finR, andThen, hF]
      exact seq_drive_noyield (iF _ _) e (fun s => by cases e <;> rfl)
    · rfl
  · intro h; rw [h]; rfl

/-- `try` with handlers and `else`. -/
theorem replay_try {H' : Exc E V → World σ → Res (World σ) E V V}
    {O' : World σ → Res (World σ) E V V}
    {H : Exc E V → σ → Res σ E V (Nat × V)} {O : σ → Res σ E V (Nat × V)}
    {Rb Rh Ro Rout : Nat → σ → Res σ E V (Nat × V)} {l0 l1 l2 l3 : Nat}
    (hIn : ∀ k s, l0 ≤ k → k < l1 → Rout k s = tryR H O (Rb k s))
    (hH : ∀ k s, l1 ≤ k → k < l2 → Rout k s = Rh k s)
    (hO : ∀ k s, l2 ≤ k → k < l3 → Rout k s = Ro k s)
    (iRb : ∀ k s, Always (InR l0 l1) (Rb k s)) (iRh : ∀ k s, Always (InR l1 l2) (Rh k s))
    (iRo : ∀ k s, Always (InR l2 l3) (Ro k s))
    (iH : ∀ e s, Always (InR l1 l2) (H e s)) (iO : ∀ s, Always (InR l2 l3) (O s))
    (dH : ∀ e s env, H' e (s, env) = drive Rh env (H e s))
    (dO : ∀ s env, O' (s, env) = drive Ro env (O s))
    (env : List (σ → σ)) (X : Res σ E V (Nat × V)) (hX : Always (InR l0 l1) X) :
    tryR H' O' (drive Rb env X) = drive Rout env (tryR H O X) := by
  rw [drive_ctx (C := tryR H O) rfl (fun _ _ => rfl) hIn iRb env X hX]
  apply andThen_congr
  · rintro o ⟨s, e⟩ h
    rw [h]
    rcases o with _ | _ | _ | v | x | v <;> try (cases e <;> rfl)
    · simp only [tryR, andThen, dO]
      rw [drive_congr hO iRo e (O s) (iO s)]
    · simp only [tryR, andThen, dH]
      rw [drive_congr hH iRh e (H x s) (iH x s)]
  · intro h; rw [h]; rfl

mutual
/-- The whole run is `run`, followed by `resume`s. -/
theorem replay : ∀ (x : Stmt σ E V) {i : Bool} (_ : x.Good i) (cur : Option (Exc E V))
    (b : Nat) (s : σ) (env : List (σ → σ)),
    execL cur x (s, env) = drive (fun k => resume cur b k x) env (run cur b x s)
  | .prim f, i, g, cur, b, s, env => by
    simp only [execL, primR, act, run, primP]
    rcases f s with ⟨s', e | u⟩ <;> cases env <;> rfl
  | .yld e, i, g, cur, b, s, env => by
    simp only [execL, yldR, act, run, yldP]
    rcases e s with ⟨s', x | v⟩
    · cases env <;> rfl
    · cases env with
      | nil => rfl
      | cons a rest => simp only [drive, resume]
  | .ite t body o, i, g, cur, b, s, env => by
    simp only [Stmt.Good] at g
    simp only [execL, run]
    refine cond_drive (fun s' => ?_) (fun s' => ?_) s
    · rw [replayB body g.2.1 cur b s' env]
      refine (drive_congr (lo := b) (hi := b + body.yields) (fun k s'' h1 h2 => ?_)
        (fun k s'' => resumeB_inR body cur b k s'') env _ (runB_inR body cur b s')).symm
      simp only [resume, if_pos h2]
    · rw [replayB o g.2.2 cur (b + body.yields) s' env]
      refine (drive_congr (lo := b + body.yields) (hi := b + body.yields + o.yields)
        (fun k s'' h1 h2 => ?_)
        (fun k s'' => resumeB_inR o cur _ k s'') env _ (runB_inR o cur _ s')).symm
      simp only [resume, if_neg (show ¬ k < b + body.yields by omega)]
  | .whl t body o, i, g, cur, b, s, env => by
    simp only [Stmt.Good] at g
    simp only [execL, run]
    refine replay_loop (lo := b) (mid := b + body.yields) (hi := b + body.yields + o.yields)
      (Rb := fun k => resumeB cur b k body)
      (Ro := fun k => resumeB cur (b + body.yields) k o)
      (fun k s' h1 h2 => ?_) (fun k s' h1 h2 => ?_)
      (fun k s' => resumeB_inR body cur b k s') (fun s' => runB_inR body cur b s')
      (fun k s' => resumeB_inR o cur _ k s') (fun s' => runB_inR o cur _ s')
      (fun s' env => replayB body g.2.1 cur b s' env)
      (fun s' env => replayB o g.2.2 cur _ s' env) s env
    · simp only [resume, if_pos h2]
    · simp only [resume, if_neg (show ¬ k < b + body.yields by omega)]
  | .brk, i, g, cur, b, s, env => by simp only [execL, run]; cases env <;> rfl
  | .cont, i, g, cur, b, s, env => by simp only [execL, run]; cases env <;> rfl
  | .ret none, i, g, cur, b, s, env => by simp only [execL, run]; cases env <;> rfl
  | .ret (some e), i, g, cur, b, s, env => by
    simp only [execL, retR, act, run, retP]
    rcases e s with ⟨s', x | v⟩ <;> cases env <;> rfl
  | .reraise, i, g, cur, b, s, env => by simp only [execL, run]; cases env <;> rfl
  | .info f, i, g, cur, b, s, env => by
    simp only [execL, primR, act, run, primP]
    rcases f cur s with ⟨s', e | u⟩ <;> cases env <;> rfl
  | .tri body hs o f, i, g, cur, b, s, env => by
    simp only [Stmt.Good] at g
    obtain ⟨gb, gh, go, gf, hf0, hsyn⟩ := g
    simp only [execL, run]
    rw [replayB body gb cur b s env]
    rw [replay_try (Rout := fun k s =>
        if k < b + body.yields then
          tryR (runH cur (b + body.yields) hs) (runB cur (b + body.yields + hs.yields) o)
            (resumeB cur b k body s)
        else if k < b + body.yields + hs.yields then resumeH cur (b + body.yields) k hs s
        else resumeB cur (b + body.yields + hs.yields) k o s)
      (H := runH cur (b + body.yields) hs) (O := runB cur (b + body.yields + hs.yields) o)
      (Rh := fun k => resumeH cur (b + body.yields) k hs)
      (Ro := fun k => resumeB cur (b + body.yields + hs.yields) k o)
      (l0 := b) (l1 := b + body.yields) (l2 := b + body.yields + hs.yields)
      (l3 := b + body.yields + hs.yields + o.yields)
      (fun k s h1 h2 => by simp only [if_pos h2])
      (fun k s h1 h2 => by
        simp only [if_neg (show ¬ k < b + body.yields by omega), if_pos h2])
      (fun k s h1 h2 => by
        simp only [if_neg (show ¬ k < b + body.yields by omega),
          if_neg (show ¬ k < b + body.yields + hs.yields by omega)])
      (fun k s => resumeB_inR body cur b k s) (fun k s => resumeH_inR hs cur _ k s)
      (fun k s => resumeB_inR o cur _ k s) (fun e s => runH_inR hs cur _ e s)
      (fun s => runB_inR o cur _ s)
      (fun e s env => replayH hs gh cur _ e s env)
      (fun s env => replayB o go cur _ s env) env _ (runB_inR body cur b s)]
    refine replay_fin (lo := b) (hi := b + body.yields + hs.yields + o.yields)
      (Rf := fun k => resumeB none (b + body.yields + hs.yields + o.yields) k f)
      (l0 := b + body.yields + hs.yields + o.yields)
      (fun k s h1 h2 => ?_) (fun k s => ?_)
      (fun c s => ?_) (fun c s env => ?_) env _ ?_
    · simp only [resume]
    · split
      · exact Always.tryR
          (fun e s' _ => InR.weaken (by omega) (by omega) (runH_inR hs cur _ e s'))
          (fun s' => InR.weaken (by omega) (by omega) (runB_inR o cur _ s'))
          (InR.weaken (by omega) (by omega) (resumeB_inR body cur b k s))
      · split
        · exact InR.weaken (by omega) (by omega) (resumeH_inR hs cur _ k s)
        · exact InR.weaken (by omega) (by omega) (resumeB_inR o cur _ k s)
    · exact InR.weaken (by omega) (by omega) (runB_inR f c _ s)
    · rw [replayB f gf c (b + body.yields + hs.yields + o.yields) s env]
      exact drive_noyield (lo := b + body.yields + hs.yields + o.yields)
        (InR.weaken (by omega) (by omega) (runB_inR f c _ s)) env
    · exact Always.tryR
        (fun e s' _ => InR.weaken (by omega) (by omega) (runH_inR hs cur _ e s'))
        (fun s' => InR.weaken (by omega) (by omega) (runB_inR o cur _ s'))
        (InR.weaken (by omega) (by omega) (runB_inR body cur b s))
/-- `replay` for lists of statements. -/
theorem replayB : ∀ (x : Block σ E V) {i : Bool} (_ : x.Good i) (cur : Option (Exc E V))
    (b : Nat) (s : σ) (env : List (σ → σ)),
    execLB cur x (s, env) = drive (fun k => resumeB cur b k x) env (runB cur b x s)
  | .nil, i, g, cur, b, s, env => by simp only [execLB, runB]; cases env <;> rfl
  | .cons x r, i, g, cur, b, s, env => by
    simp only [Block.Good] at g
    simp only [execLB, runB]
    rw [replay x g.1 cur b s env]
    refine replay_seq (lo := b) (mid := b + x.yields) (hi := b + x.yields + r.yields)
      (Rk := fun k => resumeB cur (b + x.yields) k r)
      (fun k s h1 h2 => ?_) (fun k s h1 h2 => ?_)
      (fun k s => resume_inR x cur b k s) (fun s => runB_inR r cur _ s)
      (fun k s => resumeB_inR r cur _ k s)
      (fun s env => replayB r g.2 cur _ s env) env _ (run_inR x cur b s)
    · simp only [resumeB, if_pos h2]
    · simp only [resumeB, if_neg (show ¬ k < b + x.yields by omega)]
/-- `replay` for handlers. -/
theorem replayH : ∀ (x : Handlers σ E V) (_ : x.Good) (cur : Option (Exc E V))
    (b : Nat) (e : Exc E V) (s : σ) (env : List (σ → σ)),
    execLH cur x e (s, env) = drive (fun k => resumeH cur b k x) env (runH cur b x e s)
  | .nil, g, cur, b, e, s, env => by simp only [execLH, runH]; cases env <;> rfl
  | .cons m bind body r, g, cur, b, e, s, env => by
    simp only [Handlers.Good] at g
    simp only [execLH, runH, g.1]
    split
    · rw [replayB body g.2.1 (some e) b s env]
      refine (drive_congr (lo := b) (hi := b + body.yields) (fun k s' h1 h2 => ?_)
        (fun k s' => resumeB_inR body (some e) b k s') env _ (runB_inR body (some e) b s)).symm
      simp only [resumeH, if_pos h2]
      rcases g.2.2.1 with h | h
      · omega
      · rw [resumeB_cur body g.2.1 h cur (some e) b k h1 h2]
    · rw [replayH r g.2.2.2 cur (b + body.yields) e s env]
      refine (drive_congr (lo := b + body.yields) (hi := b + body.yields + r.yields)
        (fun k s' h1 h2 => ?_)
        (fun k s' => resumeH_inR r cur _ k s') env _ (runH_inR r cur _ e s)).symm
      simp only [resumeH, if_neg (show ¬ k < b + body.yields by omega)]
end

end Verif.Gen
