import Verif.Pmap.Progress
import Mathlib.Algebra.BigOperators.Intervals
/-
Every schedule ends: each step of a thread reduces the work that is left.
-/
namespace Verif.Pmap

variable {V E : Type} {N : Nat} {progs : Fin N → Option (Comp V E)} {s : State N V E}

/-- the steps for elements `x..` of job `i`, `f y` being those for element `y` -/
def remOf (f : Nat → Nat) (n g i x : Nat) : Nat := ∑ y ∈ Finset.Ico x (jobHi n g i), (f y + 1)

/-- the steps for a job in the work queue -/
def jobOf (f : Nat → Nat) (n g i : Nat) : Nat := remOf f n g i (jobLo g i) + 4

/-- A bound on the steps for a program, whatever the schedule. -/
def cost : Comp V E → Nat
  | .ret _ => 1
  | .exc _ => 1
  | .base _ => 1
  | .pmap n g xs k =>
    4 + (∑ j ∈ Finset.Ico 0 (jobCount n g), (jobOf (fun y => cost (xs y)) n g j + 1)) +
      cost (k (listComp (fun i => seq (xs i)) n))

def remW (cl : Call V E) (i x : Nat) : Nat := remOf (fun y => cost (cl.xs y)) cl.n cl.g i x

def jobW (cl : Call V E) (i : Nat) : Nat := jobOf (fun y => cost (cl.xs y)) cl.n cl.g i

def nestW (calls : Nat → Call V E) (f : Nest V E) : Nat :=
  2 + cost (f.k (callSeq (calls f.c))) + (remW (calls f.jc) f.ji (f.jx + 1) + 3)

def restW (calls : Nat → Call V E) (rest : List (Nest V E)) : Nat := (rest.map (nestW calls)).sum

def modeW (calls : Nat → Call V E) : Mode V E → Nat
  | .run p => cost p
  | .put c cnt i k =>
    (∑ j ∈ Finset.Ico i cnt, (jobW (calls c) j + 1)) + 3 + cost (k (callSeq (calls c)))
  | .drain c _ k => 2 + cost (k (callSeq (calls c)))
  | .wait c _ _ k => 1 + cost (k (callSeq (calls c)))

def belowW (calls : Nat → Call V E) : Below V E → Nat
  | .client => 0
  | .job c i x rest => remW (calls c) i (x + 1) + 3 + restW calls rest

def threadW (calls : Nat → Call V E) : Thread V E → Nat
  | .comp m b => modeW calls m + belowW calls b
  | .next c i x rest => remW (calls c) i x + 3 + restW calls rest
  | .finish _ _ rest => 2 + restW calls rest
  | .idle => 0
  | .done _ => 0
  | .dead => 0
  | .fault => 0

def queueW (calls : Nat → Call V E) (q : List (Nat × Nat)) : Nat :=
  (q.map fun z => jobW (calls z.1) z.2).sum

def outW (calls : Nat → Call V E) (nc : Nat) : Nat := ∑ c ∈ Finset.range nc, (calls c).out.length

/-- the work that is left -/
def work (s : State N V E) : Nat :=
  (∑ t, threadW s.calls (s.thr t)) + queueW s.calls s.queue + outW s.calls s.ncalls

theorem cost_pos (p : Comp V E) : 0 < cost p := by
  cases p <;> simp only [cost] <;> omega

theorem Same.rem {calls calls' : Nat → Call V E} {nc : Nat} (h : Same calls calls' nc) {c : Nat} (hc : c < nc)
    (i x : Nat) : remW (calls' c) i x = remW (calls c) i x := by
  obtain ⟨h1, h2, h3⟩ := h c hc
  simp only [remW, h1, h2, h3]

theorem Same.job {calls calls' : Nat → Call V E} {nc : Nat} (h : Same calls calls' nc) {c : Nat} (hc : c < nc)
    (i : Nat) : jobW (calls' c) i = jobW (calls c) i := by
  obtain ⟨h1, h2, h3⟩ := h c hc
  simp only [jobW, h1, h2, h3]

theorem modeW_same {calls calls' : Nat → Call V E} {nc : Nat} (h : Same calls calls' nc) {m : Mode V E}
    (hm : m.OK calls nc) : modeW calls' m = modeW calls m := by
  cases m with
  | run p => rfl
  | put c cnt i k =>
    have hc : c < nc := hm.2.2.1
    simp only [modeW, h.seq hc, h.job hc]
  | drain c cnt k => simp only [modeW, h.seq hm.2.2]
  | wait c cnt got k => simp only [modeW, h.seq hm.2.2]

theorem restW_same {calls calls' : Nat → Call V E} {nc : Nat} (h : Same calls calls' nc) :
    ∀ {rest : List (Nest V E)}, RestOK calls nc rest → restW calls' rest = restW calls rest
  | [], _ => rfl
  | f :: rest, hr => by
    obtain ⟨h1, h2, h3, h4, h5, h6, h7, h8⟩ := hr
    have ih := restW_same h h8
    simp only [restW, List.map_cons, List.sum_cons] at ih ⊢
    rw [ih]
    simp only [nestW, h.seq h3, h.rem (show f.jc < nc by omega)]

theorem threadW_same {calls calls' : Nat → Call V E} {nc : Nat} (h : Same calls calls' nc)
    {p : Option (Comp V E)} {th : Thread V E} (ht : ThreadOK calls nc p th) :
    threadW calls' th = threadW calls th := by
  cases th with
  | comp m b =>
    cases b with
    | client => simp only [threadW, belowW, modeW_same h ht.1]
    | job c i x rest =>
      obtain ⟨h1, h2, h3, h4, h5, h6, h7⟩ := ht
      simp only [threadW, belowW, modeW_same h h1, h.rem h3, restW_same h h6]
  | next c i x rest => simp only [threadW, h.rem ht.2.1, restW_same h ht.2.2]
  | finish c i rest => simp only [threadW, restW_same h ht.2.2]
  | _ => rfl

theorem queueW_same (h : Inv progs s) {calls' : Nat → Call V E} (hs : Same s.calls calls' s.ncalls) :
    queueW calls' s.queue = queueW s.calls s.queue := by
  unfold queueW
  congr 1
  refine List.map_congr_left fun z hz => ?_
  exact hs.job (h.lt_of_total (total_queue s hz)).1 _

theorem sum_threads (h : Inv progs s) {calls' : Nat → Call V E} (hs : Same s.calls calls' s.ncalls)
    (t : Fin N) (th : Thread V E) :
    (∑ u, threadW calls' (Function.update s.thr t th u)) + threadW s.calls (s.thr t) =
      (∑ u, threadW s.calls (s.thr u)) + threadW calls' th := by
  have h1 := sum_update (threadW calls') s.thr t th
  have h2 : ∑ u, threadW calls' (s.thr u) = ∑ u, threadW s.calls (s.thr u) :=
    Finset.sum_congr rfl fun u _ => threadW_same hs (h.threads u)
  rw [h2, threadW_same hs (h.threads t)] at h1
  exact h1

theorem outW_update (calls : Nat → Call V E) {nc c : Nat} (hc : c < nc) (cl : Call V E) :
    outW (Function.update calls c cl) nc + (calls c).out.length = outW calls nc + cl.out.length := by
  have h1 := Finset.add_sum_erase (Finset.range nc) (fun c' => (Function.update calls c cl c').out.length)
    (Finset.mem_range.2 hc)
  have h2 := Finset.add_sum_erase (Finset.range nc) (fun c' => (calls c').out.length)
    (Finset.mem_range.2 hc)
  have h3 : ∑ x ∈ (Finset.range nc).erase c, (Function.update calls c cl x).out.length =
      ∑ x ∈ (Finset.range nc).erase c, (calls x).out.length := by
    refine Finset.sum_congr rfl fun x hx => ?_
    rw [Function.update_of_ne (Finset.ne_of_mem_erase hx)]
  simp only [Function.update_self] at h1
  unfold outW
  omega

theorem queueW_append (calls : Nat → Call V E) (q : List (Nat × Nat)) (z : Nat × Nat) :
    queueW calls (q ++ [z]) = queueW calls q + jobW (calls z.1) z.2 := by
  simp [queueW]

theorem queueW_cons (calls : Nat → Call V E) (q : List (Nat × Nat)) (z : Nat × Nat) :
    queueW calls (z :: q) = jobW (calls z.1) z.2 + queueW calls q := by
  simp [queueW]

theorem remW_step (cl : Call V E) {i x : Nat} (h : x < jobHi cl.n cl.g i) :
    remW cl i x = cost (cl.xs x) + 1 + remW cl i (x + 1) := by
  simp only [remW, remOf]
  rw [Finset.sum_eq_sum_Ico_succ_bot h]

theorem same_refl (calls : Nat → Call V E) (nc : Nat) : Same calls calls nc :=
  fun _ _ => ⟨rfl, rfl, rfl⟩

theorem same_update {calls : Nat → Call V E} {c nc : Nat} {cl : Call V E} (hn : cl.n = (calls c).n)
    (hg : cl.g = (calls c).g) (hx : cl.xs = (calls c).xs) : Same calls (Function.update calls c cl) nc := by
  intro c' _
  by_cases hc : c' = c
  · subst hc; rw [Function.update_self]; exact ⟨hn, hg, hx⟩
  · rw [Function.update_of_ne hc]; exact ⟨rfl, rfl, rfl⟩

/-- the work after a step that leaves the calls as they are -/
theorem work_thread (h : Inv progs s) (t : Fin N) (th : Thread V E) (q : List (Nat × Nat))
    (hlt : queueW s.calls q + threadW s.calls th < queueW s.calls s.queue + threadW s.calls (s.thr t)) :
    work { s with queue := q, thr := Function.update s.thr t th } < work s := by
  have h1 := sum_threads h (same_refl s.calls s.ncalls) t th
  unfold work
  simp only
  omega

/-- the work after a step that changes the storage or the queues of one call -/
theorem work_call (h : Inv progs s) (t : Fin N) (th : Thread V E) (c : Nat) (cl : Call V E)
    (hc : c < s.ncalls) (hn : cl.n = (s.calls c).n) (hg : cl.g = (s.calls c).g)
    (hx : cl.xs = (s.calls c).xs)
    (hth : ThreadOK (Function.update s.calls c cl) s.ncalls (progs t) th)
    (hlt : threadW s.calls th + cl.out.length < threadW s.calls (s.thr t) + (s.calls c).out.length) :
    work { s with calls := Function.update s.calls c cl, thr := Function.update s.thr t th } < work s := by
  have hs : Same s.calls (Function.update s.calls c cl) s.ncalls := same_update hn hg hx
  have hs' : Same (Function.update s.calls c cl) s.calls s.ncalls := by
    intro c' hc'
    obtain ⟨h1, h2, h3⟩ := hs c' hc'
    exact ⟨h1.symm, h2.symm, h3.symm⟩
  have h1 := sum_threads h hs t th
  have h2 := queueW_same h hs
  have h3 := outW_update s.calls hc cl
  have h4 := threadW_same hs' hth
  unfold work
  simp only
  omega

theorem resume_W (calls : Nat → Call V E) (rest : List (Nest V E)) :
    threadW calls (resume rest) = restW calls rest := by
  cases rest with
  | nil => rfl
  | cons f rest =>
    simp only [resume, threadW, modeW, belowW, restW, List.map_cons, List.sum_cons, nestW]
    omega

theorem work_pmap (h : Inv progs s) {t : Fin N} {n g : Nat} {xs : Nat → Comp V E} {k : Cont V E}
    {b : Below V E} (ht : s.thr t = .comp (.run (.pmap n g xs k)) b) :
    work (onPmap s t n g xs k b) < work s := by
  have hs : Same s.calls (Function.update s.calls s.ncalls
      { n := n, g := g, xs := xs, res := fun _ => none, exq := [], out := [] }) s.ncalls := by
    intro c hc
    rw [Function.update_of_ne (by omega)]
    exact ⟨rfl, rfl, rfl⟩
  have h1 := sum_threads h hs t (.comp (.put s.ncalls (jobCount n g) 0 k) b)
  have h2 := queueW_same h hs
  have h3 : outW (Function.update s.calls s.ncalls
      { n := n, g := g, xs := xs, res := fun _ => none, exq := [], out := [] }) (s.ncalls + 1) =
      outW s.calls s.ncalls := by
    unfold outW
    rw [Finset.sum_range_succ, Function.update_self]
    simp only [List.length_nil, Nat.add_zero]
    refine Finset.sum_congr rfl fun x hx => ?_
    rw [Function.update_of_ne (by have := Finset.mem_range.1 hx; omega)]
  have hb : belowW (Function.update s.calls s.ncalls
      { n := n, g := g, xs := xs, res := fun _ => none, exq := [], out := [] }) b = belowW s.calls b := by
    have hth := h.threads t
    have h5 := threadW_same hs hth
    rw [ht] at h5
    simp only [threadW, modeW] at h5
    omega
  have e1 : threadW (Function.update s.calls s.ncalls
      { n := n, g := g, xs := xs, res := fun _ => none, exq := [], out := [] })
      (.comp (.put s.ncalls (jobCount n g) 0 k) b) + 1 =
      threadW s.calls (.comp (.run (.pmap n g xs k)) b) := by
    simp only [threadW, modeW, hb, Function.update_self, cost, callSeq, jobW]
    omega
  rw [ht] at h1
  unfold work onPmap
  simp only
  rw [h2, h3]
  omega

theorem work_step (h : Inv progs s) {t : Fin N} {s' : State N V E} (hs : step s t = some s') :
    work s' < work s := by
  have hinv := inv_step h hs
  unfold step at hs
  have hth := h.threads t
  split at hs
  · rename_i m b ht
    cases m with
    | run p =>
      cases p with
      | ret v =>
        simp only [stepMode, Option.some.injEq] at hs
        subst hs
        cases b with
        | client =>
          refine work_thread h t _ s.queue ?_
          rw [ht]
          simp [threadW, modeW, cost, belowW]
        | job c i x rest =>
          rw [ht] at hth
          obtain ⟨_, hp, hc, hx, hv, hrest, _⟩ := hth
          have hitem := h.items t ((c, i), .mid x) (by rw [ht]; simp [held, Mode.items, Below.items])
          have hnone := hitem.2.2.2 x le_rfl hx
          simp only at hnone
          have hthr := hinv.threads t
          simp only [onReturn, hnone, Function.update_self] at hthr ⊢
          refine work_call h t _ c _ hc rfl rfl rfl hthr ?_
          rw [ht]
          simp only [threadW, modeW, cost, belowW]
          omega
      | exc e =>
        simp only [stepMode, Option.some.injEq] at hs
        subst hs
        cases b with
        | client =>
          refine work_thread h t _ s.queue ?_
          rw [ht]
          simp [threadW, modeW, cost, belowW]
        | job c i x rest =>
          rw [ht] at hth
          obtain ⟨_, hp, hc, hx, hv, hrest, _⟩ := hth
          have hthr := hinv.threads t
          simp only [onRaise, Function.update_self] at hthr ⊢
          refine work_call h t _ c _ hc rfl rfl rfl hthr ?_
          rw [ht]
          simp only [threadW, modeW, cost, belowW]
          omega
      | base e =>
        rw [ht] at hth
        cases b with
        | client => exact hth.1.elim
        | job _ _ _ _ => exact hth.1.elim
      | pmap n g xs k =>
        simp only [stepMode, Option.some.injEq] at hs; subst hs; exact work_pmap h ht
    | put c cnt i k =>
      simp only [stepMode] at hs
      split at hs
      · rename_i hi; simp only [Option.some.injEq] at hs; subst hs
        refine work_thread h t _ _ ?_
        rw [ht, queueW_append]
        simp only [threadW, modeW]
        rw [Finset.sum_eq_sum_Ico_succ_bot hi]
        omega
      · rename_i hi; simp only [Option.some.injEq] at hs; subst hs
        refine work_thread h t _ _ ?_
        rw [ht]
        cases b <;> simp only [threadW, modeW, afterPut] <;> omega
    | drain c cnt k =>
      simp only [stepMode] at hs
      split at hs
      · rename_i hq; simp only [Option.some.injEq] at hs; subst hs
        refine work_thread h t _ s.queue ?_
        rw [ht]
        simp only [threadW, modeW]
        omega
      · rename_i hq; simp only [Option.some.injEq] at hs; subst hs
        refine work_thread h t _ _ ?_
        rw [ht, hq, queueW_cons]
        simp only [threadW, modeW, belowW, restW, List.map_cons, List.sum_cons, nestW, jobW, jobOf, remW]
        omega
      · simp at hs
    | wait c cnt got k =>
      simp only [stepMode] at hs
      have hc : c < s.ncalls := owns_lt hth c (by rw [ht]; simp [owns, Mode.calls])
      split at hs
      · split at hs
        · simp at hs
        · rename_i hq; simp only [Option.some.injEq] at hs; subst hs
          have hthr := hinv.threads t
          simp only [Function.update_self] at hthr
          refine work_call h t _ c _ hc rfl rfl rfl hthr ?_
          rw [ht, hq]
          simp only [threadW, modeW, List.length_cons]
          omega
      · rename_i hl; simp only [Option.some.injEq] at hs; subst hs
        obtain ⟨res, _, h2⟩ := collect_eq h ht hl
        rw [h2] at hinv ⊢
        have hthr := hinv.threads t
        simp only [Function.update_self] at hthr
        refine work_call h t _ c _ hc rfl rfl rfl hthr ?_
        rw [ht]
        simp only [threadW, modeW]
        omega
  · rename_i c i x rest ht
    split at hs
    · rename_i hx; simp only [Option.some.injEq] at hs; subst hs
      refine work_thread h t _ s.queue ?_
      rw [ht]
      simp only [threadW, modeW, belowW]
      rw [remW_step _ hx]
      omega
    · rename_i hx; simp only [Option.some.injEq] at hs; subst hs
      refine work_thread h t _ s.queue ?_
      rw [ht]
      simp only [threadW]
      omega
  · rename_i c i rest ht
    simp only [Option.some.injEq] at hs; subst hs
    have hthr := hinv.threads t
    simp only [Function.update_self] at hthr
    rw [ht] at hth
    refine work_call h t _ c _ hth.2.1 rfl rfl rfl hthr ?_
    rw [ht, resume_W]
    simp only [threadW, List.length_append, List.length_singleton]
    omega
  · rename_i ht
    split at hs
    · simp at hs
    · rename_i hq; simp only [Option.some.injEq] at hs; subst hs
      refine work_thread h t _ _ ?_
      rw [ht, hq, queueW_cons]
      simp only [threadW, restW, List.map_nil, List.sum_nil, jobW, jobOf, remW]
      omega
  · simp at hs
  · simp at hs
  · simp at hs

theorem work_run {s' : State N V E} : ∀ {ts : List (Fin N)} {s : State N V E}, Inv progs s →
    run s ts = some s' → work s' + ts.length ≤ work s
  | [], s, h, hr => by simp only [run, Option.some.injEq] at hr; subst hr; simp
  | t :: ts, s, h, hr => by
    simp only [run] at hr
    split at hr
    · simp at hr
    · rename_i s1 h1
      have h2 := work_step h h1
      have h3 := work_run (inv_step h h1) hr
      simp only [List.length_cons]
      omega

/-- the work of a process at the start -/
def workload (progs : Fin N → Option (Comp V E)) : Nat :=
  ∑ t, match progs t with
    | none => 0
    | some p => cost p

theorem work_init [Inhabited V] (progs : Fin N → Option (Comp V E)) : work (init progs) = workload progs := by
  unfold work workload queueW outW
  have : ∀ t, threadW (init progs).calls ((init progs).thr t) =
      (match progs t with | none => 0 | some p => cost p) := by
    intro t
    simp only [init]
    cases progs t <;> simp [threadW, modeW, belowW]
  simp only [this]
  simp [init]

end Verif.Pmap
