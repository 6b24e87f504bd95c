import Verif.Stream.Steps
/-!
# Every schedule comes to an end, and it is the right one
-/
namespace Verif.Stream
open Verif.Wire (Bytes)

variable {z : Lz4} {K : Nat} {jobs : List Job} {orig : Nat → Bytes} {s : Sys}

/-! ### How much is left to do -/

def weightBuf (f : Buf) : Nat :=
  match f.phase with
  | .writing t => 10 * t.length + f.blocks.length + 10
  | .waiting l => l.length + 1
  | .asleep l => l.length + 1
  | .done => 0

def weightWorker : Worker → Nat
  | .has _ => 3
  | .torn _ => 2
  | .ready _ => 1
  | _ => 0

def awakeBuf (f : Buf) : Nat :=
  match f.phase with
  | .asleep _ => 0
  | _ => 1

def awakeWorker : Worker → Nat
  | .asleep => 0
  | _ => 1

def work (s : Sys) : Nat :=
  (s.bufs.map weightBuf).sum + 4 * s.waiting.length + (s.workers.map weightWorker).sum

def awake (s : Sys) : Nat := (s.bufs.map awakeBuf).sum + (s.workers.map awakeWorker).sum

theorem sum_set {α : Type} (g : α → Nat) : ∀ (l : List α) (i : Nat) (x y : α), l[i]? = some x →
    ((l.set i y).map g).sum + g x = (l.map g).sum + g y := by
  intro l
  induction l with
  | nil => intro i x y h; simp at h
  | cons a l ih =>
    intro i x y h
    cases i with
    | zero =>
      simp only [List.getElem?_cons_zero, Option.some.injEq] at h
      subst h
      simp only [List.set_cons_zero, List.map_cons, List.sum_cons]; omega
    | succ i =>
      simp only [List.getElem?_cons_succ] at h
      have := ih i x y h
      simp only [List.set_cons_succ, List.map_cons, List.sum_cons]; omega

theorem work_notify (s : Sys) : work s.notify = work s := by
  unfold work Sys.notify
  simp only [List.map_map]
  have h1 : weightBuf ∘ Buf.wake = weightBuf := by
    funext f
    cases f with
    | mk a b c d p => cases p <;> rfl
  have h2 : weightWorker ∘ Worker.wake = weightWorker := by
    funext x; cases x <;> rfl
  rw [h1, h2]

theorem work_mark (s : Sys) (t : Bool) (b : Nat) : work (s.mark t b) ≤ work s + 4 := by
  unfold Sys.mark
  by_cases ht : t = true
  · rw [if_pos ht, work_notify]
    unfold work
    by_cases hb : b ∈ s.waiting
    · simp only [hb, if_true]; omega
    · simp only [hb, if_false, List.length_cons]; omega
  · rw [if_neg ht]; omega

theorem work_set (s : Sys) (i : Nat) (f f' : Buf) (st : List Block) (h : s.bufs[i]? = some f) :
    work { s with store := st, bufs := s.bufs.set i f' } + weightBuf f = work s + weightBuf f' := by
  have := sum_set weightBuf s.bufs i f f' h
  unfold work
  simp only
  omega

theorem mark_bufs (s : Sys) (t : Bool) (b i : Nat) (f : Buf) (h : s.bufs[i]? = some f) (hp : ∀ l, f.phase ≠ .asleep l) :
    (s.mark t b).bufs[i]? = some f := by
  unfold Sys.mark
  by_cases ht : t = true
  · rw [if_pos ht]
    simp only [Sys.notify, List.getElem?_map, h, Option.map_some, Option.some.injEq]
    unfold Buf.wake
    cases hq : f.phase with
    | asleep l => exact absurd hq (hp l)
    | _ => rfl
  · rw [if_neg ht]; exact h

/-- Every action leaves less work, or as much with one thread fewer awake. -/
theorem step_less {a : Act} {s' : Sys} (h : step z s a = some s') :
    work s' < work s ∨ (work s' = work s ∧ awake s' < awake s) := by
  cases a with
  | serializer i =>
    simp only [Stream.step, stepSerializer] at h
    cases hf : s.bufs[i]? with
    | none => simp [hf] at h
    | some f =>
      simp only [hf] at h
      cases hp : f.phase with
      | writing t =>
        have hna : ∀ l, f.phase ≠ .asleep l := by intro l; rw [hp]; simp
        cases t with
        | nil =>
          simp only [hp] at h
          obtain rfl := Option.some.inj h
          left
          unfold finalize
          by_cases hw : f.wants = true
          · rw [if_pos hw]
            have h1 := work_mark s f.threads (f.blocks.getLastD 0)
            have h2 := work_set (s.mark f.threads (f.blocks.getLastD 0)) i f { f with phase := .waiting f.blocks } (s.mark f.threads (f.blocks.getLastD 0)).store
              (mark_bufs s _ _ i f hf hna)
            have h3 : weightBuf f = f.blocks.length + 10 := by unfold weightBuf; rw [hp]; simp
            have h4 : weightBuf { f with phase := .waiting f.blocks } = f.blocks.length + 1 := rfl
            simp only [] at h2 ⊢
            omega
          · rw [if_neg hw]
            have h2 := work_set s i f { f with phase := .done } s.store hf
            have h3 : weightBuf f = f.blocks.length + 10 := by unfold weightBuf; rw [hp]; simp
            have h4 : weightBuf { f with phase := .done } = 0 := rfl
            skip
            omega
        | cons p t =>
          simp only [hp] at h
          obtain rfl := Option.some.inj h
          left
          have h3 : weightBuf f = 10 * (t.length + 1) + f.blocks.length + 10 := by unfold weightBuf; rw [hp]; simp
          unfold put checkTop
          by_cases ho : (s.block f.top).oversized = true
          · rw [if_pos ho]
            simp only
            generalize hs2 : (if f.wants = true then Sys.mark { s with store := s.store ++ [Block.empty] } f.threads (f.blocks.getLastD 0)
              else { s with store := s.store ++ [Block.empty] }) = s2
            have hb2 : s2.bufs[i]? = some f := by
              subst hs2
              by_cases hw : f.wants = true
              · rw [if_pos hw]; exact mark_bufs _ _ _ i f hf hna
              · rw [if_neg hw]; exact hf
            have hw2 : work s2 ≤ work s + 4 := by
              subst hs2
              by_cases hw : f.wants = true
              · rw [if_pos hw]; exact work_mark _ _ _
              · rw [if_neg hw]; exact Nat.le_add_right _ _
            have h2 := work_set s2 i f { f with top := s.store.length, blocks := f.blocks ++ [s.store.length], phase := .writing t }
              (s2.store.set s.store.length ((s2.block s.store.length).append p)) hb2
            have h4 : weightBuf { f with top := s.store.length, blocks := f.blocks ++ [s.store.length], phase := .writing t }
                = 10 * t.length + (f.blocks.length + 1) + 10 := by
              simp [weightBuf]
            omega
          · rw [if_neg ho]
            have h2 := work_set s i f { f with phase := .writing t } (s.store.set f.top ((s.block f.top).append p)) hf
            have h4 : weightBuf { f with phase := .writing t } = 10 * t.length + f.blocks.length + 10 := rfl
            simp only
            omega
      | waiting l =>
        simp only [hp] at h
        obtain rfl := Option.some.inj h
        have h3 : weightBuf f = l.length + 1 := by unfold weightBuf; rw [hp]
        unfold waitStep
        cases l with
        | nil =>
          left
          have h2 := work_set s i f { f with phase := .done } s.store hf
          have h4 : weightBuf { f with phase := .done } = 0 := rfl
          simp only [List.length_nil] at h2 h3 ⊢
          omega
        | cons b l =>
          simp only
          by_cases ht : f.threads = true
          · rw [if_pos ht]
            by_cases hb : b ∈ s.waiting ∨ b ∈ s.working
            · rw [if_pos hb]
              right
              have h2 := work_set s i f { f with phase := .asleep (b :: l) } s.store hf
              have h4 : weightBuf { f with phase := .asleep (b :: l) } = (b :: l).length + 1 := rfl
              have h5 := sum_set awakeBuf s.bufs i f { f with phase := .asleep (b :: l) } hf
              have h6 : awakeBuf f = 1 := by unfold awakeBuf; rw [hp]
              have h7 : awakeBuf { f with phase := .asleep (b :: l) } = 0 := rfl
              refine ⟨?_, ?_⟩
              · omega
              · unfold awake; simp only; omega
            · rw [if_neg hb]
              left
              have h2 := work_set s i f { f with phase := .waiting l } s.store hf
              have h4 : weightBuf { f with phase := .waiting l } = l.length + 1 := rfl
              simp only [List.length_cons] at h2 h3 ⊢
              omega
          · rw [if_neg ht]
            left
            have h2 := work_set s i f { f with phase := .waiting l } (s.store.set b ((s.block b).compress z)) hf
            have h4 : weightBuf { f with phase := .waiting l } = l.length + 1 := rfl
            simp only [List.length_cons] at h2 h3 ⊢
            omega
      | asleep l => simp [hp] at h
      | done => simp [hp] at h
  | worker w pick =>
    simp only [Stream.step, stepWorker] at h
    cases hw : s.workers[w]? with
    | none => simp [hw] at h
    | some x =>
      cases x with
      | idle =>
        simp only [hw] at h
        by_cases he : s.waiting = []
        · rw [if_pos he] at h
          obtain rfl := Option.some.inj h
          right
          have h1 := sum_set weightWorker s.workers w _ .asleep hw
          have h2 := sum_set awakeWorker s.workers w _ .asleep hw
          simp only [weightWorker, awakeWorker] at h1 h2
          unfold work awake
          simp only
          omega
        · rw [if_neg he] at h
          by_cases hp : pick ∈ s.waiting
          · rw [if_pos hp] at h
            obtain rfl := Option.some.inj h
            left
            have h1 := sum_set weightWorker s.workers w _ (.has pick) hw
            simp only [weightWorker] at h1
            have h2 := List.length_erase_of_mem hp
            have h3 := List.length_pos_of_mem hp
            unfold work
            simp only
            omega
          · rw [if_neg hp] at h; cases h
      | asleep => simp [hw] at h
      | has b =>
        simp only [hw] at h
        left
        by_cases hc : (s.block b).compressed = true
        · rw [if_pos hc] at h
          obtain rfl := Option.some.inj h
          have h1 := sum_set weightWorker s.workers w _ (.ready b) hw
          simp only [weightWorker] at h1
          unfold work; simp only; omega
        · rw [if_neg hc] at h
          obtain rfl := Option.some.inj h
          have h1 := sum_set weightWorker s.workers w _ (.torn b) hw
          simp only [weightWorker] at h1
          unfold work; simp only; omega
      | torn b =>
        simp only [hw] at h
        obtain rfl := Option.some.inj h
        left
        have h1 := sum_set weightWorker s.workers w _ (.ready b) hw
        simp only [weightWorker] at h1
        unfold work; simp only; omega
      | ready b =>
        simp only [hw] at h
        obtain rfl := Option.some.inj h
        left
        rw [work_notify]
        have h1 := sum_set weightWorker s.workers w _ .idle hw
        simp only [weightWorker] at h1
        unfold work; simp only; omega

/-! ### Nobody waits for ever -/

theorem mark_workers (s : Sys) (t : Bool) (b : Nat) : (s.mark t b).workers.length = s.workers.length := by
  unfold Sys.mark
  by_cases ht : t = true
  · rw [if_pos ht]; simp [Sys.notify]
  · rw [if_neg ht]

theorem step_workers {a : Act} {s' : Sys} (h : step z s a = some s') : s'.workers.length = s.workers.length := by
  cases a with
  | serializer i =>
    simp only [Stream.step, stepSerializer] at h
    cases hf : s.bufs[i]? with
    | none => simp [hf] at h
    | some f =>
      simp only [hf] at h
      cases hp : f.phase with
      | writing t =>
        cases t with
        | nil =>
          simp only [hp] at h
          obtain rfl := Option.some.inj h
          unfold finalize
          by_cases hw : f.wants = true
          · rw [if_pos hw]; exact mark_workers _ _ _
          · rw [if_neg hw]
        | cons p t =>
          simp only [hp] at h
          obtain rfl := Option.some.inj h
          unfold put checkTop
          by_cases ho : (s.block f.top).oversized = true
          · rw [if_pos ho]
            simp only
            by_cases hw : f.wants = true
            · simp only [hw, if_true]; exact mark_workers _ _ _
            · simp only [hw, Bool.false_eq_true, if_false]
          · rw [if_neg ho]
      | waiting l =>
        simp only [hp] at h
        obtain rfl := Option.some.inj h
        unfold waitStep
        cases l with
        | nil => rfl
        | cons b l =>
          simp only
          split
          · split <;> rfl
          · rfl
      | asleep l => simp [hp] at h
      | done => simp [hp] at h
  | worker w pick =>
    simp only [Stream.step, stepWorker] at h
    cases hw : s.workers[w]? with
    | none => simp [hw] at h
    | some x =>
      cases x with
      | idle =>
        simp only [hw] at h
        by_cases he : s.waiting = []
        · rw [if_pos he] at h
          obtain rfl := Option.some.inj h
          simp
        · rw [if_neg he] at h
          by_cases hp : pick ∈ s.waiting
          · rw [if_pos hp] at h
            obtain rfl := Option.some.inj h
            simp
          · rw [if_neg hp] at h; cases h
      | asleep => simp [hw] at h
      | has b =>
        simp only [hw] at h
        by_cases hc : (s.block b).compressed = true
        · rw [if_pos hc] at h
          obtain rfl := Option.some.inj h
          simp
        · rw [if_neg hc] at h
          obtain rfl := Option.some.inj h
          simp
      | torn b =>
        simp only [hw] at h
        obtain rfl := Option.some.inj h
        simp
      | ready b =>
        simp only [hw] at h
        obtain rfl := Option.some.inj h
        simp [Sys.notify]

/-- A thread that holds a block can go on. -/
theorem holder_runs {w : Nat} {x : Worker} {b : Nat} (hw : s.workers[w]? = some x) (hx : x.block? = some b) (pick : Nat) :
    ∃ s', step z s (.worker w pick) = some s' := by
  simp only [Stream.step, stepWorker, hw]
  cases x with
  | idle => simp [Worker.block?] at hx
  | asleep => simp [Worker.block?] at hx
  | has c =>
    simp only
    by_cases hc : (s.block c).compressed = true
    · exact ⟨_, if_pos hc⟩
    · exact ⟨_, if_neg hc⟩
  | torn c => exact ⟨_, rfl⟩
  | ready c => exact ⟨_, rfl⟩

/-- As long as a serializer is not done, some thread can run. -/
theorem Inv.runs (h : Inv z K jobs orig s) (hn : 0 < s.workers.length)
    {i : Nat} {f : Buf} (hf : s.bufs[i]? = some f) (hd : f.phase ≠ .done) :
    ∃ a s', Stream.step z s a = some s' := by
  cases hp : f.phase with
  | writing t =>
    cases t with
    | nil => exact ⟨.serializer i, _, by simp only [Stream.step, stepSerializer, hf, hp]; rfl⟩
    | cons p t => exact ⟨.serializer i, _, by simp only [Stream.step, stepSerializer, hf, hp]; rfl⟩
  | waiting l => exact ⟨.serializer i, _, by simp only [Stream.step, stepSerializer, hf, hp]; rfl⟩
  | done => exact absurd hp hd
  | asleep l =>
    obtain ⟨j, hj⟩ := h.job hf
    have hph := (h.bufs i f j hf hj).phase
    unfold PhaseOk at hph
    simp only [hp] at hph
    obtain ⟨_, _, _, _, _, b, l', _, hb⟩ := hph
    rcases hb with hb | hb
    · have h0 : s.workers[0]? = some s.workers[0] := List.getElem?_eq_getElem hn
      have hne : s.waiting ≠ [] := List.ne_nil_of_mem hb
      cases hx : s.workers[0] with
      | idle =>
        rw [hx] at h0
        refine ⟨.worker 0 b, ?_⟩
        simp only [Stream.step, stepWorker, h0]
        rw [if_neg hne, if_pos hb]
        exact ⟨_, rfl⟩
      | asleep => rw [hx] at h0; exact absurd (h.sleep 0 h0) hne
      | has c => rw [hx] at h0; obtain ⟨s', e⟩ := holder_runs (z := z) h0 rfl 0; exact ⟨_, s', e⟩
      | torn c => rw [hx] at h0; obtain ⟨s', e⟩ := holder_runs (z := z) h0 rfl 0; exact ⟨_, s', e⟩
      | ready c => rw [hx] at h0; obtain ⟨s', e⟩ := holder_runs (z := z) h0 rfl 0; exact ⟨_, s', e⟩
    · obtain ⟨w, x, hw, hx⟩ := h.holder b hb
      obtain ⟨s', e⟩ := holder_runs (z := z) hw hx 0
      exact ⟨_, s', e⟩

/-! ### The start -/

theorem pieces_flatten (bs : Bytes) : (pieces bs).flatten = bs ∧ ∀ p ∈ pieces bs, p.length ≤ mb := by
  induction bs using pieces.induct with
  | case1 bs h ih =>
    rw [pieces, dif_pos h]
    refine ⟨by simp [ih.1], ?_⟩
    intro p hp
    rcases List.mem_cons.mp hp with rfl | hp
    · simp; omega
    · exact ih.2 p hp
  | case2 bs h =>
    rw [pieces, dif_neg h]
    refine ⟨by simp, ?_⟩
    intro p hp
    simp only [List.mem_singleton] at hp; subst hp; omega

theorem puts_flatten : ∀ (ops : List Op), (ops.flatMap Op.puts).flatten = written ops := by
  intro ops
  induction ops with
  | nil => rfl
  | cons o ops ih =>
    have : o.puts.flatten = o.data := by
      cases o with
      | bytes bs => exact (pieces_flatten bs).1
      | init bs => simp [Op.puts, Op.data]
    simp only [List.flatMap_cons, List.flatten_append, this, ih, written]

theorem puts_short (ops : List Op) (K : Nat) (h : ∀ o ∈ ops, o.long ≤ K) : ∀ p ∈ ops.flatMap Op.puts, p.length ≤ max mb K := by
  intro p hp
  obtain ⟨o, ho, hpo⟩ := List.mem_flatMap.mp hp
  cases o with
  | bytes bs => have := (pieces_flatten bs).2 p hpo; omega
  | init bs =>
    have := h _ ho
    simp only [Op.puts, List.mem_singleton] at hpo
    simp only [Op.long] at this
    subst hpo; omega

theorem start_inv (n : Nat) (hK : ∀ j ∈ jobs, ∀ o ∈ j.ops, o.long ≤ K) :
    Inv z K jobs (fun _ => []) (start n jobs) := by
  have hblock : ∀ b, (start n jobs).block b = Block.empty := by
    intro b
    simp only [start, Sys.block, List.getD_eq_getElem?_getD, List.getElem?_map]
    cases jobs[b]? <;> rfl
  have hget : ∀ (i : Nat) (f : Buf), (start n jobs).bufs[i]? = some f → ∃ j, jobs[i]? = some j ∧ f = j.start i := by
    intro i f hf
    simp only [start, List.getElem?_mapIdx, Option.map_eq_some_iff] at hf
    obtain ⟨j, hj, e⟩ := hf
    exact ⟨j, hj, e.symm⟩
  have hwk : ∀ (w : Nat) (x : Worker), (start n jobs).workers[w]? = some x → x = .idle := by
    intro w x hw
    simp only [start] at hw
    exact List.eq_of_mem_replicate (List.mem_of_getElem? hw)
  exact {
    plain := by intro b _; rw [hblock]; rfl
    packed := by intro b hb; rw [hblock] at hb; cases hb
    torn := by intro b hb; rw [hblock] at hb; cases hb
    small := by intro b; simp
    held := by intro w x b hw hx; rw [hwk w x hw] at hx; cases hx
    ready := by intro w b hw; have := hwk w _ hw; cases this
    uniq := by intro w w' x x' b hw _ hx _; rw [hwk w x hw] at hx; cases hx
    holder := by intro b hb; cases hb
    nodupA := List.nodup_nil
    nodupB := List.nodup_nil
    disj := by intro b hb; cases hb
    rangeA := by intro b hb; cases hb
    rangeB := by intro b hb; cases hb
    sleep := by intro w _; rfl
    count := by simp [start]
    bufs := by
      intro i f j hf hj
      obtain ⟨j', hj', rfl⟩ := hget i f hf
      rw [hj] at hj'
      obtain rfl := Option.some.inj hj'
      exact {
        wants := rfl
        threads := rfl
        range := by
          intro b hb
          simp only [Job.start, List.mem_singleton] at hb
          subst hb
          simp only [start, List.length_map]
          rcases Nat.lt_or_ge b jobs.length with h1 | h1
          · exact h1
          · rw [List.getElem?_eq_none h1] at hj; cases hj
        nodup := by simp [Job.start]
        top := ⟨[], rfl⟩
        data := by
          simp only [Job.start, Phase.todo, puts_flatten]
          simp
        short := by
          simp only [Job.start, Phase.todo]
          exact puts_short j.ops K (hK j (List.mem_of_getElem? hj))
        phase := by
          unfold PhaseOk
          simp only [Job.start]
          refine ⟨⟨by rw [hblock]; rfl, by simp [Quiet, start]⟩, ?_⟩
          intro b hb hne
          simp only [List.mem_singleton] at hb
          exact absurd hb hne }
    apart := by
      intro i i' f f' b hf hf' hb hb'
      obtain ⟨j, _, rfl⟩ := hget i f hf
      obtain ⟨j', _, rfl⟩ := hget i' f' hf'
      simp only [Job.start, List.mem_singleton] at hb hb'
      omega }

theorem reach_inv (n : Nat) (hK : ∀ j ∈ jobs, ∀ o ∈ j.ops, o.long ≤ K) (h : Reach z (start n jobs) s) :
    (∃ orig, Inv z K jobs orig s) ∧ s.workers.length = n := by
  induction h with
  | init => exact ⟨⟨_, start_inv n hK⟩, by simp [start]⟩
  | step a _ hs ih =>
    obtain ⟨⟨orig, hi⟩, hl⟩ := ih
    exact ⟨hi.step hs, by rw [step_workers hs]; exact hl⟩

end Verif.Stream
