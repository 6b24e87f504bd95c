import Verif.Stream.Finish
import Verif.Stream.Reader
/-!
# C18: the stream is what was written, whatever the threads do
-/
namespace Verif.Stream
open Verif.Wire (Bytes)

/-- C18.  Any number of serializers run at the same time on any number of compression threads, in any
order.  When a serializer is done, its bytes read as exactly what was written to it: every sequence of
reads, of whatever sizes, gives the bytes the specification gives, and fails exactly when fewer are left.
`K` bounds the longest write that is not cut to a megabyte. -/
theorem stream_content (z : Lz4) (K n : Nat) (jobs : List Job) (hz : z.Correct (mb + max mb K))
    (hK : ∀ j ∈ jobs, ∀ o ∈ j.ops, o.long ≤ K) (s : Sys) (hs : Reach z (start n jobs) s)
    (i : Nat) (f : Buf) (j : Job) (hf : s.bufs[i]? = some f) (hj : jobs[i]? = some j) (hd : f.phase = .done)
    (ns : List Nat) :
    match reads (written j.ops) ns with
    | some (ps, rest) => ∃ r', (Reader.new j.wants (s.output f)).reads z ns = .ok (ps, r') ∧
        ∃ r'', r'.canConsume z 1 = .ok (decide (rest ≠ []), r'')
    | none => (Reader.new j.wants (s.output f)).reads z ns = .error .outOfData := by
  obtain ⟨⟨orig, hi⟩, _⟩ := reach_inv n hK hs
  have hok := hi.bufs i f j hf hj
  have hph := hok.phase
  unfold PhaseOk at hph
  simp only [hd] at hph
  have hdata := hok.data
  rw [hd] at hdata
  simp only [Phase.todo, List.flatten_nil, List.append_nil] at hdata
  have hrep : Rep z (Reader.new j.wants (s.output f)) (written j.ops) := by
    rw [← hdata]
    cases hw : j.wants with
    | false =>
      have hout : s.output f = f.blocks.flatMap orig := by
        unfold Sys.output
        apply flatMap_congr'
        intro b hb
        have := hph b hb
        rw [hok.wants, hw, if_neg (by simp)] at this
        exact hi.plain b this.1
      rw [hout]; exact rep_plain z _
    | true =>
      have hout : s.output f = (f.blocks.map orig).flatMap (frame z) := by
        unfold Sys.output
        rw [List.flatMap_map]
        apply flatMap_congr'
        intro b hb
        have := hph b hb
        rw [hok.wants, hw, if_pos rfl] at this
        exact (hi.packed b this.1).1
      have : f.blocks.flatMap orig = (f.blocks.map orig).flatten := by
        rw [List.flatMap_def]
      rw [hout, this]
      refine rep_packed z _ ?_
      intro b hb
      obtain ⟨c, _, rfl⟩ := List.mem_map.mp hb
      exact hz.small _ (hi.small c)
  have hr := reads_rep hz ns _ _ hrep
  cases hq : reads (written j.ops) ns with
  | none => rw [hq] at hr; exact hr
  | some p =>
    obtain ⟨ps, rest⟩ := p
    rw [hq] at hr
    obtain ⟨r', h1, h2⟩ := hr
    refine ⟨r', h1, ?_⟩
    obtain ⟨r'', h3, _⟩ := canConsume_rep hz 1 h2
    refine ⟨r'', ?_⟩
    rw [h3]
    cases rest with
    | nil => rfl
    | cons a l => simp

/-- C18.  Without compression the bytes handed out are the bytes written. -/
theorem plain_output (z : Lz4) (n : Nat) (jobs : List Job) (s : Sys) (hs : Reach z (start n jobs) s)
    (i : Nat) (f : Buf) (j : Job) (hf : s.bufs[i]? = some f) (hj : jobs[i]? = some j) (hd : f.phase = .done)
    (hw : j.wants = false) : s.output f = written j.ops := by
  obtain ⟨K, hK⟩ : ∃ K, ∀ j ∈ jobs, ∀ o ∈ j.ops, o.long ≤ K := by
    refine ⟨((jobs.flatMap Job.ops).map Op.long).sum, ?_⟩
    intro j hj o ho
    have hm : o.long ∈ (jobs.flatMap Job.ops).map Op.long := by
      rw [List.mem_map]; exact ⟨o, List.mem_flatMap.mpr ⟨j, hj, ho⟩, rfl⟩
    generalize (jobs.flatMap Job.ops).map Op.long = l at hm
    induction l with
    | nil => cases hm
    | cons a l ih =>
      rw [List.sum_cons]
      rcases List.mem_cons.mp hm with h | h
      · omega
      · have := ih h; omega
  obtain ⟨⟨orig, hi⟩, _⟩ := reach_inv n hK hs
  have hok := hi.bufs i f j hf hj
  have hph := hok.phase
  unfold PhaseOk at hph
  simp only [hd] at hph
  have hdata := hok.data
  rw [hd] at hdata
  simp only [Phase.todo, List.flatten_nil, List.append_nil] at hdata
  rw [← hdata]
  unfold Sys.output
  apply flatMap_congr'
  intro b hb
  have := hph b hb
  rw [hok.wants, hw, if_neg (by simp)] at this
  exact hi.plain b this.1

/-- C18.  No block that a finished serializer hands out is in the hands of a compression thread, or half
written; and the two ways of getting at the bytes (`copyInto`, and `buffer` after `consolidate`) agree. -/
theorem output_settled (z : Lz4) (K n : Nat) (jobs : List Job)
    (hK : ∀ j ∈ jobs, ∀ o ∈ j.ops, o.long ≤ K) (s : Sys) (hs : Reach z (start n jobs) s)
    (i : Nat) (f : Buf) (hf : s.bufs[i]? = some f) (hd : f.phase = .done) :
    (∀ b ∈ f.blocks, b ∉ s.waiting ∧ b ∉ s.working ∧ (s.block b).torn = false ∧
      (s.block b).compressed = f.wants) ∧ s.buffer f = s.output f := by
  obtain ⟨⟨orig, hi⟩, _⟩ := reach_inv n hK hs
  obtain ⟨j, hj⟩ := hi.job hf
  have hok := hi.bufs i f j hf hj
  have hph := hok.phase
  unfold PhaseOk at hph
  simp only [hd] at hph
  constructor
  · intro b hb
    have := hph b hb
    cases hw : f.wants with
    | true =>
      rw [hw, if_pos rfl] at this
      exact ⟨this.2.1, this.2.2, (hi.packed b this.1).2, this.1⟩
    | false =>
      rw [hw, if_neg (by simp)] at this
      refine ⟨this.2.1, this.2.2, ?_, this.1⟩
      cases ht : (s.block b).torn with
      | false => rfl
      | true => exact absurd (hi.torn b ht) this.2.2
  · unfold Sys.buffer Sys.output
    have key : ∀ (l : List Nat) (acc : Bytes), l.foldl (fun acc b => acc ++ (s.block b).bytes) acc
        = acc ++ l.flatMap fun b => (s.block b).bytes := by
      intro l
      induction l with
      | nil => intro acc; simp
      | cons a l ih => intro acc; simp [ih]
    cases f.blocks with
    | nil => rfl
    | cons a l =>
      cases l with
      | nil => simp
      | cons b l => simp only; rw [key]; simp

/-- C18.  No schedule runs for ever: threads that are woken find work or go back to sleep, and each piece of
work is done once. -/
theorem schedules_end (z : Lz4) : WellFounded fun s' s : Sys => ∃ a, step z s a = some s' := by
  refine Subrelation.wf (r := InvImage (Prod.Lex (· < ·) (· < ·)) fun s : Sys => (work s, awake s)) ?_
    (InvImage.wf _ (Prod.lex (α := Nat) (β := Nat) ⟨_, Nat.lt_wfRel.wf⟩ ⟨_, Nat.lt_wfRel.wf⟩).wf)
  intro s' s h
  obtain ⟨a, ha⟩ := h
  rcases step_less ha with h1 | ⟨h1, h2⟩
  · exact Prod.Lex.left _ _ h1
  · show Prod.Lex _ _ (work s', awake s') (work s, awake s)
    rw [h1]; exact Prod.Lex.right _ h2

/-- C18.  A schedule only ends with every serializer done: nobody is left waiting for a block, and no
notification is lost. -/
theorem ends_done (z : Lz4) (K n : Nat) (jobs : List Job) (hn : 0 < n)
    (hK : ∀ j ∈ jobs, ∀ o ∈ j.ops, o.long ≤ K) (s : Sys) (hs : Reach z (start n jobs) s)
    (hstuck : ∀ a, step z s a = none) : ∀ f ∈ s.bufs, f.phase = .done := by
  intro f hf
  obtain ⟨⟨orig, hi⟩, hl⟩ := reach_inv n hK hs
  obtain ⟨i, hi'⟩ := List.mem_iff_getElem?.mp hf
  by_cases hd : f.phase = .done
  · exact hd
  · obtain ⟨a, s', e⟩ := hi.runs (by omega) hi' hd
    rw [hstuck a] at e; cases e

/-- C18.  From every state some schedule finishes all serializers. -/
theorem can_finish (z : Lz4) (K n : Nat) (jobs : List Job) (hn : 0 < n)
    (hK : ∀ j ∈ jobs, ∀ o ∈ j.ops, o.long ≤ K) : ∀ (s : Sys), Reach z (start n jobs) s →
    ∃ s', Reach z (start n jobs) s' ∧ (∀ f ∈ s'.bufs, f.phase = .done) ∧ ∀ a, step z s' a = none := by
  intro s
  induction s using (schedules_end z).induction with
  | _ s ih =>
    intro hs
    by_cases h : ∃ a s', step z s a = some s'
    · obtain ⟨a, s', e⟩ := h
      exact ih s' ⟨a, e⟩ (Reach.step a hs e)
    · have hno : ∀ a, step z s a = none := by
        intro a
        cases e : step z s a with
        | none => rfl
        | some s' => exact absurd ⟨a, s', e⟩ h
      exact ⟨s, hs, ends_done z K n jobs hn hK s hs hno, hno⟩

/-! ### Examples -/

/-- A stand-in for LZ4 that reverses the bytes and gives them back in two pieces. -/
def toy : Lz4 where
  comp := List.reverse
  unpack := fun bs => some [bs.reverse.take 1, bs.reverse.drop 1]

theorem toy_correct (limit : Nat) (h : limit < 2 ^ 32) : toy.Correct limit where
  inverse := by
    intro bs
    refine ⟨_, rfl, ?_⟩
    cases bs <;> simp [toy]
  small := by
    intro bs hb
    simp only [toy, List.length_reverse]; omega

/-- Runs a schedule. -/
def run (z : Lz4) (s : Sys) : List Act → Option Sys
  | [] => some s
  | a :: as =>
    match step z s a with
    | some s' => run z s' as
    | none => none

theorem run_reach {z : Lz4} {s0 : Sys} : ∀ (as : List Act) (s s' : Sys), Reach z s0 s → run z s as = some s' → Reach z s0 s' := by
  intro as
  induction as with
  | nil => intro s s' h e; simp only [run, Option.some.injEq] at e; subst e; exact h
  | cons a as ih =>
    intro s s' h e
    simp only [run] at e
    cases he : step z s a with
    | none => rw [he] at e; cases e
    | some s1 => rw [he] at e; exact ih s1 s' (Reach.step a h he) e

def toyJobs : List Job := [⟨true, true, [.init [1, 2, 3], .init [4]]⟩, ⟨true, false, [.init [5]]⟩, ⟨false, true, [.init [6, 7]]⟩]

/-- Three serializers, one of them compressed by thread 1 while thread 0 sleeps. -/
def toySchedule : List Act :=
  [.serializer 0, .worker 0 0, .serializer 1, .serializer 2, .serializer 0, .serializer 1, .serializer 0,
   .serializer 2, .worker 1 0, .serializer 0, .worker 1 0, .serializer 1, .worker 1 0, .worker 0 0,
   .worker 1 0, .serializer 1, .serializer 0, .serializer 0]

example : (run toy (start 2 toyJobs) toySchedule).map (fun s => (s.bufs.map Buf.phase, s.bufs.map s.output))
    = some ([.done, .done, .done], [[4, 0, 0, 0, 4, 3, 2, 1], [1, 0, 0, 0, 5], [6, 7]]) := by decide +kernel

example : (Reader.new true [4, 0, 0, 0, 4, 3, 2, 1]).reads toy [2, 1, 1] =
    .ok ([[1, 2], [3], [4]], ⟨true, [1, 2, 3, 4], 4, 0, []⟩) := by decide +kernel

/-- The sizes of `stream_content` are met by this stand-in for writes of up to a gigabyte. -/
example : toy.Correct (mb + max mb (2 ^ 30)) := toy_correct _ (by unfold mb; omega)

/-! ### Where the bound on the size of a write is needed -/

/-- A stand-in for LZ4 that stores the bytes as they are. -/
def stored : Lz4 where
  comp := id
  unpack := fun bs => some [bs]

theorem zeros_run : ∀ (fuel : Nat) (rest : Bytes), rest.length < fuel → (∀ b ∈ rest, b = 0) →
    ∃ r', Reader.fill stored fuel 1 ⟨true, [], 0, 0, rest⟩ = .ok (false, r') := by
  intro fuel
  induction fuel with
  | zero => intro rest h; omega
  | succ fuel ih =>
    intro rest h h0
    unfold Reader.fill
    rw [if_pos (by simp)]
    unfold Reader.decompress
    rw [if_neg (by simp)]
    by_cases hl : rest.length < 4
    · simp only [hl, if_true]; exact ⟨_, rfl⟩
    · simp only [hl, if_false]
      have hz : Verif.Wire.fromLE (rest.take 4) = 0 := by
        match rest, hl, h0 with
        | a :: b :: c :: d :: l, _, h0 =>
          have := h0 a (by simp); have := h0 b (by simp); have := h0 c (by simp); have := h0 d (by simp)
          subst_vars
          simp [Verif.Wire.fromLE]
        | [], hl, _ => simp at hl
        | [_], hl, _ => simp at hl
        | [_, _], hl, _ => simp at hl
        | [_, _, _], hl, _ => simp at hl
      simp only [hz]
      rw [if_neg (by omega)]
      simp only [List.take_zero, stored, List.foldl_cons, List.foldl_nil, Reader.piece, List.drop_nil, List.append_nil,
        List.length_nil, Nat.add_zero]
      exact ih (rest.drop 4) (by simp; omega) (fun b hb => h0 b (List.mem_of_mem_drop hb))

theorem toLE_zero (N : Nat) (h : N % 4294967296 = 0) : ∀ b ∈ Verif.Wire.toLE 4 N, b = 0 := by
  intro b hb
  simp only [Verif.Wire.toLE, List.mem_cons, List.not_mem_nil, or_false] at hb
  rcases hb with rfl | rfl | rfl | rfl <;> omega

/-- C18, the limit.  The size of a compressed block is written in 32 bits.  One string of `N` bytes goes
into one block; if `N` is a multiple of 2^32 and the compressor does not change the size (here one that
stores the bytes), what was written is `N` bytes and the reader finds none. -/
theorem huge_block_lost (N : Nat) (h0 : 0 < N) (hN : N % 4294967296 = 0) (data : Bytes) (hd : data = List.replicate N 0) :
    (∀ bs, ∃ ps, stored.unpack (stored.comp bs) = some ps ∧ ps.flatten = bs) ∧
    written [.init data] = data ∧ reads data [1] ≠ none ∧
    (Reader.new true (frame stored data)).reads stored [1] = .error .outOfData := by
  have hlen : data.length = N := by rw [hd]; simp
  have hz : ∀ b ∈ data, b = 0 := by rw [hd]; exact fun b hb => List.eq_of_mem_replicate hb
  clear hd
  refine ⟨fun bs => ⟨[bs], rfl, by simp⟩, by simp [written, Op.data], ?_, ?_⟩
  · simp only [reads]
    rw [if_pos (by omega)]
    simp
  · have hall : ∀ b ∈ frame stored data, b = 0 := by
      intro b hb
      simp only [frame, stored, id_eq, hlen] at hb
      rcases List.mem_append.mp hb with hb | hb
      · exact toLE_zero N hN b hb
      · exact hz b hb
    generalize frame stored data = out at hall
    obtain ⟨r', e⟩ := zeros_run (out.length + 1) out (by omega) hall
    have hread : (Reader.new true out).read stored 1 = .error .outOfData := by
      unfold Reader.read Reader.new
      simp only [e]
    simp only [Reader.reads, hread]

example : 0 < 4294967296 ∧ 4294967296 % 4294967296 = 0 := by decide

end Verif.Stream
