import Verif.Stream.Spec
/-!
# The invariant of the compression threads
-/
namespace Verif.Stream
open Verif.Wire (Bytes)

/-- The block a compression thread holds. -/
def Worker.block? : Worker → Option Nat
  | .has b => some b
  | .torn b => some b
  | .ready b => some b
  | _ => none

def Quiet (s : Sys) (b : Nat) : Prop := b ∉ s.waiting ∧ b ∉ s.working
def Busy (s : Sys) (b : Nat) : Prop := b ∈ s.waiting ∨ b ∈ s.working
def Open (s : Sys) (b : Nat) : Prop := (s.block b).compressed = false ∧ Quiet s b
def Closed (s : Sys) (b : Nat) : Prop := (s.block b).compressed = true ∧ Quiet s b
def Sealed (s : Sys) (b : Nat) : Prop := Busy s b ∨ (s.block b).compressed = true

/-- What holds of a serializer in each phase. -/
def PhaseOk (s : Sys) (f : Buf) : Prop :=
  match f.phase with
  | .writing _ => Open s f.top ∧ ∀ b ∈ f.blocks, b ≠ f.top →
      if f.wants = true ∧ f.threads = true then Sealed s b else Open s b
  | .waiting left => f.wants = true ∧ (∀ b ∈ left, b ∈ f.blocks) ∧
      (∀ b ∈ f.blocks, b ∉ left → Closed s b) ∧
      (∀ b ∈ left, if f.threads = true then Sealed s b else Quiet s b)
  | .asleep left => f.wants = true ∧ (∀ b ∈ left, b ∈ f.blocks) ∧
      (∀ b ∈ f.blocks, b ∉ left → Closed s b) ∧
      (∀ b ∈ left, if f.threads = true then Sealed s b else Quiet s b) ∧
      f.threads = true ∧ ∃ b l, left = b :: l ∧ Busy s b
  | .done => ∀ b ∈ f.blocks, if f.wants = true then Closed s b else Open s b

/-- The pieces still to be written. -/
def Phase.todo : Phase → List Bytes
  | .writing t => t
  | _ => []

/-- A serializer and the job it does. -/
structure BufOk (K : Nat) (orig : Nat → Bytes) (s : Sys) (j : Job) (f : Buf) : Prop where
  wants : f.wants = j.wants
  threads : f.threads = j.threads
  range : ∀ b ∈ f.blocks, b < s.store.length
  nodup : f.blocks.Nodup
  top : ∃ pre, f.blocks = pre ++ [f.top]
  data : f.blocks.flatMap orig ++ f.phase.todo.flatten = written j.ops
  short : ∀ p ∈ f.phase.todo, p.length ≤ max mb K
  phase : PhaseOk s f

/-- The whole invariant; `orig b` is what was written to block `b` so far. -/
structure Inv (z : Lz4) (K : Nat) (jobs : List Job) (orig : Nat → Bytes) (s : Sys) : Prop where
  plain : ∀ b, (s.block b).compressed = false → (s.block b).bytes = orig b
  packed : ∀ b, (s.block b).compressed = true → (s.block b).bytes = frame z (orig b) ∧ (s.block b).torn = false
  torn : ∀ b, (s.block b).torn = true → b ∈ s.working
  small : ∀ b, (orig b).length ≤ mb + max mb K
  held : ∀ (w : Nat) (x : Worker) (b : Nat), s.workers[w]? = some x → x.block? = some b → b ∈ s.working
  ready : ∀ (w b : Nat), s.workers[w]? = some (.ready b) → (s.block b).compressed = true
  uniq : ∀ (w w' : Nat) (x x' : Worker) (b : Nat), s.workers[w]? = some x → s.workers[w']? = some x' →
    x.block? = some b → x'.block? = some b → w = w'
  holder : ∀ b ∈ s.working, ∃ (w : Nat) (x : Worker), s.workers[w]? = some x ∧ x.block? = some b
  nodupA : s.waiting.Nodup
  nodupB : s.working.Nodup
  disj : ∀ b ∈ s.waiting, b ∉ s.working
  rangeA : ∀ b ∈ s.waiting, b < s.store.length
  rangeB : ∀ b ∈ s.working, b < s.store.length
  sleep : ∀ (w : Nat), s.workers[w]? = some .asleep → s.waiting = []
  count : s.bufs.length = jobs.length
  bufs : ∀ (i : Nat) (f : Buf) (j : Job), s.bufs[i]? = some f → jobs[i]? = some j → BufOk K orig s j f
  apart : ∀ (i i' : Nat) (f f' : Buf) (b : Nat), s.bufs[i]? = some f → s.bufs[i']? = some f' → b ∈ f.blocks → b ∈ f'.blocks → i = i'

/-! ### Looking up a block after a change of the store -/

theorem getD_set (l : List Block) (b c : Nat) (x : Block) (h : b < l.length) :
    (l.set b x).getD c Block.empty = if c = b then x else l.getD c Block.empty := by
  simp only [List.getD_eq_getElem?_getD, List.getElem?_set]
  by_cases hc : c = b
  · subst hc; simp [h]
  · have : ¬ b = c := fun e => hc e.symm
    simp [hc, this]

theorem getD_snoc (l : List Block) (c : Nat) :
    (l ++ [Block.empty]).getD c Block.empty = l.getD c Block.empty := by
  simp only [List.getD_eq_getElem?_getD, List.getElem?_append]
  by_cases hc : c < l.length
  · simp [hc]
  · have h1 : l[c]? = none := by simp; omega
    simp only [hc, if_false, h1]
    by_cases h2 : c - l.length = 0
    · simp [h2]
    · have : [Block.empty][c - l.length]? = none := by simp; omega
      simp [this]

/-! ### Carrying over what holds of the serializers that do nothing -/

/-- If a change keeps every block of a serializer as it was, as far as the invariant looks, the serializer
is as well off as before. -/
theorem PhaseOk.mono {s s' : Sys} {f : Buf}
    (ho : ∀ b ∈ f.blocks, Open s b → Open s' b) (hc : ∀ b ∈ f.blocks, Closed s b → Closed s' b)
    (hs : ∀ b ∈ f.blocks, Sealed s b → Sealed s' b) (hq : ∀ b ∈ f.blocks, Quiet s b → Quiet s' b)
    (hb : ∀ b ∈ f.blocks, Busy s b → Busy s' b ∨ ∀ l, f.phase ≠ .asleep l)
    (ht : f.top ∈ f.blocks) (h : PhaseOk s f) : PhaseOk s' f := by
  unfold PhaseOk at h ⊢
  cases hp : f.phase with
  | writing t =>
    simp only [hp] at h ⊢
    refine ⟨ho _ ht h.1, ?_⟩
    intro b hbm hne
    have := h.2 b hbm hne
    by_cases hw : f.wants = true ∧ f.threads = true
    · rw [if_pos hw] at this ⊢; exact hs b hbm this
    · rw [if_neg hw] at this ⊢; exact ho b hbm this
  | waiting l =>
    simp only [hp] at h ⊢
    obtain ⟨h1, h2, h3, h4⟩ := h
    refine ⟨h1, h2, fun b hb hl => hc b hb (h3 b hb hl), fun b hl => ?_⟩
    have := h4 b hl
    by_cases hw : f.threads = true
    · rw [if_pos hw] at this ⊢; exact hs b (h2 b hl) this
    · rw [if_neg hw] at this ⊢; exact hq b (h2 b hl) this
  | asleep l =>
    simp only [hp] at h ⊢
    obtain ⟨h1, h2, h3, h4, h5, b, l', h6, h7⟩ := h
    refine ⟨h1, h2, fun b hb hl => hc b hb (h3 b hb hl), fun b hl => ?_, h5, b, l', h6, ?_⟩
    · have := h4 b hl
      by_cases hw : f.threads = true
      · rw [if_pos hw] at this ⊢; exact hs b (h2 b hl) this
      · rw [if_neg hw] at this ⊢; exact hq b (h2 b hl) this
    · rcases hb b (h2 b (by simp [h6])) h7 with h | h
      · exact h
      · exact absurd hp (h l)
  | done =>
    simp only [hp] at h ⊢
    intro b hbm
    have := h b hbm
    by_cases hw : f.wants = true
    · rw [if_pos hw] at this ⊢; exact hc b hbm this
    · rw [if_neg hw] at this ⊢; exact ho b hbm this

theorem BufOk.top_mem {K orig s j f} (h : BufOk K orig s j f) : f.top ∈ f.blocks := by
  obtain ⟨pre, e⟩ := h.top; rw [e]; simp

theorem BufOk.last {K orig s j f} (h : BufOk K orig s j f) : f.blocks.getLastD 0 = f.top := by
  obtain ⟨pre, e⟩ := h.top; rw [e]; simp

theorem flatMap_congr' {f g : Nat → Bytes} : ∀ (l : List Nat), (∀ b ∈ l, f b = g b) →
    l.flatMap f = l.flatMap g := by
  intro l
  induction l with
  | nil => intro _; rfl
  | cons a as ih =>
    intro h
    rw [List.flatMap_cons, List.flatMap_cons, h a (by simp), ih (fun b hb => h b (by simp [hb]))]

/-- The same for the whole of what holds of a serializer. -/
theorem BufOk.mono {K : Nat} {orig orig' : Nat → Bytes} {s s' : Sys} {j : Job} {f : Buf}
    (hl : s.store.length ≤ s'.store.length) (horig : ∀ b ∈ f.blocks, orig' b = orig b)
    (ho : ∀ b ∈ f.blocks, Open s b → Open s' b) (hc : ∀ b ∈ f.blocks, Closed s b → Closed s' b)
    (hs : ∀ b ∈ f.blocks, Sealed s b → Sealed s' b) (hq : ∀ b ∈ f.blocks, Quiet s b → Quiet s' b)
    (hb : ∀ b ∈ f.blocks, Busy s b → Busy s' b ∨ ∀ l, f.phase ≠ .asleep l)
    (h : BufOk K orig s j f) : BufOk K orig' s' j f where
  wants := h.wants
  threads := h.threads
  range := fun b hbm => Nat.lt_of_lt_of_le (h.range b hbm) hl
  nodup := h.nodup
  top := h.top
  data := by
    rw [← h.data]
    congr 1
    exact flatMap_congr' _ horig
  short := h.short
  phase := h.phase.mono ho hc hs hq hb h.top_mem

/-! ### Waking -/

theorem wake_block? (x : Worker) : x.wake.block? = x.block? := by cases x <;> rfl

theorem wake_not_asleep (x : Worker) : x.wake ≠ .asleep := by cases x <;> simp [Worker.wake]

theorem wake_ready (x : Worker) (b : Nat) : x.wake = .ready b ↔ x = .ready b := by
  cases x <;> simp [Worker.wake]

theorem Buf.wake_fields (f : Buf) : f.wake.wants = f.wants ∧ f.wake.threads = f.threads ∧
    f.wake.blocks = f.blocks ∧ f.wake.top = f.top ∧ f.wake.phase.todo = f.phase.todo ∧
    (∀ l, f.wake.phase ≠ .asleep l) := by
  cases f with
  | mk a b c d p => cases p <;> simp [Buf.wake, Phase.todo]

theorem PhaseOk.wake {s : Sys} {f : Buf} (h : PhaseOk s f) : PhaseOk s f.wake := by
  cases f with
  | mk a b c d p =>
    cases p with
    | asleep l =>
      obtain ⟨h1, h2, h3, h4, _⟩ := h
      exact ⟨h1, h2, h3, h4⟩
    | _ => exact h

theorem BufOk.wake {K orig s j f} (h : BufOk K orig s j f) : BufOk K orig s j f.wake := by
  obtain ⟨e1, e2, e3, e4, e5, _⟩ := f.wake_fields
  exact {
    wants := by rw [e1]; exact h.wants
    threads := by rw [e2]; exact h.threads
    range := by rw [e3]; exact h.range
    nodup := by rw [e3]; exact h.nodup
    top := by rw [e3, e4]; exact h.top
    data := by rw [e3, e5]; exact h.data
    short := by rw [e5]; exact h.short
    phase := h.phase.wake }

/-- Waking everybody keeps the invariant, and then nobody sleeps. -/
theorem Inv.notify {z K jobs orig s} (h : Inv z K jobs orig s) : Inv z K jobs orig s.notify where
  plain := h.plain
  packed := h.packed
  torn := h.torn
  small := h.small
  held := by
    intro w x b hw hx
    simp only [Sys.notify, List.getElem?_map, Option.map_eq_some_iff] at hw
    obtain ⟨y, hy, rfl⟩ := hw
    rw [wake_block?] at hx
    exact h.held w y b hy hx
  ready := by
    intro w b hw
    simp only [Sys.notify, List.getElem?_map, Option.map_eq_some_iff] at hw
    obtain ⟨y, hy, e⟩ := hw
    rw [wake_ready] at e; subst e
    exact h.ready w b hy
  uniq := by
    intro w w' x x' b hw hw' hx hx'
    simp only [Sys.notify, List.getElem?_map, Option.map_eq_some_iff] at hw hw'
    obtain ⟨y, hy, rfl⟩ := hw
    obtain ⟨y', hy', rfl⟩ := hw'
    rw [wake_block?] at hx hx'
    exact h.uniq w w' y y' b hy hy' hx hx'
  holder := by
    intro b hb
    obtain ⟨w, x, hw, hx⟩ := h.holder b hb
    refine ⟨w, x.wake, ?_, by rw [wake_block?]; exact hx⟩
    simp [Sys.notify, hw]
  nodupA := h.nodupA
  nodupB := h.nodupB
  disj := h.disj
  rangeA := h.rangeA
  rangeB := h.rangeB
  sleep := by
    intro w hw
    simp only [Sys.notify, List.getElem?_map, Option.map_eq_some_iff] at hw
    obtain ⟨y, _, e⟩ := hw
    exact absurd e (wake_not_asleep y)
  count := by simp [Sys.notify, h.count]
  bufs := by
    intro i f j hf hj
    simp only [Sys.notify, List.getElem?_map, Option.map_eq_some_iff] at hf
    obtain ⟨g, hg, rfl⟩ := hf
    have := (h.bufs i g j hg hj).wake
    exact BufOk.mono (s := s) (s' := s.notify) (Nat.le_refl _) (fun _ _ => rfl) (fun _ _ h => h) (fun _ _ h => h) (fun _ _ h => h)
      (fun _ _ h => h) (fun _ _ h => Or.inl h) this
  apart := by
    intro i i' f f' b hf hf' hb hb'
    simp only [Sys.notify, List.getElem?_map, Option.map_eq_some_iff] at hf hf'
    obtain ⟨g, hg, rfl⟩ := hf
    obtain ⟨g', hg', rfl⟩ := hf'
    rw [g.wake_fields.2.2.1] at hb
    rw [g'.wake_fields.2.2.1] at hb'
    exact h.apart i i' g g' b hg hg' hb hb'

theorem notify_awake (s : Sys) : (∀ w : Nat, s.notify.workers[w]? ≠ some .asleep) ∧
    ∀ (i : Nat) (f : Buf) (l : List Nat), s.notify.bufs[i]? = some f → f.phase ≠ .asleep l := by
  constructor
  · intro w hw
    simp only [Sys.notify, List.getElem?_map, Option.map_eq_some_iff] at hw
    obtain ⟨y, _, e⟩ := hw
    exact wake_not_asleep y e
  · intro i f l hf
    simp only [Sys.notify, List.getElem?_map, Option.map_eq_some_iff] at hf
    obtain ⟨g, hg, rfl⟩ := hf
    exact g.wake_fields.2.2.2.2.2 l

end Verif.Stream
