import Verif.Stream.Spec
import Verif.Wire.Props
/-!
# The reader gives back the content, in reads of any size
-/
namespace Verif.Stream
open Verif.Wire (Bytes toLE fromLE toLE_length fromLE_toLE)

/-- The reader `r` has still to deliver exactly `data`. -/
def Rep (z : Lz4) (r : Reader) (data : Bytes) : Prop :=
  r.off + r.size = r.buf.length ∧
  ((r.compressed = false ∧ (r.rest = [] ∨ r.size = 0) ∧ data = r.buf.drop r.off ++ r.rest) ∨
   (r.compressed = true ∧ ∃ bs : List Bytes, r.rest = bs.flatMap (frame z) ∧
      (∀ b ∈ bs, (z.comp b).length < 2 ^ 32) ∧ data = r.buf.drop r.off ++ bs.flatten))

theorem pieces_fold (r : Reader) : ∀ (ps : List Bytes) (r : Reader), r.off + r.size = r.buf.length →
    (ps.foldl Reader.piece r).off + (ps.foldl Reader.piece r).size = (ps.foldl Reader.piece r).buf.length ∧
    (ps.foldl Reader.piece r).buf.drop (ps.foldl Reader.piece r).off = r.buf.drop r.off ++ ps.flatten ∧
    (ps.foldl Reader.piece r).compressed = r.compressed ∧ (ps.foldl Reader.piece r).rest = r.rest := by
  intro ps
  induction ps with
  | nil => intro r h; simp [h]
  | cons p ps ih =>
    intro r h
    have h1 : (r.piece p).off + (r.piece p).size = (r.piece p).buf.length := by
      simp only [Reader.piece, List.length_append, List.length_drop]; omega
    obtain ⟨a, b, c, d⟩ := ih (r.piece p) h1
    simp only [List.foldl_cons]
    refine ⟨a, ?_, c, d⟩
    rw [b]; simp [Reader.piece]

theorem frame_length (z : Lz4) (b : Bytes) : (frame z b).length = 4 + (z.comp b).length := by
  simp [frame, toLE_length]

theorem decompress_rep {z : Lz4} {limit : Nat} (hz : z.Correct limit) {r : Reader} {data : Bytes}
    (h : Rep z r data) :
    (r.decompress z = .ok (false, r) ∧ data.length = r.size) ∨
    ∃ r', r.decompress z = .ok (true, r') ∧ Rep z r' data ∧ r'.rest.length < r.rest.length ∧
      (data.length = r'.size ∨ r'.compressed = true) := by
  obtain ⟨hs, h | h⟩ := h
  · obtain ⟨hc, hr, hd⟩ := h
    unfold Reader.decompress
    simp only [hc, if_true]
    by_cases h0 : r.rest.length = 0
    · left
      have : r.rest = [] := by simpa using h0
      rw [if_pos h0]
      refine ⟨rfl, ?_⟩
      rw [hd, this]; simp; omega
    · right
      rw [if_neg h0]
      have hz0 : r.size = 0 := by
        rcases hr with hr | hr
        · simp [hr] at h0
        · exact hr
      have hb : r.buf.drop r.off = [] := by
        apply List.drop_eq_nil_of_le; omega
      refine ⟨_, rfl, ⟨by simp [hz0], Or.inl ⟨rfl, Or.inl rfl, ?_⟩⟩, by simp; omega, ?_⟩
      · simp [hd, hb]
      · left; simp [hd, hb, hz0]
  · obtain ⟨hc, bs, hr, hsm, hd⟩ := h
    unfold Reader.decompress
    have hcf : ¬ r.compressed = false := by simp [hc]
    rw [if_neg hcf]
    cases bs with
    | nil =>
      left
      have : r.rest = [] := by simpa using hr
      rw [if_pos (by simp [this])]
      refine ⟨rfl, ?_⟩
      rw [hd]; simp; omega
    | cons b bs =>
      right
      have hr' : r.rest = toLE 4 (z.comp b).length ++ (z.comp b ++ bs.flatMap (frame z)) := by
        rw [hr]; simp [frame]
      have hl : r.rest.length = 4 + ((z.comp b).length + (bs.flatMap (frame z)).length) := by
        rw [hr']; simp only [List.length_append, toLE_length]
      rw [if_neg (by omega)]
      have ht : r.rest.take 4 = toLE 4 (z.comp b).length := by
        rw [hr', List.take_append_of_le_length (by simp [toLE_length])]
        rw [List.take_of_length_le (by simp [toLE_length])]
      have hdr : r.rest.drop 4 = z.comp b ++ bs.flatMap (frame z) := by
        rw [hr', List.drop_append_of_le_length (by simp [toLE_length])]
        rw [List.drop_of_length_le (by simp [toLE_length])]; simp
      have hn : fromLE (r.rest.take 4) = (z.comp b).length := by
        rw [ht, fromLE_toLE]
        apply Nat.mod_eq_of_lt
        have := hsm b (by simp)
        simpa using this
      simp only [hn]
      rw [if_neg (by omega)]
      have ht2 : (r.rest.drop 4).take (z.comp b).length = z.comp b := by
        rw [hdr]; simp
      rw [ht2]
      obtain ⟨ps, hps, hfl⟩ := hz.inverse b
      simp only [hps]
      have hrest : r.rest.drop (4 + (z.comp b).length) = bs.flatMap (frame z) := by
        rw [← List.drop_drop, hdr]; simp
      obtain ⟨a1, a2, a3, a4⟩ := pieces_fold r ps { r with rest := r.rest.drop (4 + (z.comp b).length) } hs
      refine ⟨_, rfl, ⟨a1, Or.inr ⟨by rw [a3]; exact hc, bs, ?_, ?_, ?_⟩⟩, ?_, ?_⟩
      · rw [a4]; exact hrest
      · intro c hcm; exact hsm c (by simp [hcm])
      · rw [a2, hd, hfl]; simp
      · rw [a4]; simp only [hrest]; omega
      · right; rw [a3]; exact hc

theorem rep_size {z : Lz4} {r : Reader} {data : Bytes} (h : Rep z r data) : r.size ≤ data.length := by
  obtain ⟨hs, h | h⟩ := h
  · rw [h.2.2]; simp; omega
  · obtain ⟨_, bs, _, _, hd⟩ := h; rw [hd]; simp; omega

/-- The loop before every read: it says whether `n` bytes are left, and if so they are in the buffer. -/
theorem fill_rep {z : Lz4} {limit : Nat} (hz : z.Correct limit) (n : Nat) : ∀ (fuel : Nat) (r : Reader) (data : Bytes),
    Rep z r data → r.rest.length < fuel →
    ∃ r', Reader.fill z fuel n r = .ok (decide (n ≤ data.length), r') ∧ Rep z r' data ∧
      (n ≤ data.length → n ≤ r'.size) := by
  intro fuel
  induction fuel with
  | zero => intro r data _ h; omega
  | succ fuel ih =>
    intro r data h hf
    unfold Reader.fill
    have hsz := rep_size h
    by_cases hn : r.size < n
    · rw [if_pos hn]
      rcases decompress_rep hz h with ⟨he, hl⟩ | ⟨r', he, hr', hlt, _⟩
      · refine ⟨r, ?_, h, by omega⟩
        simp only [he]
        have : ¬ n ≤ data.length := by omega
        simp [this]
      · simp only [he]
        obtain ⟨r'', h1, h2, h3⟩ := ih r' data hr' (by omega)
        exact ⟨r'', h1, h2, h3⟩
    · rw [if_neg hn]
      have : n ≤ data.length := by omega
      exact ⟨r, by simp [this], h, fun _ => by omega⟩

/-- One read. -/
theorem read_rep {z : Lz4} {limit : Nat} (hz : z.Correct limit) (n : Nat) {r : Reader} {data : Bytes} (h : Rep z r data) :
    (n ≤ data.length → ∃ r', r.read z n = .ok (data.take n, r') ∧ Rep z r' (data.drop n)) ∧
    (data.length < n → r.read z n = .error .outOfData) := by
  obtain ⟨r', he, hr', hn⟩ := fill_rep hz n (r.rest.length + 1) r data h (by omega)
  constructor
  · intro hle
    have hs := hn hle
    unfold Reader.read
    rw [he]
    simp only [hle, decide_true]
    have hlen : n ≤ (r'.buf.drop r'.off).length := by
      have := hr'.1; simp; omega
    have htake : ∀ tl, (r'.buf.drop r'.off).take n = ((r'.buf.drop r'.off) ++ tl).take n := by
      intro tl; rw [List.take_append_of_le_length hlen]
    have hdrop : ∀ tl, r'.buf.drop (r'.off + n) ++ tl = ((r'.buf.drop r'.off) ++ tl).drop n := by
      intro tl; rw [List.drop_append_of_le_length hlen, List.drop_drop]
    obtain ⟨h1, h2 | h2⟩ := hr'
    · obtain ⟨hc, hr, hd⟩ := h2
      refine ⟨{ r' with size := r'.size - n, off := r'.off + n }, ?_, ?_, Or.inl ⟨hc, ?_, ?_⟩⟩
      · rw [hd, ← htake]
      · simp only; omega
      · simp only; rcases hr with hr | hr
        · exact Or.inl hr
        · right; omega
      · simp only; rw [hd, hdrop]
    · obtain ⟨hc, bs, hr, hsm, hd⟩ := h2
      refine ⟨{ r' with size := r'.size - n, off := r'.off + n }, ?_, ?_, Or.inr ⟨hc, bs, hr, hsm, ?_⟩⟩
      · rw [hd, ← htake]
      · simp only; omega
      · simp only; rw [hd, hdrop]
  · intro hlt
    unfold Reader.read
    have : ¬ n ≤ data.length := by omega
    rw [he]; simp [this]

/-- Any sequence of reads: the bytes of the specification, or "out of data" exactly when the specification
has not enough. -/
theorem reads_rep {z : Lz4} {limit : Nat} (hz : z.Correct limit) : ∀ (ns : List Nat) (r : Reader) (data : Bytes), Rep z r data →
    match reads data ns with
    | some (ps, rest) => ∃ r', r.reads z ns = .ok (ps, r') ∧ Rep z r' rest
    | none => r.reads z ns = .error .outOfData := by
  intro ns
  induction ns with
  | nil => intro r data h; exact ⟨r, rfl, h⟩
  | cons n ns ih =>
    intro r data h
    obtain ⟨h1, h2⟩ := read_rep hz n h
    by_cases hn : n ≤ data.length
    · obtain ⟨r', he, hr'⟩ := h1 hn
      have hi := ih r' _ hr'
      simp only [reads, hn, if_true, Reader.reads, he]
      cases hq : reads (data.drop n) ns with
      | none => rw [hq] at hi; simp only at hi ⊢; rw [hi]
      | some p =>
        obtain ⟨ps, rest⟩ := p
        rw [hq] at hi
        simp only at hi ⊢
        obtain ⟨r'', e, hr''⟩ := hi
        exact ⟨r'', by rw [e], hr''⟩
    · simp only [reads, hn, if_false, Reader.reads, h2 (by omega)]

/-- `isDone` and `canConsume` are right about what is left. -/
theorem canConsume_rep {z : Lz4} {limit : Nat} (hz : z.Correct limit) (n : Nat) {r : Reader} {data : Bytes} (h : Rep z r data) :
    ∃ r', r.canConsume z n = .ok (decide (n ≤ data.length), r') ∧ Rep z r' data := by
  obtain ⟨r', a, b, _⟩ := fill_rep hz n (r.rest.length + 1) r data h (by omega)
  exact ⟨r', a, b⟩

theorem rep_plain (z : Lz4) (data : Bytes) : Rep z (Reader.new false data) data :=
  ⟨rfl, Or.inl ⟨rfl, Or.inr rfl, by simp [Reader.new]⟩⟩

theorem rep_packed (z : Lz4) (bs : List Bytes) (h : ∀ b ∈ bs, (z.comp b).length < 2 ^ 32) :
    Rep z (Reader.new true (bs.flatMap (frame z))) bs.flatten :=
  ⟨rfl, Or.inr ⟨rfl, bs, rfl, h, by simp [Reader.new]⟩⟩

end Verif.Stream
