import Verif.Sha.Block
/-
Streaming: what a context holds after a history of updates, and what `finish` makes of it.
-/
namespace Verif.Sha

theorem and3F (x : Word) : (x &&& 0x3F).toNat = x.toNat % 64 := by
  rw [BitVec.toNat_and]
  exact Nat.and_two_pow_sub_one_eq_mod x.toNat 6

theorem andFF (x : Word) : x &&& 0xFFFFFFFF = x := by
  rw [show (0xFFFFFFFF : Word) = BitVec.allOnes 32 from rfl, BitVec.and_allOnes]

/-! ### Blocks -/

attribute [local irreducible] compress process

theorem chain_add (c : List Byte → Hash → Hash) (a b : Nat) (m : List Byte) (h : Hash) :
    chain c (a + b) m h = chain c b (m.drop (64 * a)) (chain c a m h) := by
  induction a generalizing m h with
  | zero => simp [chain]
  | succ a ih =>
    rw [show a + 1 + b = (a + b) + 1 by omega, chain, ih, chain, List.drop_drop]
    rw [show 64 + 64 * a = 64 * (a + 1) by omega]

theorem chain_append (c : List Byte → Hash → Hash) (n : Nat) (m x : List Byte) (h : Hash)
    (hn : 64 * n ≤ m.length) : chain c n (m ++ x) h = chain c n m h := by
  induction n generalizing m h with
  | zero => rfl
  | succ n ih =>
    rw [chain, chain, List.take_append_of_le_length (by omega), List.drop_append_of_le_length (by omega),
      ih _ _ (by simp; omega)]

theorem whole_chain (c : List Byte → Hash → Hash) (n : Nat) (m : List Byte) (h : Hash) :
    whole c n m h = (chain c n m h, m.drop (64 * n)) := by
  induction n generalizing m h with
  | zero => simp [whole, chain]
  | succ n ih =>
    rw [whole, ih, chain, List.drop_drop, show 64 + 64 * n = 64 * (n + 1) by omega]

theorem chain_one (c : List Byte → Hash → Hash) (m : List Byte) (h : Hash) :
    chain c 1 m h = c (m.take 64) h := rfl

theorem process_funext : process = compress := by
  funext b h; exact process_eq b h

theorem blocks_add (a b : Nat) (m : List Byte) (h : Hash) :
    blocks (a + b) m h = blocks b (m.drop (64 * a)) (blocks a m h) := chain_add compress a b m h

theorem blocks_one (m : List Byte) (h : Hash) : blocks 1 m h = compress (m.take 64) h :=
  chain_one compress m h

theorem blocks_zero (m : List Byte) (h : Hash) : blocks 0 m h = h := rfl

theorem blocks_append (n : Nat) (m x : List Byte) (h : Hash) (hn : 64 * n ≤ m.length) :
    blocks n (m ++ x) h = blocks n m h := chain_append compress n m x h hn

theorem whole_eq (n : Nat) (m : List Byte) (h : Hash) :
    whole process n m h = (blocks n m h, m.drop (64 * n)) := by
  rw [process_funext, whole_chain, blocks]

/-! ### The context -/

/-- The context holds the message `m`, and its counter stands at `n`. -/
structure Holds (ctx : Ctx) (n : Nat) (m : List Byte) : Prop where
  total0 : ctx.total0 = BitVec.ofNat 32 n
  total1 : ctx.total1 = BitVec.ofNat 32 (n / 2 ^ 32)
  count : n % 64 = m.length % 64
  state : ctx.state = blocks (m.length / 64) m initial
  size : ctx.buffer.length = 64
  buffer : ctx.buffer.take (m.length % 64) = m.drop (64 * (m.length / 64))

theorem starts_holds : Holds starts 0 [] :=
  ⟨rfl, rfl, rfl, rfl, rfl, rfl⟩

theorem memcpy_length (b : List Byte) (p : Nat) (s : List Byte) (n : Nat) (h1 : p + n ≤ b.length)
    (h2 : n ≤ s.length) : (memcpy b p s n).length = b.length := by
  simp [memcpy]; omega

theorem memcpy_take (b : List Byte) (p : Nat) (s : List Byte) (n : Nat) (h1 : p + n ≤ b.length)
    (h2 : n ≤ s.length) : (memcpy b p s n).take (p + n) = b.take p ++ s.take n := by
  rw [memcpy, List.take_append_of_le_length (by simp; omega), List.take_of_length_le (by simp; omega)]

theorem used_eq (ctx : Ctx) (n : Nat) (m : List Byte) (h : ctx.total0 = BitVec.ofNat 32 n)
    (hn : n % 64 = m.length % 64) : (ctx.total0 &&& 0x3F).toNat = m.length % 64 := by
  rw [and3F, h, BitVec.toNat_ofNat]
  omega

theorem update_holds (ctx : Ctx) (n : Nat) (m input : List Byte) (h : Holds ctx n m) :
    Holds (update ctx input) (n + input.length % 2 ^ 32) (m ++ input) := by
  unfold update
  split
  · next he =>
    rw [List.eq_nil_of_length_eq_zero he, List.append_nil]
    exact h
  next he =>
  rw [used_eq ctx n m h.total0 h.count, andFF]
  have hsz := h.size
  have hbuf := h.buffer
  have hst0 := h.state
  have hmod : BitVec.ofNat 32 input.length = BitVec.ofNat 32 (input.length % 2 ^ 32) := by
    apply BitVec.eq_of_toNat_eq; simp
  have e0 : ctx.total0 + BitVec.ofNat 32 input.length = BitVec.ofNat 32 (n + input.length % 2 ^ 32) := by
    rw [h.total0, hmod, BitVec.ofNat_add]
  have e1 : (if ctx.total0 + BitVec.ofNat 32 input.length < BitVec.ofNat 32 input.length
      then ctx.total1 + 1 else ctx.total1) = BitVec.ofNat 32 ((n + input.length % 2 ^ 32) / 2 ^ 32) := by
    rw [e0, h.total1]
    simp only [BitVec.lt_def, BitVec.toNat_ofNat]
    split
    · next hc =>
      rw [show (n + input.length % 2 ^ 32) / 2 ^ 32 = n / 2 ^ 32 + 1 by omega, BitVec.ofNat_add]
      rfl
    · next hc =>
      rw [show (n + input.length % 2 ^ 32) / 2 ^ 32 = n / 2 ^ 32 by omega]
  have e2 : (n + input.length % 2 ^ 32) % 64 = (m ++ input).length % 64 := by
    have := h.count
    rw [List.length_append]; omega
  have hdrop : (m.drop (64 * (m.length / 64))).length = m.length % 64 := by simp; omega
  by_cases hc : m.length % 64 ≠ 0 ∧ input.length ≥ 64 - m.length % 64
  · simp only [if_pos hc, whole_eq, process_eq, memcpy]
    obtain ⟨hc1, hc2⟩ := hc
    generalize hq : m.length / 64 = q at *
    generalize hr : m.length % 64 = r at *
    have hm : m.length = 64 * q + r := by omega
    have hr64 : r < 64 := by omega
    -- the block that is completed
    have hblock : List.take r ctx.buffer ++ List.take (64 - r) input ++ List.drop (r + (64 - r)) ctx.buffer
        = ((m ++ input).drop (64 * q)).take 64 := by
      rw [hbuf, List.drop_append_of_le_length (by omega), List.take_append, hdrop,
        List.take_of_length_le (l := List.drop (64 * q) m) (by omega),
        List.drop_of_length_le (l := ctx.buffer) (by omega), List.append_nil]
    have hrest : input.drop (64 - r) = (m ++ input).drop (64 * (q + 1)) := by
      rw [List.drop_append, List.drop_of_length_le (l := m) (by omega), List.nil_append]
      congr 1; omega
    have hlen : (input.drop (64 - r)).length = input.length - (64 - r) := by simp
    have hst : compress (((m ++ input).drop (64 * q)).take 64) ctx.state
        = blocks (q + 1) (m ++ input) initial := by
      rw [blocks_add, hst0, blocks_append _ _ _ _ (by omega), blocks_one]
    have hn : (m ++ input).length / 64 = (q + 1) + (input.length - (64 - r)) / 64 := by
      rw [List.length_append]; omega
    have hn2 : (m ++ input).length % 64 = (input.length - (64 - r)) % 64 := by
      rw [List.length_append]; omega
    have hb64 : (((m ++ input).drop (64 * q)).take 64).length = 64 := by
      simp only [List.length_take, List.length_drop, List.length_append]; omega
    rw [hblock]
    refine ⟨e0, e1, e2, ?_, ?_, ?_⟩
    · rw [hlen, hst, hn, blocks_add (q + 1), hrest]
    · dsimp only
      split
      · rw [← memcpy, memcpy_length _ _ _ _ ?_ (Nat.le_refl _), hb64]
        rw [hb64]; simp only [List.length_drop]; omega
      · exact hb64
    · dsimp only
      rw [hn2, hn]
      have ed : List.drop (64 * ((List.drop (64 - r) input).length / 64)) (List.drop (64 - r) input)
          = List.drop (64 * (q + 1 + (input.length - (64 - r)) / 64)) (m ++ input) := by
        rw [hlen, hrest, List.drop_drop]
        congr 1; omega
      have el : (List.drop (64 * ((List.drop (64 - r) input).length / 64)) (List.drop (64 - r) input)).length
          = (input.length - (64 - r)) % 64 := by
        simp only [List.length_drop]; omega
      rw [ed] at el
      rw [ed, el]
      split
      · rw [List.take_zero, List.nil_append, List.take_append_of_le_length (by simp; omega),
          List.take_of_length_le (l := List.take _ _) (by simp; omega),
          List.take_of_length_le (by omega)]
      · next h0 =>
        have h0 : (input.length - (64 - r)) % 64 = 0 := by omega
        rw [h0] at el ⊢
        rw [List.eq_nil_of_length_eq_zero el, List.take_zero]
  · simp only [if_neg hc, whole_eq, memcpy]
    generalize hq : m.length / 64 = q at *
    generalize hr : m.length % 64 = r at *
    have hm : m.length = 64 * q + r := by omega
    have hr64 : r < 64 := by omega
    rcases Nat.eq_zero_or_pos r with h0 | h0
    · subst h0
      have hrest : input = (m ++ input).drop (64 * q) := by
        rw [List.drop_append, List.drop_of_length_le (l := m) (by omega), List.nil_append,
          show 64 * q - m.length = 0 by omega]
        rfl
      have hn : (m ++ input).length / 64 = q + input.length / 64 := by
        rw [List.length_append]; omega
      have hn2 : (m ++ input).length % 64 = input.length % 64 := by
        rw [List.length_append]; omega
      have hst : ctx.state = blocks q (m ++ input) initial := by
        rw [hst0, blocks_append _ _ _ _ (by omega)]
      have ed : List.drop (64 * (input.length / 64)) input
          = List.drop (64 * (q + input.length / 64)) (m ++ input) := by
        rw [show 64 * (q + input.length / 64) = 64 * q + 64 * (input.length / 64) by omega,
          ← List.drop_drop, ← hrest]
      have el : (List.drop (64 * (input.length / 64)) input).length = input.length % 64 := by
        simp only [List.length_drop]; omega
      refine ⟨e0, e1, e2, ?_, ?_, ?_⟩
      · dsimp only
        rw [hn, hst, blocks_add q, ← hrest]
      · dsimp only
        split
        · rw [← memcpy, memcpy_length _ _ _ _ (by simp only [List.length_drop]; omega) (Nat.le_refl _), hsz]
        · exact hsz
      · dsimp only
        rw [hn2, hn, ← ed, el]
        split
        · rw [List.take_zero, List.nil_append, List.take_append_of_le_length (by simp; omega),
            List.take_of_length_le (l := List.take _ _) (by simp; omega),
            List.take_of_length_le (by omega)]
        · next h0 =>
          have h0 : input.length % 64 = 0 := by omega
          rw [h0] at el ⊢
          rw [List.eq_nil_of_length_eq_zero el, List.take_zero]
    · have hs : input.length < 64 - r := by
        by_cases hx : input.length < 64 - r
        · exact hx
        · exact absurd ⟨by omega, by omega⟩ hc
      have hi0 : input.length / 64 = 0 := by omega
      have hn : (m ++ input).length / 64 = q := by rw [List.length_append]; omega
      have hn2 : (m ++ input).length % 64 = r + input.length := by rw [List.length_append]; omega
      rw [hi0, Nat.mul_zero, List.drop_zero, blocks_zero]
      refine ⟨e0, e1, e2, ?_, ?_, ?_⟩
      · dsimp only
        rw [hn, hst0, blocks_append _ _ _ _ (by omega)]
      · dsimp only
        rw [if_pos (by omega), ← memcpy, memcpy_length _ _ _ _ (by omega) (Nat.le_refl _), hsz]
      · dsimp only
        rw [if_pos (by omega), ← memcpy, hn2, hn, memcpy_take _ _ _ _ (by omega) (Nat.le_refl _), hbuf,
          List.take_length, List.drop_append_of_le_length (by omega)]

/-! ### The padding -/

theorem bytes_eq (n : Word) :
    bytes n = [(n >>> 24).setWidth 8, (n >>> 16).setWidth 8, (n >>> 8).setWidth 8, n.setWidth 8] := by
  unfold bytes
  congr 1

theorem putBE_eq (n : Word) (b : List Byte) (i : Nat) (h : i + 4 ≤ b.length) :
    putBE n b i = b.take i ++ bytes n ++ b.drop (i + 4) := by
  induction i generalizing b with
  | zero =>
    match b, h with
    | x :: y :: z :: w :: b, _ => simp [putBE, bytes_eq]
  | succ i ih =>
    match b, h with
    | x :: b, h =>
      have := ih b (by simp at h; omega)
      simp only [putBE] at this
      simp only [putBE, List.set_cons_succ, this, show i + 1 + 1 = (i + 1) + 1 from rfl,
        show i + 1 + 2 = (i + 2) + 1 from rfl, show i + 1 + 3 = (i + 3) + 1 from rfl,
        show i + 1 + 4 = (i + 4) + 1 from rfl, List.take_succ_cons, List.drop_succ_cons, List.cons_append]

theorem bytes_length (n : Word) : (bytes n).length = 4 := rfl

/-- The last eight bytes of the last block. -/
theorem putBE_tail (hi lo : Word) (b : List Byte) (h : b.length = 64) :
    putBE lo (putBE hi b 56) 60 = b.take 56 ++ (bytes hi ++ bytes lo) := by
  rw [putBE_eq hi b 56 (by omega), List.append_assoc]
  have h1 : (bytes hi ++ List.drop (56 + 4) b).length = 8 := by simp [bytes_length, h]
  have h56 : (List.take 56 b).length = 56 := by simp [h]
  have h4 : (bytes hi).length = 4 := rfl
  have e1 : List.take 60 (List.take 56 b ++ (bytes hi ++ List.drop (56 + 4) b)) = List.take 56 b ++ bytes hi := by
    rw [List.take_append, List.take_of_length_le (l := List.take 56 b) (by omega), h56,
      List.take_append_of_le_length (by omega), List.take_of_length_le (l := bytes hi) (by omega)]
  have e2 : List.drop (60 + 4) (List.take 56 b ++ (bytes hi ++ List.drop (56 + 4) b)) = [] :=
    List.drop_of_length_le (by rw [List.length_append, h1, h56]; omega)
  rw [putBE_eq lo _ 60 (by rw [List.length_append, h1, h56]; omega), e1, e2, List.append_nil,
    List.append_assoc]

theorem digest_eq (s : Hash) :
    putBE s.e (putBE s.d (putBE s.c (putBE s.b (putBE s.a (List.replicate 20 0) 0) 4) 8) 12) 16 =
      s.bytes := by
  simp [putBE, Hash.bytes, bytes_eq, List.replicate]

theorem low_eq (n : Nat) : BitVec.ofNat 32 n <<< 3 = BitVec.ofNat 32 (8 * n) := by
  apply BitVec.eq_of_toNat_eq
  simp only [BitVec.toNat_shiftLeft, BitVec.toNat_ofNat, Nat.shiftLeft_eq]
  omega

theorem high_eq (n : Nat) :
    (BitVec.ofNat 32 n >>> 29) ||| (BitVec.ofNat 32 (n / 2 ^ 32) <<< 3) = BitVec.ofNat 32 (8 * n / 2 ^ 32) := by
  rw [show 8 * n / 2 ^ 32 = n / 2 ^ 29 by omega]
  apply BitVec.eq_of_getLsbD_eq
  intro i hi
  simp only [BitVec.getLsbD_or, BitVec.getLsbD_shiftLeft, BitVec.getLsbD_ushiftRight, BitVec.getLsbD_ofNat,
    Nat.testBit_div_two_pow]
  rcases Nat.lt_or_ge i 3 with h | h
  · simp [h, hi, show i + 29 < 32 by omega, Nat.add_comm]
  · simp [hi, show ¬ i < 3 by omega, show ¬ 29 + i < 32 by omega, show i - 3 < 32 by omega,
      show 32 + (i - 3) = 29 + i by omega, show (i - 3) + 32 = 29 + i by omega, Nat.add_comm]

theorem set_take (b : List Byte) (r : Nat) (x : Byte) (h : r < b.length) :
    (b.set r x).take (r + 1) = b.take r ++ [x] := by
  rw [List.take_add_one, List.take_set_of_le (Nat.le_refl r)]
  simp [h]

theorem finish_eq (ctx : Ctx) (n : Nat) (m : List Byte) (h : Holds ctx n m) :
    finish ctx = sha1As n m := by
  unfold finish
  rw [used_eq ctx n m h.total0 h.count]
  have hsz := h.size
  have hbuf := h.buffer
  have hst := h.state
  have hlen : (bytes64 (8 * n)).length = 8 := rfl
  have hb64 : bytes64 (8 * n) = bytes ((ctx.total0 >>> 29) ||| (ctx.total1 <<< 3)) ++
      bytes (ctx.total0 <<< 3) := by
    rw [bytes64, h.total0, h.total1, high_eq, low_eq]
  have hpl : (padAs n m).length = m.length + 1 + zeros m.length + 8 := by
    simp [padAs, hlen]; omega
  have hdrop : (m.drop (64 * (m.length / 64))).length = m.length % 64 := by simp; omega
  have htail : (padAs n m).drop (64 * (m.length / 64)) = m.drop (64 * (m.length / 64)) ++
      0x80 :: List.replicate (zeros m.length) 0 ++ bytes64 (8 * n) := by
    rw [padAs, List.append_assoc, List.drop_append_of_le_length (by omega), List.append_assoc]
  have hhead : blocks (m.length / 64) (padAs n m) initial = ctx.state := by
    rw [padAs, List.append_assoc, blocks_append _ _ _ _ (by omega), hst]
  have hset1 : (ctx.buffer.set (m.length % 64) 0x80).take (m.length % 64 + 1) =
      m.drop (64 * (m.length / 64)) ++ [0x80] := by
    rw [set_take _ _ _ (by omega), hbuf]
  have hfin : ∀ s : Hash, putBE s.e (putBE s.d (putBE s.c (putBE s.b (putBE s.a (List.replicate 20 0) 0) 4) 8)
      12) 16 = s.bytes := digest_eq
  have hbytes : ∀ b : List Byte, b.length = 64 →
      putBE (ctx.total0 <<< 3) (putBE ((ctx.total0 >>> 29) ||| (ctx.total1 <<< 3)) b 56) 60
        = b.take 56 ++ bytes64 (8 * n) := by
    intro b hb
    rw [putBE_tail _ _ _ hb, hb64]
  rw [process_funext]
  simp only [hfin]
  rw [sha1As]
  congr 1
  by_cases hc : m.length % 64 + 1 ≤ 56
  · simp only [if_pos hc]
    have hz : zeros m.length = 55 - m.length % 64 := by unfold zeros; omega
    have hm0 : memset0 (ctx.buffer.set (m.length % 64) 0x80) (m.length % 64 + 1) (56 - (m.length % 64 + 1)) =
        m.drop (64 * (m.length / 64)) ++ [0x80] ++ List.replicate (zeros m.length) 0 ++
          (ctx.buffer.set (m.length % 64) 0x80).drop 56 := by
      rw [memset0, memcpy, hset1, List.take_of_length_le (l := List.replicate _ _) (by simp), hz]
      congr 2
      · congr 1; omega
      · omega
    have hml : (memset0 (ctx.buffer.set (m.length % 64) 0x80) (m.length % 64 + 1)
        (56 - (m.length % 64 + 1))).length = 64 := by
      rw [memset0, memcpy_length _ _ _ _ (by simp [hsz]; omega) (by simp)]; simp [hsz]
    have hmt : (memset0 (ctx.buffer.set (m.length % 64) 0x80) (m.length % 64 + 1)
        (56 - (m.length % 64 + 1))).take 56 =
        m.drop (64 * (m.length / 64)) ++ [0x80] ++ List.replicate (zeros m.length) 0 := by
      rw [hm0, List.take_append_of_le_length (by simp [hz]; omega),
        List.take_of_length_le (by simp [hz]; omega)]
    rw [hbytes _ hml, hmt, show (padAs n m).length / 64 = m.length / 64 + 1 by omega, blocks_add, blocks_one,
      hhead, htail, List.take_of_length_le (by simp [hz, hlen]; omega)]
    simp
  · simp only [if_neg hc]
    have hz : zeros m.length = 119 - m.length % 64 := by unfold zeros; omega
    have hm0 : memset0 (ctx.buffer.set (m.length % 64) 0x80) (m.length % 64 + 1) (64 - (m.length % 64 + 1)) =
        m.drop (64 * (m.length / 64)) ++ [0x80] ++ List.replicate (63 - m.length % 64) 0 := by
      rw [memset0, memcpy, hset1, List.take_of_length_le (l := List.replicate _ _) (by simp),
        List.drop_of_length_le (l := List.set _ _ _) (by simp [hsz]; omega), List.append_nil]
      congr 2; omega
    have hm0l : (memset0 (ctx.buffer.set (m.length % 64) 0x80) (m.length % 64 + 1)
        (64 - (m.length % 64 + 1))).length = 64 := by
      rw [memset0, memcpy_length _ _ _ _ (by simp [hsz]; omega) (by simp)]; simp [hsz]
    have hsplit : (padAs n m).drop (64 * (m.length / 64)) =
        (m.drop (64 * (m.length / 64)) ++ [0x80] ++ List.replicate (63 - m.length % 64) 0) ++
          (List.replicate 56 0 ++ bytes64 (8 * n)) := by
      rw [htail, hz, show 119 - m.length % 64 = (63 - m.length % 64) + 56 by omega,
        ← List.replicate_append_replicate]
      simp
    generalize memset0 (ctx.buffer.set (m.length % 64) 0x80) (m.length % 64 + 1) (64 - (m.length % 64 + 1))
      = b1 at hm0 hm0l ⊢
    have hml : (memset0 b1 0 56).length = 64 := by
      rw [memset0, memcpy_length _ _ _ _ (by simp [hm0l]) (by simp), hm0l]
    have hmt : (memset0 b1 0 56).take 56 = List.replicate 56 0 := by
      rw [memset0, memcpy, List.take_zero, List.nil_append, List.take_append_of_le_length (by simp),
        List.take_of_length_le (by simp), List.take_of_length_le (by simp)]
    rw [hbytes _ hml, hmt, show (padAs n m).length / 64 = m.length / 64 + (1 + 1) by omega, blocks_add,
      blocks_add 1 1, blocks_one, blocks_one, hhead, hsplit, ← hm0]
    have e1 : List.take 64 (b1 ++ (List.replicate 56 0 ++ bytes64 (8 * n))) = b1 := by
      rw [List.take_append_of_le_length (by omega), List.take_of_length_le (by omega)]
    have e2 : List.drop (64 * 1) (b1 ++ (List.replicate 56 0 ++ bytes64 (8 * n)))
        = List.replicate 56 0 ++ bytes64 (8 * n) := by
      rw [List.drop_append, List.drop_of_length_le (by omega), hm0l]
      rfl
    rw [e1, e2, List.take_of_length_le (by simp [hlen])]

/-- What the counter says after a history of updates. -/
def counted (chunks : List (List Byte)) : Nat := (chunks.map (fun c => c.length % 2 ^ 32)).sum

/-- A history of updates. -/
theorem updates_hold (chunks : List (List Byte)) (ctx : Ctx) (n : Nat)
    (m : List Byte) (h : Holds ctx n m) :
    Holds (chunks.foldl update ctx) (n + counted chunks) (m ++ chunks.flatten) := by
  induction chunks generalizing ctx n m with
  | nil => simpa [counted] using h
  | cons c cs ih =>
    have := ih (update ctx c) (n + c.length % 2 ^ 32) (m ++ c) (update_holds ctx n m c h)
    simpa [counted, Nat.add_assoc] using this

end Verif.Sha
