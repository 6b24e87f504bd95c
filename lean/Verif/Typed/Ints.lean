import Verif.Wire.Props
/-
Model of the block encoding of lists of 64-bit integers (/repo/typed_python/TupleOrListOfType.hpp 292-393) and its
round trip (C16).

Simplification: memory is a list of integers; a block that would write past the `count` elements that were allocated
is `undefined`.
-/
namespace Verif.Typed

open Verif.Wire (Bytes Err writeBeginBytes readHeader readVarint readBytes toLE fromLE)

/-! ### Model -/

/-- TupleOrListOfType.hpp 303-304: the integer is in the range of a signed type of `n` bytes. -/
def fits (n : Nat) (x : Int) : Bool := decide (-2 ^ (8 * n - 1) ≤ x) && decide (x ≤ 2 ^ (8 * n - 1) - 1)

/-- TupleOrListOfType.hpp 305-311: how many elements go into the block; `t` is `topPt`, the list is what follows. -/
def topPt (n : Nat) : List Int → Nat → Nat
  | [], t => t
  | x :: xs, t => if t < 255 && fits n x then topPt n xs (t + 1) else t

/-- TupleOrListOfType.hpp 319: an integer stored as `n` bytes. -/
def intBytes (n : Nat) (x : Int) : Bytes := toLE n (x % 2 ^ (8 * n)).toNat

/-- TupleOrListOfType.hpp 300-330 `trySerializeIntListBlock`: the bytes of the block and the integers left. -/
def tryBlock (kind n : Nat) : List Int → Option (Bytes × List Int)
  | [] => none
  | x :: xs =>
    if fits n x then
      some (writeBeginBytes kind (topPt n xs 1 * n) ++ ((x :: xs).take (topPt n xs 1)).flatMap (intBytes n),
        (x :: xs).drop (topPt n xs 1))
    else none

/-- TupleOrListOfType.hpp 341-345: the widths in the order they are tried. -/
def anyBlock (xs : List Int) : Option (Bytes × List Int) :=
  (((tryBlock 2 1 xs).orElse fun _ => tryBlock 3 2 xs).orElse fun _ => tryBlock 4 4 xs).orElse fun _ => tryBlock 5 8 xs

/-- TupleOrListOfType.hpp 332-351 `serializeIntList`; the first argument bounds the iterations of the loop. -/
def serIntsLoop : Nat → List Int → Except Err Bytes
  | _, [] => .ok []
  | 0, _ => .error .fuel
  | k + 1, xs =>
    match anyBlock xs with
    | none => .error .badWire
    | some (b, rest) =>
      match serIntsLoop k rest with
      | .error e => .error e
      | .ok bs => .ok (b ++ bs)

/-- TupleOrListOfType.hpp 332-351 `serializeIntList`: every round removes at least one element. -/
def serInts (xs : List Int) : Except Err Bytes := serIntsLoop xs.length xs

/-- TupleOrListOfType.hpp 358-360: `k` integers of `n` bytes, sign extended. -/
def readInts (n : Nat) : Nat → Bytes → List Int
  | 0, _ => []
  | k + 1, bs => Int.bmod (fromLE (bs.take n)) (2 ^ (8 * n)) :: readInts n k (bs.drop n)

/-- TupleOrListOfType.hpp 375-388: the width of a kind of block. -/
def blockWidth (kind : Nat) : Option Nat :=
  if kind = 2 then some 1 else if kind = 3 then some 2 else if kind = 4 then some 4 else if kind = 5 then some 8 else none

/-- TupleOrListOfType.hpp 353-364 `deserializeIntListBlock`, 366-393 `deserializeIntList` for `count` integers.  The
first argument bounds the iterations; every round reads a header, so the length of the stream is enough. -/
def deserIntsLoop : Nat → Nat → Bytes → Except Err (List Int × Bytes)
  | _, 0, bs => .ok ([], bs)
  | 0, _ + 1, _ => .error .fuel
  | k + 1, count + 1, bs =>
    match readHeader bs with
    | .error e => .error e
    | .ok ((kind, _), bs1) =>
      match readVarint bs1 with
      | .error e => .error e
      | .ok (bytecount, bs2) =>
        match blockWidth kind with
        | none => .error .badWire
        | some n =>
          match readBytes bytecount bs2 with
          | .error e => .error e
          | .ok (data, bs3) =>
            if bytecount / n > count + 1 then .error .undefined
            else
              match deserIntsLoop k (count + 1 - bytecount / n) bs3 with
              | .error e => .error e
              | .ok (xs, bs4) => .ok (readInts n (bytecount / n) data ++ xs, bs4)

/-- TupleOrListOfType.hpp 366-393 `deserializeIntList`. -/
def deserInts (count : Nat) (bs : Bytes) : Except Err (List Int × Bytes) := deserIntsLoop (bs.length + 1) count bs

/-! ### Round trip -/

theorem topPt_bounds (n : Nat) : ∀ (xs : List Int) (t : Nat), t ≤ topPt n xs t ∧ topPt n xs t ≤ t + xs.length ∧
    (topPt n xs t ≤ 255 ∨ topPt n xs t = t) := by
  intro xs
  induction xs with
  | nil => intro t; simp [topPt]
  | cons x xs ih =>
    intro t
    simp only [topPt]
    split
    · rename_i h
      have := ih (t + 1)
      simp only [Bool.and_eq_true, decide_eq_true_eq] at h
      simp only [List.length_cons]
      omega
    · simp

theorem topPt_fits (n : Nat) : ∀ (xs : List Int) (t : Nat), ∀ x ∈ xs.take (topPt n xs t - t), fits n x = true := by
  intro xs
  induction xs with
  | nil => intro t x hx; simp at hx
  | cons x xs ih =>
    intro t y hy
    simp only [topPt] at hy
    split at hy
    · rename_i h
      simp only [Bool.and_eq_true] at h
      have hb := (topPt_bounds n xs (t + 1)).1
      rw [show topPt n xs (t + 1) - t = (topPt n xs (t + 1) - (t + 1)) + 1 by omega, List.take_succ_cons] at hy
      rcases List.mem_cons.1 hy with rfl | hy
      · exact h.2
      · exact ih _ y hy
    · simp at hy

theorem intBytes_length (n : Nat) (x : Int) : (intBytes n x).length = n := Wire.toLE_length _ _

theorem flatMap_intBytes_length (n : Nat) (xs : List Int) : (xs.flatMap (intBytes n)).length = xs.length * n := by
  induction xs with
  | nil => simp
  | cons x xs ih => rw [List.flatMap_cons, List.length_append, ih, intBytes_length, List.length_cons]; ring

theorem intBytes_back (n : Nat) (hn : 1 ≤ n) (x : Int) (h : fits n x = true) :
    Int.bmod (fromLE (intBytes n x)) (2 ^ (8 * n)) = x := by
  simp only [fits, Bool.and_eq_true, decide_eq_true_eq] at h
  rw [intBytes, Wire.fromLE_toLE]
  have h256 : (256 : Nat) ^ n = 2 ^ (8 * n) := by rw [show (256 : Nat) = 2 ^ 8 by norm_num, ← pow_mul]
  have hp : (0 : Int) < 2 ^ (8 * n) := by positivity
  have h0 := Int.emod_nonneg x (ne_of_gt hp)
  have h1 := Int.emod_lt_of_pos x hp
  have hlt : (x % 2 ^ (8 * n)).toNat < 2 ^ (8 * n) := by
    have : (((x % 2 ^ (8 * n)).toNat : Nat) : Int) < ((2 ^ (8 * n) : Nat) : Int) := by push_cast; omega
    exact_mod_cast this
  rw [h256, Nat.mod_eq_of_lt hlt, Int.toNat_of_nonneg h0]
  have hc : ((2 : Int) ^ (8 * n)) = ((2 ^ (8 * n) : Nat) : Int) := by push_cast; rfl
  rw [hc, Int.emod_bmod]
  exact Wire.bmod_eq_self x n hn h.1 (by omega)

theorem readInts_back (n : Nat) (hn : 1 ≤ n) : ∀ (xs : List Int) (rest : Bytes), (∀ x ∈ xs, fits n x = true) →
    readInts n xs.length (xs.flatMap (intBytes n) ++ rest) = xs := by
  intro xs
  induction xs with
  | nil => intro rest _; rfl
  | cons x xs ih =>
    intro rest h
    rw [List.length_cons, readInts, List.flatMap_cons, List.append_assoc]
    have hl := intBytes_length n x
    rw [List.take_append_of_le_length (by omega), List.take_of_length_le (by omega),
      intBytes_back n hn x (h x (by simp)), List.drop_append_of_le_length (by omega), List.drop_of_length_le (by omega),
      List.nil_append, ih rest (fun y hy => h y (by simp [hy]))]

/-- What one block contains: some of the integers, at least one and at most 255. -/
theorem tryBlock_spec {kind n : Nat} {xs : List Int} {b : Bytes} {left : List Int} (h : tryBlock kind n xs = some (b, left)) :
    ∃ blk, xs = blk ++ left ∧ 1 ≤ blk.length ∧ blk.length ≤ 255 ∧ (∀ x ∈ blk, fits n x = true) ∧
      b = writeBeginBytes kind (blk.length * n) ++ blk.flatMap (intBytes n) := by
  cases xs with
  | nil => simp [tryBlock] at h
  | cons x xs =>
    simp only [tryBlock] at h
    split at h
    · rename_i hf
      simp only [Option.some.injEq, Prod.mk.injEq] at h
      obtain ⟨rfl, rfl⟩ := h
      have hb := topPt_bounds n xs 1
      have hlen : ((x :: xs).take (topPt n xs 1)).length = topPt n xs 1 := by
        rw [List.length_take, List.length_cons]; omega
      refine ⟨(x :: xs).take (topPt n xs 1), (List.take_append_drop _ _).symm, by omega, by omega, ?_, by rw [hlen]⟩
      intro y hy
      rw [show topPt n xs 1 = (topPt n xs 1 - 1) + 1 by omega, List.take_succ_cons] at hy
      rcases List.mem_cons.1 hy with rfl | hy
      · exact hf
      · exact topPt_fits n xs 1 y hy
    · cases h

theorem anyBlock_spec {xs : List Int} {b : Bytes} {left : List Int} (h : anyBlock xs = some (b, left)) :
    ∃ kind n blk, blockWidth kind = some n ∧ 1 ≤ n ∧ n ≤ 8 ∧ kind < 8 ∧ xs = blk ++ left ∧ 1 ≤ blk.length ∧ blk.length ≤ 255 ∧
      (∀ x ∈ blk, fits n x = true) ∧ b = writeBeginBytes kind (blk.length * n) ++ blk.flatMap (intBytes n) := by
  unfold anyBlock at h
  have cases4 : ∀ kind n, blockWidth kind = some n → 1 ≤ n → n ≤ 8 → kind < 8 → tryBlock kind n xs = some (b, left) → _ :=
    fun kind n h1 h2 h3 h4 ht => (⟨kind, n, (tryBlock_spec ht).choose, h1, h2, h3, h4, (tryBlock_spec ht).choose_spec⟩ :
      ∃ kind n blk, blockWidth kind = some n ∧ 1 ≤ n ∧ n ≤ 8 ∧ kind < 8 ∧ xs = blk ++ left ∧ 1 ≤ blk.length ∧
      blk.length ≤ 255 ∧ (∀ x ∈ blk, fits n x = true) ∧ b = writeBeginBytes kind (blk.length * n) ++ blk.flatMap (intBytes n))
  cases h1 : tryBlock 2 1 xs with
  | some r => rw [h1] at h; simp at h; subst h; exact cases4 2 1 rfl (by omega) (by omega) (by omega) h1
  | none =>
    rw [h1] at h
    cases h2 : tryBlock 3 2 xs with
    | some r => rw [h2] at h; simp at h; subst h; exact cases4 3 2 rfl (by omega) (by omega) (by omega) h2
    | none =>
      rw [h2] at h
      cases h3 : tryBlock 4 4 xs with
      | some r => rw [h3] at h; simp at h; subst h; exact cases4 4 4 rfl (by omega) (by omega) (by omega) h3
      | none =>
        rw [h3] at h
        simp at h
        exact cases4 5 8 rfl (by omega) (by omega) (by omega) h

/-- The values of a 64-bit integer. -/
def IsInt64 (x : Int) : Prop := -2 ^ 63 ≤ x ∧ x < 2 ^ 63

theorem anyBlock_total (x : Int) (xs : List Int) (h : IsInt64 x) : ∃ r, anyBlock (x :: xs) = some r := by
  have h5 : ∃ r, tryBlock 5 8 (x :: xs) = some r := by
    have hf : fits 8 x = true := by
      obtain ⟨h1, h2⟩ := h
      simp only [fits, Bool.and_eq_true, decide_eq_true_eq]
      constructor <;> omega
    simp only [tryBlock, hf]
    exact ⟨_, rfl⟩
  unfold anyBlock
  cases tryBlock 2 1 (x :: xs) with
  | some r => exact ⟨r, rfl⟩
  | none =>
    cases tryBlock 3 2 (x :: xs) with
    | some r => exact ⟨r, rfl⟩
    | none =>
      cases tryBlock 4 4 (x :: xs) with
      | some r => exact ⟨r, rfl⟩
      | none => exact h5

theorem serIntsLoop_total : ∀ (k : Nat) (xs : List Int), xs.length ≤ k → (∀ x ∈ xs, IsInt64 x) →
    ∃ bs, serIntsLoop k xs = .ok bs := by
  intro k
  induction k with
  | zero =>
    intro xs h _
    rw [List.length_eq_zero_iff.1 (by omega : xs.length = 0)]
    exact ⟨[], rfl⟩
  | succ k ih =>
    intro xs h hx
    cases xs with
    | nil => exact ⟨[], rfl⟩
    | cons x xs =>
      obtain ⟨⟨b, left⟩, hr⟩ := anyBlock_total x xs (hx x (by simp))
      obtain ⟨_, _, blk, -, -, -, -, he, hl, -, -, -⟩ := anyBlock_spec hr
      have hlen := congrArg List.length he
      rw [List.length_append] at hlen
      obtain ⟨bs, hbs⟩ := ih left (by simp only [List.length_cons] at h hlen; omega)
        (fun y hy => hx y (by rw [he]; simp [hy]))
      refine ⟨b ++ bs, ?_⟩
      simp only [serIntsLoop, hr, hbs]

theorem deserInts_block (kind n : Nat) (hw : blockWidth kind = some n) (hn : 1 ≤ n) (hn8 : n ≤ 8) (hk : kind < 8)
    (blk : List Int) (h1 : 1 ≤ blk.length) (h255 : blk.length ≤ 255) (hf : ∀ x ∈ blk, fits n x = true) (k c : Nat)
    (bs : Bytes) (xs : List Int) (rest : Bytes) (hd : deserIntsLoop k c bs = .ok (xs, rest)) :
    deserIntsLoop (k + 1) (blk.length + c) (writeBeginBytes kind (blk.length * n) ++ blk.flatMap (intBytes n) ++ bs) =
      .ok (blk ++ xs, rest) := by
  obtain ⟨c', hc'⟩ : ∃ c', blk.length + c = c' + 1 := ⟨blk.length + c - 1, by omega⟩
  have hle : blk.length * n ≤ 255 * 8 := Nat.mul_le_mul h255 hn8
  rw [hc', deserIntsLoop, writeBeginBytes, List.append_assoc, List.append_assoc,
    Wire.header_roundtrip kind 4 (by omega) (by omega)]
  simp only
  rw [(Wire.varint_roundtrip (blk.length * n) (by omega) _).1]
  simp only [hw]
  have hl := flatMap_intBytes_length n blk
  have hr := Wire.readBytes_append (blk.flatMap (intBytes n)) bs
  rw [hl] at hr
  rw [hr]
  simp only
  rw [Nat.mul_div_cancel _ (by omega), if_neg (by omega), show c' + 1 - blk.length = c by omega, hd]
  simp only
  have := readInts_back n hn blk [] hf
  rw [List.append_nil] at this
  rw [this]

theorem deserInts_back : ∀ (k : Nat) (xs : List Int) (bs rest : Bytes) (j : Nat), serIntsLoop k xs = .ok bs →
    bs.length ≤ j → deserIntsLoop j xs.length (bs ++ rest) = .ok (xs, rest) := by
  intro k
  induction k with
  | zero =>
    intro xs bs rest j h _
    cases xs with
    | nil => simp only [serIntsLoop, Except.ok.injEq] at h; subst h; simp [deserIntsLoop]
    | cons x xs => simp [serIntsLoop] at h
  | succ k ih =>
    intro xs bs rest j h hj
    cases xs with
    | nil => simp only [serIntsLoop, Except.ok.injEq] at h; subst h; simp [deserIntsLoop]
    | cons x xs =>
      cases hr : anyBlock (x :: xs) with
      | none => simp [serIntsLoop, hr] at h
      | some r =>
        obtain ⟨b, left⟩ := r
        cases hs : serIntsLoop k left with
        | error e => simp [serIntsLoop, hr, hs] at h
        | ok bs' =>
          simp only [serIntsLoop, hr, hs, Except.ok.injEq] at h
          subst h
          obtain ⟨kind, n, blk, hw, hn, hn8, hk, he, hl, h255, hf, hb⟩ := anyBlock_spec hr
          have hblen : 1 ≤ b.length := by
            rw [hb, List.length_append, flatMap_intBytes_length]
            have : 1 ≤ blk.length * n := Nat.mul_pos hl hn
            omega
          rw [List.length_append] at hj
          obtain ⟨j', rfl⟩ : ∃ j', j = j' + 1 := ⟨j - 1, by omega⟩
          rw [he, hb, List.length_append, List.append_assoc]
          exact deserInts_block kind n hw hn hn8 hk blk hl h255 hf j' left.length (bs' ++ rest) left rest
            (ih left bs' rest j' hs (by omega))

/-- **C16.**  Every list of 64-bit integers is written, and what is written reads back as the same list, whatever
follows it in the stream, with exactly its own bytes consumed. -/
theorem int_list_roundtrip (xs : List Int) (h : ∀ x ∈ xs, -2 ^ 63 ≤ x ∧ x < 2 ^ 63) (rest : Bytes) :
    ∃ bs, serInts xs = .ok bs ∧ deserInts xs.length (bs ++ rest) = .ok (xs, rest) := by
  obtain ⟨bs, hb⟩ := serIntsLoop_total xs.length xs (Nat.le_refl _) h
  exact ⟨bs, hb, deserInts_back xs.length xs bs rest _ hb (by rw [List.length_append]; omega)⟩

/-- A block as the format describes it: at most 255 integers, all of one of the four widths, announced by a kind and a
byte count. -/
inductive Blocks : List Int → Bytes → Prop
  | nil : Blocks [] []
  | block {blk xs : List Int} {bs : Bytes} (n kind : Nat) : (kind, n) ∈ [(2, 1), (3, 2), (4, 4), (5, 8)] →
      1 ≤ blk.length → blk.length ≤ 255 → (∀ x ∈ blk, -2 ^ (8 * n - 1) ≤ x ∧ x < 2 ^ (8 * n - 1)) → Blocks xs bs →
      Blocks (blk ++ xs) (Wire.writeVarint (8 * kind + 4) ++ Wire.writeVarint (blk.length * n) ++ blk.flatMap (intBytes n) ++ bs)

/-- **C16, the format.**  What is written is a sequence of blocks of at most 255 elements, each with one of the four
widths. -/
theorem int_list_blocks : ∀ (k : Nat) (xs : List Int) (bs : Bytes), serIntsLoop k xs = .ok bs → Blocks xs bs := by
  intro k
  induction k with
  | zero =>
    intro xs bs h
    cases xs with
    | nil => simp only [serIntsLoop, Except.ok.injEq] at h; subst h; exact .nil
    | cons x xs => simp [serIntsLoop] at h
  | succ k ih =>
    intro xs bs h
    cases xs with
    | nil => simp only [serIntsLoop, Except.ok.injEq] at h; subst h; exact .nil
    | cons x xs =>
      cases hr : anyBlock (x :: xs) with
      | none => simp [serIntsLoop, hr] at h
      | some r =>
        obtain ⟨b, left⟩ := r
        cases hs : serIntsLoop k left with
        | error e => simp [serIntsLoop, hr, hs] at h
        | ok bs' =>
          simp only [serIntsLoop, hr, hs, Except.ok.injEq] at h
          subst h
          obtain ⟨kind, n, blk, hw, hn, hn8, hk, he, hl, h255, hf, hb⟩ := anyBlock_spec hr
          rw [he, hb, writeBeginBytes, Wire.header_eq kind 4 (by omega) (by omega)]
          refine .block n kind ?_ hl h255 ?_ (ih left bs' hs)
          · unfold blockWidth at hw
            split at hw
            · cases hw; subst_vars; simp
            split at hw
            · cases hw; subst_vars; simp
            split at hw
            · cases hw; subst_vars; simp
            split at hw
            · cases hw; subst_vars; simp
            · cases hw
          · intro y hy
            have := hf y hy
            simp only [fits, Bool.and_eq_true, decide_eq_true_eq] at this
            omega

/-- A case with three widths: 5 and -1 go in one byte each, 300 and 7 in two, 2^40 in eight. -/
example : serInts [5, -1, 300, 7, 2 ^ 40] = .ok [20, 2, 5, 255, 28, 4, 44, 1, 7, 0, 44, 8, 0, 0, 0, 0, 0, 1, 0, 0] ∧
    (∀ x ∈ [(5 : Int), -1, 300, 7, 2 ^ 40], -2 ^ 63 ≤ x ∧ x < 2 ^ 63) := by decide +kernel

/-- A list longer than a block. -/
example : ∃ bs, serInts (List.replicate 1000 (-7)) = .ok bs ∧
    deserInts 1000 (bs ++ [1, 2, 3]) = .ok (List.replicate 1000 (-7), [1, 2, 3]) := by
  have := int_list_roundtrip (List.replicate 1000 (-7)) (fun x hx => by rw [List.eq_of_mem_replicate hx]; norm_num) [1, 2, 3]
  rwa [List.length_replicate] at this

/-- Damaged data: a block with more integers than were announced writes past the end of the list. -/
theorem int_block_overrun : deserInts 1 [20, 2, 5, 6] = .error .undefined := by decide +kernel

end Verif.Typed
