import Verif.Sha.Hashes
import Verif.Sha.Stream
/-
Encodings are injective.
-/
namespace Verif.Sha

theorem bytes_inj {a b : Word} (h : bytes a = bytes b) : a = b := by
  simp only [bytes, List.cons.injEq, and_true] at h
  obtain ⟨h3, h2, h1, h0⟩ := h
  apply BitVec.eq_of_getLsbD_eq
  intro j hj
  have key : ∀ s, a.extractLsb' s 8 = b.extractLsb' s 8 → s ≤ j → j < s + 8 → a.getLsbD j = b.getLsbD j := by
    intro s hs h1 h2
    have := congrArg (fun x => x.getLsbD (j - s)) hs
    simpa [BitVec.getLsbD_extractLsb', show j - s < 8 by omega, show s + (j - s) = j by omega] using this
  rcases Nat.lt_or_ge j 8 with h | h
  · exact key 0 h0 (by omega) (by omega)
  rcases Nat.lt_or_ge j 16 with h | h
  · exact key 8 h1 (by omega) (by omega)
  rcases Nat.lt_or_ge j 24 with h | h
  · exact key 16 h2 (by omega) (by omega)
  · exact key 24 h3 (by omega) (by omega)

theorem bytes64_length (n : Nat) : (bytes64 n).length = 8 := rfl

theorem bytes64_inj {n m : Nat} (hn : n < 2 ^ 64) (hm : m < 2 ^ 64) (h : bytes64 n = bytes64 m) : n = m := by
  have := List.append_inj h rfl
  have h1 := congrArg BitVec.toNat (bytes_inj this.1)
  have h2 := congrArg BitVec.toNat (bytes_inj this.2)
  simp only [BitVec.toNat_ofNat] at h1 h2
  omega

theorem be64_length (x : BitVec 64) : (be64 x).length = 8 := rfl

theorem be64_inj {x y : BitVec 64} (h : be64 x = be64 y) : x = y :=
  BitVec.eq_of_toNat_eq (bytes64_inj x.isLt y.isLt h)

theorem le64_length (x : BitVec 64) : (le64 x).length = 8 := rfl

theorem le64_inj {x y : BitVec 64} (h : le64 x = le64 y) : x = y :=
  be64_inj (List.reverse_inj.mp h)

theorem ofInt_inj {i j : Int} (hi : fitsLong i) (hj : fitsLong j)
    (h : BitVec.ofInt 64 i = BitVec.ofInt 64 j) : i = j := by
  have := congrArg BitVec.toInt h
  simp only [BitVec.toInt_ofInt, Int.bmod_def] at this
  unfold fitsLong at hi hj
  omega

theorem sha1_length (m : List Byte) : (sha1 m).length = 20 := by
  unfold sha1 sha1As
  generalize blocks _ _ initial = h
  rfl

theorem tag2_length (a b : BitVec 64) : (tag2 a b).length = 20 := rfl

theorem tag2_inj {a b c d : BitVec 64} (h : tag2 a b = tag2 c d) : a = c ∧ b = d := by
  unfold tag2 at h
  have h1 := (List.append_inj h rfl).1
  have h2 := List.append_inj h1 rfl
  exact ⟨le64_inj h2.1, le64_inj h2.2⟩

/-! ### `repr` of bytes -/

/-- Read one byte back. -/
def unrepr : List Byte → Option (Byte × List Byte)
  | [] => none
  | 0x5c :: 0x74 :: r => some (9, r)
  | 0x5c :: 0x6e :: r => some (10, r)
  | 0x5c :: 0x72 :: r => some (13, r)
  | 0x5c :: 0x78 :: h :: l :: r =>
    some (BitVec.ofNat 8 ((if h.toNat < 97 then h.toNat - 48 else h.toNat - 87) * 16 +
      (if l.toNat < 97 then l.toNat - 48 else l.toNat - 87)), r)
  | 0x5c :: b :: r => some (b, r)
  | b :: r => some (b, r)

theorem hex_value (n : Nat) (h : n < 16) :
    (if (hexDigit n).toNat < 97 then (hexDigit n).toNat - 48 else (hexDigit n).toNat - 87) = n := by
  have : ∀ n : Fin 16, (if (hexDigit n.val).toNat < 97 then (hexDigit n.val).toNat - 48
    else (hexDigit n.val).toNat - 87) = n.val := by decide
  exact this ⟨n, h⟩

theorem unrepr_hex (h l : Byte) (r : List Byte) : unrepr (0x5c :: 0x78 :: h :: l :: r) =
    some (BitVec.ofNat 8 ((if h.toNat < 97 then h.toNat - 48 else h.toNat - 87) * 16 +
      (if l.toNat < 97 then l.toNat - 48 else l.toNat - 87)), r) := rfl

theorem unrepr_repr (q b : Byte) (hq : q = 0x22 ∨ q = 0x27) (r : List Byte) :
    unrepr (reprByte q b ++ r) = some (b, r) := by
  unfold reprByte
  split
  · next h =>
    have hb : b = 0x22 ∨ b = 0x27 ∨ b = 0x5c := by
      rcases h with h | h
      · subst h; rcases hq with h | h <;> simp [h]
      · simp [h]
    rcases hb with h | h | h <;> subst h <;> rfl
  split
  · next h => subst h; rfl
  split
  · next h => subst h; rfl
  split
  · next h => subst h; rfl
  split
  · simp only [List.cons_append, List.nil_append]
    rw [unrepr_hex, hex_value _ (by have := b.isLt; omega), hex_value _ (by omega)]
    congr 2
    apply BitVec.eq_of_toNat_eq
    rw [BitVec.toNat_ofNat]
    have := b.isLt
    omega
  · next h _ _ _ _ =>
    have hb : b ≠ 0x5c := fun hb => h (.inr hb)
    simp only [List.cons_append, List.nil_append]
    unfold unrepr
    split <;> simp_all

theorem repr_items_inj (q : Byte) (hq : q = 0x22 ∨ q = 0x27) (s t : List Byte)
    (h : s.flatMap (reprByte q) ++ [q] = t.flatMap (reprByte q) ++ [q]) : s = t := by
  have h := List.append_cancel_right h
  have hne : ∀ b, reprByte q b ≠ [] := by
    intro b hb
    have := unrepr_repr q b hq []
    rw [hb] at this
    simp [unrepr] at this
  induction s generalizing t with
  | nil =>
    cases t with
    | nil => rfl
    | cons b t => simp [hne] at h
  | cons a s ih =>
    cases t with
    | nil => simp [hne] at h
    | cons b t =>
      simp only [List.flatMap_cons] at h
      have h' := congrArg unrepr h
      rw [unrepr_repr q a hq, unrepr_repr q b hq] at h'
      simp only [Option.some.injEq, Prod.mk.injEq] at h'
      rw [h'.1, ih t (by rw [h'.2]) h'.2]

theorem reprQuote_cases (s : List Byte) : reprQuote s = 0x22 ∨ reprQuote s = 0x27 := by
  unfold reprQuote; split
  · exact .inl rfl
  · exact .inr rfl

theorem reprBytes_inj {s t : List Byte} (h : reprBytes s = reprBytes t) : s = t := by
  simp only [reprBytes, List.cons_append, List.cons.injEq, true_and] at h
  obtain ⟨h1, h2⟩ := h
  rw [← h1] at h2
  exact repr_items_inj _ (reprQuote_cases s) s t h2

end Verif.Sha
