import Verif.Typed.Model
/-
Plain data written as bytes reads back.
-/
namespace Verif.Typed

open Verif.Wire (Bytes Reg InRange toLE fromLE)

theorem inRange_iff (r : Reg) (v : Int) : inRange r v = true ↔ InRange r v := by
  cases r <;> simp [inRange, InRange, and_assoc]

theorem fromLE_lt : ∀ (n : Nat) (v : Int), (v % 2 ^ (8 * n)).toNat % 256 ^ n = (v % 2 ^ (8 * n)).toNat := by
  intro n v
  have h256 : (256 : Nat) ^ n = 2 ^ (8 * n) := by rw [show (256 : Nat) = 2 ^ 8 by norm_num, ← pow_mul]
  have hp : (0 : Int) < 2 ^ (8 * n) := by positivity
  have h0 := Int.emod_nonneg v (ne_of_gt hp)
  have h1 := Int.emod_lt_of_pos v hp
  rw [h256, Nat.mod_eq_of_lt]
  have : (((v % 2 ^ (8 * n)).toNat : Nat) : Int) < ((2 ^ (8 * n) : Nat) : Int) := by push_cast; omega
  exact_mod_cast this

theorem unsigned_back (n : Nat) (v : Int) (h0 : 0 ≤ v) (h1 : v < 2 ^ (8 * n)) :
    ((fromLE (toLE n (v % 2 ^ (8 * n)).toNat) : Nat) : Int) = v := by
  rw [Wire.fromLE_toLE, fromLE_lt, Int.emod_eq_of_lt h0 h1, Int.toNat_of_nonneg h0]

theorem regRead_back (r : Reg) (v : Int) (h : InRange r v) (rest : Bytes) :
    regRead r (toLE (regSize r) (v % 2 ^ (8 * regSize r)).toNat ++ rest) = v := by
  have ht : ∀ n x, (toLE n x ++ rest).take n = toLE n x := by
    intro n x
    have := Wire.toLE_length n x
    rw [List.take_append_of_le_length (by omega), List.take_of_length_le (by omega)]
  cases r with
  | bool =>
    simp only [regRead, regSize, ht]
    rcases h with rfl | rfl <;> decide
  | uint n =>
    simp only [regRead, regSize, ht]
    exact unsigned_back n v h.2.2.1 h.2.2.2
  | float n =>
    simp only [regRead, regSize, ht]
    exact unsigned_back n v h.2.1 h.2.2
  | int n =>
    simp only [regRead, regSize, ht]
    have := intBytes_back n h.1 v (by
      obtain ⟨_, _, h1, h2⟩ := h
      simp only [fits, Bool.and_eq_true, decide_eq_true_eq]
      omega)
    exact this

mutual
theorem podBytes_back : ∀ (t : Ty) (v : Val) (b : Bytes), podBytes t v = some b →
    podSize t = some b.length ∧ ∀ rest, podRead t (b ++ rest) = v
  | .reg r, .reg x, b, h => by
    simp only [podBytes] at h
    split at h
    · rename_i hr
      cases h
      refine ⟨by simp [podSize, Wire.toLE_length], fun rest => ?_⟩
      simp only [podRead, regRead_back r x ((inRange_iff r x).1 hr) rest]
    · cases h
  | .unit, .unit, b, h => by cases h; simp [podSize, podRead]
  | .tuple ts, .seq vs, b, h => by
    simp only [podBytes] at h
    have := podFields_back ts vs b h
    exact ⟨by simp only [podSize]; exact this.1, fun rest => by simp only [podRead, this.2 rest]⟩
  | .oneOf ts, .tag i v, b, h => by
    simp only [podBytes] at h
    split at h
    · rename_i n c hn hc
      split at h
      · rename_i hi
        cases h
        obtain ⟨s, hs, hle, hr⟩ := podChoice_back ts i v c hc
        have hm := podMax_le ts i n s hn hs
        refine ⟨?_, fun rest => ?_⟩
        · simp only [podSize, hn, List.length_cons, List.length_append, List.length_replicate, Option.some.injEq]
          omega
        · simp only [podRead, List.cons_append, List.headD_cons, List.tail_cons, List.append_assoc, hr]
      · cases h
    · cases h
  | .alt ts, .tag i v, b, h => by
    simp only [podBytes] at h
    split at h
    · rename_i c hn hc
      split at h
      · rename_i hi
        cases h
        obtain ⟨s, hs, hle, hr⟩ := podChoice_back ts i v c hc
        have hm := podMax_le ts i 0 s hn hs
        have hc0 : c = [] := List.length_eq_zero_iff.1 (by omega)
        refine ⟨?_, fun rest => ?_⟩
        · simp only [podSize, hn, List.length_cons, List.length_nil]
        · have := hr rest
          rw [hc0, List.nil_append] at this
          simp only [podRead, List.cons_append, List.headD_cons, List.tail_cons, List.nil_append, this]
      · cases h
    · cases h
  | .reg _, .unit, _, h | .reg _, .bytes _, _, h | .reg _, .str _, _, h | .reg _, .seq _, _, h | .reg _, .tag _ _, _, h
  | .reg _, .ref _, _, h => by simp [podBytes] at h
  | .unit, .reg _, _, h | .unit, .bytes _, _, h | .unit, .str _, _, h | .unit, .seq _, _, h | .unit, .tag _ _, _, h
  | .unit, .ref _, _, h => by simp [podBytes] at h
  | .tuple _, .reg _, _, h | .tuple _, .bytes _, _, h | .tuple _, .str _, _, h | .tuple _, .unit, _, h | .tuple _, .tag _ _, _, h
  | .tuple _, .ref _, _, h => by simp [podBytes] at h
  | .oneOf _, .reg _, _, h | .oneOf _, .bytes _, _, h | .oneOf _, .str _, _, h | .oneOf _, .unit, _, h | .oneOf _, .seq _, _, h
  | .oneOf _, .ref _, _, h => by simp [podBytes] at h
  | .alt _, .reg _, _, h | .alt _, .bytes _, _, h | .alt _, .str _, _, h | .alt _, .unit, _, h | .alt _, .seq _, _, h
  | .alt _, .ref _, _, h => by simp [podBytes] at h
  | .bytes, _, _, h | .str, _, _, h | .tupleOf _, _, _, h | .listOf _, _, _, h | .constDict _ _, _, _, h | .dict _ _, _, _, h
  | .set _, _, _, h | .named _, _, _, h => by simp [podBytes] at h
theorem podFields_back : ∀ (ts : List Ty) (vs : List Val) (b : Bytes), podFields ts vs = some b →
    podSum ts = some b.length ∧ ∀ rest, podReadFields ts (b ++ rest) = vs
  | [], [], b, h => by cases h; simp [podSum, podReadFields]
  | [], _ :: _, b, h => by simp [podFields] at h
  | _ :: _, [], b, h => by simp [podFields] at h
  | t :: ts, v :: vs, b, h => by
    simp only [podFields] at h
    split at h
    · rename_i x y hx hy
      cases h
      have h1 := podBytes_back t v x hx
      have h2 := podFields_back ts vs y hy
      refine ⟨by simp only [podSum, h1.1, h2.1, List.length_append], fun rest => ?_⟩
      rw [podReadFields, List.append_assoc, h1.2, h1.1, Option.getD_some, List.drop_append_of_le_length (Nat.le_refl _),
        List.drop_length, List.nil_append, h2.2]
    · cases h
theorem podChoice_back : ∀ (ts : List Ty) (i : Nat) (v : Val) (b : Bytes), podChoice ts i v = some b →
    ∃ s, (ts[i]?.bind podSize) = some s ∧ s = b.length ∧ ∀ rest, podReadChoice ts i (b ++ rest) = v
  | [], i, v, b, h => by simp [podChoice] at h
  | t :: ts, 0, v, b, h => by
    simp only [podChoice] at h
    have := podBytes_back t v b h
    exact ⟨b.length, by simp [this.1], rfl, fun rest => by simp only [podReadChoice]; exact this.2 rest⟩
  | t :: ts, i + 1, v, b, h => by
    simp only [podChoice] at h
    obtain ⟨s, h1, h2, h3⟩ := podChoice_back ts i v b h
    exact ⟨s, by simpa using h1, h2, fun rest => by simp only [podReadChoice]; exact h3 rest⟩
theorem podMax_le : ∀ (ts : List Ty) (i n s : Nat), podMax ts = some n → (ts[i]?.bind podSize) = some s → s ≤ n
  | [], i, n, s, _, h => by simp at h
  | t :: ts, 0, n, s, hn, h => by
    simp only [List.getElem?_cons_zero, Option.bind_some] at h
    simp only [podMax, h] at hn
    split at hn
    · rename_i a b ha hb
      cases ha; cases hn; exact Nat.le_max_left _ _
    · cases hn
  | t :: ts, i + 1, n, s, hn, h => by
    simp only [podMax] at hn
    split at hn
    · rename_i a b ha hb
      cases hn
      exact Nat.le_trans (podMax_le ts i b s hb (by simpa using h)) (Nat.le_max_right _ _)
    · cases hn
end

theorem podAll_back (t : Ty) (size : Nat) (hs : podSize t = some size) : ∀ (vs : List Val) (b : Bytes), podAll t vs = some b →
    b.length = size * vs.length ∧ ∀ rest, podReadAll t size vs.length (b ++ rest) = vs := by
  intro vs
  induction vs with
  | nil => intro b h; cases h; simp [podReadAll]
  | cons v vs ih =>
    intro b h
    simp only [podAll] at h
    split at h
    · rename_i x y hx hy
      cases h
      have h1 := podBytes_back t v x hx
      have h2 := ih y hy
      have hl : x.length = size := by rw [hs] at h1; exact (Option.some.inj h1.1).symm
      refine ⟨?_, fun rest => ?_⟩
      · rw [List.length_append, hl, h2.1, List.length_cons]; ring
      · rw [List.length_cons, podReadAll, List.append_assoc, h1.2, ← hl, List.drop_append_of_le_length (Nat.le_refl _),
          List.drop_length, List.nil_append, hl, h2.2]
    · cases h

theorem ints_spec : ∀ (vs : List Val) (xs : List Int), ints vs = some xs →
    vs = xs.map .reg ∧ ∀ x ∈ xs, -2 ^ 63 ≤ x ∧ x < 2 ^ 63 := by
  intro vs
  induction vs with
  | nil => intro xs h; cases h; simp
  | cons v vs ih =>
    intro xs h
    cases v with
    | reg x =>
      simp only [ints] at h
      split at h
      · rename_i ys hy
        split at h
        · rename_i hr
          cases h
          obtain ⟨h1, h2⟩ := ih ys hy
          refine ⟨by rw [h1]; rfl, fun z hz => ?_⟩
          rcases List.mem_cons.1 hz with rfl | hz
          · have := ((inRange_iff (.int 8) z).1 hr).2.2
            exact ⟨this.1, this.2⟩
          · exact h2 z hz
        · cases h
      · cases h
    | unit | bytes b | str s | seq s | tag i s | ref a => simp [ints] at h

/-- A case: a tuple of a 2-byte integer and a `OneOf` of nothing, a byte and a double. -/
example : podBytes (.tuple [.reg (.int 2), .oneOf [.unit, .reg (.uint 1), .reg (.float 4)]])
    (.seq [.reg (-2), .tag 1 (.reg 7)]) = some [254, 255, 1, 7, 0, 0, 0] := by decide +kernel

end Verif.Typed
