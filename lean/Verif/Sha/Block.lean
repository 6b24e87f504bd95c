import Verif.Sha.Model
/-
One block: `mbedtls_internal_sha1_process` computes what FIPS 180-4 defines.
-/
namespace Verif.Sha

theorem S_eq (x : Word) (n : Nat) : S x n = rotl n x := by
  have : (x &&& 0xFFFFFFFF : Word) = x := by
    rw [show (0xFFFFFFFF : Word) = BitVec.allOnes 32 from rfl, BitVec.and_allOnes]
  rw [S, rotl, this]

theorem F_eq (t : Nat) : F t = f t := by
  funext x y z
  unfold F f
  split
  · unfold ch
    ext i hi
    simp only [BitVec.getElem_xor, BitVec.getElem_and, BitVec.getElem_not]
    cases x[i] <;> cases y[i] <;> cases z[i] <;> rfl
  split
  · rfl
  split
  · unfold maj
    ext i hi
    simp only [BitVec.getElem_xor, BitVec.getElem_and, BitVec.getElem_or]
    cases x[i] <;> cases y[i] <;> cases z[i] <;> rfl
  · rfl

theorem K_eq (t : Nat) : K t = k t := rfl

theorem getBE_eq (b : List Byte) (i : Nat) : getBE b (4 * i) = wordAt b i := by
  unfold getBE wordAt word
  generalize b.getD (4 * i) 0 = p
  generalize b.getD (4 * i + 1) 0 = q
  generalize b.getD (4 * i + 2) 0 = r
  generalize b.getD (4 * i + 3) 0 = s
  apply BitVec.eq_of_getLsbD_eq
  intro j hj
  simp only [BitVec.getLsbD_or, BitVec.getLsbD_shiftLeft, BitVec.getLsbD_setWidth,
    BitVec.getLsbD_append]
  have h0 : ∀ (x : Byte) (n : Nat), 8 ≤ n → x.getLsbD n = false :=
    fun x n h => BitVec.getLsbD_of_ge x n h
  rcases Nat.lt_or_ge j 8 with h1 | h1
  · simp [h1, hj, show j < 16 by omega, show j < 24 by omega]
  rcases Nat.lt_or_ge j 16 with h2 | h2
  · simp [h1, hj, h2, show ¬ j < 8 by omega, show j < 24 by omega, h0 s j h1, show j - 8 < 8 by omega,
      show j - 8 < 32 by omega]
  rcases Nat.lt_or_ge j 24 with h3 | h3
  · simp [hj, h3, show ¬ j < 8 by omega, show ¬ j < 16 by omega, h0 s j h1, h0 r (j - 8) (by omega),
      show ¬ j - 8 < 8 by omega, show j - 16 < 8 by omega, show j - 8 - 8 = j - 16 by omega,
      show j - 16 < 32 by omega]
  · simp [hj, show ¬ j < 8 by omega, show ¬ j < 16 by omega, show ¬ j < 24 by omega, h0 s j h1,
      h0 r (j - 8) (by omega), h0 q (j - 16) (by omega), show ¬ j - 8 < 8 by omega,
      show ¬ j - 16 < 8 by omega, show j - 8 - 8 - 8 = j - 24 by omega, show j - 24 < 32 by omega,
      show ¬ j - 8 - 8 < 8 by omega]

/-! ### The message schedule -/

theorem schedule_length (block : List Byte) (n : Nat) : (schedule block n).length = n := by
  induction n with
  | zero => rfl
  | succ n ih => simp [schedule, ih]

theorem schedule_prefix (block : List Byte) (n m i : Nat) (hi : i < n) (hn : n ≤ m) :
    (schedule block m).getD i 0 = (schedule block n).getD i 0 := by
  induction m with
  | zero => omega
  | succ m ih =>
    rcases Nat.lt_or_ge m n with h | h
    · rw [show n = m + 1 by omega]
    · rw [← ih h, schedule]
      simp [List.getD_eq_getElem?_getD, List.getElem?_append, schedule_length, show i < m by omega]

/-- `W_t`. -/
def W (block : List Byte) (t : Nat) : Word := (schedule block 80).getD t 0

theorem W_eq (block : List Byte) (t : Nat) (ht : t < 80) :
    W block t = nextWord block (schedule block t) := by
  unfold W
  rw [schedule_prefix block (t + 1) 80 t (by omega) (by omega), schedule]
  simp [List.getD_eq_getElem?_getD, schedule_length]

theorem W_low (block : List Byte) (t : Nat) (ht : t < 16) : W block t = wordAt block t := by
  rw [W_eq block t (by omega), nextWord, schedule_length, if_pos ht]

theorem W_high (block : List Byte) (t : Nat) (h1 : 16 ≤ t) (h2 : t < 80) :
    W block t = rotl 1 (W block (t - 3) ^^^ W block (t - 8) ^^^ W block (t - 14) ^^^ W block (t - 16)) := by
  rw [W_eq block t h2, nextWord, schedule_length, if_neg (by omega)]
  unfold W
  rw [schedule_prefix block t 80 (t - 3) (by omega) (by omega),
    schedule_prefix block t 80 (t - 8) (by omega) (by omega),
    schedule_prefix block t 80 (t - 14) (by omega) (by omega),
    schedule_prefix block t 80 (t - 16) (by omega) (by omega)]

/-! ### The 80 lines -/

/-- What the variables stand for before line `t`. -/
def roles (t : Nat) (v : Hash) : Hash :=
  match t % 5 with
  | 0 => v
  | 1 => ⟨v.e, v.a, v.b, v.c, v.d⟩
  | 2 => ⟨v.d, v.e, v.a, v.b, v.c⟩
  | 3 => ⟨v.c, v.d, v.e, v.a, v.b⟩
  | _ => ⟨v.b, v.c, v.d, v.e, v.a⟩

theorem add_perm (a b c d e : Word) : e + (a + b + c + d) = a + b + e + c + d := by
  ac_rfl

theorem line_roles (t : Nat) (x : Word) (v : Hash) :
    roles (t + 1) (line t x v) = step t x (roles t v) := by
  have h : t % 5 = 0 ∨ t % 5 = 1 ∨ t % 5 = 2 ∨ t % 5 = 3 ∨ t % 5 = 4 := by omega
  rcases h with h | h | h | h | h
  · have h' : (t + 1) % 5 = 1 := by omega
    simp [roles, line, step, h, h', P, set, get, S_eq, F_eq, K_eq, add_perm]
  · have h' : (t + 1) % 5 = 2 := by omega
    simp [roles, line, step, h, h', P, set, get, S_eq, F_eq, K_eq, add_perm]
  · have h' : (t + 1) % 5 = 3 := by omega
    simp [roles, line, step, h, h', P, set, get, S_eq, F_eq, K_eq, add_perm]
  · have h' : (t + 1) % 5 = 4 := by omega
    simp [roles, line, step, h, h', P, set, get, S_eq, F_eq, K_eq, add_perm]
  · have h' : (t + 1) % 5 = 0 := by omega
    simp [roles, line, step, h, h', P, set, get, S_eq, F_eq, K_eq, add_perm]

/-- The array before line `t`: the last 16 words. -/
def Window (block : List Byte) (t : Nat) (w : List Word) : Prop :=
  w.length = 16 ∧ ∀ i, t ≤ i + 16 → (i < t ∨ i < 16) → w.getD (i % 16) 0 = W block i

theorem getD_set (w : List Word) (i j : Nat) (x : Word) (hi : i < w.length) :
    (w.set i x).getD j 0 = if j = i then x else w.getD j 0 := by
  simp only [List.getD_eq_getElem?_getD, List.getElem?_set]
  split
  · next h => subst h; simp [hi]
  · next h => simp [Ne.symm h]

theorem lines_steps (block : List Byte) (h : Hash) (t : Nat) (ht : t ≤ 80) :
    Window block t (lines t ((List.range 16).map (fun i => getBE block (4 * i)), h)).1 ∧
    roles t (lines t ((List.range 16).map (fun i => getBE block (4 * i)), h)).2 = steps block t h := by
  induction t with
  | zero =>
    refine ⟨⟨by simp [lines], fun i _ hi => ?_⟩, rfl⟩
    have hi : i < 16 := by omega
    rw [lines, Nat.mod_eq_of_lt hi, W_low block i hi, ← getBE_eq]
    simp [List.getD_eq_getElem?_getD, hi]
  | succ t ih =>
    obtain ⟨⟨h1, h2⟩, h3⟩ := ih (by omega)
    rw [lines, steps, ← h3]
    generalize lines t ((List.range 16).map (fun i => getBE block (4 * i)), h) = s at h1 h2
    obtain ⟨w, v⟩ := s
    dsimp only at h1 h2 ⊢
    split
    · next hl =>
      have e := h2 t (by omega) (.inr hl)
      rw [Nat.mod_eq_of_lt hl] at e
      refine ⟨⟨h1, fun i hi1 hi2 => h2 i (by omega) (by omega)⟩, ?_⟩
      dsimp only
      rw [line_roles, e]
      rfl
    · next hl =>
      have e : R w t = W block t := by
        rw [W_high block t (by omega) (by omega), R, S_eq, h2 (t - 3) (by omega) (by omega),
          h2 (t - 8) (by omega) (by omega), h2 (t - 14) (by omega) (by omega)]
        rw [show t % 16 = (t - 16) % 16 by omega, h2 (t - 16) (by omega) (by omega)]
      refine ⟨⟨by simp [h1], fun i hi1 hi2 => ?_⟩, ?_⟩
      · dsimp only
        rw [getD_set w _ _ _ (by omega), e]
        split
        · next hm => rw [show i = t by omega]
        · next hm => exact h2 i (by omega) (by omega)
      · dsimp only
        rw [line_roles, e]
        rfl

theorem process_eq (block : List Byte) (h : Hash) : process block h = compress block h := by
  have := (lines_steps block h 80 (by omega)).2
  rw [show roles 80 (lines 80 ((List.range 16).map (fun i => getBE block (4 * i)), h)).2 =
    (lines 80 ((List.range 16).map (fun i => getBE block (4 * i)), h)).2 from rfl] at this
  simp only [process, compress, this]

end Verif.Sha
