import Verif.Sha.ValueProps
/-
C72: `identityHash` tells constants apart.
-/
namespace Verif.Sha

attribute [local irreducible] sha1

/-- The digests that stand for something without being computed: the constants' codes, "no hash", and
poison. -/
def Reserved (d : List Byte) : Prop :=
  d = poison ∨ d = List.replicate 20 0 ∨ ∃ k : BitVec 64, d = tag2 100 k

/-- The constants this is about: integers fit in 64 bits, strings are shorter than 2^32 bytes. -/
def Ordinary : Const → Prop
  | .int i => fitsLong i
  | .bytes b => b.length < 2 ^ 32
  | .str u => u.length < 2 ^ 32
  | _ => True

theorem tag2_ne_poison (a b : BitVec 64) : tag2 a b ≠ poison := by
  intro h
  have := congrArg (fun l => l.getD 19 0) h
  have h1 : (tag2 a b).getD 19 0 = 0 := rfl
  have h2 : poison.getD 19 0 = 255 := rfl
  simp only [h1, h2] at this
  exact absurd this (by decide)

theorem sha40 (l r : List Byte) (hl : l.length = 20) (hr : r.length = 20) : shaHash (l ++ r) = sha1 (l ++ r) := by
  have h : (l ++ r).length = 40 := by rw [List.length_append, hl, hr]
  refine shaHash_of_message_partial _ ?_ (by omega)
  intro e
  rw [e] at h
  simp at h

theorem logAdd_tag (a b : BitVec 64) (r : Logged) (hr : r.1.length = 20) (hp : r.1 ≠ poison) :
    logAdd (tag2 a b, []) r = (sha1 (tag2 a b ++ r.1), r.2 ++ [tag2 a b ++ r.1]) := by
  unfold logAdd shaAdd
  rw [if_neg (by simp [tag2_ne_poison, hp]), if_neg (by simp [tag2_ne_poison, hp]),
    sha40 _ _ (tag2_length a b) hr]
  rfl

theorem logSha_cases (b : List Byte) (h : b.length < 2 ^ 32) :
    (b = [] ∧ logSha b = (List.replicate 20 0, [])) ∨ (b ≠ [] ∧ logSha b = (sha1 b, [b])) := by
  by_cases e : b = []
  · subst e; exact .inl ⟨rfl, rfl⟩
  · refine .inr ⟨e, ?_⟩
    unfold logSha
    rw [shaHash_of_message_partial b e h, if_pos (by simpa using e)]

theorem zero_ne_poison : (List.replicate 20 0 : List Byte) ≠ poison := by decide

/-- A hash with a payload, or poison was hit. -/
theorem logAdd_sha (k : BitVec 64) (b : List Byte) (h : b.length < 2 ^ 32) :
    (Hits (logAdd (tag2 100 k, []) (logSha b)).2 poison) ∨
    (logAdd (tag2 100 k, []) (logSha b) =
      (sha1 (tag2 100 k ++ (logSha b).1), (logSha b).2 ++ [tag2 100 k ++ (logSha b).1]) ∧
      (logSha b).1.length = 20) := by
  have hlen : (logSha b).1.length = 20 := by
    rcases logSha_cases b h with ⟨_, e⟩ | ⟨_, e⟩
    · rw [e]; rfl
    · rw [e]; exact sha1_length b
  by_cases hp : (logSha b).1 = poison
  · refine .inl ?_
    rcases logSha_cases b h with ⟨_, e⟩ | ⟨_, e⟩
    · rw [e] at hp; exact absurd hp zero_ne_poison
    · rw [e] at hp
      refine ⟨b, ?_, hp⟩
      unfold logAdd
      rw [e]
      simp
  · exact .inr ⟨logAdd_tag _ _ _ hlen hp, hlen⟩

/-- The two hashed payloads are the same only for the same string. -/
theorem logSha_inj (a b : List Byte) (ha : a.length < 2 ^ 32) (hb : b.length < 2 ^ 32)
    (h : (logSha a).1 = (logSha b).1) :
    a = b ∨ Collision (logSha a).2 (logSha b).2 ∨ Hits (logSha a).2 (List.replicate 20 0) ∨
      Hits (logSha b).2 (List.replicate 20 0) := by
  rcases logSha_cases a ha with ⟨ea, e⟩ | ⟨ea, e⟩ <;> rcases logSha_cases b hb with ⟨eb, e'⟩ | ⟨eb, e'⟩
  · exact .inl (by rw [ea, eb])
  · rw [e, e'] at h ⊢
    exact .inr (.inr (.inr ⟨b, by simp, h.symm⟩))
  · rw [e, e'] at h ⊢
    exact .inr (.inr (.inl ⟨a, by simp, h⟩))
  · rw [e, e'] at h ⊢
    rcases same_message (a := [a]) (b := [b]) (by simp) (by simp) h with h | h
    · exact .inl h
    · exact .inr (.inl h)

/-- The code of a constant: its own, or the one its hash begins with. -/
def codeOf : Const → BitVec 64
  | .none => 1
  | .bool true => 2
  | .bool false => 3
  | .int _ => 4
  | .bytes _ => 5
  | .str _ => 6
  | .builtin k => BitVec.ofNat 64 (8 + k.val)
  | .float _ => 31
  | .descriptor => 32

/-- The digest after the code, for constants that have one. -/
def payloadOf : Const → Option Logged
  | .int i => some (tag2 100 (BitVec.ofInt 64 i), [])
  | .bytes b => some (logSha b)
  | .str u => some (logSha u)
  | .float bits => some (logSha (le64 bits))
  | _ => none

theorem constHash_shape (c : Const) (hc : Ordinary c) :
    (payloadOf c = none ∧ constHash c = (tag2 100 (codeOf c), [])) ∨ Hits (constHash c).2 poison ∨
    ∃ x, payloadOf c = some x ∧ x.1.length = 20 ∧
      constHash c = (sha1 (tag2 100 (codeOf c) ++ x.1), x.2 ++ [tag2 100 (codeOf c) ++ x.1]) := by
  cases c with
  | none => exact .inl ⟨rfl, rfl⟩
  | bool b => cases b <;> exact .inl ⟨rfl, rfl⟩
  | builtin k => exact .inl ⟨rfl, rfl⟩
  | descriptor => exact .inl ⟨rfl, rfl⟩
  | int i =>
    refine .inr (.inr ⟨_, rfl, rfl, ?_⟩)
    have hc : fitsLong i := hc
    show intHash i = _
    rw [intHash, if_pos hc]
    exact logAdd_tag _ _ _ rfl (tag2_ne_poison _ _)
  | bytes b =>
    rcases logAdd_sha 5 b hc with h | ⟨h, hl⟩
    · exact .inr (.inl h)
    · exact .inr (.inr ⟨_, rfl, hl, h⟩)
  | str b =>
    rcases logAdd_sha 6 b hc with h | ⟨h, hl⟩
    · exact .inr (.inl h)
    · exact .inr (.inr ⟨_, rfl, hl, h⟩)
  | float b =>
    rcases logAdd_sha 31 (le64 b) (by rw [le64_length]; omega) with h | ⟨h, hl⟩
    · exact .inr (.inl h)
    · exact .inr (.inr ⟨_, rfl, hl, h⟩)

theorem code_only (c d : Const) (hc : payloadOf c = none) (hd : payloadOf d = none)
    (h : codeOf c = codeOf d) : c = d := by
  have key : ∀ k : Fin 23, (BitVec.ofNat 64 (8 + k.val)).toNat = 8 + k.val := by
    intro k; have := k.isLt; rw [BitVec.toNat_ofNat]; omega
  have h := congrArg BitVec.toNat h
  have k1 : codeOf .none = 1 ∧ codeOf (.bool true) = 2 ∧ codeOf (.bool false) = 3 ∧
      codeOf .descriptor = 32 := ⟨rfl, rfl, rfl, rfl⟩
  have k2 : ∀ k, (codeOf (.builtin k)).toNat = 8 + k.val := key
  have shape : ∀ c, payloadOf c = none → c = .none ∨ c = .bool true ∨ c = .bool false ∨ c = .descriptor ∨
      ∃ k, c = .builtin k := by
    intro c hc
    cases c with
    | bool b => cases b <;> simp
    | none => simp
    | descriptor => simp
    | builtin k => simp
    | int _ => cases hc
    | bytes _ => cases hc
    | str _ => cases hc
    | float _ => cases hc
  rcases shape c hc with e | e | e | e | ⟨k, e⟩ <;> rcases shape d hd with e' | e' | e' | e' | ⟨k', e'⟩ <;>
    subst e <;> subst e' <;> try rfl
  all_goals first
    | (exact absurd h (by decide))
    | (rw [k2] at h; have := k.isLt; have h3 : (codeOf .none).toNat = 1 := rfl
       have h4 : (codeOf (.bool true)).toNat = 2 := rfl; have h5 : (codeOf (.bool false)).toNat = 3 := rfl
       have h6 : (codeOf .descriptor).toNat = 32 := rfl
       omega)
    | (rw [k2] at h; have := k'.isLt; have h3 : (codeOf .none).toNat = 1 := rfl
       have h4 : (codeOf (.bool true)).toNat = 2 := rfl; have h5 : (codeOf (.bool false)).toNat = 3 := rfl
       have h6 : (codeOf .descriptor).toNat = 32 := rfl
       omega)
    | (rw [k2, k2] at h; rw [show k = k' from Fin.ext (by omega)])

/-- Codes of constants with a payload tell their kinds apart. -/
theorem payload_inj (c d : Const) (hc : Ordinary c) (hd : Ordinary d) (x y : Logged) (h1 : payloadOf c = some x)
    (h2 : payloadOf d = some y) (hk : codeOf c = codeOf d) (hx : x.1 = y.1) :
    c = d ∨ Collision x.2 y.2 ∨ Hits x.2 (List.replicate 20 0) ∨ Hits y.2 (List.replicate 20 0) := by
  have shape : ∀ c x, payloadOf c = some x → (∃ i, c = .int i ∧ x = (tag2 100 (BitVec.ofInt 64 i), [])) ∨
      (∃ b, c = .bytes b ∧ x = logSha b) ∨ (∃ b, c = .str b ∧ x = logSha b) ∨
      ∃ b, c = .float b ∧ x = logSha (le64 b) := by
    intro c x h
    cases c with
    | int i => exact .inl ⟨i, rfl, (Option.some.inj h).symm⟩
    | bytes b => exact .inr (.inl ⟨b, rfl, (Option.some.inj h).symm⟩)
    | str b => exact .inr (.inr (.inl ⟨b, rfl, (Option.some.inj h).symm⟩))
    | float b => exact .inr (.inr (.inr ⟨b, rfl, (Option.some.inj h).symm⟩))
    | none => cases h
    | bool _ => cases h
    | builtin _ => cases h
    | descriptor => cases h
  have codes : ∀ i b u f, codeOf (.int i) = 4 ∧ codeOf (.bytes b) = 5 ∧ codeOf (.str u) = 6 ∧
      codeOf (.float f) = 31 := fun _ _ _ _ => ⟨rfl, rfl, rfl, rfl⟩
  have strings : ∀ a b : List Byte, a.length < 2 ^ 32 → b.length < 2 ^ 32 → ∀ mk : List Byte → Const,
      (logSha a).1 = (logSha b).1 → mk a = mk b ∨ Collision (logSha a).2 (logSha b).2 ∨
      Hits (logSha a).2 (List.replicate 20 0) ∨ Hits (logSha b).2 (List.replicate 20 0) := by
    intro a b ha hb mk h
    rcases logSha_inj a b ha hb h with e | e
    · rw [e]; exact .inl rfl
    · exact .inr e
  rcases shape c x h1 with ⟨i, e, ex⟩ | ⟨i, e, ex⟩ | ⟨i, e, ex⟩ | ⟨i, e, ex⟩ <;>
    rcases shape d y h2 with ⟨j, e', ex'⟩ | ⟨j, e', ex'⟩ | ⟨j, e', ex'⟩ | ⟨j, e', ex'⟩ <;>
    clear h1 h2 shape <;> subst e <;> subst e' <;> simp only [codeOf] at hk
  all_goals first | (exact absurd hk (by decide)) | skip
  · rw [ex, ex'] at hx
    rw [ofInt_inj hc hd (tag2_inj hx).2]; exact .inl rfl
  · rw [ex, ex'] at hx ⊢
    exact strings i j hc hd .bytes hx
  · rw [ex, ex'] at hx ⊢
    exact strings i j hc hd .str hx
  · rw [ex, ex'] at hx ⊢
    rcases logSha_inj (le64 i) (le64 j) (by rw [le64_length]; omega) (by rw [le64_length]; omega) hx with e | e
    · rw [le64_inj e]; exact .inl rfl
    · exact .inr e

/-- Two constants with the same identity hash are the same constant, unless the hashing came upon a
collision of SHA-1 or upon a message whose SHA-1 is a reserved value.
Missing: integers that do not fit in 64 bits, where the claim is false (`big_ints_same_hash`). -/
theorem same_identity_same_constant_partial (c d : Const) (hc : Ordinary c) (hd : Ordinary d)
    (h : (constHash c).1 = (constHash d).1) :
    c = d ∨ Collision (constHash c).2 (constHash d).2 ∨
      (∃ r, Reserved r ∧ Hits (constHash c).2 r) ∨ (∃ r, Reserved r ∧ Hits (constHash d).2 r) := by
  rcases constHash_shape c hc with ⟨p1, e1⟩ | h1 | ⟨x, p1, l1, e1⟩
  rotate_left
  · exact .inr (.inr (.inl ⟨_, .inl rfl, h1⟩))
  all_goals rcases constHash_shape d hd with ⟨p2, e2⟩ | h2 | ⟨y, p2, l2, e2⟩
  all_goals first | exact .inr (.inr (.inr ⟨_, .inl rfl, h2⟩)) | skip
  · rw [e1, e2] at h ⊢
    exact .inr (.inr (.inl ⟨tag2 100 (codeOf d), .inr (.inr ⟨_, rfl⟩), ⟨_, by simp, h⟩⟩))
  · rw [e1, e2] at h ⊢
    rcases same_message (a := x.2 ++ [tag2 100 (codeOf c) ++ x.1]) (b := y.2 ++ [tag2 100 (codeOf d) ++ y.1])
      (by simp) (by simp) h with h | h
    · obtain ⟨hk, hx⟩ := List.append_inj h (by rw [tag2_length, tag2_length])
      rcases payload_inj c d hc hd x y p1 p2 (tag2_inj hk).2 hx with e | e | e | e
      · exact .inl e
      · exact .inr (.inl (e.mono (fun z hz => by simp [hz]) (fun z hz => by simp [hz])))
      · exact .inr (.inr (.inl ⟨_, .inr (.inl rfl), e.mono (fun z hz => by simp [hz])⟩))
      · exact .inr (.inr (.inr ⟨_, .inr (.inl rfl), e.mono (fun z hz => by simp [hz])⟩))
    · exact .inr (.inl h)
  · rw [e1, e2] at h
    exact .inl (code_only c d p1 p2 (tag2_inj h).2)
  · rw [e1, e2] at h ⊢
    exact .inr (.inr (.inr ⟨tag2 100 (codeOf c), .inr (.inr ⟨_, rfl⟩), ⟨_, by simp, h.symm⟩⟩))

example : Ordinary (.int (-1)) ∧ Ordinary (.str [0x61]) ∧ Ordinary (.builtin 3) :=
  ⟨by unfold Ordinary; decide, by unfold Ordinary; decide, trivial⟩

/-! ### Large integers -/

theorem bigIntLoop_step (i : Int) (acc : Logged) (h : ¬ fitsLong i) : bigIntLoop i acc =
    bigIntLoop (i / 2 ^ 32) (logAdd acc (tag1 (BitVec.ofInt 64 (-1)), [])) := by
  rw [bigIntLoop, dif_neg h]

/-- Of an integer that does not fit in 64 bits, the low 32 bits have no influence on its identity hash:
2**32 different integers share one. -/
theorem big_ints_same_hash (i j : Int) (hi : ¬ fitsLong i) (hj : ¬ fitsLong j) (h : i / 2 ^ 32 = j / 2 ^ 32) :
    constHash (.int i) = constHash (.int j) := by
  show intHash i = intHash j
  rw [intHash, intHash, if_neg hi, if_neg hj, bigIntLoop_step i _ hi, bigIntLoop_step j _ hj, h]

/-- `identityHash(2**64)` is `identityHash(2**64 + 1)`. -/
theorem two_to_the_64_same_hash : constHash (.int (2 ^ 64)) = constHash (.int (2 ^ 64 + 1)) :=
  big_ints_same_hash _ _ (by decide) (by decide) (by decide)

/-- The identity hash of an integer that does not fit in 64 bits depends on its highest bits and on how
many times 32 bits have to be removed only. -/
theorem big_ints_top_bits (n : Nat) (i j : Int) (hi : ∀ k < n, ¬ fitsLong (i / 2 ^ (32 * k)))
    (hj : ∀ k < n, ¬ fitsLong (j / 2 ^ (32 * k))) (h : i / 2 ^ (32 * n) = j / 2 ^ (32 * n)) (acc : Logged) :
    bigIntLoop i acc = bigIntLoop j acc := by
  induction n generalizing i j acc with
  | zero => simp at h; rw [h]
  | succ n ih =>
    have h1 : ¬ fitsLong i := by simpa using hi 0 (by omega)
    have h2 : ¬ fitsLong j := by simpa using hj 0 (by omega)
    rw [bigIntLoop_step i _ h1, bigIntLoop_step j _ h2]
    have e : ∀ (x : Int) (k : Nat), x / 2 ^ 32 / 2 ^ (32 * k) = x / 2 ^ (32 * (k + 1)) := by
      intro x k
      rw [Int.ediv_ediv_of_nonneg (by decide), ← Int.pow_add]
      congr 2
      omega
    refine ih (i / 2 ^ 32) (j / 2 ^ 32) (fun k hk => ?_) (fun k hk => ?_) ?_ _
    · rw [e]; exact hi (k + 1) (by omega)
    · rw [e]; exact hj (k + 1) (by omega)
    · rw [e, e]; exact h

/-- `2**96 * 5 + 2**40` and `2**96 * 5`: the lower 64 bits do not matter. -/
example : constHash (.int (2 ^ 96 * 5 + 2 ^ 40)) = constHash (.int (2 ^ 96 * 5)) := by
  show intHash _ = intHash _
  rw [intHash, intHash, if_neg (by decide), if_neg (by decide)]
  refine big_ints_top_bits 2 _ _ (fun k hk => ?_) (fun k hk => ?_) (by decide) _
  · rcases (by omega : k = 0 ∨ k = 1) with rfl | rfl <;> decide
  · rcases (by omega : k = 0 ∨ k = 1) with rfl | rfl <;> decide

end Verif.Sha
