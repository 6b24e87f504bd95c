import Verif.Common
import Verif.Slab.Model
import Verif.Slab.Spec
import Mathlib.Tactic.Ring
import Mathlib.Tactic.Linarith
import Mathlib.Data.List.Nodup
/-
C46: slab allocations are disjoint, aligned and inside the slab.
-/
namespace Verif.Slab
open Spec

theorem mod_facts (A n : Nat) (hA : 0 < A) : ∃ q, n = A * q + n % A ∧ n % A < A :=
  ⟨n / A, (Nat.div_add_mod n A).symm, Nat.mod_lt n hA⟩

theorem roundUp_dvd (A n : Nat) (hA : 0 < A) : A ∣ roundUp A n := by
  obtain ⟨q, h, hlt⟩ := mod_facts A n hA
  unfold roundUp
  split
  · refine ⟨q + 1, ?_⟩
    rw [Nat.mul_add]; omega
  · rename_i h0
    exact Nat.dvd_of_mod_eq_zero (by omega)

theorem roundUp_ge (A n : Nat) (hA : 0 < A) : n ≤ roundUp A n := by
  have := Nat.mod_lt n hA
  unfold roundUp; split <;> omega

theorem roundUp_lt (A n : Nat) (hA : 0 < A) : roundUp A n < n + A := by
  have := Nat.mod_lt n hA
  unfold roundUp; split <;> omega

theorem roundUp_least (A n k : Nat) (hA : 0 < A) (hd : A ∣ k) (hk : n ≤ k) : roundUp A n ≤ k := by
  obtain ⟨a, ha⟩ := roundUp_dvd A n hA
  obtain ⟨b, hb⟩ := hd
  have := roundUp_lt A n hA
  by_contra hc
  have h1 : b + 1 ≤ a := by
    by_contra hx
    have : A * a ≤ A * b := Nat.mul_le_mul_left A (by omega)
    omega
  have h2 : A * (b + 1) ≤ A * a := Nat.mul_le_mul_left A h1
  rw [Nat.mul_add] at h2
  omega

theorem bytesRequired_pos (A n : Nat) (hA : 0 < A) (h : n ≠ 0) : bytesRequired A n = roundUp A n + A := by
  by_cases hm : n % A = 0
  · simp [bytesRequired, roundUp, h, hm]
  · have := Nat.mod_lt n hA
    simp only [bytesRequired, roundUp, h, hm, if_false, ne_eq, not_false_eq_true, if_true]
    omega

/-- **The predicted size of one allocation is its aligned size plus one header.** -/
theorem bytesRequired_footprint (A n : Nat) (hA : 0 < A) : Footprint A n (bytesRequired A n) := by
  by_cases h : n = 0
  · left; subst h; simp [bytesRequired]
  · right
    exact ⟨by omega, roundUp A n, roundUp_dvd A n hA, roundUp_ge A n hA, fun k hk hn => roundUp_least A n k hA hk hn,
      bytesRequired_pos A n hA h⟩

example : bytesRequired 16 24 = 48 := by decide

/-- Total predicted size of a list of requests (what `deepBytecount` adds up). -/
def totalRequired (A : Nat) (reqs : List Nat) : Nat := (reqs.map (bytesRequired A)).sum

/-- The block list describes consecutive, header-prefixed, aligned extents ending at `p`. -/
def Chain (A : Nat) : Nat → List Block → Nat → Prop
  | p, [], q => p = q
  | p, b :: bs, q => b.header = p ∧ b.user = p + A ∧ b.bytes ≠ 0 ∧ Chain A (p + (roundUp A b.bytes + A)) bs q

theorem chain_append (A : Nat) : ∀ (bs : List Block) (p q : Nat) (b : Block), Chain A p bs q →
    b.header = q → b.user = q + A → b.bytes ≠ 0 → Chain A p (bs ++ [b]) (q + (roundUp A b.bytes + A)) := by
  intro bs
  induction bs with
  | nil =>
    intro p q b h h1 h2 h3
    simp only [Chain] at h; subst h
    exact ⟨h1, h2, h3, rfl⟩
  | cons c cs ih =>
    intro p q b h h1 h2 h3
    exact ⟨h.1, h.2.1, h.2.2.1, ih _ _ b h.2.2.2 h1 h2 h3⟩

theorem chain_le (A : Nat) : ∀ (bs : List Block) (p q : Nat), Chain A p bs q → p ≤ q := by
  intro bs
  induction bs with
  | nil => intro p q h; exact Nat.le_of_eq h
  | cons c cs ih => intro p q h; have := ih _ _ h.2.2.2; omega

theorem chain_mem (A : Nat) (hA : 0 < A) : ∀ (bs : List Block) (p q : Nat), Chain A p bs q → A ∣ p →
    ∀ b ∈ bs, p ≤ b.header ∧ b.user = b.header + A ∧ A ∣ b.user ∧ b.user + roundUp A b.bytes ≤ q ∧ b.bytes ≠ 0 := by
  intro bs
  induction bs with
  | nil => intro p q _ _ b hb; cases hb
  | cons c cs ih =>
    intro p q h hp b hb
    have hle := chain_le A cs _ _ h.2.2.2
    rcases List.mem_cons.1 hb with rfl | hb
    · have e1 := h.1; have e2 := h.2.1
      refine ⟨by omega, by omega, ?_, by omega, h.2.2.1⟩
      rw [h.2.1]; exact Nat.dvd_add hp (Nat.dvd_refl A)
    · have hp' : A ∣ p + (roundUp A c.bytes + A) :=
        Nat.dvd_add hp (Nat.dvd_add (roundUp_dvd A _ hA) (Nat.dvd_refl A))
      have := ih _ _ h.2.2.2 hp' b hb
      exact ⟨by omega, this.2⟩

theorem chain_pairwise (A : Nat) (hA : 0 < A) : ∀ (bs : List Block) (p q : Nat), Chain A p bs q → A ∣ p →
    bs.Pairwise (fun b c => b.user + b.bytes ≤ c.header) := by
  intro bs
  induction bs with
  | nil => intro p q _ _; exact List.Pairwise.nil
  | cons c cs ih =>
    intro p q h hp
    have hp' : A ∣ p + (roundUp A c.bytes + A) :=
      Nat.dvd_add hp (Nat.dvd_add (roundUp_dvd A _ hA) (Nat.dvd_refl A))
    refine List.Pairwise.cons ?_ (ih _ _ h.2.2.2 hp')
    intro b hb
    have := chain_mem A hA cs _ _ h.2.2.2 hp' b hb
    have := roundUp_ge A c.bytes hA
    have := h.2.1
    omega

/-- The invariant while the owner still holds its reference. -/
structure Owned (A : Nat) (s : Slab) : Prop where
  chain : Chain A 0 s.allocs s.point
  bound : s.point ≤ s.size + A
  aliveSub : ∀ p ∈ s.alive, p ∈ s.allocs.map Block.user
  aliveNodup : s.alive.Nodup
  refs : s.refcount = 1 + s.alive.length
  fine : s.deleted = false

theorem owned_new (A ps n : Nat) : Owned A (new ps n) :=
  ⟨rfl, Nat.zero_le _, fun p hp => absurd hp (by simp [new]), List.nodup_nil, rfl, rfl⟩

theorem allocate_ok (A : Nat) (hA : 0 < A) (s : Slab) (n : Nat) (p : Option Nat) (s' : Slab)
    (h : allocate A s n = .ok (p, s')) (hi : Owned A s) : Owned A s' := by
  unfold allocate at h
  rw [hi.fine] at h
  simp only [Bool.false_eq_true, if_false] at h
  split at h
  · cases h; exact hi
  · rename_i hn
    split at h
    · cases h
    · rename_i hfit
      cases h
      have hmem : ∀ b ∈ s.allocs, b.user + roundUp A b.bytes ≤ s.point ∧ b.bytes ≠ 0 := fun b hb =>
        ⟨(chain_mem A hA _ _ _ hi.chain (Nat.dvd_zero A) b hb).2.2.2.1, (chain_mem A hA _ _ _ hi.chain (Nat.dvd_zero A) b hb).2.2.2.2⟩
      refine ⟨chain_append A s.allocs 0 s.point ⟨s.point, s.point + A, n⟩ hi.chain rfl rfl hn, ?_, ?_, ?_, ?_, rfl⟩
      · show s.point + (roundUp A n + A) ≤ s.size + A
        omega
      · intro q hq
        show q ∈ (s.allocs ++ [_]).map Block.user
        rw [List.map_append]
        rcases List.mem_append.1 hq with hq | hq
        · exact List.mem_append_left _ (hi.aliveSub q hq)
        · exact List.mem_append_right _ (by simpa using hq)
      · show (s.alive ++ [s.point + A]).Nodup
        rw [List.nodup_append]
        refine ⟨hi.aliveNodup, by simp, ?_⟩
        intro a ha b hb
        have ha' := hi.aliveSub a ha
        obtain ⟨blk, hblk, rfl⟩ := List.mem_map.1 ha'
        have h1 := hmem blk hblk
        have h2 := roundUp_ge A blk.bytes hA
        have : b = s.point + A := by simpa using hb
        omega
      · show s.refcount + 1 = 1 + (s.alive ++ [s.point + A]).length
        rw [List.length_append, List.length_singleton, hi.refs]; omega

theorem free_ok (A : Nat) (s : Slab) (q : Nat) (s' : Slab) (h : free s q = .ok s') (hi : Owned A s) : Owned A s' := by
  unfold free at h
  rw [hi.fine] at h
  simp only [Bool.false_eq_true, if_false] at h
  split at h
  · cases h
  · split at h
    · cases h
    · rename_i _ hal
      have hmem : q ∈ s.alive := by simpa using hal
      cases h
      have hlen : (s.alive.erase q).length + 1 = s.alive.length := by
        rw [List.length_erase_of_mem hmem]
        have := List.length_pos_of_mem hmem
        omega
      have hr : s.refcount ≠ 1 := by have := hi.refs; omega
      unfold decref
      simp only [hr, if_false]
      refine ⟨hi.chain, hi.bound, ?_, hi.aliveNodup.erase q, ?_, rfl⟩
      · intro p hp; exact hi.aliveSub p (List.mem_of_mem_erase hp)
      · show s.refcount - 1 = 1 + (s.alive.erase q).length
        have := hi.refs; omega

theorem owned_step (A : Nat) (hA : 0 < A) (s : Slab) (o : Op) (hi : Owned A s) : Owned A (step A s o) := by
  cases o with
  | alloc n =>
    simp only [step]
    split
    · rename_i h; exact allocate_ok A hA s n _ _ h hi
    · exact hi
  | free p =>
    simp only [step]
    split
    · rename_i h; exact free_ok A s p _ h hi
    · exact hi

theorem owned_run (A : Nat) (hA : 0 < A) : ∀ (ops : List Op) (s : Slab), Owned A s → Owned A (ops.foldl (step A) s) := by
  intro ops
  induction ops with
  | nil => intro s h; exact h
  | cons o os ih => intro s h; exact ih _ (owned_step A hA s o h)

/-- The extent of an allocation together with the header in front of it. -/
def full (b : Block) : Extent := ⟨b.header, b.user + b.bytes - b.header⟩

theorem disjoint_of_le (a b : Block) (ha : a.header ≤ a.user) (hb : b.header ≤ b.user)
    (h : a.user + a.bytes ≤ b.header ∨ b.user + b.bytes ≤ a.header) : Disjoint (full a) (full b) := by
  intro x ⟨h1, h2, h3, h4⟩
  simp only [full] at h1 h2 h3 h4
  omega

/-- **C46, safety for all histories.**  Whatever sequence of allocations and frees is applied to a fresh slab, the
extents ever handed out (each with its header) are pairwise disjoint, every pointer is aligned and preceded by exactly
one header, and no allocation reaches more than one header (`A` bytes) past the end of the slab. -/
theorem slab_blocks_disjoint (A pageSize n : Nat) (hA : 0 < A) (ops : List Op) :
    let s := ops.foldl (step A) (new pageSize n)
    s.allocs.Pairwise (fun a b => Disjoint (full a) (full b)) ∧
    (∀ b ∈ s.allocs, A ∣ b.user ∧ b.user = b.header + A ∧ b.bytes ≠ 0) ∧
    (∀ b ∈ s.allocs, b.user + b.bytes ≤ s.size + A) := by
  intro s
  have hi := owned_run A hA ops _ (owned_new A pageSize n)
  have hm := chain_mem A hA _ _ _ hi.chain (Nat.dvd_zero A)
  refine ⟨?_, ?_, ?_⟩
  · have hp := chain_pairwise A hA _ _ _ hi.chain (Nat.dvd_zero A)
    refine hp.imp_of_mem ?_
    intro a b ha hb hab
    have h1 := hm a ha; have h2 := hm b hb
    exact disjoint_of_le a b (by omega) (by omega) (Or.inl hab)
  · intro b hb
    have := hm b hb
    exact ⟨this.2.2.1, this.2.1, this.2.2.2.2⟩
  · intro b hb
    have h1 := hm b hb
    have h2 := roundUp_ge A b.bytes hA
    have h3 := hi.bound
    show b.user + b.bytes ≤ (ops.foldl (step A) (new pageSize n)).size + A
    omega

theorem allocAll_ok (A : Nat) (hA : 0 < A) : ∀ (reqs : List Nat) (s : Slab), Owned A s →
    s.point + totalRequired A reqs ≤ s.size →
    ∃ ps s', allocAll A s reqs = .ok (ps, s') ∧ Owned A s' ∧ s'.size = s.size ∧
      s'.point = s.point + totalRequired A reqs ∧ ps.length = reqs.length ∧
      s'.allocs.length = s.allocs.length + (reqs.filter (· ≠ 0)).length ∧
      s'.allocs.map (fun b => b.bytes) = s.allocs.map (fun b => b.bytes) ++ reqs.filter (· ≠ 0) ∧
      s'.allocs.map (fun b => some b.user) = s.allocs.map (fun b => some b.user) ++ ps.filter (·.isSome) ∧
      (∀ i : Nat, ps[i]? = some none ↔ reqs[i]? = some 0) := by
  intro reqs
  induction reqs with
  | nil =>
    intro s hi _
    exact ⟨[], s, rfl, hi, rfl, rfl, rfl, by simp, by simp, by simp, by simp⟩
  | cons n ns ih =>
    intro s hi hb
    have htot : totalRequired A (n :: ns) = bytesRequired A n + totalRequired A ns := by
      simp [totalRequired]
    rw [htot] at hb
    by_cases hn : n = 0
    · subst hn
      have hreq : bytesRequired A 0 = 0 := rfl
      obtain ⟨ps, s', h1, h2, h3, h4, h5, h6, h7, h8, h9⟩ := ih s hi (by omega)
      have ha : allocate A s 0 = .ok (none, s) := by simp [allocate, hi.fine]
      refine ⟨none :: ps, s', by simp only [allocAll, ha, h1], h2, h3, by omega, by simp [h5], by simpa using h6,
        by simpa using h7, by simpa using h8, ?_⟩
      intro i
      cases i with
      | zero => simp
      | succ j => simpa using h9 j
    · rw [bytesRequired_pos A n hA hn] at hb htot
      obtain ⟨s1, ha⟩ : ∃ s1, allocate A s n = .ok (some (s.point + A), s1) ∧
          s1 = { s with refcount := s.refcount + 1, allocs := s.allocs ++ [⟨s.point, s.point + A, n⟩],
                        alive := s.alive ++ [s.point + A], point := s.point + (roundUp A n + A) } := by
        refine ⟨_, ?_, rfl⟩
        simp only [allocate, hi.fine, hn, Bool.false_eq_true, if_false]
        rw [if_neg (by omega)]
      obtain ⟨ha, hs1⟩ := ha
      have hi1 := allocate_ok A hA s n _ _ ha hi
      have hp1 : s1.point = s.point + (roundUp A n + A) := by rw [hs1]
      have hz1 : s1.size = s.size := by rw [hs1]
      have hl1 : s1.allocs = s.allocs ++ [⟨s.point, s.point + A, n⟩] := by rw [hs1]
      obtain ⟨ps, s', h1, h2, h3, h4, h5, h6, h7, h8, h9⟩ := ih s1 hi1 (by omega)
      refine ⟨some (s.point + A) :: ps, s', by simp only [allocAll, ha, h1], h2, by omega, by omega, by simp [h5], ?_, ?_, ?_, ?_⟩
      · rw [h6, hl1]; simp [hn]; omega
      · rw [h7, hl1]; simp [hn]
      · rw [h8, hl1]; simp
      · intro i
        cases i with
        | zero => simp [hn]
        | succ j => simpa using h9 j

/-- **C46.**  Make a slab of (at least) the size predicted for a list of requests and allocate them in order: every
request succeeds, the null pointer is returned exactly for empty requests, exactly the predicted number of bytes is
used, and the blocks, headers included, are pairwise disjoint, aligned, and lie inside the slab; each has the size
asked for. -/
theorem predicted_slab_suffices (A pageSize : Nat) (hA : 0 < A) (reqs : List Nat) (n : Nat)
    (hn : totalRequired A reqs ≤ n) :
    ∃ ps s, allocAll A (new pageSize n) reqs = .ok (ps, s) ∧
      ps.length = reqs.length ∧ (∀ i : Nat, ps[i]? = some none ↔ reqs[i]? = some 0) ∧
      getAllocated s = totalRequired A reqs ∧
      s.allocs.map (fun b => b.bytes) = reqs.filter (· ≠ 0) ∧
      s.allocs.map (fun b => some b.user) = ps.filter (·.isSome) ∧
      s.allocs.Pairwise (fun a b => Disjoint (full a) (full b)) ∧
      (∀ b ∈ s.allocs, A ∣ b.user ∧ b.user = b.header + A ∧ Inside n (full b)) := by
  have hsz : n ≤ (new pageSize n).size := by
    simp only [new, mappedSize]
    split
    · split <;> omega
    · omega
  obtain ⟨ps, s, h1, h2, h3, h4, h5, h6, h7, h8, h9⟩ := allocAll_ok A hA reqs (new pageSize n) (owned_new A pageSize n)
    (by show 0 + _ ≤ _; omega)
  have hm := chain_mem A hA _ _ _ h2.chain (Nat.dvd_zero A)
  have hpt : s.point = totalRequired A reqs := by rw [h4]; show 0 + _ = _; omega
  refine ⟨ps, s, h1, h5, h9, hpt, ?_, ?_, ?_, ?_⟩
  · rw [h7]; rfl
  · rw [h8]; rfl
  · have hp := chain_pairwise A hA _ _ _ h2.chain (Nat.dvd_zero A)
    refine hp.imp_of_mem ?_
    intro a b ha hb hab
    have h1 := hm a ha; have h2 := hm b hb
    exact disjoint_of_le a b (by omega) (by omega) (Or.inl hab)
  · intro b hb
    have h1 := hm b hb
    have h2 := roundUp_ge A b.bytes hA
    refine ⟨h1.2.2.1, h1.2.1, ?_⟩
    simp only [Inside, full]
    omega

example : (allocAll 16 (new 4096 (totalRequired 16 [24, 0, 1, 16])) [24, 0, 1, 16]) =
    .ok ([some 16, none, some 64, some 96], ⟨112, 112, 4, [⟨0, 16, 24⟩, ⟨48, 64, 1⟩, ⟨80, 96, 16⟩], [16, 64, 96], false⟩) := by
  decide

/-- **C46 refuted: an allocation that does not fit need not raise.**  The bounds check forgets the header, so a slab of
64 bytes that holds a 32-byte block (A = 16) accepts a further 16 bytes and hands out bytes 64 to 79, past the end. -/
theorem slab_overflow_possible :
    ∃ s p, allocate 16 (new 4096 64) 32 = .ok (some 16, s) ∧ allocate 16 s 16 = .ok (p, { s with
      refcount := 3, allocs := [⟨0, 16, 32⟩, ⟨48, 64, 16⟩], alive := [16, 64], point := 80 }) ∧
      ¬ Inside s.size (full ⟨48, 64, 16⟩) := by
  refine ⟨⟨64, 48, 2, [⟨0, 16, 32⟩], [16], false⟩, some 64, by decide, by decide, ?_⟩
  simp [Inside, full]

/-- **C46, what the bounds check does guarantee.**  A request is refused exactly when its aligned size alone (without
its header) no longer fits, and a refused request changes nothing. -/
theorem allocate_refuses_iff (A : Nat) (s : Slab) (n : Nat) (h : s.deleted = false) :
    allocate A s n = .error .oom ↔ n ≠ 0 ∧ s.size < s.point + roundUp A n := by
  unfold allocate
  rw [h]
  simp only [Bool.false_eq_true, if_false]
  by_cases hn : n = 0
  · simp [hn]
  · simp only [hn, if_false]
    split
    · rename_i h; simp [hn]; omega
    · rename_i h; simp [hn]; omega

example : allocate 16 (new 4096 64) 65 = .error .oom := by decide

/-- **A slab lives as long as anything in it.**  In every history of allocations and frees the slab's reference count is
one (its owner) plus the number of live allocations; when the owner lets go, the slab is destroyed at once exactly if
nothing in it is alive. -/
theorem slab_refcount (A pageSize n : Nat) (hA : 0 < A) (ops : List Op) :
    let s := ops.foldl (step A) (new pageSize n)
    s.refcount = 1 + s.alive.length ∧ s.deleted = false ∧ ((decref s).deleted = true ↔ s.alive = []) := by
  intro s
  have hi := owned_run A hA ops _ (owned_new A pageSize n)
  refine ⟨hi.refs, hi.fine, ?_⟩
  have hr : s.refcount = 1 + s.alive.length := hi.refs
  have hf : s.deleted = false := hi.fine
  unfold decref
  split
  · rename_i h
    constructor
    · intro _; exact List.length_eq_zero_iff.1 (by omega)
    · intro _; rfl
  · rename_i h
    constructor
    · intro hc; simp only [hf] at hc; cases hc
    · intro hc; rw [hc] at hr; simp at hr; omega

/-- Dropping `ps` one after the other. -/
def freeAll : Slab → List Nat → Except Err Slab
  | s, [] => .ok s
  | s, p :: ps => match free s p with
    | .error e => .error e
    | .ok s' => freeAll s' ps

/-- After the owner let go: every live allocation still counts. -/
theorem free_after_owner (s : Slab) (q : Nat) (hf : s.deleted = false) (hsub : ∀ p ∈ s.alive, p ∈ s.allocs.map Block.user)
    (hr : s.refcount = s.alive.length) (hq : q ∈ s.alive) :
    ∃ s', free s q = .ok s' ∧ s'.alive = s.alive.erase q ∧ s'.allocs = s.allocs ∧ s'.refcount = s'.alive.length ∧
      (s'.deleted = true ↔ s'.alive = []) := by
  have hlen : (s.alive.erase q).length + 1 = s.alive.length := by
    rw [List.length_erase_of_mem hq]
    have := List.length_pos_of_mem hq
    omega
  have h1 : (s.allocs.map Block.user).contains q = true := by
    simpa using hsub q hq
  have h2 : s.alive.contains q = true := by simpa using hq
  unfold free
  rw [hf, h1, h2]
  simp only [Bool.false_eq_true, Bool.true_eq_false, if_false]
  refine ⟨_, rfl, ?_⟩
  unfold decref
  split
  · rename_i h
    have he : s.alive.erase q = [] := List.length_eq_zero_iff.1 (by simp only at h; omega)
    exact ⟨rfl, rfl, by simp only [he]; simp only at h; rw [h]; rfl, by simp [he]⟩
  · rename_i h
    refine ⟨rfl, rfl, by simp only; omega, ?_⟩
    simp only [hf]
    constructor
    · intro hc; cases hc
    · intro hc; rw [hc] at hlen; simp at hlen; simp only at h; omega

theorem freeAll_after_owner : ∀ (ps : List Nat) (s : Slab), s.deleted = false →
    (∀ p ∈ s.alive, p ∈ s.allocs.map Block.user) → s.refcount = s.alive.length → s.alive.Nodup →
    List.Perm ps s.alive → ps ≠ [] → ∃ s', freeAll s ps = .ok s' ∧ s'.deleted = true ∧ s'.alive = [] := by
  intro ps
  induction ps with
  | nil => intro s _ _ _ _ _ h; exact absurd rfl h
  | cons p ps ih =>
    intro s hf hsub hr hnd hperm _
    have hp : p ∈ s.alive := hperm.subset (List.mem_cons_self)
    obtain ⟨s', h1, h2, h3, h4, h5⟩ := free_after_owner s p hf hsub hr hp
    have hperm' : List.Perm ps s'.alive := by
      rw [h2]
      have := hperm.erase p
      rwa [List.erase_cons_head] at this
    simp only [freeAll, h1]
    cases ps with
    | nil =>
      have he : s'.alive = [] := hperm'.nil_eq.symm
      exact ⟨s', rfl, h5.2 he, he⟩
    | cons q qs =>
      have hne : s'.alive ≠ [] := by
        intro hc; rw [hc] at hperm'; exact absurd hperm'.eq_nil (by simp)
      have hd : s'.deleted = false := by
        cases hx : s'.deleted with
        | false => rfl
        | true => exact absurd (h5.1 hx) hne
      refine ih s' hd ?_ h4 ?_ hperm' (by simp)
      · intro x hx; rw [h3]; rw [h2] at hx; exact hsub x (List.mem_of_mem_erase hx)
      · rw [h2]; exact hnd.erase p

/-- **No slab is leaked and none is destroyed early.**  After any history, let the owner go and then free the remaining
live allocations in any order: no free fails, and the slab is destroyed by the last one. -/
theorem slab_freed_by_last (A pageSize n : Nat) (hA : 0 < A) (ops : List Op) (ps : List Nat)
    (hp : List.Perm ps (ops.foldl (step A) (new pageSize n)).alive) (hne : ps ≠ []) :
    ∃ s', freeAll (decref (ops.foldl (step A) (new pageSize n))) ps = .ok s' ∧ s'.deleted = true ∧ s'.alive = [] := by
  have hi := owned_run A hA ops _ (owned_new A pageSize n)
  generalize ops.foldl (step A) (new pageSize n) = s at *
  have hlen : s.alive ≠ [] := by
    intro h; rw [h] at hp; exact hne hp.eq_nil
  have hpos : 0 < s.alive.length := List.length_pos_iff.2 hlen
  have hr := hi.refs
  have hd : decref s = { s with refcount := s.refcount - 1 } := by
    unfold decref; rw [if_neg (by omega)]
  rw [hd]
  exact freeAll_after_owner ps _ hi.fine hi.aliveSub (by show s.refcount - 1 = s.alive.length; omega) hi.aliveNodup hp hne

example : (freeAll (decref ([Op.alloc 8, .alloc 20, .free 16].foldl (step 16) (new 4096 256))) [48]).map (·.deleted)
    = .ok true := by decide

/-! ### The free store -/

/-- The sizes recorded in the headers of the live free-store blocks. -/
def storeSizes (st : Store) : List Nat :=
  st.live.filterMap (fun x => match x.2 with | .store n => some n | .slab => none)

/-- The pointers are distinct and the counter is the bytes held. -/
structure StoreInv (A : Nat) (st : Store) : Prop where
  nodup : (st.live.map Prod.fst).Nodup
  exact : st.counter = liveBytes A (storeSizes st)

theorem liveBytes_cons (A n : Nat) (l : List Nat) : liveBytes A (n :: l) = ((n : Int) + A) + liveBytes A l := by
  simp [liveBytes]

theorem dropPtr_sizes : ∀ (l : List (Nat × Header)) (p : Nat) (h : Header), (l.map Prod.fst).Nodup → l.lookup p = some h →
    ∀ A, liveBytes A (l.filterMap (fun x => match x.2 with | .store n => some n | .slab => none)) =
      (match h with | .store n => ((n : Int) + A) | .slab => 0) +
      liveBytes A ((l.filter (fun x => x.1 != p)).filterMap (fun x => match x.2 with | .store n => some n | .slab => none)) := by
  intro l
  induction l with
  | nil => intro p h _ hl; cases hl
  | cons x xs ih =>
    obtain ⟨a, hx⟩ := x
    intro p h hnd hl A
    simp only [List.map_cons, List.nodup_cons] at hnd
    by_cases hap : a = p
    · subst hap
      simp only [List.lookup_cons_self, Option.some.injEq] at hl
      subst hl
      have hfil : xs.filter (fun x => x.1 != a) = xs := by
        rw [List.filter_eq_self]
        intro y hy
        have : y.1 ≠ a := fun e => hnd.1 (e ▸ List.mem_map_of_mem hy)
        simpa using this
      cases hx with
      | store n => simp [hfil, liveBytes_cons]
      | slab => simp [hfil]
    · have hl' : xs.lookup p = some h := by
        have : (p == a) = false := by simpa using fun e => hap e.symm
        simpa [List.lookup, this] using hl
      have := ih p h hnd.2 hl' A
      have hne : (a != p) = true := by simpa using hap
      simp only [List.filter_cons, hne, if_true]
      cases hx with
      | store n => simp only [List.filterMap_cons, liveBytes_cons]; rw [this]; ring
      | slab => simpa using this

theorem dropPtr_nodup (st : Store) (p : Nat) (h : (st.live.map Prod.fst).Nodup) :
    ((dropPtr st p).live.map Prod.fst).Nodup := by
  exact h.sublist (List.Sublist.map _ List.filter_sublist)

theorem dropPtr_not_mem (st : Store) (p : Nat) : p ∉ (dropPtr st p).live.map Prod.fst := by
  simp [dropPtr]

/-- **The free-store counter is exact: `tp_malloc`.** -/
theorem tpMalloc_exact (A : Nat) (st : Store) (fresh s : Nat) (hi : StoreInv A st)
    (hf : fresh ∉ st.live.map Prod.fst) : StoreInv A (tpMalloc A st fresh s).2 := by
  unfold tpMalloc
  split
  · exact hi
  · refine ⟨?_, ?_⟩
    · show ((fresh, Header.store s) :: st.live |>.map Prod.fst).Nodup
      rw [List.map_cons]
      exact List.nodup_cons.2 ⟨hf, hi.nodup⟩
    · show st.counter + ((s : Int) + A) = liveBytes A (storeSizes { st with live := (fresh, .store s) :: st.live, counter := _ })
      have : storeSizes { st with live := (fresh, .store s) :: st.live, counter := st.counter + ((s : Int) + A) } = s :: storeSizes st := rfl
      rw [this, liveBytes_cons, hi.exact]; ring

/-- **The free-store counter is exact: `tp_free`.**  It succeeds on every live pointer and on null. -/
theorem tpFree_exact (A : Nat) (st : Store) (p : Option Nat) (st' : Store) (hi : StoreInv A st)
    (h : tpFree A st p = some st') : StoreInv A st' := by
  cases p with
  | none => simp only [tpFree, Option.some.injEq] at h; subst h; exact hi
  | some p =>
    simp only [tpFree] at h
    split at h
    · cases h
    · rename_i s hh
      cases h
      refine ⟨dropPtr_nodup st p hi.nodup, ?_⟩
      have := dropPtr_sizes st.live p _ hi.nodup hh A
      show st.counter + (-(s : Int) - A) = liveBytes A (storeSizes (dropPtr st p))
      rw [hi.exact]
      simp only [storeSizes, dropPtr] at *
      rw [this]; ring
    · rename_i hh
      cases h
      refine ⟨dropPtr_nodup st p hi.nodup, ?_⟩
      have := dropPtr_sizes st.live p _ hi.nodup hh A
      show st.counter = liveBytes A (storeSizes (dropPtr st p))
      rw [hi.exact]
      simp only [storeSizes, dropPtr] at *
      rw [this]; ring

/-- **The free-store counter is exact: `tp_realloc`**, provided the caller passes the size the block really has (for
free-store blocks) and the new place is not in use by another block. -/
theorem tpRealloc_exact (A : Nat) (st : Store) (fresh : Nat) (p : Option Nat) (old new : Nat) (r : Option Nat) (st' : Store)
    (hi : StoreInv A st) (hf : ∀ x ∈ st.live, x.1 = fresh → some x.1 = p ∧ x.2 ≠ .slab)
    (hold : ∀ q n, p = some q → header? st q = some (.store n) → n = old)
    (h : tpRealloc A st fresh p old new = some (r, st')) : StoreInv A st' := by
  cases p with
  | none =>
    simp only [tpRealloc, Option.some.injEq] at h
    have : st' = (tpMalloc A st fresh new).2 := by rw [h]
    rw [this]
    refine tpMalloc_exact A st fresh new hi ?_
    intro hm
    obtain ⟨x, hx, hxe⟩ := List.mem_map.1 hm
    exact absurd (hf x hx hxe).1 (by simp)
  | some p =>
    simp only [tpRealloc] at h
    split at h
    · -- new = 0: free
      cases hq : tpFree A st (some p) with
      | none => rw [hq] at h; cases h
      | some st1 =>
        rw [hq] at h
        simp only [Option.map_some, Option.some.injEq, Prod.mk.injEq] at h
        rw [← h.2]
        exact tpFree_exact A st (some p) st1 hi hq
    · split at h
      · cases h
      · rename_i n hh
        cases h
        have hn := hold p n rfl hh
        subst hn
        refine ⟨?_, ?_⟩
        · show ((fresh, Header.store new) :: (dropPtr st p).live |>.map Prod.fst).Nodup
          rw [List.map_cons]
          refine List.nodup_cons.2 ⟨?_, dropPtr_nodup st p hi.nodup⟩
          intro hm
          obtain ⟨x, hx, hxe⟩ := List.mem_map.1 hm
          have hx' := List.mem_filter.1 hx
          have := (hf x hx'.1 hxe).1
          simp only [Option.some.injEq] at this
          simp [this] at hx'
        · have := dropPtr_sizes st.live p _ hi.nodup hh A
          show st.counter + ((new : Int) - n) = liveBytes A (new :: storeSizes (dropPtr st p))
          rw [liveBytes_cons, hi.exact]
          simp only [storeSizes, dropPtr] at *
          rw [this]; ring
      · rename_i hnew hh
        cases h
        have hfresh : fresh ∉ st.live.map Prod.fst := by
          intro hm
          obtain ⟨x, hx, hxe⟩ := List.mem_map.1 hm
          have h1 := hf x hx hxe
          have hxp : x.1 = p := by simpa using h1.1
          -- the header of p is a slab header, so x has one too
          have : st.live.lookup p = some x.2 := by
            have hnd := hi.nodup
            clear hm hxe h1 hh
            revert hx hnd
            generalize st.live = l
            induction l with
            | nil => intro hx; cases hx
            | cons y ys ih =>
              intro hx hnd
              obtain ⟨a, b⟩ := y
              simp only [List.map_cons, List.nodup_cons] at hnd
              rcases List.mem_cons.1 hx with rfl | hx
              · simp only at hxp; subst hxp; simp [List.lookup]
              · have hne : (p == a) = false := by
                  simp only [beq_eq_false_iff_ne, ne_eq]
                  intro e
                  exact hnd.1 (by rw [← e, ← hxp]; exact List.mem_map_of_mem hx)
                simp only [List.lookup, hne]
                exact ih hx hnd.2
          have h2 : some x.2 = some Header.slab := by rw [← this]; exact hh
          exact h1.2 (by simpa using h2)
        have hm := tpMalloc_exact A st fresh new hi hfresh
        have hne : new ≠ 0 := by assumption
        have hpf : p ≠ fresh := by
          intro e
          have hmem : ∀ (l : List (Nat × Header)) (v : Header), l.lookup p = some v → p ∈ l.map Prod.fst := by
            intro l
            induction l with
            | nil => intro v hv; cases hv
            | cons y ys ih =>
              intro v hv
              by_cases hy : p = y.1
              · simp [hy]
              · have : (p == y.1) = false := by simpa using hy
                simp only [List.lookup, this] at hv
                exact List.mem_cons_of_mem _ (ih v hv)
          exact hfresh (e ▸ hmem _ _ hh)
        have hh2 : header? (tpMalloc A st fresh new).2 p = some .slab := by
          simp only [tpMalloc, hne, if_false, header?]
          have : (p == fresh) = false := by simpa using hpf
          simp only [List.lookup, this]
          exact hh
        refine ⟨dropPtr_nodup _ p hm.nodup, ?_⟩
        have := dropPtr_sizes _ p _ hm.nodup hh2 A
        have he := hm.exact
        show (dropPtr (tpMalloc A st fresh new).2 p).counter = liveBytes A (storeSizes (dropPtr (tpMalloc A st fresh new).2 p))
        simp only [storeSizes, dropPtr] at *
        rw [he, this]; ring

/-- A malloc, a growing realloc and a free, with the counter following: 24+16, 100+16, 0. -/
example : (tpMalloc 16 ⟨[], 0, []⟩ 1000 24).2.counter = 40 ∧
    ((tpRealloc 16 (tpMalloc 16 ⟨[], 0, []⟩ 1000 24).2 2000 (some 1000) 24 100).map (·.2.counter)) = some 116 ∧
    ((tpRealloc 16 (tpMalloc 16 ⟨[], 0, []⟩ 1000 24).2 2000 (some 1000) 24 100).bind
      (fun r => (tpFree 16 r.2 (some 2000)).map (·.counter))) = some 0 := by decide

/-- The old size must be right: the counter trusts the caller instead of the header, so a wrong one makes it drift. -/
theorem tpRealloc_trusts_caller :
    ∃ st', tpRealloc 16 (tpMalloc 16 ⟨[], 0, []⟩ 1000 24).2 2000 (some 1000) 8 100 = some (some 2000, st') ∧
      st'.counter ≠ liveBytes 16 (storeSizes st') := by
  refine ⟨_, rfl, ?_⟩
  decide

end Verif.Slab
