import Verif.Ptr.Spec
import Mathlib.Tactic.Ring
import Mathlib.Tactic.Linarith
/-
C120: pointers are pointers as in C.
-/
namespace Verif.Ptr

theorem toNat_of_int (a : Addr) (d : Int) (s r : Nat) (h : (a.toNat : Int) + d * s = r) (hr : r < 2 ^ 64) :
    (a + BitVec.ofInt 64 d * BitVec.ofNat 64 s).toNat = r := by
  have h1 : a + BitVec.ofInt 64 d * BitVec.ofNat 64 s = BitVec.ofInt 64 (a.toNat + d * s) := by
    rw [BitVec.ofInt_add, BitVec.ofInt_mul, BitVec.ofInt_natCast, BitVec.ofInt_natCast, BitVec.ofNat_toNat]
    simp
  rw [h1, h, BitVec.ofInt_natCast, BitVec.toNat_ofNat, Nat.mod_eq_of_lt hr]

/-- C120: `p + d` is `d` elements further, in either direction, as long as it stays within the array or right behind it; compiled or not. -/
theorem add_right (s n : Nat) (a p : Addr) (i j : Nat) (d : Int) (ha : Array s n a) (hj : j ≤ n) (hp : At s a i p) (hd : (i : Int) + d = j) :
    ∃ q, addC s p (.int d) = .ok q ∧ At s a j q ∧ (fits d = true → addI s p (.int d) = .ok q) := by
  unfold Array at ha
  unfold At at hp ⊢
  have hjs : j * s ≤ n * s := Nat.mul_le_mul_right s hj
  refine ⟨_, rfl, ?_, fun h => by simp [addI, h, offsetBy]⟩
  apply toNat_of_int
  · rw [hp]; push_cast; rw [← hd]; ring
  · omega

/-- The difference of two pointers into an array, as a number of bytes. -/
theorem sub_bytes (s n : Nat) (a p q : Addr) (i j : Nat) (ha : Array s n a) (hi : i ≤ n) (hj : j ≤ n) (hp : At s a i p) (hq : At s a j q) :
    (p - q).toInt = ((i : Int) - j) * s := by
  unfold Array at ha
  unfold At at hp hq
  have his : i * s ≤ n * s := Nat.mul_le_mul_right s hi
  have hjs : j * s ≤ n * s := Nat.mul_le_mul_right s hj
  rw [BitVec.toInt_sub, BitVec.toInt_eq_toNat_of_lt (by omega), BitVec.toInt_eq_toNat_of_lt (by omega), hp, hq]
  have : ((i : Int) - j) * s = ((i * s : Nat) : Int) - ((j * s : Nat) : Int) := by push_cast; ring
  rw [this, Int.bmod_eq_of_le (by push_cast; omega) (by push_cast; omega)]
  push_cast; omega

theorem size_toInt {s n : Nat} {a : Addr} (ha : Array s n a) (hn : 0 < n) : (BitVec.ofNat 64 s).toInt = s := by
  unfold Array at ha
  have : 1 * s ≤ n * s := Nat.mul_le_mul_right s hn
  rw [BitVec.toInt_eq_toNat_of_lt (by rw [BitVec.toNat_ofNat, Nat.mod_eq_of_lt (by omega)]; omega), BitVec.toNat_ofNat, Nat.mod_eq_of_lt (by omega)]

/-- C120: in compiled code, `p - q` is the number of elements from `q` to `p`. -/
theorem sub_compiled (s n : Nat) (a p q : Addr) (i j : Nat) (hs : 0 < s) (ha : Array s n a) (hi : i ≤ n) (hj : j ≤ n) (hp : At s a i p) (hq : At s a j q) :
    subC s p (.ptr q) = .ok ((i : Int) - j) := by
  have hb := sub_bytes s n a p q i j ha hi hj hp hq
  simp only [subC, Nat.pos_iff_ne_zero.mp hs, if_false]
  congr 1
  rcases Nat.eq_zero_or_pos n with hn | hn
  · have hi0 : i = 0 := by omega
    have hj0 : j = 0 := by omega
    subst hi0; subst hj0
    have : p - q = 0 := BitVec.eq_of_toInt_eq (by rw [hb]; simp)
    rw [this]; simp
  · have hsz := size_toInt ha hn
    rw [BitVec.toInt_sdiv, hb, hsz, Int.mul_tdiv_cancel _ (by omega)]
    unfold Array at ha
    have hns : n ≤ n * s := Nat.le_mul_of_pos_right n hs
    rw [Int.bmod_eq_of_le (by push_cast; omega) (by push_cast; omega)]

/-- C120: in the interpreter it is so if `p` is not in front of `q`. -/
theorem sub_interpreted_partial (s n : Nat) (a p q : Addr) (i j : Nat) (hs : 0 < s) (ha : Array s n a) (hi : i ≤ n) (hji : j ≤ i) (hp : At s a i p)
    (hq : At s a j q) : subI s p (.ptr q) = .ok ((i : Int) - j) := by
  simp only [subI, Nat.pos_iff_ne_zero.mp hs, if_false]
  congr 1
  unfold Array at ha
  unfold At at hp hq
  have his : i * s ≤ n * s := Nat.mul_le_mul_right s hi
  have hjs : j * s ≤ i * s := Nat.mul_le_mul_right s hji
  have hd : (p - q).toNat = (i - j) * s := by
    rw [BitVec.toNat_sub, hp, hq, Nat.sub_mul]
    omega
  have hle : i - j ≤ (i - j) * s := Nat.le_mul_of_pos_right _ hs
  have hds : (i - j) * s = i * s - j * s := Nat.sub_mul ..
  have hq' : ((p - q) / BitVec.ofNat 64 s).toNat = i - j := by
    rw [BitVec.toNat_udiv, hd, BitVec.toNat_ofNat]
    rcases Nat.eq_zero_or_pos (i - j) with h0 | h0
    · rw [h0]; simp
    · have : 1 * s ≤ (i - j) * s := Nat.mul_le_mul_right s h0
      rw [Nat.mod_eq_of_lt (by omega), Nat.mul_div_cancel _ hs]
  rw [BitVec.toInt_eq_toNat_of_lt (by rw [hq']; omega), hq']
  omega

/-- C120: pointers into an array are ordered as the positions that they point to, compiled or not. -/
theorem order_right (s n : Nat) (a p q : Addr) (i j : Nat) (op : Cmp) (hs : 0 < s) (ha : Array s n a) (hi : i ≤ n) (hj : j ≤ n) (hp : At s a i p)
    (hq : At s a j q) : (cmpI op p q = true ↔ op.holds i j) ∧ (cmpC op p q = true ↔ op.holds i j) := by
  unfold Array at ha
  unfold At at hp hq
  have his : i * s ≤ n * s := Nat.mul_le_mul_right s hi
  have hjs : j * s ≤ n * s := Nat.mul_le_mul_right s hj
  have hlt : i < j ↔ i * s < j * s := (Nat.mul_lt_mul_right hs).symm
  have hgt : j < i ↔ j * s < i * s := (Nat.mul_lt_mul_right hs).symm
  have h1 : p < q ↔ i < j := by rw [BitVec.lt_def, hp, hq, hlt]; omega
  have h2 : q < p ↔ j < i := by rw [BitVec.lt_def, hp, hq, hgt]; omega
  have h3 : p.slt q = true ↔ i < j := by
    rw [BitVec.slt_iff_toInt_lt, BitVec.toInt_eq_toNat_of_lt (by omega), BitVec.toInt_eq_toNat_of_lt (by omega), hp, hq, hlt]; omega
  have h4 : q.slt p = true ↔ j < i := by
    rw [BitVec.slt_iff_toInt_lt, BitVec.toInt_eq_toNat_of_lt (by omega), BitVec.toInt_eq_toNat_of_lt (by omega), hp, hq, hgt]; omega
  have h5 : p.sle q = true ↔ i ≤ j := by
    rw [BitVec.sle_iff_toInt_le, BitVec.toInt_eq_toNat_of_lt (by omega), BitVec.toInt_eq_toNat_of_lt (by omega), hp, hq]; omega
  have h6 : q.sle p = true ↔ j ≤ i := by
    rw [BitVec.sle_iff_toInt_le, BitVec.toInt_eq_toNat_of_lt (by omega), BitVec.toInt_eq_toNat_of_lt (by omega), hp, hq]; omega
  have h7 : p = q ↔ i = j := by
    constructor
    · intro h; subst h; omega
    · intro h; subst h; exact BitVec.eq_of_toNat_eq (by omega)
  constructor
  · simp only [cmpI, h1, h2]
    cases op <;> simp only [Cmp.holds] <;> (split <;> try split) <;> simp <;> omega
  · cases op <;> simp only [cmpC, Cmp.holds, h3, h4, h5, h6, beq_iff_eq, bne_iff_ne, ne_eq, h7] <;> omega

/-! ### Memory -/

theorem write_outside : ∀ (bs : List Byte) (m : Memory) (a x : Addr), a.toNat + bs.length < 2 ^ 64 → x.toNat < a.toNat ∨ a.toNat + bs.length ≤ x.toNat →
    write m a bs x = m x
  | [], _, _, _, _, _ => rfl
  | b :: bs, m, a, x, h, hx => by
    simp only [List.length_cons] at h hx
    have h1 : (a + 1).toNat = a.toNat + 1 := by rw [BitVec.toNat_add]; simp; omega
    have : x ≠ a := by intro e; subst e; omega
    simp only [write, this, if_false]
    exact write_outside bs m (a + 1) x (by omega) (by omega)

theorem write_inside : ∀ (bs : List Byte) (m : Memory) (a : Addr) (k : Nat) (hk : k < bs.length), a.toNat + bs.length < 2 ^ 64 →
    write m a bs (a + BitVec.ofNat 64 k) = bs[k]
  | [], _, _, _, hk, _ => absurd hk (by simp)
  | b :: bs, m, a, 0, _, _ => by simp [write]
  | b :: bs, m, a, k + 1, hk, h => by
    simp only [List.length_cons] at h hk
    have h1 : (a + 1).toNat = a.toNat + 1 := by rw [BitVec.toNat_add]; simp; omega
    have h2 : a + BitVec.ofNat 64 (k + 1) = a + 1 + BitVec.ofNat 64 k := by
      apply BitVec.eq_of_toNat_eq
      simp only [BitVec.toNat_add, BitVec.toNat_ofNat, h1]
      omega
    have h3 : a + BitVec.ofNat 64 (k + 1) ≠ a := by
      intro e
      have := congrArg BitVec.toNat e
      simp only [BitVec.toNat_add, BitVec.toNat_ofNat] at this
      omega
    simp only [write, h3, if_false, List.getElem_cons_succ]
    rw [h2]
    exact write_inside bs m (a + 1) k (by omega) (by omega)

/-- What is written is read. -/
theorem read_write (m : Memory) (a : Addr) (v : List Byte) (h : a.toNat + v.length < 2 ^ 64) : read (write m a v) a v.length = v := by
  apply List.ext_getElem
  · simp [read]
  · intro k h1 h2
    simp only [read, List.getElem_map, List.getElem_range]
    exact write_inside v m a k h2 h

/-- What is elsewhere stays. -/
theorem read_elsewhere (m : Memory) (a b : Addr) (v : List Byte) (s : Nat) (h : a.toNat + v.length < 2 ^ 64) (hb : b.toNat + s < 2 ^ 64)
    (hd : b.toNat + s ≤ a.toNat ∨ a.toNat + v.length ≤ b.toNat) : read (write m a v) b s = read m b s := by
  apply List.map_congr_left
  intro k hk
  rw [List.mem_range] at hk
  apply write_outside v m a _ h
  rw [BitVec.toNat_add, BitVec.toNat_ofNat]
  omega

/-- C120: after `p[d] = v` element `i + d` is `v` and all others are as before, and so is all memory outside it; compiled or not.  `p[d]` then
gives `v`, and `p[e]` for another position what it gave. -/
theorem item_right (s n : Nat) (a p : Addr) (m : Memory) (i j : Nat) (d : Int) (v : List Byte) (hv : v.length = s) (ha : Array s n a) (hj : j < n)
    (hp : At s a i p) (hd : (i : Int) + d = j) :
    ∃ m', setC s m p (.int d) v = .ok m' ∧ setI s m p (.int d) v = .ok m' ∧ getC s m' p (.int d) = .ok v ∧ getI s m' p (.int d) = .ok v ∧
      OnlyThere m m' (a.toNat + j * s) s ∧
      ∀ (k : Nat) (e : Int), k < n → k ≠ j → (i : Int) + e = k → getC s m' p (.int e) = getC s m p (.int e) ∧ getI s m' p (.int e) = getI s m p (.int e) := by
  obtain ⟨q, h1, h2, _⟩ := add_right s n a p i j d ha hj.le hp hd
  have hq : p + BitVec.ofInt 64 d * BitVec.ofNat 64 s = q := by simpa [addC] using h1
  unfold Array at ha
  have h2' := h2
  unfold At at h2'
  have hjs : (j + 1) * s ≤ n * s := Nat.mul_le_mul_right s hj
  have hjs' : (j + 1) * s = j * s + s := Nat.succ_mul j s
  refine ⟨write m q v, by simp [setC, h1], by simp [setI, indexI, offsetBy, hq], ?_, ?_, ?_, ?_⟩
  · simp only [getC, h1]; rw [← hv, read_write _ _ _ (by omega)]
  · simp only [getI, indexI, offsetBy, hq]; rw [← hv, read_write _ _ _ (by omega)]
  · intro x hx
    exact write_outside v m q x (by omega) (by omega)
  · intro k e hk hkj he
    obtain ⟨r, h3, h4, _⟩ := add_right s n a p i k e ha hk.le hp he
    have hr : p + BitVec.ofInt 64 e * BitVec.ofNat 64 s = r := by simpa [addC] using h3
    unfold At at h4
    have hks : (k + 1) * s ≤ n * s := Nat.mul_le_mul_right s hk
    have hks' : (k + 1) * s = k * s + s := Nat.succ_mul k s
    have hkj' : (k + 1) * s ≤ j * s ∨ (j + 1) * s ≤ k * s := by
      rcases Nat.lt_or_gt_of_ne hkj with h | h
      · exact .inl (Nat.mul_le_mul_right s h)
      · exact .inr (Nat.mul_le_mul_right s h)
    have := read_elsewhere m q r v s (by omega) (by omega) (by omega)
    exact ⟨by simp only [getC, h3, this], by simp only [getI, indexI, offsetBy, hr, this]⟩

/-! ### Members -/

theorem offsets_get : ∀ (sizes : List Nat) (at_ i : Nat), (offsets at_ sizes)[i]? = if i < sizes.length then some (at_ + (sizes.take i).sum) else none
  | [], _, _ => by simp [offsets]
  | s :: ss, at_, 0 => by simp [offsets]
  | s :: ss, at_, i + 1 => by
    simp only [offsets, List.getElem?_cons_succ, offsets_get ss (at_ + s) i, List.length_cons, Nat.add_lt_add_iff_right, List.take_succ_cons, List.sum_cons]
    split <;> simp [Nat.add_assoc]

/-- C120: compiled code and the interpreter agree on where a member is. -/
theorem member_same (sizes : List Nat) (p : Addr) (i : Nat) : memberC sizes p i = memberI sizes p i := by
  simp only [memberC, memberI, offsets_get, Nat.zero_add]
  split <;> rfl

theorem take_sum_le (sizes : List Nat) (i : Nat) : (sizes.take i).sum ≤ sizes.sum := by
  conv => rhs; rw [← List.take_append_drop i sizes, List.sum_append]
  omega

theorem take_succ_sum {sizes : List Nat} {i : Nat} (hi : i < sizes.length) : (sizes.take (i + 1)).sum = (sizes.take i).sum + sizes[i] := by
  rw [List.take_succ_eq_append_getElem hi, List.sum_append]; simp

theorem take_sum_mono (sizes : List Nat) {i j : Nat} (h : i ≤ j) : (sizes.take i).sum ≤ (sizes.take j).sum := by
  have : sizes.take i = (sizes.take j).take i := by rw [List.take_take, Nat.min_eq_left h]
  rw [this]
  exact take_sum_le _ _

/-- C120: `p.x.set(v)` changes the member `x` of the element that `p` points to, no other member of it and nothing outside it. -/
theorem member_right (sizes : List Nat) (n : Nat) (a p : Addr) (m : Memory) (i x : Nat) (v : List Byte) (ha : Array sizes.sum n a) (hi : i < n)
    (hp : At sizes.sum a i p) (hx : x < sizes.length) (hv : v.length = sizes[x]) :
    ∃ q, memberI sizes p x = some q ∧ read (write m q v) q sizes[x] = v ∧
      OnlyThere m (write m q v) (a.toNat + i * sizes.sum) sizes.sum ∧
      ∀ (y : Nat) (hy : y < sizes.length), y ≠ x → ∃ r, memberI sizes p y = some r ∧ read (write m q v) r sizes[y] = read m r sizes[y] := by
  unfold Array at ha
  unfold At at hp
  have his : (i + 1) * sizes.sum ≤ n * sizes.sum := Nat.mul_le_mul_right _ hi
  have his' : (i + 1) * sizes.sum = i * sizes.sum + sizes.sum := Nat.succ_mul ..
  have hsum : ∀ y (hy : y < sizes.length), (sizes.take y).sum + sizes[y] ≤ sizes.sum := by
    intro y hy
    rw [← take_succ_sum hy]
    exact take_sum_le _ _
  have hat : ∀ y (hy : y < sizes.length), (p + BitVec.ofNat 64 (sizes.take y).sum).toNat = p.toNat + (sizes.take y).sum := by
    intro y hy
    have := hsum y hy
    rw [BitVec.toNat_add, BitVec.toNat_ofNat]
    omega
  have hm : ∀ y (_ : y < sizes.length), memberI sizes p y = some (p + BitVec.ofNat 64 (sizes.take y).sum) := by
    intro y hy
    rw [← member_same]; simp [memberC, hy]
  have h1 := hat x hx
  have h2 := hsum x hx
  refine ⟨_, hm x hx, ?_, ?_, ?_⟩
  · rw [← hv]; exact read_write _ _ _ (by omega)
  · intro z hz
    exact write_outside v m _ z (by omega) (by omega)
  · intro y hy hyx
    have h3 := hat y hy
    have h4 := hsum y hy
    refine ⟨_, hm y hy, read_elsewhere m _ _ v _ (by omega) (by omega) ?_⟩
    rcases Nat.lt_or_gt_of_ne hyx with h | h
    · have := take_sum_mono sizes (Nat.succ_le_of_lt h)
      rw [Nat.succ_eq_add_one, take_succ_sum hy] at this
      omega
    · have := take_sum_mono sizes (Nat.succ_le_of_lt h)
      rw [Nat.succ_eq_add_one, take_succ_sum hx] at this
      omega

/-- C120: a pointer is false exactly if it is null, compiled or not, and the integer of a pointer to an element is its address. -/
theorem bool_right (p : Addr) : (boolI p = true ↔ p.toNat ≠ 0) ∧ (boolC p = true ↔ p.toNat ≠ 0) ∧ (p.toNat < 2 ^ 63 → intI p = p.toNat ∧ intC p = p.toNat) := by
  have h : p = 0#64 ↔ p.toNat = 0 := by rw [← BitVec.toNat_inj]; simp
  refine ⟨by simp [boolI, h], by simp [boolC, h], fun hp => ⟨rfl, ?_⟩⟩
  exact BitVec.toInt_eq_toNat_of_lt (by omega)

/-! ### Cases -/

/-- Ten integers at the address 4096. -/
example : Array 8 10 4096 ∧ At 8 4096 3 4120 := by constructor <;> simp [Array, At]
example : addI 8 4120 (.int (-3)) = .ok 4096 ∧ addC 8 4120 (.int (-3)) = .ok 4096 := by decide +kernel
example : subC 8 4096 (.ptr 4120) = .ok (-3) ∧ subI 8 4120 (.ptr 4096) = .ok 3 := by decide +kernel
example : cmpI .lt 4096 4120 = true ∧ cmpC .ge 4096 4120 = false := by decide +kernel
example : memberI [8, 1, 4] 4096 2 = some 4105 ∧ memberC [8, 1, 4] 4096 3 = none := by decide +kernel
example : getI 2 (write (fun _ => 0) 4098 [7, 9]) 4096 (.int 1) = .ok [7, 9] := by decide +kernel

end Verif.Ptr
