import Verif.Compare.Compiled
import Verif.Compare.Total
/-
Compiled code compares and hashes as the interpreter does.
-/
namespace Verif.Compare
open Verif.Conv (Reg)

variable {M : Data → Data → Op → Bool}

/-! ### The order, read in either direction -/

/-- The order of `a` and `b`, or of `b` and `a`. -/
def dir (rev : Bool) (o : Ordering) : Ordering := if rev then o.swap else o

theorem dir_eq (rev : Bool) (o : Ordering) : dir rev o = .eq ↔ o = .eq := by cases rev <;> cases o <;> simp [dir]

theorem dir_not (rev : Bool) (o : Ordering) : dir (!rev) o = (dir rev o).swap := by cases rev <;> cases o <;> simp [dir]

theorem dir_then (rev : Bool) (o o' : Ordering) : dir rev (o.then o') = (dir rev o).then (dir rev o') := by
  cases rev <;> simp [dir, Ordering.swap_then]

theorem holds_dir_eq (rev : Bool) (o : Ordering) : Op.holds .eq (dir rev o) = Op.holds .eq o := by cases rev <;> cases o <;> rfl

theorem holds_dir_ne (rev : Bool) (o : Ordering) : Op.holds .ne (dir rev o) = Op.holds .ne o := by cases rev <;> cases o <;> rfl

theorem icmp_holds (a b : Int) (op : Op) : icmp a b op = op.holds (compare a b) := by
  rcases Int.lt_trichotomy a b with h | h | h
  · rw [Int.compare_eq_lt.2 h]; cases op <;> simp [icmp, Op.holds, bne, show (Ordering.lt == Ordering.eq) = false from rfl,
      show (Ordering.gt == Ordering.eq) = false from rfl, show (Ordering.lt == Ordering.gt) = false from rfl,
      show (Ordering.gt == Ordering.lt) = false from rfl] <;> omega
  · subst h; cases op <;> simp [icmp, Op.holds]
  · rw [Int.compare_eq_gt.2 h]; cases op <;> simp [icmp, Op.holds, bne, show (Ordering.lt == Ordering.eq) = false from rfl,
      show (Ordering.gt == Ordering.eq) = false from rfl, show (Ordering.lt == Ordering.gt) = false from rfl,
      show (Ordering.gt == Ordering.lt) = false from rfl] <;> omega

theorem icmp_dir (rev : Bool) (a b : Int) (op : Op) :
    (if rev = true then icmp b a op else icmp a b op) = op.holds (dir rev (compare a b)) := by
  cases rev
  · simpa [dir] using icmp_holds a b op
  · simp only [dir, if_true, Int.compare_swap]; exact icmp_holds b a op

theorem fcmp_dir {a b : Nat} (ha : isNaN a = false) (hb : isNaN b = false) (rev : Bool) (op : Op) :
    (if rev = true then fcmp b a op else fcmp a b op) = op.holds (dir rev (compare (fkey a) (fkey b))) := by
  simp only [fcmp, ha, hb, Bool.not_false, Bool.true_and]
  exact icmp_dir rev _ _ op

theorem text_dir (rev : Bool) (a b : List Nat) (op : Op) :
    (if rev = true then ofSign (textSign b a) op else ofSign (textSign a b) op) = op.holds (dir rev (textOrder a b)) := by
  cases rev
  · simp [dir, textSign_eq, ofSign_sgn]
  · simp [dir, textSign_eq, ofSign_sgn, textOrder_swap]

theorem alt_dir (E : Nat → List Ty) {i j : Nat} {a b : Data} {t : Ty} (ha : has E (.alt i a) t = true) (hb : has E (.alt j b) t = true)
    (na : noNaN (.alt i a) = true) (nb : noNaN (.alt j b) = true) (rev : Bool) (op : Op) :
    (if rev = true then cmp (.alt j b) (.alt i a) op else cmp (.alt i a) (.alt j b) op) =
      op.holds (dir rev (order (.alt i a) (.alt j b))) := by
  cases rev
  · simpa [dir] using cmp_order E _ _ t ha hb na nb op
  · simp only [dir, if_true, order_swap]; exact cmp_order E _ _ t hb ha nb na op

/-! ### Equality -/

theorem eqOf_eq {rev : Bool} : ∀ as bs : List Data,
    (∀ k : Nat, ∀ a b, as[k]? = some a → bs[k]? = some b → cc M rev a b .ne = some (order a b != .eq)) → as.length = bs.length →
    eqOf M rev as bs = some (orderAll as bs == .eq)
  | [], [], _, _ => by simp [eqOf, orderAll]
  | [], _ :: _, _, h => by simp at h
  | _ :: _, [], _, h => by simp at h
  | a :: as, b :: bs, h, hl => by
    rw [eqOf, orderAll, h 0 a b rfl rfl,
      eqOf_eq as bs (fun k x y h1 h2 => h (k + 1) x y (by simpa using h1) (by simpa using h2)) (by simpa using hl)]
    cases order a b <;> rfl

theorem eqFields_eq {rev : Bool} : ∀ as bs : List Data,
    (∀ k : Nat, ∀ a b, as[k]? = some a → bs[k]? = some b → cc M rev a b .eq = some (order a b == .eq)) → as.length = bs.length →
    eqFields M rev as bs = some (orderAll as bs == .eq)
  | [], [], _, _ => by simp [eqFields, orderAll]
  | [], _ :: _, _, h => by simp at h
  | _ :: _, [], _, h => by simp at h
  | a :: as, b :: bs, h, hl => by
    rw [eqFields, orderAll, h 0 a b rfl rfl,
      eqFields_eq as bs (fun k x y h1 h2 => h (k + 1) x y (by simpa using h1) (by simpa using h2)) (by simpa using hl)]
    cases order a b <;> rfl

theorem distincts_get : ∀ ts, distincts ts = true → ∀ (k : Nat) t, ts[k]? = some t → distinct t = true
  | [], _, k, t, h => by simp at h
  | u :: ts, h, k, t, hk => by
    simp only [distincts, Bool.and_eq_true] at h
    cases k with
    | zero => simp only [List.getElem?_cons_zero, Option.some.injEq] at hk; exact hk ▸ h.1
    | succ k => exact distincts_get ts h.2 k t (by simpa using hk)

theorem noOneOfs_get : ∀ ts, noOneOfs ts = true → ∀ (k : Nat) t, ts[k]? = some t → noOneOf t = true
  | [], _, k, t, h => by simp at h
  | u :: ts, h, k, t, hk => by
    simp only [noOneOfs, Bool.and_eq_true] at h
    cases k with
    | zero => simp only [List.getElem?_cons_zero, Option.some.injEq] at hk; exact hk ▸ h.1
    | succ k => exact noOneOfs_get ts h.2 k t (by simpa using hk)

/-- Values of types of different kinds know nothing of each other. -/
theorem cc_apart (E : Nat → List Ty) {a b : Data} {t u : Ty} (ha : has E a t = true) (hb : has E b u = true) (hk : kind t ≠ kind u)
    (rev : Bool) (op : Op) : cc M rev a b op = unrelated op := by
  cases a <;> cases t <;> first | (simp [has] at ha; done) | skip <;>
    cases b <;> cases u <;> first | (simp [has] at hb; done) | (simp [kind] at hk; done) | rfl

theorem pair_ty {E : Nat → List Ty} {ts : List Ty} {as bs : List Data} (ha : hasAll E as ts = true) (hb : hasAll E bs ts = true)
    {k : Nat} {a b : Data} (h1 : as[k]? = some a) (h2 : bs[k]? = some b) :
    ∃ t, ts[k]? = some t ∧ has E a t = true ∧ has E b t = true := by
  obtain ⟨t, ht, h⟩ := (hasAll_get E as ts ha).2 k a h1
  obtain ⟨t', ht', h'⟩ := (hasAll_get E bs ts hb).2 k b h2
  rw [ht] at ht'
  cases ht'
  exact ⟨t, ht, h, h'⟩

/-- Compiled `==` and `!=` answer by the order, if alternatives of OneOfs are of different kinds. -/
theorem cc_eq (E : Nat → List Ty) : ∀ a b t, has E a t = true → has E b t = true → noNaN a = true → noNaN b = true → distinct t = true →
    ∀ rev, cc M rev a b .eq = some (order a b == .eq) ∧ cc M rev a b .ne = some (order a b != .eq) := by
  intro a
  induction a using Data.ind with
  | none =>
    intro b t ha hb _ _ _ rev
    cases like E ha hb
    exact ⟨by trivial, by trivial⟩
  | num r n =>
    intro b t ha hb _ _ _ rev
    cases like E ha hb
    simp only [cc, if_true, icmp_dir, holds_dir_eq, holds_dir_ne, order]
    exact ⟨by trivial, by trivial⟩
  | flt s x =>
    intro b t ha hb na nb _ rev
    cases like E ha hb
    simp only [noNaN, Bool.not_eq_true'] at na nb
    simp only [cc, if_true, fcmp_dir na nb, holds_dir_eq, holds_dir_ne, order]
    exact ⟨by trivial, by trivial⟩
  | str p =>
    intro b t ha hb _ _ _ rev
    cases like E ha hb
    simp only [cc, text_dir, holds_dir_eq, holds_dir_ne, order]
    exact ⟨by trivial, by trivial⟩
  | bytes p =>
    intro b t ha hb _ _ _ rev
    cases like E ha hb
    simp only [cc, text_dir, holds_dir_eq, holds_dir_ne, order]
    exact ⟨by trivial, by trivial⟩
  | tupleOf l ds ih =>
    intro b t ha hb na nb hd rev
    cases t <;> first | (simp [has] at ha; done) | skip
    rename_i l' t
    cases b <;> first | (simp [has] at hb; done) | skip
    rename_i l'' bs
    simp only [has, Bool.and_eq_true, beq_iff_eq] at ha hb
    simp only [noNaN] at na nb
    simp only [distinct] at hd
    obtain ⟨hl, ha⟩ := ha
    obtain ⟨hl', hb⟩ := hb
    subst hl; subst hl'
    have key : (if (ds.length != bs.length) = true then some false else eqOf M rev ds bs) = some (orderAll ds bs == .eq) := by
      by_cases hlen : ds.length = bs.length
      · rw [if_neg (by simp [hlen])]
        refine eqOf_eq ds bs (fun k x y h1 h2 => ?_) hlen
        exact (ih x (List.mem_of_getElem? h1) y t ((hasEach_iff E t _).1 ha _ (List.mem_of_getElem? h1))
          ((hasEach_iff E t _).1 hb _ (List.mem_of_getElem? h2)) ((noNaNs_iff _).1 na _ (List.mem_of_getElem? h1))
          ((noNaNs_iff _).1 nb _ (List.mem_of_getElem? h2)) hd rev).2
      · rw [if_pos (by simpa using hlen), beq_eq_false_iff_ne.2 (orderAll_ne_of_length _ _ hlen)]
    simp only [cc, if_true, key, order, optNot, Option.map_some]
    exact ⟨by trivial, by trivial⟩
  | tuple ds ih =>
    intro b t ha hb na nb hd rev
    cases t <;> first | (simp [has] at ha; done) | skip
    rename_i ts
    cases b <;> first | (simp [has] at hb; done) | skip
    rename_i bs
    simp only [has] at ha hb
    simp only [noNaN] at na nb
    simp only [distinct] at hd
    have hlen : ds.length = bs.length := (hasAll_get E _ _ ha).1.trans (hasAll_get E _ _ hb).1.symm
    have key : (if (ds.length != bs.length) = true then some false else eqFields M rev ds bs) = some (orderAll ds bs == .eq) := by
      rw [if_neg (by simp [hlen])]
      refine eqFields_eq ds bs (fun k x y h1 h2 => ?_) hlen
      obtain ⟨t, ht, h3, h4⟩ := pair_ty ha hb h1 h2
      exact (ih x (List.mem_of_getElem? h1) y t h3 h4 ((noNaNs_iff _).1 na _ (List.mem_of_getElem? h1))
        ((noNaNs_iff _).1 nb _ (List.mem_of_getElem? h2)) (distincts_get ts hd k t ht) rev).1
    simp only [cc, key, order, optNot, Option.map_some]
    exact ⟨by trivial, by trivial⟩
  | oneOf i d ih =>
    intro b t ha hb na nb hd rev
    cases t <;> first | (simp [has] at ha; done) | skip
    rename_i ts
    cases b <;> first | (simp [has] at hb; done) | skip
    rename_i j e
    simp only [has] at ha hb
    simp only [noNaN] at na nb
    simp only [distinct, Bool.and_eq_true, decide_eq_true_eq] at hd
    cases hi : ts[i]? with
    | none => simp [hi] at ha
    | some t =>
      cases hj : ts[j]? with
      | none => simp [hj] at hb
      | some u =>
        simp only [hi] at ha
        simp only [hj] at hb
        by_cases hij : i = j
        · subst hij
          rw [hi] at hj; cases hj
          obtain ⟨h1, h2⟩ := ih e t ha hb na nb (distincts_get ts hd.1.1 i t hi) rev
          simp only [cc, h1, h2, order]
          simp
        · have hk : kind t ≠ kind u := by
            intro hk
            have h1 : (ts.map kind)[i]? = some (kind t) := by simp [hi]
            have h2 : (ts.map kind)[j]? = some (kind t) := by simp [hj, hk]
            have hlt : i < (ts.map kind).length := by
              rcases Nat.lt_or_ge i (ts.map kind).length with h | h
              · exact h
              · rw [List.getElem?_eq_none h] at h1; simp at h1
            have hlt' : j < (ts.map kind).length := by
              rcases Nat.lt_or_ge j (ts.map kind).length with h | h
              · exact h
              · rw [List.getElem?_eq_none h] at h2; simp at h2
            have hn := List.pairwise_iff_getElem.1 hd.1.2
            rw [List.getElem?_eq_getElem hlt] at h1
            rw [List.getElem?_eq_getElem hlt'] at h2
            rcases Nat.lt_or_gt_of_ne hij with h3 | h3
            · exact hn i j hlt hlt' h3 (Option.some.inj (h1.trans h2.symm))
            · exact hn j i hlt' hlt h3 (Option.some.inj (h2.trans h1.symm))
          simp only [cc, cc_apart E ha hb hk, unrelated, order]
          have : (compare i j).then (order d e) ≠ .eq := by
            rw [Ne, Ordering.then_eq_eq, Nat.compare_eq_eq]
            exact fun h => hij h.1
          simp [this, bne, beq_eq_false_iff_ne.2 this]
  | alt i d ih =>
    intro b t ha hb na nb _ rev
    cases b <;> first | (cases like E ha hb; done) | skip
    simp only [cc, alt_dir E ha hb na nb, holds_dir_eq, holds_dir_ne]
    exact ⟨by trivial, by trivial⟩

/-! ### Ordering -/

theorem ltOf_eq {rev orEq : Bool} : ∀ as bs : List Data,
    (∀ k : Nat, ∀ a b, as[k]? = some a → bs[k]? = some b →
      cc M rev a b .lt = some (dir rev (order a b) == .lt) ∧ cc M rev a b .gt = some (dir rev (order a b) == .gt)) →
    ltOf M rev orEq as bs = some (dir rev (orderAll as bs) == .lt || (orEq && orderAll as bs == .eq))
  | [], [], _ => by cases rev <;> simp [ltOf, orderAll, dir]
  | [], _ :: _, _ => by cases rev <;> simp [ltOf, orderAll, dir]
  | _ :: _, [], _ => by cases rev <;> simp [ltOf, orderAll, dir]
  | a :: as, b :: bs, h => by
    obtain ⟨h1, h2⟩ := h 0 a b rfl rfl
    rw [ltOf, orderAll, h1, h2, ltOf_eq as bs (fun k x y h1 h2 => h (k + 1) x y (by simpa using h1) (by simpa using h2))]
    cases rev <;> cases order a b <;> simp [ifOpt, dir, Ordering.then]

theorem ltFields_eq {rev orEq : Bool} : ∀ as bs : List Data,
    (∀ k : Nat, ∀ a b, as[k]? = some a → bs[k]? = some b → ∀ rev, cc M rev a b .lt = some (dir rev (order a b) == .lt)) →
    ltFields M rev orEq as bs = some (dir rev (orderAll as bs) == .lt || (orEq && orderAll as bs == .eq))
  | [], [], _ => by cases rev <;> simp [ltFields, orderAll, dir]
  | [], _ :: _, _ => by cases rev <;> simp [ltFields, orderAll, dir]
  | _ :: _, [], _ => by cases rev <;> simp [ltFields, orderAll, dir]
  | a :: as, b :: bs, h => by
    have h1 := h 0 a b rfl rfl
    rw [ltFields, orderAll, h1, h1, ltFields_eq as bs (fun k x y h1 h2 => h (k + 1) x y (by simpa using h1) (by simpa using h2))]
    cases rev <;> cases order a b <;> simp [ifOpt, dir, Ordering.then]

theorem four {r : Op → Option Bool} {o o' : Ordering} (hd : o = .eq ↔ o' = .eq) (hlt : r .lt = some (o == .lt || (false && o' == .eq)))
    (hle : r .le = some (o == .lt || (true && o' == .eq))) (hgt : r .gt = optNot (r .le)) (hge : r .ge = optNot (r .lt)) :
    r .lt = some (Op.holds .lt o) ∧ r .gt = some (Op.holds .gt o) ∧ r .le = some (Op.holds .le o) ∧ r .ge = some (Op.holds .ge o) := by
  rw [hgt, hge, hle, hlt]
  cases o <;> cases o' <;> simp_all [Op.holds, optNot]

/-- Compiled `<`, `>`, `<=` and `>=` answer by the order in types without OneOf, but for `None <= None` and `None >= None`. -/
theorem cc_ord (E : Nat → List Ty) : ∀ a b t, has E a t = true → has E b t = true → noNaN a = true → noNaN b = true → noOneOf t = true →
    ∀ rev, cc M rev a b .lt = some (Op.holds .lt (dir rev (order a b))) ∧ cc M rev a b .gt = some (Op.holds .gt (dir rev (order a b))) ∧
      (t ≠ .none → cc M rev a b .le = some (Op.holds .le (dir rev (order a b))) ∧
        cc M rev a b .ge = some (Op.holds .ge (dir rev (order a b)))) := by
  intro a
  induction a using Data.ind with
  | none =>
    intro b t ha hb _ _ _ rev
    cases b <;> cases t <;> first | (simp [has] at ha; done) | (simp [has] at hb; done) | skip
    cases rev <;> exact ⟨rfl, rfl, fun h => absurd rfl h⟩
  | num r n =>
    intro b t ha hb _ _ _ rev
    cases like E ha hb
    simp only [cc, if_true, icmp_dir, order]
    exact ⟨by trivial, by trivial, fun _ => ⟨by trivial, by trivial⟩⟩
  | flt s x =>
    intro b t ha hb na nb _ rev
    cases like E ha hb
    simp only [noNaN, Bool.not_eq_true'] at na nb
    simp only [cc, if_true, fcmp_dir na nb, order]
    exact ⟨by trivial, by trivial, fun _ => ⟨by trivial, by trivial⟩⟩
  | str p =>
    intro b t ha hb _ _ _ rev
    cases like E ha hb
    simp only [cc, text_dir, order]
    exact ⟨by trivial, by trivial, fun _ => ⟨by trivial, by trivial⟩⟩
  | bytes p =>
    intro b t ha hb _ _ _ rev
    cases like E ha hb
    simp only [cc, text_dir, order]
    exact ⟨by trivial, by trivial, fun _ => ⟨by trivial, by trivial⟩⟩
  | tupleOf l ds ih =>
    intro b t ha hb na nb hd rev
    cases t <;> first | (simp [has] at ha; done) | skip
    rename_i l' t
    cases b <;> first | (simp [has] at hb; done) | skip
    rename_i l'' bs
    simp only [has, Bool.and_eq_true, beq_iff_eq] at ha hb
    simp only [noNaN] at na nb
    simp only [noOneOf] at hd
    obtain ⟨hl, ha⟩ := ha
    obtain ⟨hl', hb⟩ := hb
    subst hl; subst hl'
    have elts : ∀ k : Nat, ∀ a b, ds[k]? = some a → bs[k]? = some b →
        cc M rev a b .lt = some (dir rev (order a b) == .lt) ∧ cc M rev a b .gt = some (dir rev (order a b) == .gt) := by
      intro k x y h1 h2
      have := ih x (List.mem_of_getElem? h1) y t ((hasEach_iff E t _).1 ha _ (List.mem_of_getElem? h1))
          ((hasEach_iff E t _).1 hb _ (List.mem_of_getElem? h2)) ((noNaNs_iff _).1 na _ (List.mem_of_getElem? h1))
          ((noNaNs_iff _).1 nb _ (List.mem_of_getElem? h2)) hd rev
      exact ⟨this.1, this.2.1⟩
    have := four (r := cc M rev (.tupleOf l'' ds) (.tupleOf l'' bs)) (dir_eq rev (orderAll ds bs))
      (by simp only [cc, if_true]; exact ltOf_eq ds bs elts) (by simp only [cc, if_true]; exact ltOf_eq ds bs elts)
      (by simp only [cc, if_true]) (by simp only [cc, if_true])
    exact ⟨this.1, this.2.1, fun _ => this.2.2⟩
  | tuple ds ih =>
    intro b t ha hb na nb hd rev
    cases t <;> first | (simp [has] at ha; done) | skip
    rename_i ts
    cases b <;> first | (simp [has] at hb; done) | skip
    rename_i bs
    simp only [has] at ha hb
    simp only [noNaN] at na nb
    simp only [noOneOf] at hd
    have elts : ∀ k : Nat, ∀ a b, ds[k]? = some a → bs[k]? = some b → ∀ rev, cc M rev a b .lt = some (dir rev (order a b) == .lt) := by
      intro k x y h1 h2 rev
      obtain ⟨t, ht, h3, h4⟩ := pair_ty ha hb h1 h2
      exact (ih x (List.mem_of_getElem? h1) y t h3 h4 ((noNaNs_iff _).1 na _ (List.mem_of_getElem? h1))
        ((noNaNs_iff _).1 nb _ (List.mem_of_getElem? h2)) (noOneOfs_get ts hd k t ht) rev).1
    have := four (r := cc M rev (.tuple ds) (.tuple bs)) (dir_eq rev (orderAll ds bs))
      (by simp only [cc]; exact ltFields_eq ds bs elts) (by simp only [cc]; exact ltFields_eq ds bs elts)
      (by simp only [cc]) (by simp only [cc])
    exact ⟨this.1, this.2.1, fun _ => this.2.2⟩
  | oneOf i d ih =>
    intro b t ha hb na nb hd rev
    cases t <;> first | (simp [has] at ha; done) | (simp [noOneOf] at hd; done)
  | alt i d ih =>
    intro b t ha hb na nb _ rev
    cases b <;> first | (cases like E ha hb; done) | skip
    simp only [cc, alt_dir E ha hb na nb]
    exact ⟨trivial, trivial, fun _ => ⟨trivial, trivial⟩⟩

/-! ### Hashes -/

theorem hadd_zero (i : BitVec 32) : hadd 0 i = i := by simp [hadd]

theorem cHashNum_eq (r : Reg) (n : Int) : cHashNum r n = hashNum r n := by
  cases r <;> first | rfl | exact (hadd_zero _).symm

theorem cHashAll_eq (H : TextHash) : ∀ ds : List Data, (∀ d ∈ ds, cHash H d = some (hash H d)) → ∀ s,
    cHashAll H s ds = some (hashAll H s ds)
  | [], _, s => rfl
  | d :: ds, h, s => by
    rw [cHashAll, hashAll, h d (by simp)]
    exact cHashAll_eq H ds (fun e he => h e (by simp [he])) _

theorem cHashItems_eq (H : TextHash) : ∀ ds : List Data, (∀ d ∈ ds, cHash H d = some (hash H d) ∧ hash H d ≠ -1) → ∀ s,
    cHashItems H s ds = some (hashAll H s ds)
  | [], _, s => rfl
  | d :: ds, h, s => by
    have hd := h d (by simp)
    rw [cHashItems, hashAll, hd.1]
    simp only [fixCached, if_neg hd.2]
    exact cHashItems_eq H ds (fun e he => h e (by simp [he])) _

theorem steadies_iff (H : TextHash) : ∀ ds, steadies H ds = true ↔ ∀ d ∈ ds, steady H d = true
  | [] => by simp [steadies]
  | d :: ds => by simp [steadies, steadies_iff H ds]

/-- The hash of a value in compiled code is its hash in the interpreter. -/
theorem cHash_eq (H : TextHash) : ∀ d, steady H d = true → cHash H d = some (hash H d) := by
  intro d
  induction d using Data.ind with
  | none => intro _; rfl
  | num r n => intro _; simp only [cHash, hash, cHashNum_eq]
  | flt s b => intro _; rfl
  | str p => intro _; rfl
  | bytes p => intro _; rfl
  | tupleOf l ds ih =>
    intro h
    simp only [steady, Bool.and_eq_true, Bool.not_eq_true'] at h
    obtain ⟨⟨h1, h2⟩, h3⟩ := h
    have h4 : ∀ d ∈ ds, cHash H d = some (hash H d) ∧ hash H d ≠ -1 := by
      intro d hd
      refine ⟨ih d hd ((steadies_iff H ds).1 h2 d hd), fun he => ?_⟩
      have : (ds.map (hash H)).contains (-1) = true := by
        rw [List.contains_iff_mem]
        exact List.mem_map.2 ⟨d, hd, he⟩
      rw [this] at h3
      cases h3
    simp only [cHash, hash, h1, cHashItems_eq H ds h4 0, Option.map_some]
    rfl
  | tuple ds ih =>
    intro h
    simp only [steady] at h
    simp only [cHash, hash, cHashAll_eq H ds (fun d hd => ih d hd ((steadies_iff H ds).1 h d hd)) 0]
  | oneOf i d ih => intro h; simp only [steady] at h; simp only [cHash, hash, ih h]
  | alt i d ih => intro _; rfl

end Verif.Compare
