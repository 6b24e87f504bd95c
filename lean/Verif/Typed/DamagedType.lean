import Verif.Typed.Damaged
/-
What is read from any bytes is a value of its type, for the types that are `Sturdy`.
-/
namespace Verif.Typed

open Verif.Wire (Bytes Reg InRange readRegister readVarint readHeader readVarintObject readBytes fromLE)

theorem isA_mono {env heapTy : Nat → Ty} {n n' : Nat} (hn : n ≤ n') {t : Ty} {v : Val} (h : IsA env heapTy n t v) : IsA env heapTy n' t v := by
  induction h with
  | reg h => exact .reg h
  | unit => exact .unit
  | bytes h => exact .bytes h
  | str => exact .str
  | tuple h _ ih => exact .tuple h ih
  | oneOf h _ ih => exact .oneOf h ih
  | alt h _ ih => exact .alt h ih
  | tupleOf _ ih => exact .tupleOf ih
  | constDict h _ ih => exact .constDict h ih
  | ref h h' h'' => exact .ref h (by omega) h''
  | named _ ih => exact .named ih

theorem fromLE_bound : ∀ (b : Bytes), (∀ x ∈ b, x < 256) → fromLE b < 256 ^ b.length := by
  intro b
  induction b with
  | nil => intro _; simp [fromLE]
  | cons x b ih =>
    intro h
    have h1 := h x (by simp)
    have h2 := ih (fun y hy => h y (by simp [hy]))
    rw [fromLE, List.length_cons, Nat.pow_succ]
    omega

theorem fromLE_take (b : Bytes) (n : Nat) (h : ∀ x ∈ b, x < 256) : fromLE (b.take n) < 2 ^ (8 * n) := by
  have h1 := fromLE_bound (b.take n) (fun x hx => h x (List.mem_of_mem_take hx))
  have h2 : (b.take n).length ≤ n := by simp
  have h3 : (256 : Nat) ^ (b.take n).length ≤ 256 ^ n := Nat.pow_le_pow_right (by omega) h2
  have h4 : (256 : Nat) ^ n = 2 ^ (8 * n) := by rw [Nat.pow_mul]
  omega

theorem bmod_range (x : Int) (n : Nat) (hn : 1 ≤ n) : -2 ^ (8 * n - 1) ≤ Int.bmod x (2 ^ (8 * n)) ∧ Int.bmod x (2 ^ (8 * n)) < 2 ^ (8 * n - 1) := by
  have hp : (2 : Nat) ^ (8 * n) = 2 * 2 ^ (8 * n - 1) := by
    rw [← Nat.pow_succ']
    congr 1
    omega
  have hpos : 0 < (2 : Nat) ^ (8 * n - 1) := Nat.pos_of_ne_zero (by simp)
  have h1 := Int.le_bmod (x := x) (m := 2 ^ (8 * n)) (by omega)
  have h2 := Int.bmod_lt (x := x) (m := 2 ^ (8 * n)) (by omega)
  have hq : ((2 ^ (8 * n - 1) : Nat) : Int) = (2 : Int) ^ (8 * n - 1) := by norm_cast
  omega

theorem readRegister_range {r : Reg} {w : Nat} {bs : Bytes} {x : Int} {rest : Bytes} (hr : realReg r = true) (hb : ∀ b ∈ bs, b < 256)
    (h : readRegister r w bs = .ok (x, rest)) : InRange r x := by
  cases r with
  | float n =>
    simp only [readRegister] at h
    by_cases hw : w = (if n = 8 then 3 else 2)
    · rw [if_pos hw] at h
      split at h
      · cases h
      · rename_i d bs1 h1
        cases h
        simp only [realReg, Bool.or_eq_true, decide_eq_true_eq] at hr
        refine ⟨hr, by omega, ?_⟩
        simp only [readBytes] at h1
        split at h1
        · cases h1
        · cases h1
          exact_mod_cast fromLE_take bs n hb
    · rw [if_neg hw] at h
      cases h
  | bool =>
    simp only [readRegister] at h
    split at h
    · split at h
      · cases h
      · cases h
        split <;> simp [InRange]
    · cases h
  | uint n =>
    simp only [readRegister] at h
    split at h
    · split at h
      · cases h
      · rename_i v bs1 h1
        cases h
        simp only [realReg, Bool.and_eq_true, decide_eq_true_eq] at hr
        have : v % 2 ^ (8 * n) < 2 ^ (8 * n) := Nat.mod_lt _ (Nat.pos_of_ne_zero (by simp))
        exact ⟨hr.1, hr.2, Int.natCast_nonneg _, by exact_mod_cast this⟩
    · cases h
  | int n =>
    simp only [readRegister] at h
    split at h
    · split at h
      · cases h
      · cases h
        simp only [realReg, Bool.and_eq_true, decide_eq_true_eq] at hr
        exact ⟨hr.1, hr.2, bmod_range _ n hr.1⟩
    · cases h

section Pod
variable {env : Nat → Ty} {R : Ty} {Q : Ty → Prop} (hQ : Sturdy env R Q) {heapTy : Nat → Ty} {n : Nat}
include hQ

mutual
theorem podRead_isA : ∀ (t : Ty) (bs : Bytes), Q t → anyBytes t = true → (∀ b ∈ bs, b < 256) → IsA env heapTy n t (podRead t bs)
  | .reg r, bs, hq, ha, hb => by
    have hr := hQ.reg hq
    rw [podRead]
    refine .reg ?_
    cases r with
    | bool => simp [anyBytes] at ha
    | uint m =>
      simp only [realReg, Bool.and_eq_true, decide_eq_true_eq] at hr
      refine ⟨hr.1, hr.2, ?_, ?_⟩
      · simp [regRead]
      · simp only [regRead, regSize]
        exact_mod_cast fromLE_take bs m hb
    | int m =>
      simp only [realReg, Bool.and_eq_true, decide_eq_true_eq] at hr
      exact ⟨hr.1, hr.2, bmod_range _ m hr.1⟩
    | float m =>
      simp only [realReg, Bool.or_eq_true, decide_eq_true_eq] at hr
      refine ⟨hr, ?_, ?_⟩
      · simp [regRead]
      · simp only [regRead, regSize]
        exact_mod_cast fromLE_take bs m hb
  | .unit, _, _, _, _ => by rw [podRead]; exact .unit; all_goals simp
  | .tuple ts, bs, hq, ha, hb => by
    rw [podRead]
    rw [anyBytes] at ha
    obtain ⟨h1, h2⟩ := podReadFields_isA ts bs (hQ.tuple hq) ha hb
    exact .tuple h1 h2
  | .bytes, _, _, ha, _ | .str, _, _, ha, _ | .oneOf _, _, _, ha, _ | .alt _, _, _, ha, _ | .tupleOf _, _, _, ha, _ | .listOf _, _, _, ha, _
  | .constDict _ _, _, _, ha, _ | .dict _ _, _, _, ha, _ | .set _, _, _, ha, _ | .named _, _, _, ha, _ => by simp [anyBytes] at ha
theorem podReadFields_isA : ∀ (ts : List Ty) (bs : Bytes), (∀ t ∈ ts, Q t) → anyBytesAll ts = true → (∀ b ∈ bs, b < 256) →
    (podReadFields ts bs).length = ts.length ∧
      ∀ (i : Nat) t v, ts[i]? = some t → (podReadFields ts bs)[i]? = some v → IsA env heapTy n t v
  | [], _, _, _, _ => by simp [podReadFields]
  | t :: ts, bs, hq, ha, hb => by
    rw [anyBytesAll, Bool.and_eq_true] at ha
    rw [podReadFields]
    obtain ⟨h1, h2⟩ := podReadFields_isA ts (bs.drop ((podSize t).getD 0)) (fun u hu => hq u (by simp [hu])) ha.2
      (fun b h => hb b (List.mem_of_mem_drop h))
    refine ⟨by simp [h1], ?_⟩
    intro i u v hu hv
    cases i with
    | zero =>
      simp only [List.getElem?_cons_zero, Option.some.injEq] at hu hv
      subst hu hv
      exact podRead_isA t bs (hq t (by simp)) ha.1 hb
    | succ i =>
      simp only [List.getElem?_cons_succ] at hu hv
      exact h2 i u v hu hv
end

theorem podReadAll_isA {t : Ty} (hq : Q t) (ha : anyBytes t = true) (size : Nat) : ∀ (k : Nat) (bs : Bytes), (∀ b ∈ bs, b < 256) →
    ∀ v ∈ podReadAll t size k bs, IsA env heapTy n t v := by
  intro k
  induction k with
  | zero => intro bs _ v hv; simp [podReadAll] at hv
  | succ k ih =>
    intro bs hb v hv
    rw [podReadAll, List.mem_cons] at hv
    rcases hv with rfl | hv
    · exact podRead_isA hQ t bs hq ha hb
    · exact ih _ (fun b h => hb b (List.mem_of_mem_drop h)) v hv

end Pod

/-! ### The cache and the objects -/

/-- What holds throughout reading: the stream is bytes, the cache points to objects, and all objects contain what the type `R` says. -/
structure J (env : Nat → Ty) (R : Ty) (st : St) : Prop where
  bytes : ∀ b ∈ st.bytes, b < 256
  cache : ∀ (i a : Nat), st.cache[i]? = some (some a) → a < st.heap.length
  objects : ObjectsOk env (fun _ => R) st.heap

section J
variable {env : Nat → Ty} {R : Ty}

theorem J.left {st : St} (h : J env R st) {bs : Bytes} (hb : bs <:+ st.bytes) : J env R { st with bytes := bs } :=
  ⟨fun b hm => h.bytes b (hb.mem hm), h.cache, h.objects⟩

theorem lookup_found {id : Nat} {cache : List (Option Nat)} {a : Nat} (h : lookup id cache = .ok (some a)) : ∃ i : Nat, cache[i]? = some (some a) := by
  simp only [lookup] at h
  split at h
  · cases h
  · rename_i i _
    simp only [Except.ok.injEq] at h
    refine ⟨i, ?_⟩
    cases hc : cache[i]? with
    | none => rw [hc] at h; cases h
    | some x =>
      rw [hc] at h
      simp only [Option.getD_some] at h
      rw [h]

theorem addCached_mem {id a : Nat} {cache cache' : List (Option Nat)} (h : addCached id a cache = .ok cache') {i b : Nat}
    (hi : cache'[i]? = some (some b)) : b = a ∨ cache[i]? = some (some b) := by
  simp only [addCached] at h
  split at h
  · cases h
  · rename_i j _
    split at h
    · cases h
    · split at h
      · cases h
      · cases h
        rw [List.getElem?_set] at hi
        split at hi
        · split at hi
          · left
            simpa using hi.symm
          · cases hi
        · right
          rw [List.getElem?_append] at hi
          split at hi
          · exact hi
          · rw [List.getElem?_replicate] at hi
            split at hi <;> simp at hi

theorem alloc_J {id : Nat} {st st1 : St} {a : Nat} (hJ : J env R st) (h : alloc id st = .ok (a, st1)) :
    J env R st1 ∧ st.heap.length ≤ st1.heap.length ∧ a < st1.heap.length := by
  simp only [alloc] at h
  split at h
  · cases h
  · rename_i cache hc
    cases h
    refine ⟨⟨hJ.bytes, ?_, ⟨?_, ?_⟩⟩, by simp, by simp⟩
    · intro i b hi
      rcases addCached_mem hc hi with rfl | h
      · simp
      · have := hJ.cache i b h
        simp only [List.length_append, List.length_cons, List.length_nil]
        omega
    · intro a vs e ha he i v hv
      rw [List.getElem?_append] at ha
      split at ha
      · exact isA_mono (by simp) (hJ.objects.elts a vs e ha he i v hv)
      · have : vs = [] := by
          rw [List.getElem?_singleton] at ha
          split at ha <;> simp_all
        subst this
        simp at hv
    · intro a vs k w ha he
      rw [List.getElem?_append] at ha
      split at ha
      · exact hJ.objects.pairs a vs k w ha he
      · have : vs = [] := by
          rw [List.getElem?_singleton] at ha
          split at ha <;> simp_all
        subst this
        rfl

theorem fill_J {st : St} {a : Nat} {vs : List Val} (hJ : J env R st)
    (he : ∀ e, eltAt R = some e → ∀ (i : Nat) (v : Val), vs[i]? = some v → IsA env (fun _ => R) st.heap.length (e i) v)
    (hp : ∀ k w, R = .dict k w → vs.length % 2 = 0) : J env R (fill a vs st) := by
  refine ⟨hJ.bytes, ?_, ⟨?_, ?_⟩⟩
  · intro i b hi
    simp only [fill, List.length_set]
    exact hJ.cache i b hi
  · intro b us e hb hee i v hv
    simp only [fill, List.length_set] at hb ⊢
    rw [List.getElem?_set] at hb
    split at hb
    · split at hb
      · cases hb
        exact he e hee i v hv
      · cases hb
    · exact hJ.objects.elts b us e hb hee i v hv
  · intro b us k w hb hee
    simp only [fill] at hb
    rw [List.getElem?_set] at hb
    split at hb
    · split at hb
      · cases hb
        exact hp k w hee
      · cases hb
    · exact hJ.objects.pairs b us k w hb hee

/-- A reader reads values of the type. -/
def Reads (env : Nat → Ty) (R : Ty) (Q : Ty → Prop) (rec : Ty → Nat → St → Except Err (Val × St)) : Prop :=
  ∀ t w st v st1, Q t → J env R st → rec t w st = .ok (v, st1) →
    J env R st1 ∧ st.heap.length ≤ st1.heap.length ∧ IsA env (fun _ => R) st1.heap.length t v

/-- The default values are values of their types. -/
def Defaults (env : Nat → Ty) (R : Ty) (Q : Ty → Prop) (dflt : Ty → St → Except Err (Val × St)) : Prop :=
  ∀ t st v st1, Q t → J env R st → dflt t st = .ok (v, st1) →
    J env R st1 ∧ st.heap.length ≤ st1.heap.length ∧ IsA env (fun _ => R) st1.heap.length t v

variable {Q : Ty → Prop} {rec : Ty → Nat → St → Except Err (Val × St)} {dflt : Ty → St → Except Err (Val × St)}

theorem readInts_range (n : Nat) (h1 : 1 ≤ n) (h8 : n ≤ 8) : ∀ (k : Nat) (bs : Bytes), ∀ x ∈ readInts n k bs, InRange (.int 8) x := by
  intro k
  induction k with
  | zero => intro bs x hx; simp [readInts] at hx
  | succ k ih =>
    intro bs x hx
    rw [readInts, List.mem_cons] at hx
    rcases hx with rfl | hx
    · have := bmod_range (fromLE (bs.take n)) n h1
      have hp : (2 : Int) ^ (8 * n - 1) ≤ 2 ^ 63 := Wire.pow_le_63 n h8
      exact ⟨by omega, by omega, by norm_num; omega, by norm_num; omega⟩
    · exact ih _ x hx

theorem deserIntsLoop_range : ∀ (k n : Nat) (bs : Bytes) {xs : List Int} {rest : Bytes}, deserIntsLoop k n bs = .ok (xs, rest) →
    ∀ x ∈ xs, InRange (.int 8) x := by
  intro k
  induction k with
  | zero =>
    intro n bs xs rest h
    cases n with
    | zero =>
      simp only [deserIntsLoop] at h
      cases h
      simp
    | succ n => simp [deserIntsLoop] at h
  | succ k ih =>
    intro n bs xs rest h
    cases n with
    | zero =>
      simp only [deserIntsLoop] at h
      cases h
      simp
    | succ n =>
      simp only [deserIntsLoop] at h
      split at h
      · cases h
      · split at h
        · cases h
        · split at h
          · cases h
          · rename_i m hm
            split at h
            · cases h
            · split at h
              · cases h
              · split at h
                · cases h
                · rename_i h4
                  cases h
                  intro x hx
                  rw [List.mem_append] at hx
                  rcases hx with hx | hx
                  · refine readInts_range m ?_ ?_ _ _ x hx <;>
                      (simp only [blockWidth] at hm; repeat' split at hm) <;> simp_all <;> omega
                  · exact ih _ _ h4 x hx

theorem deserSeq_reads (hQ : Sturdy env R Q) (hr : Reads env R Q rec) {t : Ty} (hq : Q t) (ha : podSize t = none ∨ anyBytes t = true)
    {st st1 : St} {vs : List Val} (hJ : J env R st) (h : deserSeq rec t st = .ok (vs, st1)) :
    J env R st1 ∧ st.heap.length ≤ st1.heap.length ∧ ∀ v ∈ vs, IsA env (fun _ => R) st1.heap.length t v := by
  simp only [deserSeq] at h
  split at h
  · cases h
  · rename_i h1
    split at h
    · cases h
    · rename_i bs1 h2
      have hJ1 : J env R { st with bytes := bs1 } := hJ.left ((readVarint_left h2).trans (readHeader_left h1).1)
      simp only [deserBody] at h
      split at h
      · split at h
        · cases h
          exact ⟨hJ1, le_refl _, by simp⟩
        · cases h
      · split at h
        · refine readN_ok (I := fun vs st' => J env R st' ∧ st.heap.length ≤ st'.heap.length ∧
            ∀ v ∈ vs, IsA env (fun _ => R) st'.heap.length t v) (fun _ _ _ h h' => ⟨h.1.left h', h.2⟩) ?_ _ ⟨hJ1, le_refl _, by simp⟩ h
          intro s fld w st' s1 st1 h0 hc
          simp only [eltCb] at hc
          split at hc
          · cases hc
          · split at hc
            · cases hc
            · split at hc
              · cases hc
              · rename_i h3
                cases hc
                obtain ⟨a, b, c⟩ := hr _ _ _ _ _ hq h0.1 h3
                refine ⟨a, le_trans h0.2.1 b, fun v hv => ?_⟩
                rw [List.mem_append, List.mem_singleton] at hv
                rcases hv with hv | rfl
                · exact isA_mono b (h0.2.2 v hv)
                · exact c
        · split at h
          · split at h
            · rename_i hi
              split at h
              · cases h
              · rename_i h3
                cases h
                refine ⟨hJ1.left (deserIntsLoop_left _ _ _ h3), le_refl _, fun v hv => ?_⟩
                obtain ⟨x, hx, rfl⟩ := List.mem_map.mp hv
                have ht : t = .reg (.int 8) := by
                  simp only [isInt64] at hi
                  split at hi
                  · rfl
                  · cases hi
                subst ht
                exact .reg (deserIntsLoop_range _ _ _ h3 x hx)
            · cases h
          · split at h
            · split at h
              · cases h
              · rename_i size hs
                split at h
                · cases h
                · split at h
                  · cases h
                  · split at h
                    · cases h
                    · rename_i data bs2 h3
                      cases h
                      refine ⟨hJ1.left (readBytes_left h3), le_refl _, ?_⟩
                      have ha' : anyBytes t = true := ha.resolve_left (by rw [hs]; simp)
                      refine podReadAll_isA hQ hq ha' _ _ _ (fun b hb => hJ1.bytes b ?_)
                      have := Wire.readBytes_suffix h3
                      simp only at this ⊢
                      rw [this]
                      simp [hb]
            · split at h
              · split at h
                · rename_i hs
                  cases h
                  have ha' : anyBytes t = true := ha.resolve_left (by rw [hs]; simp)
                  exact ⟨hJ1, le_refl _, podReadAll_isA hQ hq ha' _ _ _ (by simp)⟩
                · cases h
              · cases h

theorem fillIn_reads (hd : Defaults env R Q dflt) : ∀ (ts : List Ty) (ss : List (Option Val)) {st st1 : St} {vs : List Val},
    (∀ t ∈ ts, Q t) → J env R st → ss.length = ts.length →
    (∀ (i : Nat) t v, ts[i]? = some t → ss[i]? = some (some v) → IsA env (fun _ => R) st.heap.length t v) →
    fillIn dflt ts ss st = .ok (vs, st1) →
    J env R st1 ∧ st.heap.length ≤ st1.heap.length ∧ vs.length = ts.length ∧
      ∀ (i : Nat) t v, ts[i]? = some t → vs[i]? = some v → IsA env (fun _ => R) st1.heap.length t v := by
  intro ts
  induction ts with
  | nil =>
    intro ss st st1 vs _ hJ _ _ h
    simp only [fillIn] at h
    cases h
    exact ⟨hJ, le_refl _, rfl, by simp⟩
  | cons t ts ih =>
    intro ss st st1 vs hq hJ hl hty h
    cases ss with
    | nil => simp at hl
    | cons s ss =>
      simp only [fillIn] at h
      have hq' : ∀ u ∈ ts, Q u := fun u hu => hq u (by simp [hu])
      have hl' : ss.length = ts.length := by simpa using hl
      have hty' : ∀ (i : Nat) t v, ts[i]? = some t → ss[i]? = some (some v) → IsA env (fun _ => R) st.heap.length t v :=
        fun i u v hu hv => hty (i + 1) u v (by simpa using hu) (by simpa using hv)
      split at h
      · rename_i v
        split at h
        · cases h
        · rename_i h1
          cases h
          obtain ⟨a, b, c, d⟩ := ih ss hq' hJ hl' hty' h1
          refine ⟨a, b, by simp [c], ?_⟩
          intro i u w hu hw
          cases i with
          | zero =>
            simp only [List.getElem?_cons_zero, Option.some.injEq] at hu hw
            subst hu hw
            exact isA_mono b (hty 0 t v rfl rfl)
          | succ i => exact d i u w (by simpa using hu) (by simpa using hw)
      · split at h
        · cases h
        · rename_i h1
          split at h
          · cases h
          · rename_i h2
            cases h
            obtain ⟨a1, b1, c1⟩ := hd _ _ _ _ (hq t (by simp)) hJ h1
            obtain ⟨a, b, c, d⟩ := ih ss hq' a1 hl' (fun i u v hu hv => isA_mono b1 (hty' i u v hu hv)) h2
            refine ⟨a, le_trans b1 b, by simp [c], ?_⟩
            intro i u w hu hw
            cases i with
            | zero =>
              simp only [List.getElem?_cons_zero, Option.some.injEq] at hu hw
              subst hu hw
              exact isA_mono b c1
            | succ i => exact d i u w (by simpa using hu) (by simpa using hw)

theorem getElem?_app {vs : List Val} {v w : Val} {i : Nat} (h : (vs ++ [v])[i]? = some w) : vs[i]? = some w ∨ (i = vs.length ∧ w = v) := by
  rw [List.getElem?_append] at h
  split at h
  · exact .inl h
  · rw [List.getElem?_singleton] at h
    split at h
    · right
      simp only [Option.some.injEq] at h
      exact ⟨by omega, h.symm⟩
    · cases h

theorem items_reads (hr : Reads env R Q rec) {per : Nat} (hper : per = 1 ∨ per = 2) {ty : Nat → Ty} (hty : ∀ i, Q (ty i))
    (he : eltAt R = some ty) (hp : ∀ k w, R = .dict k w → per = 2) {w : Nat} {st st1 : St} {v : Val} (hJ : J env R st)
    (h : deserItems rec per ty w st = .ok (v, st1)) :
    J env R st1 ∧ st.heap.length ≤ st1.heap.length ∧ IsA env (fun _ => R) st1.heap.length R v := by
  simp only [deserItems] at h
  split at h
  · cases h
  · rename_i s2 st2 h1
    have key : J env R st2 ∧ st.heap.length ≤ st2.heap.length ∧ (∀ a, s2.known = some a → a < st2.heap.length) ∧
        (∀ a, s2.made = some a → a < st2.heap.length ∧ 2 ≤ s2.read) ∧ (s2.read ≤ 1 → s2.vals = []) ∧
        (2 ≤ s2.read → s2.vals.length + 2 = s2.read ∧ s2.vals.length ≤ s2.count * per) ∧
        ∀ (i : Nat) v, s2.vals[i]? = some v → IsA env (fun _ => R) st2.heap.length (ty i) v := by
      refine consume_ok (I := fun (s2 : Items) (st2 : St) => J env R st2 ∧ st.heap.length ≤ st2.heap.length ∧ (∀ a, s2.known = some a → a < st2.heap.length) ∧
        (∀ a, s2.made = some a → a < st2.heap.length ∧ 2 ≤ s2.read) ∧ (s2.read ≤ 1 → s2.vals = []) ∧
        (2 ≤ s2.read → s2.vals.length + 2 = s2.read ∧ s2.vals.length ≤ s2.count * per) ∧
        ∀ (i : Nat) v, s2.vals[i]? = some v → IsA env (fun _ => R) st2.heap.length (ty i) v)
        (fun _ _ _ h h' => ⟨h.1.left h', h.2⟩) ?_ ⟨hJ, le_refl _, fun _ h => by simp at h, fun _ h => by simp at h, fun _ => rfl, fun h => by simp at h, by simp⟩ h1
      intro s fld w st' s1 st1 ⟨i1, i2, i3, i4, i5, i6, i7⟩ hc
      simp only [itemsCb] at hc
      split at hc
      · cases hc
      · split at hc
        · rename_i h0
          split at hc
          · cases hc
          · split at hc
            · cases hc
            · rename_i h3
              split at hc
              · cases hc
              · rename_i known hk
                cases hc
                refine ⟨i1.left (readVarint_left h3), i2, ?_, ?_, fun _ => i5 (by omega), fun h => by simp at h, i7⟩
                · intro a ha
                  simp only at ha
                  subst ha
                  obtain ⟨i, hi⟩ := lookup_found hk
                  exact i1.cache i a hi
                · intro a ha
                  have := (i4 a ha).2
                  omega
        · split at hc
          · rename_i h0
            split at hc
            · cases hc
            · split at hc
              · cases hc
              · rename_i h3
                split at hc
                · cases hc
                · rename_i a st2 h4
                  cases hc
                  obtain ⟨j1, j2, j3⟩ := alloc_J (i1.left (readVarint_left h3)) h4
                  simp only at j2
                  have hv := i5 (by omega)
                  refine ⟨j1, le_trans i2 j2, fun a ha => lt_of_lt_of_le (i3 a ha) j2, ?_, fun h => by simp at h, ?_, ?_⟩
                  · intro b hb
                    simp only [Option.some.injEq] at hb
                    subst hb
                    exact ⟨j3, le_refl _⟩
                  · intro _
                    simp [hv]
                  · intro i v hv'
                    exact isA_mono j2 (i7 i v hv')
          · split at hc
            · cases hc
            · rename_i g0 g1 g2
              split at hc
              · cases hc
              · rename_i v st2 h3
                cases hc
                have h6 := i6 (by omega)
                obtain ⟨j1, j2, j3⟩ := hr _ _ _ _ _ (hty _) i1 h3
                refine ⟨j1, le_trans i2 j2, fun a ha => lt_of_lt_of_le (i3 a ha) j2,
                  fun a ha => ⟨lt_of_lt_of_le (i4 a ha).1 j2, by simp only; omega⟩, fun h => by simp only at h; omega, ?_, ?_⟩
                · intro _
                  simp only [List.length_append, List.length_cons, List.length_nil]
                  omega
                · intro i u hu
                  rcases getElem?_app hu with hu | ⟨rfl, rfl⟩
                  · exact isA_mono j2 (i7 i u hu)
                  · have : s.read - 2 = s.vals.length := by omega
                    rw [this] at j3
                    exact j3
    obtain ⟨i1, i2, i3, i4, i5, i6, i7⟩ := key
    split at h
    · rename_i a ha
      cases h
      exact ⟨i1, i2, .ref (by rw [he]; rfl) (i3 a ha) rfl⟩
    · split at h
      · cases h
      · rename_i hcount
        split at h
        · cases h
        · rename_i a ha
          cases h
          obtain ⟨h4, h5⟩ := i4 a ha
          obtain ⟨h6, h7⟩ := i6 h5
          refine ⟨fill_J i1 ?_ ?_, by simpa [fill] using i2, .ref (by rw [he]; rfl) (by simpa [fill] using h4) rfl⟩
          · intro e hee i v hv
            rw [he] at hee
            cases hee
            exact i7 i v hv
          · intro k w hkw
            have := hp k w hkw
            subst this
            omega

theorem deserStep_reads (hQ : Sturdy env R Q) (hd : Defaults env R Q dflt) (hr : Reads env R Q rec) :
    Reads env R Q (deserStep env dflt rec) := by
  intro t w st v st1 hq hJ h
  cases t with
  | reg r =>
    simp only [deserStep] at h
    split at h
    · cases h
    · rename_i h1
      cases h
      exact ⟨hJ.left (readRegister_left h1), le_refl _, .reg (readRegister_range (hQ.reg hq) hJ.bytes h1)⟩
  | unit =>
    simp only [deserStep] at h
    split at h
    · cases h
      exact ⟨hJ, le_refl _, .unit⟩
    · cases h
  | bytes =>
    simp only [deserStep] at h
    split at h
    · cases h
    · split at h
      · cases h
      · rename_i h1
        split at h
        · cases h
        · rename_i h2
          cases h
          refine ⟨hJ.left ((readBytes_left h2).trans (readVarint_left h1)), le_refl _, .bytes fun x hx => hJ.bytes x ?_⟩
          refine (readVarint_left h1).mem ?_
          rw [Wire.readBytes_suffix h2]
          simp [hx]
  | str =>
    simp only [deserStep] at h
    split at h
    · cases h
    · rename_i h1
      cases h
      exact ⟨hJ.left (strDeserialize_left h1), le_refl _, .str⟩
  | tuple ts =>
    simp only [deserStep, deserTuple] at h
    have hqs := hQ.tuple hq
    split at h
    · cases h
    · rename_i slots st2 h1
      split at h
      · cases h
      · rename_i h2
        cases h
        have key : J env R st2 ∧ st.heap.length ≤ st2.heap.length ∧ slots.length = ts.length ∧
            ∀ (i : Nat) t v, ts[i]? = some t → slots[i]? = some (some v) → IsA env (fun _ => R) st2.heap.length t v := by
          refine consume_ok (I := fun (slots : List (Option Val)) (st2 : St) => J env R st2 ∧ st.heap.length ≤ st2.heap.length ∧ slots.length = ts.length ∧
            ∀ (i : Nat) t v, ts[i]? = some t → slots[i]? = some (some v) → IsA env (fun _ => R) st2.heap.length t v)
            (fun _ _ _ h h' => ⟨h.1.left h', h.2⟩) ?_ ⟨hJ, le_refl _, by simp, ?_⟩ h1
          · intro s fld w st' s1 st1 ⟨i1, i2, i3, i4⟩ hc
            simp only [fieldCb] at hc
            split at hc
            · rename_i t ht
              split at hc
              · cases hc
              · rename_i v st3 h3
                cases hc
                obtain ⟨j1, j2, j3⟩ := hr _ _ _ _ _ (hqs t (List.mem_of_getElem? ht)) i1 h3
                refine ⟨j1, le_trans i2 j2, by simp [i3], ?_⟩
                intro i u x hu hx
                rw [List.getElem?_set] at hx
                split at hx
                · rename_i hi
                  subst hi
                  split at hx
                  · simp only [Option.some.injEq] at hx
                    subst hx
                    rw [ht] at hu
                    cases hu
                    exact j3
                  · cases hx
                · exact isA_mono j2 (i4 i u x hu hx)
            · split at hc
              · cases hc
              · rename_i h3
                cases hc
                exact ⟨i1.left (discardBody_left h3), i2, i3, i4⟩
          · intro i u x _ hx
            rw [List.getElem?_replicate] at hx
            split at hx <;> simp at hx
        obtain ⟨i1, i2, i3, i4⟩ := key
        obtain ⟨a, b, c, d⟩ := fillIn_reads hd ts slots hqs i1 i3 i4 h2
        exact ⟨a, le_trans i2 b, .tuple c d⟩
  | oneOf ts =>
    simp only [deserStep, deserOneOf] at h
    obtain ⟨hlen, hqs⟩ := hQ.oneOf hq
    have key : ∀ {s2 : Option Val} {st2 : St}, consume (oneOfCb rec ts) w none st = .ok (s2, st2) → J env R st2 ∧ st.heap.length ≤ st2.heap.length ∧
        ∀ v, s2 = some v → IsA env (fun _ => R) st2.heap.length (.oneOf ts) v := by
      intro s2 st2 h1
      refine consume_ok (I := fun (s2 : Option Val) (st2 : St) => J env R st2 ∧ st.heap.length ≤ st2.heap.length ∧
        ∀ v, s2 = some v → IsA env (fun _ => R) st2.heap.length (.oneOf ts) v) (fun _ _ _ h h' => ⟨h.1.left h', h.2⟩) ?_
        ⟨hJ, le_refl _, fun _ h => by simp at h⟩ h1
      intro s fld w st' s1 st1 ⟨i1, i2, i3⟩ hc
      simp only [oneOfCb] at hc
      split at hc
      · cases hc
      · split at hc
        · cases hc
          exact ⟨i1, i2, fun _ h => by simp at h⟩
        · rename_i t ht
          split at hc
          · cases hc
          · rename_i v st3 h3
            cases hc
            obtain ⟨j1, j2, j3⟩ := hr _ _ _ _ _ (hqs t (List.mem_of_getElem? ht)) i1 h3
            refine ⟨j1, le_trans i2 j2, ?_⟩
            intro u hu
            cases hu
            have hf : fld < ts.length := (List.getElem?_eq_some_iff.mp ht).1
            rw [Nat.mod_eq_of_lt (by omega)]
            exact .oneOf ht j3
    split at h
    · cases h
    · rename_i h1
      cases h
      obtain ⟨a, b, c⟩ := key h1
      exact ⟨a, b, c _ rfl⟩
    · rename_i h1
      obtain ⟨a, b, _⟩ := key h1
      obtain ⟨a', b', c'⟩ := hd _ _ _ _ hq a h
      exact ⟨a', le_trans b b', c'⟩
  | alt ts =>
    simp only [deserStep, deserAlt] at h
    obtain ⟨hlen, hqs⟩ := hQ.alt hq
    split at h
    · cases h
    · split at h
      · cases h
      · rename_i h1
        split at h
        · cases h
        · rename_i t ht
          split at h
          · cases h
          · rename_i h3
            cases h
            obtain ⟨j1, j2, j3⟩ := hr _ _ _ _ _ (hqs t (List.mem_of_getElem? ht)) (hJ.left (readHeader_left h1).1) h3
            refine ⟨j1, j2, ?_⟩
            have hf := (List.getElem?_eq_some_iff.mp ht).1
            split
            · rw [Nat.mod_eq_of_lt (by omega)]
              exact .alt ht j3
            · exact .alt ht j3
  | tupleOf t =>
    simp only [deserStep, deserTupleOf] at h
    obtain ⟨hqt, ha⟩ := hQ.tupleOf hq
    split at h
    · cases h
      exact ⟨hJ, le_refl _, .tupleOf (by simp)⟩
    · split at h
      · cases h
      · split at h
        · cases h
        · rename_i h1
          split at h
          · cases h
          · rename_i h2
            cases h
            obtain ⟨a, b, c⟩ := deserSeq_reads hQ hr hqt ha hJ h1
            obtain ⟨f1, f2, f3⟩ := finish_left h2
            refine ⟨⟨fun x hx => a.bytes x (f1.mem hx), by rw [f2, f3]; exact a.cache, by rw [f3]; exact a.objects⟩, by rw [f3]; exact b, ?_⟩
            rw [f3]
            exact .tupleOf c
  | listOf t =>
    simp only [deserStep, deserListOf] at h
    obtain ⟨hqt, ha, hR⟩ := hQ.listOf hq
    split at h
    · cases h
    · split at h
      · cases h
      · rename_i h1
        have hJ1 := hJ.left (readVarintObject_left h1)
        split at h
        · cases h
        · rename_i a hl
          split at h
          · cases h
          · rename_i h2
            cases h
            obtain ⟨f1, f2, f3⟩ := finish_left h2
            obtain ⟨i, hi⟩ := lookup_found hl
            refine ⟨⟨fun x hx => hJ1.bytes x (f1.mem hx), by rw [f2, f3]; exact hJ1.cache, by rw [f3]; exact hJ1.objects⟩, by rw [f3], ?_⟩
            rw [f3]
            exact .ref rfl (hJ.cache i a hi) hR
        · split at h
          · cases h
          · rename_i h2
            split at h
            · cases h
            · rename_i vs st3 h3
              split at h
              · cases h
              · rename_i st4 h4
                cases h
                obtain ⟨k1, k2, k3⟩ := alloc_J hJ1 h2
                obtain ⟨a, b, c⟩ := deserSeq_reads hQ hr hqt ha k1 h3
                obtain ⟨f1, f2, f3⟩ := finish_left h4
                have hJ4 : J env R st4 := ⟨fun x hx => a.bytes x (f1.mem hx), by rw [f2, f3]; exact a.cache, by rw [f3]; exact a.objects⟩
                refine ⟨fill_J hJ4 ?_ ?_, ?_, .ref rfl ?_ hR⟩
                · intro e he i v hv
                  rw [hR] at he
                  cases he
                  rw [f3]
                  exact c v (List.mem_of_getElem? hv)
                · intro k w hkw
                  rw [hR] at hkw
                  cases hkw
                · simp only [fill, List.length_set, f3]
                  exact le_trans k2 b
                · simp only [fill, List.length_set, f3]
                  omega
  | constDict k u =>
    simp only [deserStep, deserConstDict] at h
    obtain ⟨hk, hu⟩ := hQ.constDict hq
    have hkv : ∀ i, Q (kv k u i) := by
      intro i
      simp only [kv]
      split
      · exact hk
      · exact hu
    split at h
    · cases h
    · rename_i s2 st2 h1
      split at h
      · cases h
      · rename_i hcount
        cases h
        have key : J env R st1 ∧ st.heap.length ≤ st1.heap.length ∧ (s2.read = 0 → s2.vals = []) ∧
            (s2.read ≠ 0 → s2.vals.length + 1 = s2.read ∧ s2.read ≤ s2.count * 2 + 1) ∧
            ∀ (i : Nat) v, s2.vals[i]? = some v → IsA env (fun _ => R) st1.heap.length (kv k u i) v := by
          refine consume_ok (I := fun (s2 : Items) (st2 : St) => J env R st2 ∧ st.heap.length ≤ st2.heap.length ∧ (s2.read = 0 → s2.vals = []) ∧
            (s2.read ≠ 0 → s2.vals.length + 1 = s2.read ∧ s2.read ≤ s2.count * 2 + 1) ∧
            ∀ (i : Nat) v, s2.vals[i]? = some v → IsA env (fun _ => R) st2.heap.length (kv k u i) v)
            (fun _ _ _ h h' => ⟨h.1.left h', h.2⟩) ?_ ⟨hJ, le_refl _, fun _ => rfl, fun h => absurd rfl h, by simp⟩ h1
          intro s fld w st' s1 st1 ⟨i1, i2, i3, i4, i5⟩ hc
          simp only [constDictCb] at hc
          split at hc
          · cases hc
          · split at hc
            · rename_i h0
              split at hc
              · cases hc
              · split at hc
                · cases hc
                · rename_i h3
                  cases hc
                  refine ⟨i1.left (readVarint_left h3), i2, fun h => by simp at h, fun _ => ?_, i5⟩
                  simp [i3 h0]
            · rename_i h0
              split at hc
              · cases hc
              · rename_i hle
                split at hc
                · cases hc
                · rename_i h3
                  cases hc
                  obtain ⟨j1, j2, j3⟩ := hr _ _ _ _ _ (hkv _) i1 h3
                  have h4 := i4 h0
                  refine ⟨j1, le_trans i2 j2, fun h => by simp at h, fun _ => ?_, ?_⟩
                  · simp only [List.length_append, List.length_cons, List.length_nil]
                    omega
                  · intro i x hx
                    rcases getElem?_app hx with hx | ⟨rfl, rfl⟩
                    · exact isA_mono j2 (i5 i x hx)
                    · have : s.read - 1 = s.vals.length := by omega
                      rw [this] at j3
                      exact j3
        obtain ⟨i1, i2, i3, i4, i5⟩ := key
        have h4 := i4 (by omega)
        exact ⟨i1, i2, .constDict (by omega) i5⟩
  | dict k u =>
    obtain ⟨hk, hu, hR⟩ := hQ.dict hq
    have := items_reads (ty := kv k u) (per := 2) hr (.inr rfl) (fun i => by simp only [kv]; split; exacts [hk, hu])
      (by rw [hR]; rfl) (fun _ _ _ => rfl) hJ h
    exact ⟨this.1, this.2.1, by have h3 := this.2.2; rw [hR] at h3 ⊢; exact h3⟩
  | set k =>
    obtain ⟨hk, hR⟩ := hQ.set hq
    have := items_reads (ty := fun _ => k) (per := 1) hr (.inl rfl) (fun _ => hk)
      (by rw [hR]; rfl) (fun _ _ h => by rw [hR] at h; cases h) hJ h
    exact ⟨this.1, this.2.1, by have h3 := this.2.2; rw [hR] at h3 ⊢; exact h3⟩
  | named n =>
    obtain ⟨a, b, c⟩ := hr _ _ _ _ _ (hQ.named hq) hJ h
    exact ⟨a, b, .named c⟩

theorem deser_reads (hQ : Sturdy env R Q) (hd : Defaults env R Q dflt) : ∀ depth, Reads env R Q (deser env dflt depth)
  | 0 => fun _ _ _ _ _ _ _ h => by simp [deser] at h
  | depth + 1 => deserStep_reads hQ hd (deser_reads hQ hd depth)

end J

end Verif.Typed
