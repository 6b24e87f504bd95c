import Verif.Typed.Damaged
/-
Which failures reading can end with, whatever the stream is.
-/
namespace Verif.Typed

open Verif.Wire (Bytes Reg InRange readRegister readVarint readHeader readVarintObject readBytes)

/-- Reading streams of `K` as types of `C` ends with failures of `P`, as far as the parts are concerned. -/
structure Tame (env : Nat → Ty) (dflt : Ty → St → Except Err (Val × St)) (P : Err → Prop) (K : Bytes → Prop) (C : Ty → Prop) : Prop where
  suffix : ∀ {bs bs'}, K bs → bs' <:+ bs → K bs'
  varint : ∀ {bs e}, K bs → readVarint bs = .error e → P (.wire e)
  corrupt : P .corrupt
  badWire : P (.wire .badWire)
  outOfData : P (.wire .outOfData)
  dflt : ∀ {t st e}, C t → dflt t st = .error e → P e
  str : ∀ {w bs e}, C .str → K bs → Str.deserialize w bs = .error e → P (.str e)
  ints : ∀ {ct bs e}, C (.tupleOf (.reg (.int 8))) ∨ C (.listOf (.reg (.int 8))) → K bs → deserInts ct bs = .error e → P (.wire e)
  tuple : ∀ {ts}, C (.tuple ts) → ∀ t ∈ ts, C t
  oneOf : ∀ {ts}, C (.oneOf ts) → ∀ t ∈ ts, C t
  alt : ∀ {ts}, C (.alt ts) → ∀ t ∈ ts, C t
  tupleOf : ∀ {t}, C (.tupleOf t) → C t ∧ (podSize t = some 0 → P .undefined)
  listOf : ∀ {t}, C (.listOf t) → C t ∧ (podSize t = some 0 → P .undefined)
  constDict : ∀ {k w}, C (.constDict k w) → C k ∧ C w ∧ P .undefined
  dict : ∀ {k w}, C (.dict k w) → C k ∧ C w ∧ P .undefined
  set : ∀ {k}, C (.set k) → C k ∧ P .undefined
  named : ∀ {m}, C (.named m) → C (env m) ∧ ∀ n, env m ≠ .named n

section Tame
variable {env : Nat → Ty} {dflt : Ty → St → Except Err (Val × St)} {P : Err → Prop} {K : Bytes → Prop} {C : Ty → Prop}
  (hT : Tame env dflt P K C)
include hT

theorem readHeader_err {bs : Bytes} {e : Wire.Err} (hK : K bs) (h : readHeader bs = .error e) : P (.wire e) := by
  simp only [readHeader] at h
  split at h
  · rename_i h1
    cases h
    exact hT.varint hK h1
  · cases h

theorem readBytes_err {n : Nat} {bs : Bytes} {e : Wire.Err} (h : readBytes n bs = .error e) : P (.wire e) := by
  simp only [readBytes] at h
  split at h
  · cases h
    exact hT.outOfData
  · cases h

theorem readRegister_err {r : Reg} {w : Nat} {bs : Bytes} {e : Wire.Err} (hK : K bs) (h : readRegister r w bs = .error e) : P (.wire e) := by
  cases r with
  | float n =>
    simp only [readRegister] at h
    by_cases hw : w = (if n = 8 then 3 else 2)
    · rw [if_pos hw] at h
      split at h
      · rename_i h1
        cases h
        exact readBytes_err hT h1
      · cases h
    · rw [if_neg hw] at h
      cases h
      exact hT.badWire
  | bool =>
    simp only [readRegister] at h
    split at h
    · split at h
      · rename_i h1
        cases h
        exact hT.varint hK h1
      · cases h
    · cases h
      exact hT.badWire
  | uint n =>
    simp only [readRegister] at h
    split at h
    · split at h
      · rename_i h1
        cases h
        exact hT.varint hK h1
      · cases h
    · cases h
      exact hT.badWire
  | int n =>
    simp only [readRegister, Wire.readSigned] at h
    split at h
    · split at h
      · rename_i h1
        cases h
        split at h1
        · rename_i h2
          cases h1
          exact hT.varint hK h2
        · cases h1
      · cases h
    · cases h
      exact hT.badWire

theorem readVarintObject_err {bs : Bytes} {e : Wire.Err} (hK : K bs) (h : readVarintObject bs = .error e) : P (.wire e) := by
  simp only [readVarintObject] at h
  split at h
  · rename_i h1
    cases h
    exact readHeader_err hT hK h1
  · rename_i h1
    split at h
    · exact hT.varint (hT.suffix hK (readHeader_left h1).1) h
    · cases h
      exact hT.badWire

theorem discard_errs : ∀ (f : Nat), (∀ (w : Nat) (bs : Bytes) e, K bs → 2 * bs.length + 3 ≤ f → Wire.discardBody f w bs = .error e → P (.wire e)) ∧
    (∀ (bs : Bytes) e, K bs → 2 * bs.length + 2 ≤ f → Wire.discardLoop f bs = .error e → P (.wire e)) := by
  intro f
  induction f with
  | zero => exact ⟨fun w bs _ _ h => by omega, fun bs _ _ h => by omega⟩
  | succ f ih =>
    obtain ⟨ihB, ihL⟩ := ih
    refine ⟨?_, ?_⟩
    · intro w bs e hK hf h
      simp only [Wire.discardBody] at h
      split at h
      · cases h
      split at h
      · split at h
        · rename_i h1
          cases h
          exact hT.varint hK h1
        · cases h
      split at h
      · split at h
        · rename_i h1
          cases h
          exact readBytes_err hT h1
        · cases h
      split at h
      · split at h
        · rename_i h1
          cases h
          exact readBytes_err hT h1
        · cases h
      split at h
      · split at h
        · rename_i h1
          cases h
          exact hT.varint hK h1
        · split at h
          · rename_i h1
            cases h
            exact readBytes_err hT h1
          · cases h
      split at h
      · split at h
        · rename_i h1
          cases h
          exact readHeader_err hT hK h1
        · rename_i w' bs1 h1
          obtain ⟨h2, h3⟩ := readHeader_left h1
          exact ihB _ _ _ (hT.suffix hK h2) (by omega) h
      split at h
      · exact ihL _ _ hK (by omega) h
      split at h
      · cases h
      · cases h
        exact hT.badWire
    · intro bs e hK hf h
      simp only [Wire.discardLoop] at h
      split at h
      · rename_i h1
        cases h
        exact readHeader_err hT hK h1
      · rename_i w' bs1 h1
        obtain ⟨h2, h3⟩ := readHeader_left h1
        split at h
        · rename_i h4
          cases h
          exact ihB _ _ _ (hT.suffix hK h2) (by omega) h4
        · rename_i bs2 h4
          split at h
          · cases h
          · obtain ⟨d, hd⟩ := ((Wire.sane_all f).1 _ bs1 (by omega)).2 _ h4
            have hl : bs1.length = d.length + bs2.length := by rw [hd]; simp
            exact ihL _ _ (hT.suffix hK (List.IsSuffix.trans ⟨d, hd.symm⟩ h2)) (by omega) h

theorem finish_err {w : Nat} {st : St} {e : Err} (hK : K st.bytes) (h : finish w st = .error e) : P e := by
  simp only [finish] at h
  split at h
  · cases h
  · split at h
    · rename_i h1
      cases h
      simp only [Wire.discard] at h1
      split at h1
      · rename_i h2
        cases h1
        exact readHeader_err hT hK h2
      · rename_i bs1 h2
        obtain ⟨h3, h4⟩ := readHeader_left h2
        split at h1
        · rename_i h5
          cases h1
          exact (discard_errs hT _).1 _ _ _ (hT.suffix hK h3) (by omega) h5
        · cases h1
    · split at h
      · cases h
      · cases h
        exact hT.corrupt

/-! ### Loops -/

variable {σ : Type} {cb : σ → Nat → Nat → St → Except Err (σ × St)} {B : Nat}

theorem consumeLoop_err (hcb : ∀ s fld w st e, K st.bytes → st.bytes.length < B → cb s fld w st = .error e → P e)
    (hleft : ∀ s fld w st s1 st1, cb s fld w st = .ok (s1, st1) → st1.bytes <:+ st.bytes) :
    ∀ (n : Nat) {s : σ} {st : St} {e : Err}, K st.bytes → st.bytes.length ≤ B → st.bytes.length < n → consumeLoop cb n s st = .error e → P e := by
  intro n
  induction n with
  | zero => intro s st e _ _ h; omega
  | succ n ih =>
    intro s st e hK hB hn h
    simp only [consumeLoop] at h
    split at h
    · rename_i h1
      cases h
      exact readHeader_err hT hK h1
    · rename_i bs h1
      obtain ⟨h2, h3⟩ := readHeader_left h1
      split at h
      · cases h
      · split at h
        · rename_i h4
          cases h
          exact hcb _ _ _ _ _ (hT.suffix hK h2) (by simp only; omega) h4
        · rename_i st1 h4
          have h5 := hleft _ _ _ _ _ _ h4
          have h6 := h5.length_le
          simp only at h5 h6
          exact ih (hT.suffix hK (h5.trans h2)) (by omega) (by omega) h

theorem consume_err (hcb : ∀ s fld w st e, K st.bytes → st.bytes.length < B → cb s fld w st = .error e → P e)
    (hleft : ∀ s fld w st s1 st1, cb s fld w st = .ok (s1, st1) → st1.bytes <:+ st.bytes)
    {w : Nat} {s : σ} {st : St} {e : Err} (hK : K st.bytes) (hB : st.bytes.length ≤ B) (h : consume cb w s st = .error e) : P e := by
  simp only [consume] at h
  split at h
  · cases h
  · split at h
    · split at h
      · rename_i h1
        cases h
        exact readHeader_err hT hK h1
      · rename_i h1
        obtain ⟨h2, h3⟩ := readHeader_left h1
        exact hcb _ _ _ _ _ (hT.suffix hK h2) (by simp only; omega) h
    · split at h
      · cases h
        exact hT.corrupt
      · exact consumeLoop_err hT hcb hleft _ hK hB (by omega) h

theorem readN_err (hcb : ∀ s fld w st e, K st.bytes → st.bytes.length < B → cb s fld w st = .error e → P e)
    (hleft : ∀ s fld w st s1 st1, cb s fld w st = .ok (s1, st1) → st1.bytes <:+ st.bytes) :
    ∀ (n : Nat) {s : σ} {st : St} {e : Err}, K st.bytes → st.bytes.length ≤ B → readN cb n s st = .error e → P e := by
  intro n
  induction n with
  | zero => intro s st e _ _ h; simp [readN] at h
  | succ n ih =>
    intro s st e hK hB h
    simp only [readN] at h
    split at h
    · rename_i h1
      cases h
      exact readHeader_err hT hK h1
    · rename_i bs h1
      obtain ⟨h2, h3⟩ := readHeader_left h1
      split at h
      · rename_i h4
        cases h
        exact hcb _ _ _ _ _ (hT.suffix hK h2) (by simp only; omega) h4
      · rename_i st1 h4
        have h5 := hleft _ _ _ _ _ _ h4
        have h6 := h5.length_le
        simp only at h5 h6
        exact ih (hT.suffix hK (h5.trans h2)) (by omega) h

end Tame

/-! ### The callbacks leave an end of the stream -/

section CbLeft
variable {rec : Ty → Nat → St → Except Err (Val × St)} (hr : Left rec)
include hr

theorem eltCb_left {t : Ty} : ∀ s fld w st s1 st1, eltCb rec t s fld w st = .ok (s1, st1) → st1.bytes <:+ st.bytes := by
  intro s fld w st s1 st1 h
  simp only [eltCb] at h
  split at h
  · cases h
  · split at h
    · cases h
    · split at h
      · cases h
      · rename_i h1
        cases h
        exact hr _ _ _ _ _ h1

theorem fieldCb_left {ts : List Ty} : ∀ s fld w st s1 st1, fieldCb rec ts s fld w st = .ok (s1, st1) → st1.bytes <:+ st.bytes := by
  intro s fld w st s1 st1 h
  simp only [fieldCb] at h
  split at h
  · split at h
    · cases h
    · rename_i h1
      cases h
      exact hr _ _ _ _ _ h1
  · split at h
    · cases h
    · rename_i h1
      cases h
      exact discardBody_left h1

theorem oneOfCb_left {ts : List Ty} : ∀ s fld w st s1 st1, oneOfCb rec ts s fld w st = .ok (s1, st1) → st1.bytes <:+ st.bytes := by
  intro s fld w st s1 st1 h
  simp only [oneOfCb] at h
  split at h
  · cases h
  · split at h
    · cases h
      exact List.suffix_rfl
    · split at h
      · cases h
      · rename_i h1
        cases h
        exact hr _ _ _ _ _ h1

theorem constDictCb_left {k u : Ty} : ∀ s fld w st s1 st1, constDictCb rec k u s fld w st = .ok (s1, st1) → st1.bytes <:+ st.bytes := by
  intro s fld w st s1 st1 h
  simp only [constDictCb] at h
  split at h
  · cases h
  · split at h
    · split at h
      · cases h
      · split at h
        · cases h
        · rename_i h1
          cases h
          exact readVarint_left h1
    · split at h
      · cases h
      · split at h
        · cases h
        · rename_i h1
          cases h
          exact hr _ _ _ _ _ h1

theorem itemsCb_left {per : Nat} {ty : Nat → Ty} : ∀ s fld w st s1 st1, itemsCb rec per ty s fld w st = .ok (s1, st1) → st1.bytes <:+ st.bytes := by
  intro s fld w st s1 st1 h
  simp only [itemsCb] at h
  split at h
  · cases h
  · split at h
    · split at h
      · cases h
      · split at h
        · cases h
        · rename_i h1
          split at h
          · cases h
          · cases h
            exact readVarint_left h1
    · split at h
      · split at h
        · cases h
        · split at h
          · cases h
          · rename_i h1
            split at h
            · cases h
            · rename_i h2
              cases h
              rw [alloc_bytes h2]
              exact readVarint_left h1
      · split at h
        · cases h
        · split at h
          · cases h
          · rename_i h1
            cases h
            exact hr _ _ _ _ _ h1

end CbLeft

/-! ### Every type -/

section Step
variable {env : Nat → Ty} {dflt : Ty → St → Except Err (Val × St)} {P : Err → Prop} {K : Bytes → Prop} {C : Ty → Prop}
  (hT : Tame env dflt P K C) {rec : Ty → Nat → St → Except Err (Val × St)} (hr : Left rec) {B : Nat}
  (he : ∀ t w st e, C t → K st.bytes → st.bytes.length < B → rec t w st = .error e → P e)
include hT

theorem lookup_err {id : Nat} {cache : List (Option Nat)} {e : Err} (h : lookup id cache = .error e) : P e := by
  simp only [lookup] at h
  split at h
  · cases h
    exact hT.corrupt
  · cases h

theorem alloc_err {id : Nat} {st : St} {e : Err} (h : alloc id st = .error e) : P e := by
  simp only [alloc, addCached] at h
  split at h
  · rename_i h1
    cases h
    split at h1
    · cases h1
      exact hT.corrupt
    · split at h1
      · cases h1
        exact hT.corrupt
      · split at h1
        · cases h1
          exact hT.corrupt
        · cases h1
  · cases h

theorem fillIn_err : ∀ (ts : List Ty) (ss : List (Option Val)) {st : St} {e : Err}, (∀ t ∈ ts, C t) → fillIn dflt ts ss st = .error e → P e := by
  intro ts
  induction ts with
  | nil =>
    intro ss st e _ h
    simp only [fillIn] at h
    cases h
  | cons t ts ih =>
    intro ss st e hC h
    cases ss with
    | nil =>
      simp only [fillIn] at h
      cases h
    | cons s ss =>
      have hC' : ∀ u ∈ ts, C u := fun u hu => hC u (by simp [hu])
      simp only [fillIn] at h
      split at h
      · split at h
        · rename_i h1
          cases h
          exact ih ss hC' h1
        · cases h
      · split at h
        · rename_i h1
          cases h
          exact hT.dflt (hC t (by simp)) h1
        · split at h
          · rename_i h1
            cases h
            exact ih ss hC' h1
          · cases h

include hr he

theorem deserSeq_err {t : Ty} (ht : C t) (hz : podSize t = some 0 → P .undefined)
    (hi : isInt64 t = true → ∀ {ct bs e}, K bs → deserInts ct bs = .error e → P (.wire e)) {st : St} {e : Err} (hK : K st.bytes)
    (hB : st.bytes.length ≤ B) (h : deserSeq rec t st = .error e) : P e := by
  simp only [deserSeq] at h
  split at h
  · rename_i h1
    cases h
    exact readHeader_err hT hK h1
  · rename_i h1
    obtain ⟨h2, h3⟩ := readHeader_left h1
    have hK1 := hT.suffix hK h2
    split at h
    · rename_i h4
      cases h
      exact hT.varint hK1 h4
    · rename_i bs1 h4
      have hK2 := hT.suffix hK1 (readVarint_left h4)
      have hl := (readVarint_left h4).length_le
      simp only [deserBody] at h
      split at h
      · split at h
        · cases h
        · cases h
          exact hT.corrupt
      · split at h
        · refine readN_err hT (B := B) ?_ (eltCb_left hr) _ hK2 (by simp only; omega) h
          intro s fld w st e hK hB h
          simp only [eltCb] at h
          split at h
          · cases h
            exact hT.corrupt
          · split at h
            · cases h
              exact hT.corrupt
            · split at h
              · rename_i h5
                cases h
                exact he _ _ _ _ ht hK hB h5
              · cases h
        · split at h
          · split at h
            · rename_i h64
              split at h
              · rename_i h5
                cases h
                exact hi h64 hK2 h5
              · cases h
            · cases h
              exact hT.corrupt
          · split at h
            · split at h
              · cases h
                exact hT.corrupt
              · rename_i hs
                split at h
                · rename_i h0
                  cases h
                  exact hz (by rw [hs, h0])
                · split at h
                  · cases h
                    exact hT.corrupt
                  · split at h
                    · rename_i h5
                      cases h
                      exact readBytes_err hT h5
                    · cases h
            · split at h
              · split at h
                · cases h
                · cases h
                  exact hT.corrupt
              · cases h
                exact hT.corrupt

theorem items_err {per : Nat} {ty : Nat → Ty} (hty : ∀ i, C (ty i)) (hu : P .undefined) {w : Nat} {st : St} {e : Err} (hK : K st.bytes)
    (hB : st.bytes.length ≤ B) (h : deserItems rec per ty w st = .error e) : P e := by
  simp only [deserItems] at h
  split at h
  · rename_i h1
    cases h
    refine consume_err hT (B := B) ?_ (itemsCb_left hr) hK hB h1
    intro s fld w st e hK hB h
    simp only [itemsCb] at h
    split at h
    · cases h
      exact hT.corrupt
    · split at h
      · split at h
        · cases h
          exact hT.badWire
        · split at h
          · rename_i h2
            cases h
            exact hT.varint hK h2
          · split at h
            · rename_i h2
              cases h
              exact lookup_err hT h2
            · cases h
      · split at h
        · split at h
          · cases h
            exact hT.badWire
          · split at h
            · rename_i h2
              cases h
              exact hT.varint hK h2
            · split at h
              · rename_i h2
                cases h
                exact alloc_err hT h2
              · cases h
        · split at h
          · cases h
            exact hu
          · split at h
            · rename_i h2
              cases h
              exact he _ _ _ _ (hty _) hK hB h2
            · cases h
  · split at h
    · cases h
    · split at h
      · cases h
        exact hT.corrupt
      · split at h
        · cases h
          exact hu
        · cases h

theorem deserStep_err {t : Ty} (ht : C t) (hn : ∀ n, t ≠ .named n) {w : Nat} {st : St} {e : Err} (hK : K st.bytes)
    (hB : st.bytes.length ≤ B) (h : deserStep env dflt rec t w st = .error e) : P e := by
  cases t with
  | reg r =>
    simp only [deserStep] at h
    split at h
    · rename_i h1
      cases h
      exact readRegister_err hT hK h1
    · cases h
  | unit =>
    simp only [deserStep] at h
    split at h
    · cases h
    · cases h
      exact hT.badWire
  | bytes =>
    simp only [deserStep] at h
    split at h
    · cases h
      exact hT.corrupt
    · split at h
      · rename_i h1
        cases h
        exact hT.varint hK h1
      · split at h
        · cases h
          exact hT.corrupt
        · cases h
  | str =>
    simp only [deserStep] at h
    split at h
    · rename_i h1
      cases h
      exact hT.str ht hK h1
    · cases h
  | tuple ts =>
    simp only [deserStep, deserTuple] at h
    split at h
    · rename_i h1
      cases h
      refine consume_err hT (B := B) ?_ (fieldCb_left hr) hK hB h1
      intro s fld w st e hK hB h
      simp only [fieldCb] at h
      split at h
      · rename_i hf
        split at h
        · rename_i h2
          cases h
          exact he _ _ _ _ (hT.tuple ht _ (List.mem_of_getElem? hf)) hK hB h2
        · cases h
      · split at h
        · rename_i h2
          cases h
          exact (discard_errs hT _).1 _ _ _ hK (le_refl _) h2
        · cases h
    · split at h
      · rename_i h1
        cases h
        exact fillIn_err hT _ _ (hT.tuple ht) h1
      · cases h
  | oneOf ts =>
    simp only [deserStep, deserOneOf] at h
    split at h
    · rename_i h1
      cases h
      refine consume_err hT (B := B) ?_ (oneOfCb_left hr) hK hB h1
      intro s fld w st e hK hB h
      simp only [oneOfCb] at h
      split at h
      · cases h
        exact hT.corrupt
      · split at h
        · cases h
        · rename_i hf
          split at h
          · rename_i h2
            cases h
            exact he _ _ _ _ (hT.oneOf ht _ (List.mem_of_getElem? hf)) hK hB h2
          · cases h
    · cases h
    · exact hT.dflt ht h
  | alt ts =>
    simp only [deserStep, deserAlt] at h
    split at h
    · cases h
      exact hT.corrupt
    · split at h
      · rename_i h1
        cases h
        exact readHeader_err hT hK h1
      · rename_i h1
        obtain ⟨h2, h3⟩ := readHeader_left h1
        split at h
        · cases h
          exact hT.corrupt
        · rename_i hf
          split at h
          · rename_i h4
            cases h
            exact he _ _ _ _ (hT.alt ht _ (List.mem_of_getElem? hf)) (hT.suffix hK h2) (by simp only; omega) h4
          · cases h
  | tupleOf t =>
    obtain ⟨hC, hz⟩ := hT.tupleOf ht
    have hi : isInt64 t = true → ∀ {ct bs e}, K bs → deserInts ct bs = .error e → P (.wire e) := by
      intro h64 ct bs e hK hd
      simp only [isInt64] at h64
      split at h64
      · exact hT.ints (.inl ht) hK hd
      · cases h64
    simp only [deserStep, deserTupleOf] at h
    split at h
    · cases h
    · split at h
      · cases h
        exact hT.badWire
      · split at h
        · rename_i h1
          cases h
          exact deserSeq_err hT hr he hC hz hi hK hB h1
        · rename_i h1
          split at h
          · rename_i h2
            cases h
            exact finish_err hT (hT.suffix hK (deserSeq_left hr h1)) h2
          · cases h
  | listOf t =>
    obtain ⟨hC, hz⟩ := hT.listOf ht
    have hi : isInt64 t = true → ∀ {ct bs e}, K bs → deserInts ct bs = .error e → P (.wire e) := by
      intro h64 ct bs e hK hd
      simp only [isInt64] at h64
      split at h64
      · exact hT.ints (.inr ht) hK hd
      · cases h64
    simp only [deserStep, deserListOf] at h
    split at h
    · cases h
      exact hT.badWire
    · split at h
      · rename_i h1
        cases h
        exact readVarintObject_err hT hK h1
      · rename_i h1
        have h1' := readVarintObject_left h1
        have hl := h1'.length_le
        have hK1 := hT.suffix hK h1'
        split at h
        · rename_i h2
          cases h
          exact lookup_err hT h2
        · split at h
          · rename_i h2
            cases h
            exact finish_err hT (by exact hK1) h2
          · cases h
        · split at h
          · rename_i h2
            cases h
            exact alloc_err hT h2
          · rename_i st1 h2
            have hb := alloc_bytes h2
            simp only at hb
            split at h
            · rename_i h3
              cases h
              exact deserSeq_err hT hr he hC hz hi (by rw [hb]; exact hK1) (by rw [hb]; omega) h3
            · rename_i h3
              have h3' := deserSeq_left hr h3
              rw [hb] at h3'
              split at h
              · rename_i h4
                cases h
                exact finish_err hT (hT.suffix hK1 h3') h4
              · cases h
  | constDict k u =>
    obtain ⟨hk, hw, hu⟩ := hT.constDict ht
    simp only [deserStep, deserConstDict] at h
    split at h
    · rename_i h1
      cases h
      refine consume_err hT (B := B) ?_ (constDictCb_left hr) hK hB h1
      intro s fld w st e hK hB h
      simp only [constDictCb] at h
      split at h
      · cases h
        exact hT.corrupt
      · split at h
        · split at h
          · cases h
            exact hT.corrupt
          · split at h
            · rename_i h2
              cases h
              exact hT.varint hK h2
            · cases h
        · split at h
          · cases h
            exact hu
          · split at h
            · rename_i h2
              cases h
              exact he _ _ _ _ (by simp only [kv]; split; exacts [hk, hw]) hK hB h2
            · cases h
    · split at h
      · cases h
        exact hT.corrupt
      · cases h
  | dict k u =>
    obtain ⟨hk, hw, hu⟩ := hT.dict ht
    exact items_err hT hr he (fun i => by simp only [kv]; split; exacts [hk, hw]) hu hK hB h
  | set k =>
    obtain ⟨hk, hu⟩ := hT.set ht
    exact items_err hT hr he (fun _ => hk) hu hK hB h
  | named n => exact absurd rfl (hn n)

end Step

/-- Reading `bytes` to a depth of twice their number and a little more ends with a failure of `P` if it fails. -/
theorem deser_err {env : Nat → Ty} {dflt : Ty → St → Except Err (Val × St)} {P : Err → Prop} {K : Bytes → Prop} {C : Ty → Prop}
    (hT : Tame env dflt P K C) (hq : Quiet dflt) : ∀ (depth : Nat) (t : Ty) (w : Nat) (st : St) (e : Err), C t → K st.bytes →
    (2 * st.bytes.length + 2 ≤ depth ∨ (2 * st.bytes.length + 1 ≤ depth ∧ ∀ n, t ≠ .named n)) →
    deser env dflt depth t w st = .error e → P e := by
  intro depth
  induction depth with
  | zero => intro t w st e _ _ hd; omega
  | succ depth ih =>
    intro t w st e ht hK hd h
    rw [deser] at h
    by_cases hn : ∃ n, t = .named n
    · obtain ⟨n, rfl⟩ := hn
      obtain ⟨h1, h2⟩ := hT.named ht
      rcases hd with hd | hd
      · exact ih _ w st e h1 hK (.inr ⟨by omega, h2⟩) h
      · exact absurd rfl (hd.2 n)
    · have hn' : ∀ n, t ≠ .named n := fun n h => hn ⟨n, h⟩
      refine deserStep_err hT (deser_left env hq depth) (B := st.bytes.length) ?_ ht hn' hK (le_refl _) h
      intro t' w' st' e' ht' hK' hl h'
      exact ih t' w' st' e' ht' hK' (.inl (by omega)) h'

end Verif.Typed
