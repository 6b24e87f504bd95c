import Verif.Typed.DamagedSpec
import Verif.Typed.Model
/-
Reading any bytes at all: what is left is an end of them, and what is read is a value of its type.
-/
namespace Verif.Typed

open Verif.Wire (Bytes Reg InRange readRegister readVarint readHeader readVarintObject readBytes fromLE)

/-! ### What is left of the stream -/

theorem readVarint_left {bs : Bytes} {v : Nat} {rest : Bytes} (h : readVarint bs = .ok (v, rest)) : rest <:+ bs := by
  obtain ⟨d, h1, _⟩ := Wire.readVarint_suffix h
  exact ⟨d, h1.symm⟩

theorem readHeader_left {bs : Bytes} {x : Nat × Nat} {rest : Bytes} (h : readHeader bs = .ok (x, rest)) :
    rest <:+ bs ∧ rest.length < bs.length := by
  obtain ⟨d, h1, h2⟩ := Wire.readHeader_shorter h
  refine ⟨⟨d, h1.symm⟩, ?_⟩
  have := List.length_pos_iff.2 h2
  rw [h1, List.length_append]
  omega

theorem readBytes_left {n : Nat} {bs d rest : Bytes} (h : readBytes n bs = .ok (d, rest)) : rest <:+ bs :=
  ⟨d, (Wire.readBytes_suffix h).symm⟩

theorem readVarintObject_left {bs : Bytes} {v : Nat} {rest : Bytes} (h : readVarintObject bs = .ok (v, rest)) : rest <:+ bs := by
  simp only [readVarintObject] at h
  split at h
  · cases h
  · rename_i h1
    split at h
    · exact (readVarint_left h).trans (readHeader_left h1).1
    · cases h

theorem readRegister_left {r : Reg} {w : Nat} {bs : Bytes} {x : Int} {rest : Bytes} (h : readRegister r w bs = .ok (x, rest)) :
    rest <:+ bs := by
  cases r with
  | float n =>
    simp only [readRegister] at h
    by_cases hw : w = (if n = 8 then 3 else 2)
    · rw [if_pos hw] at h
      split at h
      · cases h
      · rename_i h1
        cases h
        exact readBytes_left h1
    · rw [if_neg hw] at h
      cases h
  | bool =>
    simp only [readRegister] at h
    split at h
    · split at h
      · cases h
      · rename_i h1
        cases h
        exact readVarint_left h1
    · cases h
  | uint n =>
    simp only [readRegister] at h
    split at h
    · split at h
      · cases h
      · rename_i h1
        cases h
        exact readVarint_left h1
    · cases h
  | int n =>
    simp only [readRegister] at h
    split at h
    · split at h
      · cases h
      · rename_i h1
        cases h
        simp only [Wire.readSigned] at h1
        split at h1
        · cases h1
        · rename_i h2
          cases h1
          exact readVarint_left h2
    · cases h

theorem strData_left {n : Nat} {bs : Bytes} {s : Str.Str} {rest : Bytes} (h : Str.deserializeData n bs = .ok (s, rest)) :
    rest <:+ bs := by
  simp only [Str.deserializeData] at h
  split at h
  · cases h
  · rename_i h2
    split at h
    · cases h
    · split at h
      · cases h
      · cases h
        exact readBytes_left h2

theorem strDeserialize_left {w : Nat} {bs : Bytes} {s : Str.Str} {rest : Bytes} (h : Str.deserialize w bs = .ok (s, rest)) :
    rest <:+ bs := by
  simp only [Str.deserialize] at h
  split at h
  · cases h
  · split at h
    · cases h
    · rename_i h1
      exact (strData_left h).trans (readVarint_left h1)

theorem deserIntsLoop_left : ∀ (k n : Nat) (bs : Bytes) {xs : List Int} {rest : Bytes}, deserIntsLoop k n bs = .ok (xs, rest) → rest <:+ bs := by
  intro k
  induction k with
  | zero =>
    intro n bs xs rest h
    cases n with
    | zero =>
      simp only [deserIntsLoop] at h
      cases h
      exact List.suffix_rfl
    | succ n => simp [deserIntsLoop] at h
  | succ k ih =>
    intro n bs xs rest h
    cases n with
    | zero =>
      simp only [deserIntsLoop] at h
      cases h
      exact List.suffix_rfl
    | succ n =>
      simp only [deserIntsLoop] at h
      split at h
      · cases h
      · rename_i h1
        split at h
        · cases h
        · rename_i h2
          split at h
          · cases h
          · split at h
            · cases h
            · rename_i h3
              split at h
              · cases h
              · split at h
                · cases h
                · rename_i h4
                  cases h
                  exact (ih _ _ h4).trans ((readBytes_left h3).trans ((readVarint_left h2).trans (readHeader_left h1).1))

theorem discardBody_left {w : Nat} {bs rest : Bytes} (h : Wire.discardBody (2 * bs.length + 3) w bs = .ok rest) : rest <:+ bs := by
  obtain ⟨d, h1⟩ := (Wire.discard_total w bs).2 rest h
  exact ⟨d, h1.symm⟩

theorem finish_left {w : Nat} {st st1 : St} (h : finish w st = .ok st1) :
    st1.bytes <:+ st.bytes ∧ st1.cache = st.cache ∧ st1.heap = st.heap := by
  simp only [finish] at h
  split at h
  · cases h
    exact ⟨List.suffix_rfl, rfl, rfl⟩
  · split at h
    · cases h
    · rename_i w' bs hd
      split at h
      · cases h
        refine ⟨?_, rfl, rfl⟩
        simp only [Wire.discard] at hd
        split at hd
        · cases hd
        · rename_i h1
          split at hd
          · cases hd
          · rename_i bs1 _ _ h2
            cases hd
            have hlen := (readHeader_left h1).2
            refine List.IsSuffix.trans ?_ (readHeader_left h1).1
            obtain ⟨d, hd⟩ := ((Wire.sane_all (2 * st.bytes.length + 3)).1 _ bs1 (by omega)).2 _ h2
            exact ⟨d, hd.symm⟩
      · cases h

/-! ### Loops -/

section Loops
variable {σ : Type} {cb : σ → Nat → Nat → St → Except Err (σ × St)} {I : σ → St → Prop}

theorem consumeLoop_ok (hh : ∀ s st bs, I s st → bs <:+ st.bytes → I s { st with bytes := bs })
    (hcb : ∀ s fld w st s1 st1, I s st → cb s fld w st = .ok (s1, st1) → I s1 st1) :
    ∀ (n : Nat) {s s1 : σ} {st st1 : St}, I s st → consumeLoop cb n s st = .ok (s1, st1) → I s1 st1 := by
  intro n
  induction n with
  | zero => intro s s1 st st1 _ h; simp [consumeLoop] at h
  | succ n ih =>
    intro s s1 st st1 h0 h
    simp only [consumeLoop] at h
    split at h
    · cases h
    · rename_i h1
      have h2 := hh _ _ _ h0 (readHeader_left h1).1
      split at h
      · cases h
        exact h2
      · split at h
        · cases h
        · rename_i h3
          exact ih (hcb _ _ _ _ _ _ h2 h3) h

theorem consume_ok (hh : ∀ s st bs, I s st → bs <:+ st.bytes → I s { st with bytes := bs })
    (hcb : ∀ s fld w st s1 st1, I s st → cb s fld w st = .ok (s1, st1) → I s1 st1)
    {w : Nat} {s s1 : σ} {st st1 : St} (h0 : I s st) (h : consume cb w s st = .ok (s1, st1)) : I s1 st1 := by
  simp only [consume] at h
  split at h
  · cases h
    exact h0
  · split at h
    · split at h
      · cases h
      · rename_i h1
        exact hcb _ _ _ _ _ _ (hh _ _ _ h0 (readHeader_left h1).1) h
    · split at h
      · cases h
      · exact consumeLoop_ok hh hcb _ h0 h

theorem readN_ok (hh : ∀ s st bs, I s st → bs <:+ st.bytes → I s { st with bytes := bs })
    (hcb : ∀ s fld w st s1 st1, I s st → cb s fld w st = .ok (s1, st1) → I s1 st1) :
    ∀ (n : Nat) {s s1 : σ} {st st1 : St}, I s st → readN cb n s st = .ok (s1, st1) → I s1 st1 := by
  intro n
  induction n with
  | zero =>
    intro s s1 st st1 h0 h
    simp only [readN] at h
    cases h
    exact h0
  | succ n ih =>
    intro s s1 st st1 h0 h
    simp only [readN] at h
    split at h
    · cases h
    · rename_i h1
      split at h
      · cases h
      · rename_i h3
        exact ih (hcb _ _ _ _ _ _ (hh _ _ _ h0 (readHeader_left h1).1) h3) h

end Loops

/-! ### Nothing is read twice -/

/-- The default values are made without reading. -/
def Quiet (dflt : Ty → St → Except Err (Val × St)) : Prop := ∀ t st v st1, dflt t st = .ok (v, st1) → st1.bytes = st.bytes

/-- A reader leaves an end of the stream. -/
def Left (rec : Ty → Nat → St → Except Err (Val × St)) : Prop := ∀ t w st v st1, rec t w st = .ok (v, st1) → st1.bytes <:+ st.bytes

section Left
variable {rec : Ty → Nat → St → Except Err (Val × St)} {dflt : Ty → St → Except Err (Val × St)}

theorem left_step {st : St} : ∀ (σ : Type) (s : σ) (st' : St) (bs : Bytes), st'.bytes <:+ st.bytes → bs <:+ st'.bytes → bs <:+ st.bytes :=
  fun _ _ _ _ h h' => h'.trans h

theorem deserSeq_left (hr : Left rec) {t : Ty} {st st1 : St} {vs : List Val} (h : deserSeq rec t st = .ok (vs, st1)) :
    st1.bytes <:+ st.bytes := by
  simp only [deserSeq] at h
  split at h
  · cases h
  · rename_i h1
    split at h
    · cases h
    · rename_i h2
      refine List.IsSuffix.trans ?_ ((readVarint_left h2).trans (readHeader_left h1).1)
      simp only [deserBody] at h
      split at h
      · split at h
        · cases h
          exact List.suffix_rfl
        · cases h
      · split at h
        · refine readN_ok (I := fun _ st' => st'.bytes <:+ _) (fun _ _ _ h h' => h'.trans h) ?_ _ List.suffix_rfl h
          intro s fld w st' s1 st1 h0 hc
          simp only [eltCb] at hc
          split at hc
          · cases hc
          · split at hc
            · cases hc
            · split at hc
              · cases hc
              · rename_i h3
                cases hc
                exact (hr _ _ _ _ _ h3).trans h0
        · split at h
          · split at h
            · split at h
              · cases h
              · rename_i h3
                cases h
                exact deserIntsLoop_left _ _ _ h3
            · cases h
          · split at h
            · split at h
              · cases h
              · split at h
                · cases h
                · split at h
                  · cases h
                  · split at h
                    · cases h
                    · rename_i h3
                      cases h
                      exact readBytes_left h3
            · split at h
              · split at h
                · cases h
                  exact List.suffix_rfl
                · cases h
              · cases h

theorem fillIn_left (hd : Quiet dflt) : ∀ (ts : List Ty) (ss : List (Option Val)) {st st1 : St} {vs : List Val},
    fillIn dflt ts ss st = .ok (vs, st1) → st1.bytes = st.bytes := by
  intro ts
  induction ts with
  | nil =>
    intro ss st st1 vs h
    simp only [fillIn] at h
    cases h
    rfl
  | cons t ts ih =>
    intro ss st st1 vs h
    cases ss with
    | nil =>
      simp only [fillIn] at h
      cases h
      rfl
    | cons s ss =>
      simp only [fillIn] at h
      split at h
      · split at h
        · cases h
        · rename_i h1
          cases h
          exact ih _ h1
      · split at h
        · cases h
        · rename_i h1
          split at h
          · cases h
          · rename_i h2
            cases h
            exact (ih _ h2).trans (hd _ _ _ _ h1)

theorem alloc_bytes {id : Nat} {st st1 : St} {a : Nat} (h : alloc id st = .ok (a, st1)) : st1.bytes = st.bytes := by
  simp only [alloc] at h
  split at h
  · cases h
  · cases h
    rfl

theorem deserStep_left (env : Nat → Ty) (hd : Quiet dflt) (hr : Left rec) : Left (deserStep env dflt rec) := by
  intro t w st v st1 h
  cases t with
  | reg r =>
    simp only [deserStep] at h
    split at h
    · cases h
    · rename_i h1
      cases h
      exact readRegister_left h1
  | unit =>
    simp only [deserStep] at h
    split at h
    · cases h
      exact List.suffix_rfl
    · cases h
  | bytes =>
    simp only [deserStep] at h
    split at h
    · cases h
    · split at h
      · cases h
      · rename_i h1
        split at h
        · cases h
        · rename_i h2
          cases h
          exact (readBytes_left h2).trans (readVarint_left h1)
  | str =>
    simp only [deserStep] at h
    split at h
    · cases h
    · rename_i h1
      cases h
      exact strDeserialize_left h1
  | tuple ts =>
    simp only [deserStep, deserTuple] at h
    split at h
    · cases h
    · rename_i h1
      split at h
      · cases h
      · rename_i h2
        cases h
        rw [fillIn_left hd _ _ h2]
        refine consume_ok (I := fun _ st' => st'.bytes <:+ st.bytes) (fun _ _ _ h h' => h'.trans h) ?_ List.suffix_rfl h1
        intro s fld w st' s1 st1 h0 hc
        simp only [fieldCb] at hc
        split at hc
        · split at hc
          · cases hc
          · rename_i h3
            cases hc
            exact (hr _ _ _ _ _ h3).trans h0
        · split at hc
          · cases hc
          · rename_i h3
            cases hc
            exact (discardBody_left h3).trans h0
  | oneOf ts =>
    simp only [deserStep, deserOneOf] at h
    have key : ∀ {s1 : Option Val} {st1 : St}, consume (oneOfCb rec ts) w none st = .ok (s1, st1) → st1.bytes <:+ st.bytes := by
      intro s1 st1 h1
      refine consume_ok (I := fun _ st' => st'.bytes <:+ st.bytes) (fun _ _ _ h h' => h'.trans h) ?_ List.suffix_rfl h1
      intro s fld w st' s1 st1 h0 hc
      simp only [oneOfCb] at hc
      split at hc
      · cases hc
      · split at hc
        · cases hc
          exact h0
        · split at hc
          · cases hc
          · rename_i h3
            cases hc
            exact (hr _ _ _ _ _ h3).trans h0
    split at h
    · cases h
    · rename_i h1
      cases h
      exact key h1
    · rename_i h1
      rw [hd _ _ _ _ h]
      exact key h1
  | alt ts =>
    simp only [deserStep, deserAlt] at h
    split at h
    · cases h
    · split at h
      · cases h
      · rename_i h1
        split at h
        · cases h
        · split at h
          · cases h
          · rename_i h3
            cases h
            exact (hr _ _ _ _ _ h3).trans (readHeader_left h1).1
  | tupleOf t =>
    simp only [deserStep, deserTupleOf] at h
    split at h
    · cases h
      exact List.suffix_rfl
    · split at h
      · cases h
      · split at h
        · cases h
        · rename_i h1
          split at h
          · cases h
          · rename_i h2
            cases h
            exact (finish_left h2).1.trans (deserSeq_left hr h1)
  | listOf t =>
    simp only [deserStep, deserListOf] at h
    split at h
    · cases h
    · split at h
      · cases h
      · rename_i h1
        split at h
        · cases h
        · split at h
          · cases h
          · rename_i h2
            cases h
            exact (finish_left h2).1.trans (readVarintObject_left h1)
        · split at h
          · cases h
          · rename_i h2
            split at h
            · cases h
            · rename_i h3
              split at h
              · cases h
              · rename_i h4
                cases h
                refine (finish_left h4).1.trans ((deserSeq_left hr h3).trans ?_)
                rw [alloc_bytes h2]
                exact readVarintObject_left h1
  | constDict k v =>
    simp only [deserStep, deserConstDict] at h
    split at h
    · cases h
    · rename_i h1
      split at h
      · cases h
      · cases h
        refine consume_ok (I := fun _ st' => st'.bytes <:+ st.bytes) (fun _ _ _ h h' => h'.trans h) ?_ List.suffix_rfl h1
        intro s fld w st' s1 st1 h0 hc
        simp only [constDictCb] at hc
        split at hc
        · cases hc
        · split at hc
          · split at hc
            · cases hc
            · split at hc
              · cases hc
              · rename_i h3
                cases hc
                exact (readVarint_left h3).trans h0
          · split at hc
            · cases hc
            · split at hc
              · cases hc
              · rename_i h3
                cases hc
                exact (hr _ _ _ _ _ h3).trans h0
  | dict k v => exact items h
  | set k => exact items h
  | named n => exact hr _ _ _ _ _ h
where
  items {per : Nat} {ty : Nat → Ty} {w : Nat} {st st1 : St} {v : Val} (h : deserItems rec per ty w st = .ok (v, st1)) : st1.bytes <:+ st.bytes := by
    simp only [deserItems] at h
    have key : ∀ {s1 : Items} {st1 : St}, consume (itemsCb rec per ty) w ⟨0, 0, none, none, 0, []⟩ st = .ok (s1, st1) → st1.bytes <:+ st.bytes := by
      intro s1 st1 h1
      refine consume_ok (I := fun _ st' => st'.bytes <:+ st.bytes) (fun _ _ _ h h' => h'.trans h) ?_ List.suffix_rfl h1
      intro s fld w st' s1 st1 h0 hc
      simp only [itemsCb] at hc
      split at hc
      · cases hc
      · split at hc
        · split at hc
          · cases hc
          · split at hc
            · cases hc
            · rename_i h3
              split at hc
              · cases hc
              · cases hc
                exact (readVarint_left h3).trans h0
        · split at hc
          · split at hc
            · cases hc
            · split at hc
              · cases hc
              · rename_i h3
                split at hc
                · cases hc
                · rename_i h4
                  cases hc
                  rw [alloc_bytes h4]
                  exact (readVarint_left h3).trans h0
          · split at hc
            · cases hc
            · split at hc
              · cases hc
              · rename_i h3
                cases hc
                exact (hr _ _ _ _ _ h3).trans h0
    split at h
    · cases h
    · rename_i h1
      split at h
      · cases h
        exact key h1
      · split at h
        · cases h
        · split at h
          · cases h
          · have := key h1
            cases h
            exact this

end Left

theorem deser_left (env : Nat → Ty) {dflt : Ty → St → Except Err (Val × St)} (hd : Quiet dflt) : ∀ depth, Left (deser env dflt depth)
  | 0 => fun _ _ _ _ _ h => by simp [deser] at h
  | depth + 1 => deserStep_left env hd (deser_left env hd depth)

end Verif.Typed
