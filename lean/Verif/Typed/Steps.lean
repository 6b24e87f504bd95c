import Verif.Typed.Cases
/-
The round trip for every type, and at every depth.
-/
namespace Verif.Typed

open Verif.Wire (Bytes Reg InRange writeVarint writeRegister writeEmpty writeBeginBytes writeBeginSingle writeBeginCompound
  writeEndCompound writeVarintObject readRegister readVarint readHeader readVarintObject readBytes header)

theorem reg_good {heap : Nat → List Val} (r : Reg) (x : Int) (hx : InRange r x) (fld : Nat) (hf : fld < 2 ^ 61) (m : List Nat)
    (st : St) (rest : Bytes) (hi : Inv m st) (hb : st.bytes = writeRegister fld r x ++ rest) :
    1 ≤ (writeRegister fld r x).length ∧ ∃ w bs1, readHeader st.bytes = .ok ((fld, w), bs1) ∧ w ≠ 7 ∧
      readRegister r w bs1 = .ok (x, rest) ∧ Post heap m st.heap m (refs (.reg x)) rest { st with bytes := rest } := by
  obtain ⟨body, e1, e2, e3⟩ := Wire.register_roundtrip fld hf r x hx rest
  refine ⟨by rw [e1]; exact lengths_pos _ _, Wire.regWire r, body ++ rest, by rw [hb]; exact e2, ?_, e3, rfl, hi.bytes _,
    Ext.refl _ _ _, by simp [refs]⟩
  cases r <;> simp [Wire.regWire]
  split <;> omega

theorem good_step {heap rec drec} (env : Nat → Ty) (inline : Bool) (dflt : Ty → St → Except Err (Val × St))
    (hg : Good heap rec drec) : Good heap (serStep env inline heap rec) (deserStep env dflt drec) := by
  intro ty fld v m bs m' st rest hf h hi hb
  unfold serStep at h
  split at h
  · -- registers
    rename_i r x
    split at h
    · rename_i hr
      cases h
      obtain ⟨h1, w, bs1, e1, e2, e3, e4⟩ := reg_good (heap := heap) r x ((inRange_iff r x).1 hr) fld hf m st rest hi hb
      exact ⟨h1, w, bs1, _, e1, e2, by simp only [deserStep, e3, rename], e4⟩
    · cases h
  · -- unit
    cases h
    refine ⟨varint_length _, 0, rest, { st with bytes := rest }, by rw [hb]; exact readHeader_at fld 0 hf (by omega) _, by omega, ?_,
      rfl, hi.bytes _, Ext.refl _ _ _, by simp [refs]⟩
    simp [deserStep, rename]
  · -- bytes
    rename_i b
    split at h
    · rename_i hl
      cases h
      rw [writeBeginBytes, List.append_assoc, List.append_assoc] at hb
      refine ⟨by rw [writeBeginBytes, List.append_assoc]; exact lengths_pos _ _, 4, _, { st with bytes := rest },
        by rw [hb]; exact readHeader_at fld 4 hf (by omega) _, by omega, ?_, rfl, hi.bytes _, Ext.refl _ _ _, by simp [refs]⟩
      simp only [deserStep]
      rw [if_neg (by omega), (Wire.varint_roundtrip b.length (by omega) _).1]
      simp only [Wire.readBytes_append, rename]
    · cases h
  · -- text
    rename_i s
    split at h
    · rename_i hs
      rw [Bool.and_eq_true, List.all_eq_true, decide_eq_true_eq] at hs
      have hp : ∀ c ∈ s, c ≤ Str.Spec.maxPoint := fun c hc => by simpa using hs.1 c hc
      rw [Str.serialize_bytes _ _ (Str.normal_valid (Str.normal_python s hp)), Str.text_python] at h
      cases h
      rw [List.append_assoc, List.append_assoc] at hb
      refine ⟨by rw [List.append_assoc]; exact lengths_pos _ _, 4, _, { st with bytes := rest },
        by rw [hb]; exact readHeader_at fld 4 hf (by omega) _, by omega, ?_, rfl, hi.bytes _, Ext.refl _ _ _, by simp [refs]⟩
      simp only [deserStep, Str.deserialize_bytes s hp hs.2, Str.text_construct, rename]
    · cases h
  · -- tuples
    rename_i ts vs
    split at h
    · rename_i hl
      obtain ⟨h1, w, bs1, st', e1, e2, e3, e4⟩ := tuple_good hg dflt ts vs hl.1 hl.2 fld hf m bs m' st rest hi hb h
      exact ⟨h1, w, bs1, st', e1, e2, e3, e4⟩
    · cases h
  · -- one of several types
    rename_i ts i x
    split at h
    · cases h
    rename_i t ht
    split at h
    · rename_i h8
      obtain ⟨h1, w, bs1, st', e1, e2, e3, e4⟩ := oneOf_good hg dflt ts i t ht h8 x fld hf m bs m' st rest hi hb h
      exact ⟨h1, w, bs1, st', e1, e2, e3.1, e4⟩
    · cases h
  · -- alternatives
    rename_i ts i x
    split at h
    · cases h
    rename_i t ht
    split at h
    · rename_i h8
      obtain ⟨h1, w, bs1, st', e1, e2, e3, e4⟩ := oneOf_good hg dflt ts i t ht h8 x fld hf m bs m' st rest hi hb h
      exact ⟨h1, w, bs1, st', e1, e2, e3.2, e4⟩
    · cases h
  · -- tuples of one type
    rename_i t vs
    split at h
    · rename_i hl
      split at h
      · rename_i h0
        cases h
        have hvs : vs = [] := List.length_eq_zero_iff.1 h0
        subst hvs
        refine ⟨varint_length _, 0, rest, { st with bytes := rest }, by rw [hb]; exact readHeader_at fld 0 hf (by omega) _, by omega,
          ?_, rfl, hi.bytes _, Ext.refl _ _ _, by simp [refs, refsAll]⟩
        simp [deserStep, deserTupleOf, rename, renameAll]
      · obtain ⟨b, hbody, rfl⟩ := wrap_ok h
        rw [writeBeginCompound, List.append_assoc, List.append_assoc] at hb
        obtain ⟨st2, hd, hp⟩ := body_good hg inline t vs hl m b m' { st with bytes := b ++ (writeEndCompound ++ rest) }
          (writeEndCompound ++ rest) hbody (hi.bytes _) rfl
        refine ⟨by rw [List.append_assoc]; exact lengths_pos _ _, 6, _, { st2 with bytes := rest },
          by rw [hb]; exact readHeader_at fld 6 hf (by omega) _, by omega, ?_, rfl, hp.inv.bytes _, hp.ext,
          by simpa only [refs] using hp.closed⟩
        simp only [deserStep, deserTupleOf]
        rw [if_neg (by omega), if_neg (by omega)]
        simp only [hd, finish_end st2 rest hp.bytes, rename]
    · cases h
  · -- lists
    rename_i t a
    split at h
    · rename_i hl
      exact list_good hg inline t a hl fld hf m bs m' st rest hi hb h
    · cases h
  · -- constant dictionaries
    rename_i k w vs
    split at h
    · rename_i hl
      exact constDict_good hg k w vs hl.1 hl.2 fld hf m bs m' st rest hi hb h
    · cases h
  · -- dictionaries
    rename_i k w a
    split at h
    · rename_i hl
      exact items_good hg 2 (.inr rfl) (kv k w) a hl.1 hl.2 fld hf m bs m' st rest hi hb h
    · cases h
  · -- sets
    rename_i k a
    split at h
    · rename_i hl
      exact items_good hg 1 (.inl rfl) (fun _ => k) a hl (Nat.mod_one _) fld hf m bs m' st rest hi hb (by rw [Nat.div_one]; exact h)
    · cases h
  · -- recursive types
    exact hg _ fld _ m bs m' st rest hf h hi hb
  · cases h

theorem good_all (env : Nat → Ty) (inline : Bool) (heap : Nat → List Val) (dflt : Ty → St → Except Err (Val × St)) :
    ∀ depth, Good heap (ser env inline heap depth) (deser env dflt depth)
  | 0 => by intro ty fld v m bs m' st rest hf h; cases h
  | d + 1 => good_step env inline dflt (good_all env inline heap dflt d)

/-! ### Enough depth -/

/-- What succeeds with `rec` succeeds with `rec'`, and gives the same. -/
def Le (rec rec' : Ty → Nat → Val → List Nat → Except Err (Bytes × List Nat)) : Prop :=
  ∀ t fld v m r, rec t fld v m = .ok r → rec' t fld v m = .ok r

theorem writeAll_mono {g g' : Nat → Val → List Nat → Except Err (Bytes × List Nat)}
    (h : ∀ i v m r, g i v m = .ok r → g' i v m = .ok r) :
    ∀ (vs : List Val) (i : Nat) (m : List Nat) (r), writeAll g i vs m = .ok r → writeAll g' i vs m = .ok r
  | [], i, m, r, hr => hr
  | v :: vs, i, m, r, hr => by
    simp only [writeAll] at hr ⊢
    cases hg : g i v m with
    | error e => rw [hg] at hr; cases hr
    | ok x =>
      obtain ⟨b, m1⟩ := x
      rw [hg] at hr
      rw [h i v m _ hg]
      simp only at hr ⊢
      cases hw : writeAll g (i + 1) vs m1 with
      | error e => rw [hw] at hr; cases hr
      | ok y => rw [hw] at hr; rw [writeAll_mono h vs (i + 1) m1 y hw]; exact hr

theorem wrap_mono {before after : Bytes} {x x' : Except Err (Bytes × List Nat)} (h : ∀ r, x = .ok r → x' = .ok r) (r)
    (hr : wrap before after x = .ok r) : wrap before after x' = .ok r := by
  cases x with
  | error e => cases hr
  | ok y => rw [h y rfl]; exact hr

theorem serElts_mono {rec rec'} (h : Le rec rec') (t : Ty) (vs : List Val) (m : List Nat) (r)
    (hr : serElts rec t vs m = .ok r) : serElts rec' t vs m = .ok r :=
  wrap_mono (fun r => writeAll_mono (fun _ v m r => h t 0 v m r) vs 0 m r) r hr

theorem serBody_mono {rec rec'} (h : Le rec rec') (inline : Bool) (t : Ty) (vs : List Val) (m : List Nat) (r)
    (hr : serBody rec inline t vs m = .ok r) : serBody rec' inline t vs m = .ok r := by
  unfold serBody at hr ⊢
  split
  · rename_i hc
    rw [if_pos hc] at hr
    split
    · rename_i size hs; rw [hs] at hr; exact hr
    · rename_i hs; rw [hs] at hr; exact serElts_mono h t vs m r hr
  · rename_i hc
    rw [if_neg hc] at hr
    exact serElts_mono h t vs m r hr

theorem serObject_mono {fld a : Nat} {m : List Nat} {b b' : List Nat → Except Err (Bytes × List Nat)}
    (h : ∀ m r, b m = .ok r → b' m = .ok r) (r) (hr : serObject fld a m b = .ok r) : serObject fld a m b' = .ok r := by
  unfold serObject at hr ⊢
  split
  · rename_i ha; rw [if_pos ha] at hr; exact hr
  · rename_i ha
    rw [if_neg ha] at hr
    split
    · rename_i hl; rw [if_pos hl] at hr; exact wrap_mono (h _) r hr
    · rename_i hl; rw [if_neg hl] at hr; exact hr

theorem serStep_mono {rec rec'} (env : Nat → Ty) (inline : Bool) (heap : Nat → List Val) (h : Le rec rec') :
    Le (serStep env inline heap rec) (serStep env inline heap rec') := by
  intro ty fld v m r hr
  unfold serStep at hr ⊢
  split at hr
  · exact hr
  · exact hr
  · exact hr
  · exact hr
  · split at hr
    · rename_i hc
      simp only [if_pos hc]
      split at hr
      · rename_i h0; rw [if_pos h0]; exact hr
      · rename_i h0
        rw [if_neg h0]
        split at hr
        · rename_i h1
          rw [if_pos h1]
          exact wrap_mono (fun r => writeAll_mono (fun i v m r => h _ i v m r) _ 0 m r) r hr
        · rename_i h1
          rw [if_neg h1]
          exact wrap_mono (fun r => writeAll_mono (fun i v m r => h _ i v m r) _ 0 m r) r hr
    · cases hr
  · rename_i ts i x
    split at hr
    · cases hr
    rename_i t ht
    split at hr
    · rename_i h8; rw [if_pos h8]; exact wrap_mono (h t i x m) r hr
    · cases hr
  · rename_i ts i x
    split at hr
    · cases hr
    rename_i t ht
    split at hr
    · rename_i h8; rw [if_pos h8]; exact wrap_mono (h t i x m) r hr
    · cases hr
  · rename_i t vs
    split at hr
    · rename_i hl
      rw [if_pos hl]
      split at hr
      · rename_i h0; rw [if_pos h0]; exact hr
      · rename_i h0; rw [if_neg h0]; exact wrap_mono (serBody_mono h inline t vs m) r hr
    · cases hr
  · rename_i t a
    split at hr
    · rename_i hl
      rw [if_pos hl]
      exact serObject_mono (serBody_mono h inline t (heap a)) r hr
    · cases hr
  · rename_i k w vs
    split at hr
    · rename_i hl
      rw [if_pos hl]
      exact wrap_mono (fun r => writeAll_mono (fun i v m r => h _ 0 v m r) _ 0 m r) r hr
    · cases hr
  · rename_i k w a
    split at hr
    · rename_i hl
      rw [if_pos hl]
      exact serObject_mono (fun m r => wrap_mono (fun r => writeAll_mono (fun i v m r => h _ 0 v m r) _ 0 m r) r) r hr
    · cases hr
  · rename_i k a
    split at hr
    · rename_i hl
      rw [if_pos hl]
      exact serObject_mono (fun m r => wrap_mono (fun r => writeAll_mono (fun i v m r => h _ 0 v m r) _ 0 m r) r) r hr
    · cases hr
  · exact h _ _ _ _ _ hr
  · cases hr

theorem ser_mono_one (env : Nat → Ty) (inline : Bool) (heap : Nat → List Val) :
    ∀ d, Le (ser env inline heap d) (ser env inline heap (d + 1))
  | 0 => by intro t fld v m r h; cases h
  | d + 1 => serStep_mono env inline heap (ser_mono_one env inline heap d)

/-- More depth does not change what was written. -/
theorem ser_mono (env : Nat → Ty) (inline : Bool) (heap : Nat → List Val) (d : Nat) : ∀ k,
    Le (ser env inline heap d) (ser env inline heap (d + k))
  | 0 => fun _ _ _ _ _ h => h
  | k + 1 => fun t fld v m r h => ser_mono_one env inline heap (d + k) t fld v m r (ser_mono env inline heap d k t fld v m r h)

theorem ser_le (env : Nat → Ty) (inline : Bool) (heap : Nat → List Val) {d d' : Nat} (h : d ≤ d') :
    Le (ser env inline heap d) (ser env inline heap d') := by
  obtain ⟨k, rfl⟩ := Nat.le.dest h
  exact ser_mono env inline heap d k

end Verif.Typed
