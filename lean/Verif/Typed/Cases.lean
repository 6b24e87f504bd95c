import Verif.Typed.Round
/-
The round trip, type by type.
-/
namespace Verif.Typed

open Verif.Wire (Bytes Reg InRange writeVarint writeRegister writeEmpty writeBeginBytes writeBeginSingle writeBeginCompound
  writeEndCompound writeVarintObject readRegister readVarint readHeader readVarintObject readBytes header)

theorem wrap_ok {before after : Bytes} {r : Except Err (Bytes × List Nat)} {bs : Bytes} {m : List Nat}
    (h : wrap before after r = .ok (bs, m)) : ∃ b, r = .ok (b, m) ∧ bs = before ++ b ++ after := by
  cases r with
  | error e => cases h
  | ok r => obtain ⟨b, m'⟩ := r; cases h; exact ⟨b, rfl, rfl⟩

theorem lengths_pos (n : Nat) (b : Bytes) : 1 ≤ (writeVarint n ++ b).length := by
  have := varint_length n
  rw [List.length_append]; omega

/-! ### Tuples -/

theorem set_slots (vals : List Val) (n i : Nat) (v : Val) (hl : vals.length = i) (hi : i < n) :
    ((vals.map some ++ List.replicate (n - i) none).set i (some v)) =
      (vals ++ [v]).map some ++ List.replicate (n - (i + 1)) none := by
  subst hl
  rw [List.set_append_right _ _ (by simp), List.length_map, Nat.sub_self,
    show n - vals.length = (n - (vals.length + 1)) + 1 by omega, List.replicate_succ, List.set_cons_zero, List.map_append,
    List.append_assoc]
  rfl

theorem fillIn_full (dflt : Ty → St → Except Err (Val × St)) : ∀ (ts : List Ty) (vals : List Val) (st : St),
    vals.length = ts.length → fillIn dflt ts (vals.map some) st = .ok (vals, st)
  | [], [], st, _ => rfl
  | [], _ :: _, st, h => by simp at h
  | _ :: _, [], st, h => by simp at h
  | t :: ts, v :: vs, st, h => by
    rw [List.map_cons, fillIn]
    simp only [fillIn_full dflt ts vs st (by simpa using h)]

theorem renameAll_length (f : Nat → Nat) (vs : List Val) : (renameAll f vs).length = vs.length := by
  rw [renameAll_eq_map, List.length_map]

theorem tuple_step {heap rec drec} (hg : Good heap rec drec) (ts : List Ty) (vs : List Val) (hl : vs.length = ts.length)
    (hs : ts.length < 2 ^ 31) (m0 : List Nat) (h0 : List (List Val)) :
    ∀ i v m bs m' (s : List (Option Val)) st rest, vs[i]? = some v → rec (ts.getD i .unit) i v m = .ok (bs, m') →
      (∃ vals, Part heap m0 h0 vs i m vals st ∧ s = vals.map some ++ List.replicate (ts.length - i) none) →
      st.bytes = bs ++ rest →
      1 ≤ bs.length ∧ ∃ fld w bs1 s' st', readHeader st.bytes = .ok ((fld, w), bs1) ∧ w ≠ 7 ∧
        fieldCb drec ts s fld w { st with bytes := bs1 } = .ok (s', st') ∧ st'.bytes = rest ∧
        (∃ vals, Part heap m0 h0 vs (i + 1) m' vals st' ∧ s' = vals.map some ++ List.replicate (ts.length - (i + 1)) none) := by
  intro i v m bs m' s st rest hv hr ⟨vals, hp, hsl⟩ hb
  have hi := (List.getElem?_eq_some_iff.1 hv).1
  have hti : ts[i]? = some (ts.getD i .unit) := by
    rw [List.getD_eq_getElem?_getD, List.getElem?_eq_getElem (by omega)]; rfl
  obtain ⟨h1, w, bs1, st', h2, h3, h4, h5⟩ := hg _ i v m bs m' st rest (by omega) hr hp.inv hb
  refine ⟨h1, i, w, bs1, s.set i (some (rename (pos m') v)), st', h2, h3, ?_, h5.bytes, vals ++ [rename (pos m') v],
    hp.next hv h5, ?_⟩
  · unfold fieldCb
    rw [hti]
    simp only [h4]
  · rw [hsl, set_slots vals ts.length i _ ?_ (by omega)]
    rw [hp.vals, renameAll_length, List.length_take]; omega

theorem tuple_end {heap : Nat → List Val} {dflt : Ty → St → Except Err (Val × St)} {ts : List Ty} {vs : List Val}
    (hl : vs.length = ts.length) {m0 m' : List Nat} {h0 : List (List Val)} {slots : List (Option Val)} {st : St} {rest : Bytes}
    (hR : ∃ vals, Part heap m0 h0 vs vs.length m' vals st ∧ slots = vals.map some ++ List.replicate (ts.length - vs.length) none) :
    fillIn dflt ts slots { st with bytes := rest } = .ok (renameAll (pos m') vs, { st with bytes := rest }) ∧
      Post heap m0 h0 m' (refs (.seq vs)) rest { st with bytes := rest } := by
  obtain ⟨vals, hp, hs⟩ := hR
  obtain ⟨d1, d2⟩ := hp.done
  subst d1
  rw [hs, hl, Nat.sub_self, List.replicate_zero, List.append_nil, fillIn_full dflt ts _ _ (by rw [renameAll_length, hl])]
  exact ⟨rfl, rfl, hp.inv.bytes _, hp.ext, by simpa only [refs] using d2⟩

theorem tuple_start {heap : Nat → List Val} {ts : List Ty} {vs : List Val} {m : List Nat} {st : St} (hi : Inv m st) (b : Bytes) :
    ∃ vals, Part heap m st.heap vs 0 m vals { st with bytes := b } ∧
      List.replicate ts.length none = vals.map some ++ List.replicate (ts.length - 0) none :=
  ⟨[], Part.start (st := { st with bytes := b }) (hi.bytes _), by simp⟩

/-- The two ways a value with parts is written and read. -/
theorem tuple_good {heap rec drec} (hg : Good heap rec drec) (dflt : Ty → St → Except Err (Val × St)) (ts : List Ty)
    (vs : List Val) (hl : vs.length = ts.length) (hs : ts.length < 2 ^ 31) (fld : Nat) (hf : fld < 2 ^ 61) (m : List Nat) (bs : Bytes)
    (m' : List Nat) (st : St) (rest : Bytes) (hi : Inv m st) (hb : st.bytes = bs ++ rest)
    (h : (if ts.length = 0 then .ok (writeEmpty fld, m)
      else if ts.length = 1 then wrap (writeBeginSingle fld) [] (writeAll (fun i => rec (ts.getD i .unit) i) 0 vs m)
      else wrap (writeBeginCompound fld) writeEndCompound (writeAll (fun i => rec (ts.getD i .unit) i) 0 vs m)) = .ok (bs, m')) :
    1 ≤ bs.length ∧ ∃ w bs1 st', readHeader st.bytes = .ok ((fld, w), bs1) ∧ w ≠ 7 ∧
      deserTuple dflt drec ts w { st with bytes := bs1 } = .ok (rename (pos m') (.seq vs), st') ∧
      Post heap m st.heap m' (refs (.seq vs)) rest st' := by
  by_cases h0 : ts.length = 0
  · rw [if_pos h0] at h
    cases h
    have hts : ts = [] := List.length_eq_zero_iff.1 h0
    have hvs : vs = [] := List.length_eq_zero_iff.1 (by omega)
    subst hts hvs
    refine ⟨varint_length _, 0, rest, { st with bytes := rest }, ?_, by omega, ?_, rfl, hi.bytes _, Ext.refl _ _ _, by simp [refs, refsAll]⟩
    · rw [hb, writeEmpty, readHeader_at fld 0 hf (by omega)]
    · simp [deserTuple, consume, fillIn, rename, renameAll]
  rw [if_neg h0] at h
  by_cases h1 : ts.length = 1
  · rw [if_pos h1] at h
    obtain ⟨b, hw, rfl⟩ := wrap_ok h
    rw [List.append_nil, writeBeginSingle, List.append_assoc] at hb
    refine ⟨by rw [List.append_nil]; exact lengths_pos _ _, 5, b ++ rest, ?_⟩
    obtain ⟨v, rfl⟩ : ∃ v, vs = [v] := List.length_eq_one_iff.1 (by omega)
    simp only [writeAll] at hw
    cases hr : rec (ts.getD 0 .unit) 0 v m with
    | error e => rw [hr] at hw; cases hw
    | ok r =>
      obtain ⟨b1, m1⟩ := r
      rw [hr] at hw
      simp only [Except.ok.injEq, Prod.mk.injEq, List.append_nil] at hw
      obtain ⟨rfl, rfl⟩ := hw
      obtain ⟨-, f, w, bs1, s', st', e1, e2, e3, e4, e5⟩ := tuple_step hg ts [v] hl hs m st.heap 0 v m b1 m1
        (List.replicate ts.length none) { st with bytes := b1 ++ rest } rest rfl hr (tuple_start hi _) rfl
      obtain ⟨q1, q2⟩ := tuple_end (dflt := dflt) (rest := rest) hl e5
      have hst : ({ st' with bytes := rest } : St) = st' := by rw [← e4]
      rw [hst] at q1 q2
      refine ⟨st', by rw [hb]; exact readHeader_at fld 5 hf (by omega) _, by omega, ?_, q2⟩
      unfold deserTuple consume
      rw [if_neg (by omega), if_pos rfl]
      simp only at e1 e3 ⊢
      rw [e1]
      simp only [e3, q1, rename]
  · rw [if_neg h1] at h
    obtain ⟨b, hw, rfl⟩ := wrap_ok h
    rw [writeBeginCompound, List.append_assoc, List.append_assoc] at hb
    refine ⟨by rw [List.append_assoc]; exact lengths_pos _ _, 6, b ++ (writeEndCompound ++ rest), ?_⟩
    obtain ⟨hle, s', st', e1, e2, e3, e4⟩ := all_read (fieldCb drec ts) (fun i => rec (ts.getD i .unit) i)
      (fun i m s st' => ∃ vals, Part heap _ st.heap vs i m vals st' ∧ s = vals.map some ++ List.replicate (ts.length - i) none) vs
      (tuple_step hg ts vs hl hs m st.heap) vs 0 m b m' (List.replicate ts.length none)
      { st with bytes := b ++ (writeEndCompound ++ rest) } (writeEndCompound ++ rest) (by simp) (by omega) hw (tuple_start hi _) rfl
    obtain ⟨q1, q2⟩ := tuple_end (dflt := dflt) (rest := rest) hl e4
    refine ⟨{ st' with bytes := rest }, by rw [hb]; exact readHeader_at fld 6 hf (by omega) _, by omega, ?_, q2⟩
    unfold deserTuple consume
    rw [if_neg (by omega), if_neg (by omega), if_neg (by omega)]
    simp only [List.length_append]
    obtain ⟨k, hk⟩ : ∃ k, b.length + (writeEndCompound.length + rest.length) + 1 = vs.length + (k + 1) :=
      ⟨b.length + (writeEndCompound.length + rest.length) - vs.length, by omega⟩
    rw [hk, e2, consumeLoop_end _ _ _ _ rest e3]
    simp only [q1, rename]

/-! ### One of several -/

theorem oneOf_good {heap rec drec} (hg : Good heap rec drec) (dflt : Ty → St → Except Err (Val × St)) (ts : List Ty)
    (i : Nat) (t : Ty) (ht : ts[i]? = some t) (hi8 : i < 256) (v : Val) (fld : Nat) (hf : fld < 2 ^ 61) (m : List Nat) (bs : Bytes)
    (m' : List Nat) (st : St) (rest : Bytes) (hi : Inv m st) (hb : st.bytes = bs ++ rest)
    (h : wrap (writeBeginSingle fld) [] (rec t i v m) = .ok (bs, m')) :
    1 ≤ bs.length ∧ ∃ w bs1 st', readHeader st.bytes = .ok ((fld, w), bs1) ∧ w ≠ 7 ∧
      (deserOneOf dflt drec ts w { st with bytes := bs1 } = .ok (rename (pos m') (.tag i v), st') ∧
        deserAlt drec ts w { st with bytes := bs1 } = .ok (rename (pos m') (.tag i v), st')) ∧
      Post heap m st.heap m' (refs (.tag i v)) rest st' := by
  obtain ⟨b, hr, rfl⟩ := wrap_ok h
  rw [List.append_nil, writeBeginSingle, List.append_assoc] at hb
  refine ⟨by rw [List.append_nil]; exact lengths_pos _ _, 5, b ++ rest, ?_⟩
  obtain ⟨-, w, bs1, st', e1, e2, e3, e4⟩ := hg t i v m b m' { st with bytes := b ++ rest } rest (by omega) hr (hi.bytes _) rfl
  refine ⟨st', by rw [hb]; exact readHeader_at fld 5 hf (by omega) _, by omega, ⟨?_, ?_⟩,
    e4.bytes, e4.inv, e4.ext, by simpa only [refs] using e4.closed⟩
  · unfold deserOneOf consume
    rw [if_neg (by omega), if_pos rfl]
    simp only at e1 e3 ⊢
    rw [e1]
    simp only [oneOfCb, ht, e3, rename]
    rw [Nat.mod_eq_of_lt hi8]
  · unfold deserAlt
    rw [if_neg (by omega)]
    simp only at e1 e3 ⊢
    rw [e1]
    simp only [ht, e3, rename]
    rw [Nat.mod_eq_of_lt hi8]
    simp

/-! ### Objects -/

theorem int32_small (id : Nat) (h : id < 2 ^ 31) : int32 id = some id := by
  unfold int32
  rw [Nat.div_eq_of_lt h, Nat.mod_eq_of_lt h, if_pos rfl]

theorem lookup_known {m : List Nat} {st : St} (hi : Inv m st) (a : Nat) (ha : a ∈ m) :
    lookup (m.idxOf a) st.cache = .ok (some (m.idxOf a)) := by
  have hlt := List.idxOf_lt_length_of_mem ha
  have := hi.small
  unfold lookup
  rw [int32_small _ (by omega), hi.cache]
  simp [hlt]

theorem lookup_new {m : List Nat} {st : St} (hi : Inv m st) (hlt : m.length < 2 ^ 31) : lookup m.length st.cache = .ok none := by
  unfold lookup
  rw [int32_small _ hlt, hi.cache]
  simp

theorem addCached_next (c : List (Option Nat)) (id a : Nat) (h : id < 2 ^ 31) (hc : c.length = id) :
    addCached id a c = .ok (c ++ [some a]) := by
  unfold addCached
  rw [int32_small _ h]
  simp only
  rw [if_neg (by rw [hc]; exact Nat.not_lt.2 (Nat.le_add_right _ _))]
  rw [hc, show id + 1 - id = 1 by omega, List.getElem?_append_right (by omega), hc]
  simp only [Nat.sub_self, List.replicate_one, List.getElem?_cons_zero, Option.getD_some]
  rw [List.set_append_right _ _ (by omega), hc, Nat.sub_self]
  rfl

theorem alloc_new {m : List Nat} {st : St} (hi : Inv m st) (hlt : m.length < 2 ^ 31) (a : Nat) (ha : a ∉ m) :
    ∃ st1, alloc m.length st = .ok (m.length, st1) ∧ Inv (m ++ [a]) st1 ∧ st1.bytes = st.bytes ∧ st1.heap = st.heap ++ [[]] := by
  have hc : st.cache.length = m.length := by rw [hi.cache]; simp
  have hadd : addCached m.length st.heap.length st.cache = .ok ((List.range (m.length + 1)).map some) := by
    rw [addCached_next st.cache m.length _ hlt hc, hi.heap, hi.cache, List.range_succ, List.map_append]
    rfl
  refine ⟨{ st with cache := (List.range (m.length + 1)).map some, heap := st.heap ++ [[]] }, ?_, ?_, rfl, rfl⟩
  · unfold alloc
    rw [hadd]
    simp only [hi.heap]
  · refine ⟨?_, ?_, ?_, ?_⟩
    · rw [List.nodup_append]
      refine ⟨hi.nodup, by simp, ?_⟩
      intro x hx y hy
      rw [List.mem_singleton] at hy
      subst hy
      rintro rfl
      exact ha hx
    · rw [List.length_append, List.length_singleton]; omega
    · rw [List.length_append]; rfl
    · rw [List.length_append, List.length_append, hi.heap]; rfl

/-- Completing a new object. -/
theorem fill_post {heap : Nat → List Val} {m m' : List Nat} {st st' : St} {a : Nat} {rest : Bytes} {st1 : St}
    (hh : st1.heap = st.heap ++ [[]]) (hi : Inv m st) (p : Post heap (m ++ [a]) st1.heap m' (refsAll (heap a)) rest st') :
    Post heap m st.heap m' [a] rest (fill m.length (renameAll (pos m') (heap a)) st') ∧ pos m' a = m.length := by
  have hat : m'[m.length]? = some a := prefix_getElem? p.ext.memo (by simp)
  have hlt : m.length < m'.length := (List.getElem?_eq_some_iff.1 hat).1
  have hold : st.heap <+: (st'.heap.set m.length (renameAll (pos m') (heap a))) := by
    obtain ⟨t, ht⟩ := p.ext.old
    rw [hh, List.append_assoc] at ht
    rw [← ht, ← hi.heap, List.set_append_right _ _ (Nat.le_refl _)]
    exact List.prefix_append _ _
  refine ⟨⟨p.bytes, ⟨p.inv.nodup, p.inv.small, p.inv.cache, by simp [fill, p.inv.heap]⟩,
    ⟨(List.prefix_append _ _).trans p.ext.memo, hold, ?_⟩, ?_⟩, ?_⟩
  · intro i h1 h2
    simp only [fill]
    by_cases h : i = m.length
    · subst h
      refine ⟨a, hat, ?_, p.closed⟩
      rw [List.getElem?_set_self (by rw [p.inv.heap]; exact hlt)]
    · obtain ⟨x, e1, e2, e3⟩ := p.ext.new i (by rw [List.length_append, List.length_singleton]; omega) h2
      refine ⟨x, e1, ?_, e3⟩
      rw [List.getElem?_set_ne (by omega), e2]
  · intro b hb
    rw [List.mem_singleton] at hb
    subst hb
    exact List.mem_of_getElem? hat
  · obtain ⟨h1, h2⟩ := List.getElem?_eq_some_iff.1 hat
    unfold pos
    rw [← h2]
    exact p.inv.nodup.idxOf_getElem m.length h1

theorem serObject_ok {fld a : Nat} {m : List Nat} {body : List Nat → Except Err (Bytes × List Nat)} {bs : Bytes} {m' : List Nat}
    (h : serObject fld a m body = .ok (bs, m')) :
    (a ∈ m ∧ m' = m ∧ bs = writeBeginSingle fld ++ writeVarintObject 0 (m.idxOf a)) ∨
    (a ∉ m ∧ m.length < 2 ^ 31 ∧ ∃ b, body (m ++ [a]) = .ok (b, m') ∧
      bs = writeBeginCompound fld ++ writeVarintObject 0 m.length ++ b ++ writeEndCompound) := by
  unfold serObject at h
  split at h
  · rename_i ha; cases h; exact .inl ⟨ha, rfl, rfl⟩
  · rename_i ha
    split at h
    · rename_i hl
      obtain ⟨b, h1, h2⟩ := wrap_ok h
      exact .inr ⟨ha, hl, b, h1, h2⟩
    · cases h

theorem list_good {heap rec drec} (hg : Good heap rec drec) (inline : Bool) (t : Ty) (a : Nat) (hlen : (heap a).length < 2 ^ 31)
    (fld : Nat) (hf : fld < 2 ^ 61) (m : List Nat) (bs : Bytes) (m' : List Nat) (st : St) (rest : Bytes) (hi : Inv m st)
    (hb : st.bytes = bs ++ rest) (h : serObject fld a m (serBody rec inline t (heap a)) = .ok (bs, m')) :
    1 ≤ bs.length ∧ ∃ w bs1 st', readHeader st.bytes = .ok ((fld, w), bs1) ∧ w ≠ 7 ∧
      deserListOf drec t w { st with bytes := bs1 } = .ok (rename (pos m') (.ref a), st') ∧
      Post heap m st.heap m' (refs (.ref a)) rest st' := by
  rcases serObject_ok h with ⟨ha, rfl, rfl⟩ | ⟨ha, hl, b, hbody, rfl⟩
  · have hid := List.idxOf_lt_length_of_mem ha
    have hsm := hi.small
    rw [writeBeginSingle, writeVarintObject, List.append_assoc, List.append_assoc] at hb
    refine ⟨lengths_pos _ _, 5, _, { st with bytes := rest }, by rw [hb]; exact readHeader_at fld 5 hf (by omega) _, by omega, ?_,
      rfl, hi.bytes _, Ext.refl _ _ _, by simpa [refs] using ha⟩
    unfold deserListOf
    rw [if_neg (by omega), readVarintObject, readHeader_at 0 1 (by norm_num) (by omega)]
    simp only [if_true]
    rw [(Wire.varint_roundtrip _ (by omega) rest).1]
    simp only [lookup_known hi a ha, finish_single, rename, pos]
  · rw [writeBeginCompound, writeVarintObject, List.append_assoc, List.append_assoc, List.append_assoc, List.append_assoc] at hb
    obtain ⟨st1, ha1, hi1, hb1, hh1⟩ := alloc_new (hi.bytes (b ++ (writeEndCompound ++ rest))) hl a ha
    obtain ⟨st2, hd, hp⟩ := body_good hg inline t (heap a) hlen (m ++ [a]) b m' st1 (writeEndCompound ++ rest) hbody hi1 hb1
    have hp' : Post heap (m ++ [a]) st1.heap m' (refsAll (heap a)) rest { st2 with bytes := rest } :=
      ⟨rfl, hp.inv.bytes _, hp.ext, hp.closed⟩
    obtain ⟨hpost, hpos⟩ := fill_post (st := st) hh1 hi hp'
    refine ⟨by rw [List.append_assoc, List.append_assoc]; exact lengths_pos _ _, 6, _, _,
      by rw [hb]; exact readHeader_at fld 6 hf (by omega) _, by omega, ?_, by simpa only [refs] using hpost⟩
    unfold deserListOf
    rw [if_neg (by omega), readVarintObject, readHeader_at 0 1 (by norm_num) (by omega)]
    simp only [if_true]
    rw [(Wire.varint_roundtrip _ (by omega) _).1]
    simp only [lookup_new hi hl, ha1, hd, finish_end st2 rest hp.bytes, rename, hpos]

/-! ### Dictionaries and sets -/

theorem items_good {heap rec drec} (hg : Good heap rec drec) (per : Nat) (hper : per = 1 ∨ per = 2) (ty : Nat → Ty) (a : Nat) (hlen : (heap a).length < 2 ^ 31)
    (hpair : (heap a).length % per = 0)
    (fld : Nat) (hf : fld < 2 ^ 61) (m : List Nat) (bs : Bytes) (m' : List Nat) (st : St) (rest : Bytes) (hi : Inv m st)
    (hb : st.bytes = bs ++ rest)
    (h : serObject fld a m (fun m1 => wrap (writeVarintObject 0 ((heap a).length / per)) []
      (writeAll (fun i => rec (ty i) 0) 0 (heap a) m1)) = .ok (bs, m')) :
    1 ≤ bs.length ∧ ∃ w bs1 st', readHeader st.bytes = .ok ((fld, w), bs1) ∧ w ≠ 7 ∧
      deserItems drec per ty w { st with bytes := bs1 } = .ok (rename (pos m') (.ref a), st') ∧
      Post heap m st.heap m' (refs (.ref a)) rest st' := by
  have hdiv : (heap a).length / per ≤ (heap a).length := Nat.div_le_self _ _
  have hmul : (heap a).length / per * per = (heap a).length := by
    have := Nat.div_add_mod (heap a).length per
    rw [Nat.mul_comm]; omega
  rcases serObject_ok h with ⟨ha, rfl, rfl⟩ | ⟨ha, hl, b, hbody, rfl⟩
  · have hid := List.idxOf_lt_length_of_mem ha
    have hsm := hi.small
    rw [writeBeginSingle, writeVarintObject, List.append_assoc, List.append_assoc] at hb
    refine ⟨lengths_pos _ _, 5, _, { st with bytes := rest }, by rw [hb]; exact readHeader_at fld 5 hf (by omega) _, by omega, ?_,
      rfl, hi.bytes _, Ext.refl _ _ _, by simpa [refs] using ha⟩
    unfold deserItems consume
    rw [if_neg (by omega), if_pos rfl]
    simp only
    rw [readHeader_at 0 1 (by norm_num) (by omega)]
    simp only [itemsCb, if_true]
    rw [if_neg (by simp), if_neg (by simp), (Wire.varint_roundtrip _ (by omega) rest).1]
    simp only [lookup_known hi a ha, rename, pos]
  · obtain ⟨b', hw, rfl⟩ := wrap_ok hbody
    rw [List.append_nil, writeBeginCompound, writeVarintObject, writeVarintObject] at hb
    simp only [List.append_assoc] at hb
    obtain ⟨st1, ha1, hi1, hb1, hh1⟩ := alloc_new (hi.bytes (b' ++ (writeEndCompound ++ rest))) hl a ha
    obtain ⟨hle, s', st2, -, e2, e3, vals, e4, e5⟩ := all_read (itemsCb drec per ty) (fun i => rec (ty i) 0)
      (fun i m1 (s : Items) st' => ∃ vals, Part heap (m ++ [a]) st1.heap (heap a) i m1 vals st' ∧
        s = ⟨i + 2, m.length, none, some m.length, (heap a).length / per, vals⟩) (heap a)
      (fun i v m1 bs m2 s stx rest hv hgi hR hbs => by
        obtain ⟨vals, hp, rfl⟩ := hR
        have hiv := (List.getElem?_eq_some_iff.1 hv).1
        obtain ⟨h1, w, bs1, st', h2, h3, h4, h5⟩ := hg (ty i) 0 v m1 bs m2 stx rest (by norm_num) hgi hp.inv hbs
        refine ⟨h1, 0, w, bs1, _, st', h2, h3, ?_, h5.bytes, _, hp.next hv h5, rfl⟩
        unfold itemsCb
        simp only [Nat.add_sub_cancel]
        rw [if_neg (by simp), if_neg (by omega), if_neg (by omega), hmul, if_neg (by omega), h4])
      (heap a) 0 (m ++ [a]) b' m' ⟨0 + 2, m.length, none, some m.length, (heap a).length / per, []⟩ st1
      (writeEndCompound ++ rest) (by simp) (by omega) hw ⟨[], Part.start hi1, rfl⟩ hb1
    obtain ⟨d1, d2⟩ := e4.done
    subst d1 e5
    have hp' : Post heap (m ++ [a]) st1.heap m' (refsAll (heap a)) rest { st2 with bytes := rest } :=
      ⟨rfl, e4.inv.bytes _, e4.ext, d2⟩
    obtain ⟨hpost, hpos⟩ := fill_post (st := st) hh1 hi hp'
    refine ⟨?_, 6, _, _, by rw [hb]; exact readHeader_at fld 6 hf (by omega) _, by omega, ?_, by simpa only [refs] using hpost⟩
    · rw [writeBeginCompound]; simp only [List.append_assoc]; exact lengths_pos _ _
    unfold deserItems consume
    rw [if_neg (by omega), if_neg (by omega), if_neg (by omega)]
    simp only
    have hL : ∃ k, (writeVarint (header 0 1) ++ (writeVarint m.length ++ (writeVarint (header 0 1) ++
        (writeVarint ((heap a).length / per) ++ (b' ++ (writeEndCompound ++ rest)))))).length + 1 = ((heap a).length + (k + 1)) + 1 + 1 := by
      have h1 := varint_length (header 0 1)
      have h2 := varint_length m.length
      simp only [List.length_append]
      exact ⟨(writeVarint (header 0 1)).length + ((writeVarint m.length).length + ((writeVarint (header 0 1)).length +
        ((writeVarint ((heap a).length / per)).length + (b'.length + (writeEndCompound.length + rest.length))))) - (heap a).length - 2,
        by omega⟩
    obtain ⟨k, hk⟩ := hL
    rw [hk]
    rw [consumeLoop_step (s1 := ⟨1, m.length, none, none, 0, []⟩)
      (st1 := { st with bytes := writeVarint (header 0 1) ++ (writeVarint ((heap a).length / per) ++ (b' ++ (writeEndCompound ++ rest))) })
      (itemsCb drec per ty) _ _ _ (readHeader_at 0 1 (by norm_num) (by omega) _) (by omega)
      (by
        unfold itemsCb
        rw [if_neg (by simp), if_pos rfl, if_neg (by simp)]
        simp only
        rw [(Wire.varint_roundtrip _ (by omega) _).1]
        simp only [lookup_new hi hl])]
    rw [consumeLoop_step (s1 := ⟨0 + 2, m.length, none, some m.length, (heap a).length / per, []⟩) (st1 := st1)
      (itemsCb drec per ty) _ _ _ (readHeader_at 0 1 (by norm_num) (by omega) _) (by omega)
      (by
        unfold itemsCb
        rw [if_neg (by simp), if_neg (by simp), if_pos rfl, if_neg (by simp)]
        simp only
        rw [(Wire.varint_roundtrip _ (by omega) _).1]
        simp only [ha1])]
    rw [e2, consumeLoop_end _ _ _ _ rest e3]
    simp only
    rw [if_neg, rename, hpos]
    rw [not_not, show (heap a).length + 2 + 2 ^ 64 - 2 = (heap a).length + 2 ^ 64 by omega, Nat.add_mod_right,
      Nat.mod_eq_of_lt (by omega)]

theorem constDict_good {heap rec drec} (hg : Good heap rec drec) (k w : Ty) (vs : List Val) (hlen : vs.length < 2 ^ 31)
    (hpair : vs.length % 2 = 0)
    (fld : Nat) (hf : fld < 2 ^ 61) (m : List Nat) (bs : Bytes) (m' : List Nat) (st : St) (rest : Bytes) (hi : Inv m st)
    (hb : st.bytes = bs ++ rest)
    (h : wrap (writeBeginCompound fld ++ writeVarintObject 0 (vs.length / 2)) writeEndCompound
        (writeAll (fun i => rec (kv k w i) 0) 0 vs m) = .ok (bs, m')) :
    1 ≤ bs.length ∧ ∃ wire bs1 st', readHeader st.bytes = .ok ((fld, wire), bs1) ∧ wire ≠ 7 ∧
      deserConstDict drec k w wire { st with bytes := bs1 } = .ok (rename (pos m') (.seq vs), st') ∧
      Post heap m st.heap m' (refs (.seq vs)) rest st' := by
  obtain ⟨b, hw, rfl⟩ := wrap_ok h
  rw [writeBeginCompound, writeVarintObject] at hb
  simp only [List.append_assoc] at hb
  have hstart : Part heap m st.heap vs 0 m [] { st with bytes := b ++ (writeEndCompound ++ rest) } :=
    Part.start (st := { st with bytes := b ++ (writeEndCompound ++ rest) }) (hi.bytes _)
  obtain ⟨hle, s', st2, -, e2, e3, vals, e4, e5⟩ := all_read (constDictCb drec k w) (fun i => rec (kv k w i) 0)
    (fun i m1 (s : Items) st' => ∃ vals, Part heap m st.heap vs i m1 vals st' ∧
      s = ⟨i + 1, 0, none, none, vs.length / 2, vals⟩) vs
    (fun i v m1 bs m2 s stx rest hv hgi hR hbs => by
      obtain ⟨vals, hp, rfl⟩ := hR
      have hiv := (List.getElem?_eq_some_iff.1 hv).1
      obtain ⟨h1, w', bs1, st', h2, h3, h4, h5⟩ := hg (kv k w i) 0 v m1 bs m2 stx rest (by norm_num) hgi hp.inv hbs
      refine ⟨h1, 0, w', bs1, _, st', h2, h3, ?_, h5.bytes, _, hp.next hv h5, rfl⟩
      unfold constDictCb
      simp only [Nat.add_sub_cancel]
      rw [if_neg (by simp), if_neg (by omega), if_neg (by omega), h4])
    vs 0 m b m' ⟨0 + 1, 0, none, none, vs.length / 2, []⟩ { st with bytes := b ++ (writeEndCompound ++ rest) }
    (writeEndCompound ++ rest) (by simp) (by omega) hw ⟨[], hstart, rfl⟩ rfl
  obtain ⟨d1, d2⟩ := e4.done
  subst d1 e5
  refine ⟨?_, 6, _, { st2 with bytes := rest }, by rw [hb]; exact readHeader_at fld 6 hf (by omega) _, by omega, ?_,
    rfl, e4.inv.bytes _, e4.ext, by simpa only [refs] using d2⟩
  · rw [writeBeginCompound]; simp only [List.append_assoc]; exact lengths_pos _ _
  unfold deserConstDict consume
  rw [if_neg (by omega), if_neg (by omega), if_neg (by omega)]
  simp only
  have hL : ∃ k, (writeVarint (header 0 1) ++ (writeVarint (vs.length / 2) ++ (b ++ (writeEndCompound ++ rest)))).length + 1 =
      (vs.length + (k + 1)) + 1 := by
    have h1 := varint_length (header 0 1)
    simp only [List.length_append]
    exact ⟨(writeVarint (header 0 1)).length + ((writeVarint (vs.length / 2)).length + (b.length + (writeEndCompound.length + rest.length)))
      - vs.length - 1, by omega⟩
  obtain ⟨k', hk⟩ := hL
  rw [hk]
  rw [consumeLoop_step (s1 := ⟨0 + 1, 0, none, none, vs.length / 2, []⟩) (st1 := { st with bytes := b ++ (writeEndCompound ++ rest) })
    (constDictCb drec k w) _ _ _ (readHeader_at 0 1 (by norm_num) (by omega) _) (by omega)
    (by
      unfold constDictCb
      rw [if_neg (by simp), if_pos rfl, if_neg (by simp)]
      simp only
      rw [(Wire.varint_roundtrip _ (by omega) _).1])]
  rw [e2, consumeLoop_end _ _ _ _ rest e3]
  simp only
  rw [if_neg (by simp), rename]

end Verif.Typed
