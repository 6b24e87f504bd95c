import Verif.Typed.Pod
import Verif.Str.Props
/-
The round trip of typed values: what `ser` writes, `deser` reads back as the same graph.
-/
namespace Verif.Typed

open Verif.Wire (Bytes Reg InRange writeVarint writeRegister writeEmpty writeBeginBytes writeBeginSingle writeBeginCompound
  writeEndCompound writeVarintObject readRegister readVarint readHeader readVarintObject readBytes header)

/-! ### Renaming -/

theorem renameAll_eq_map (f : Nat → Nat) : ∀ vs, renameAll f vs = vs.map (rename f)
  | [] => rfl
  | v :: vs => by rw [renameAll, renameAll_eq_map f vs, List.map_cons]

theorem mem_refsAll {a : Nat} : ∀ {vs : List Val}, a ∈ refsAll vs ↔ ∃ v ∈ vs, a ∈ refs v
  | [] => by simp [refsAll]
  | v :: vs => by rw [refsAll, List.mem_append, mem_refsAll (vs := vs)]; simp

mutual
theorem rename_congr (f g : Nat → Nat) : ∀ (v : Val), (∀ a ∈ refs v, f a = g a) → rename f v = rename g v
  | .reg _, _ | .unit, _ | .bytes _, _ | .str _, _ => rfl
  | .seq vs, h => by simp only [rename]; rw [renameAll_congr f g vs (by simpa only [refs] using h)]
  | .tag i v, h => by simp only [rename]; rw [rename_congr f g v (by simpa only [refs] using h)]
  | .ref a, h => by simp only [rename]; rw [h a (by simp [refs])]
theorem renameAll_congr (f g : Nat → Nat) : ∀ (vs : List Val), (∀ a ∈ refsAll vs, f a = g a) → renameAll f vs = renameAll g vs
  | [], _ => rfl
  | v :: vs, h => by
    simp only [renameAll]
    rw [rename_congr f g v (fun a ha => h a (by simp [refsAll, ha])),
      renameAll_congr f g vs (fun a ha => h a (by simp [refsAll, ha]))]
end

mutual
theorem rename_id : ∀ (v : Val), rename id v = v
  | .reg _ | .unit | .bytes _ | .str _ | .ref _ => rfl
  | .seq vs => by simp only [rename]; rw [renameAll_id vs]
  | .tag i v => by simp only [rename]; rw [rename_id v]
theorem renameAll_id : ∀ (vs : List Val), renameAll id vs = vs
  | [] => rfl
  | v :: vs => by simp only [renameAll]; rw [rename_id v, renameAll_id vs]
end

theorem rename_closed (f : Nat → Nat) (v : Val) (h : refs v = []) : rename f v = v :=
  (rename_congr f id v (by simp [h])).trans (rename_id v)

theorem renameAll_closed (f : Nat → Nat) (vs : List Val) (h : refsAll vs = []) : renameAll f vs = vs :=
  (renameAll_congr f id vs (by simp [h])).trans (renameAll_id vs)

mutual
theorem podBytes_closed : ∀ (t : Ty) (v : Val) (b : Bytes), podBytes t v = some b → refs v = []
  | t, .reg _, _, _ | t, .unit, _, _ | t, .bytes _, _, _ | t, .str _, _, _ => by simp [refs]
  | .tuple ts, .seq vs, b, h => by
    simp only [podBytes] at h
    simp only [refs]
    exact podFields_closed ts vs b h
  | .oneOf ts, .tag i v, b, h => by
    simp only [podBytes] at h
    split at h
    · rename_i n c hn hc
      simp only [refs]
      exact podChoice_closed ts i v c hc
    · cases h
  | .alt ts, .tag i v, b, h => by
    simp only [podBytes] at h
    split at h
    · rename_i c hn hc
      simp only [refs]
      exact podChoice_closed ts i v c hc
    · cases h
  | .reg _, .seq _, _, h | .reg _, .tag _ _, _, h | .reg _, .ref _, _, h => by simp [podBytes] at h
  | .unit, .seq _, _, h | .unit, .tag _ _, _, h | .unit, .ref _, _, h => by simp [podBytes] at h
  | .tuple _, .tag _ _, _, h | .tuple _, .ref _, _, h => by simp [podBytes] at h
  | .oneOf _, .seq _, _, h | .oneOf _, .ref _, _, h => by simp [podBytes] at h
  | .alt _, .seq _, _, h | .alt _, .ref _, _, h => by simp [podBytes] at h
  | .bytes, _, _, h | .str, _, _, h | .tupleOf _, _, _, h | .listOf _, _, _, h | .constDict _ _, _, _, h | .dict _ _, _, _, h
  | .set _, _, _, h | .named _, _, _, h => by simp [podBytes] at h
theorem podFields_closed : ∀ (ts : List Ty) (vs : List Val) (b : Bytes), podFields ts vs = some b → refsAll vs = []
  | [], [], b, h => rfl
  | [], _ :: _, b, h => by simp [podFields] at h
  | _ :: _, [], b, h => by simp [podFields] at h
  | t :: ts, v :: vs, b, h => by
    simp only [podFields] at h
    split at h
    · rename_i x y hx hy
      rw [refsAll, podBytes_closed t v x hx, podFields_closed ts vs y hy]; rfl
    · cases h
theorem podChoice_closed : ∀ (ts : List Ty) (i : Nat) (v : Val) (b : Bytes), podChoice ts i v = some b → refs v = []
  | [], i, v, b, h => by simp [podChoice] at h
  | t :: ts, 0, v, b, h => by simp only [podChoice] at h; exact podBytes_closed t v b h
  | t :: ts, i + 1, v, b, h => by simp only [podChoice] at h; exact podChoice_closed ts i v b h
end

theorem podAll_closed (t : Ty) : ∀ (vs : List Val) (b : Bytes), podAll t vs = some b → refsAll vs = []
  | [], _, _ => rfl
  | v :: vs, b, h => by
    simp only [podAll] at h
    split at h
    · rename_i x y hx hy
      rw [refsAll, podBytes_closed t v x hx, podAll_closed t vs y hy]; rfl
    · cases h

/-! ### The correspondence of memo and cache -/

/-- The number of an object: its position in the memo. -/
def pos (m : List Nat) (a : Nat) : Nat := m.idxOf a

/-- The reader's cache and heap correspond to the writer's memo: object number `i` is at address `i`. -/
structure Inv (m : List Nat) (st : St) : Prop where
  nodup : m.Nodup
  small : m.length ≤ 2 ^ 31
  cache : st.cache = (List.range m.length).map some
  heap : st.heap.length = m.length

/-- The reader's heap has grown from `h0` to `h` while the memo grew from `m0` to `m`: the objects there before are as
they were, and every new one is a renamed copy of the object it was made from. -/
structure Ext (heap : Nat → List Val) (m0 : List Nat) (h0 : List (List Val)) (m : List Nat) (h : List (List Val)) : Prop where
  memo : m0 <+: m
  old : h0 <+: h
  new : ∀ i, m0.length ≤ i → i < m.length → ∃ a, m[i]? = some a ∧ h[i]? = some (renameAll (pos m) (heap a)) ∧
    ∀ b ∈ refsAll (heap a), b ∈ m

theorem pos_prefix {m m' : List Nat} (h : m <+: m') {a : Nat} (ha : a ∈ m) : pos m' a = pos m a := by
  obtain ⟨t, rfl⟩ := h
  exact List.idxOf_append_of_mem ha

theorem rename_prefix {m m' : List Nat} (h : m <+: m') {v : Val} (hv : ∀ a ∈ refs v, a ∈ m) :
    rename (pos m') v = rename (pos m) v :=
  rename_congr _ _ v fun a ha => pos_prefix h (hv a ha)

theorem renameAll_prefix {m m' : List Nat} (h : m <+: m') {vs : List Val} (hv : ∀ a ∈ refsAll vs, a ∈ m) :
    renameAll (pos m') vs = renameAll (pos m) vs :=
  renameAll_congr _ _ vs fun a ha => pos_prefix h (hv a ha)

theorem Ext.refl (heap : Nat → List Val) (m : List Nat) (h : List (List Val)) : Ext heap m h m h :=
  ⟨List.prefix_refl _, List.prefix_refl _, fun i h1 h2 => by omega⟩

theorem prefix_getElem? {α : Type} {l l' : List α} (h : l <+: l') {i : Nat} {a : α} (hi : l[i]? = some a) : l'[i]? = some a := by
  obtain ⟨t, rfl⟩ := h
  have : i < l.length := (List.getElem?_eq_some_iff.1 hi).1
  rw [List.getElem?_append_left this, hi]

theorem Ext.trans {heap : Nat → List Val} {m0 m1 m2 : List Nat} {h0 h1 h2 : List (List Val)} (a : Ext heap m0 h0 m1 h1)
    (b : Ext heap m1 h1 m2 h2) : Ext heap m0 h0 m2 h2 := by
  refine ⟨a.memo.trans b.memo, a.old.trans b.old, fun i hi1 hi2 => ?_⟩
  by_cases h : i < m1.length
  · obtain ⟨x, e1, e2, e3⟩ := a.new i hi1 h
    refine ⟨x, prefix_getElem? b.memo e1, ?_, fun y hy => b.memo.subset (e3 y hy)⟩
    rw [prefix_getElem? b.old e2, renameAll_prefix b.memo e3]
  · exact b.new i (by omega) hi2

/-- What holds after a value has been read. -/
structure Post (heap : Nat → List Val) (m : List Nat) (h : List (List Val)) (m' : List Nat) (used : List Nat) (rest : Bytes)
    (st' : St) : Prop where
  bytes : st'.bytes = rest
  inv : Inv m' st'
  ext : Ext heap m h m' st'.heap
  closed : ∀ a ∈ used, a ∈ m'

/-- What the writer writes, the reader reads. -/
def Good (heap : Nat → List Val) (rec : Ty → Nat → Val → List Nat → Except Err (Bytes × List Nat))
    (drec : Ty → Nat → St → Except Err (Val × St)) : Prop :=
  ∀ ty fld v m bs m' st rest, fld < 2 ^ 61 → rec ty fld v m = .ok (bs, m') → Inv m st → st.bytes = bs ++ rest →
    1 ≤ bs.length ∧ ∃ w bs1 st', readHeader st.bytes = .ok ((fld, w), bs1) ∧ w ≠ 7 ∧
      drec ty w { st with bytes := bs1 } = .ok (rename (pos m') v, st') ∧ Post heap m st.heap m' (refs v) rest st'

theorem Inv.bytes {m : List Nat} {st : St} (h : Inv m st) (bs : Bytes) : Inv m { st with bytes := bs } :=
  ⟨h.nodup, h.small, h.cache, h.heap⟩

/-! ### Streams -/

theorem varint_length (n : Nat) : 1 ≤ (writeVarint n).length := by
  rw [writeVarint]; split <;> simp

theorem readHeader_at (f w : Nat) (hf : f < 2 ^ 61) (hw : w < 8) (rest : Bytes) :
    readHeader (writeVarint (header f w) ++ rest) = .ok ((f, w), rest) := Wire.header_roundtrip f w hf hw rest

theorem readEnd (rest : Bytes) : readHeader (writeEndCompound ++ rest) = .ok ((0, 7), rest) := by
  have := readHeader_at 0 7 (by norm_num) (by omega) rest
  rw [Wire.header_eq 0 7 (by norm_num) (by omega)] at this
  exact this

theorem finish_end (st : St) (rest : Bytes) (h : st.bytes = writeEndCompound ++ rest) :
    finish 6 st = .ok { st with bytes := rest } := by
  unfold finish
  rw [if_neg (by omega), Wire.discard, h, readEnd]
  simp only
  obtain ⟨k, hk⟩ : ∃ k, 2 * (writeEndCompound ++ rest).length + 3 = k + 1 := ⟨_, rfl⟩
  rw [hk, Wire.discardBody]
  simp

theorem finish_single (st : St) : finish 5 st = .ok st := by unfold finish; rw [if_pos (by omega)]

theorem consumeLoop_step {σ : Type} (cb : σ → Nat → Nat → St → Except Err (σ × St)) (n : Nat) (s : σ) (st : St) {fld w : Nat}
    {bs : Bytes} {s1 : σ} {st1 : St} (h : readHeader st.bytes = .ok ((fld, w), bs)) (hw : w ≠ 7)
    (hc : cb s fld w { st with bytes := bs } = .ok (s1, st1)) : consumeLoop cb (n + 1) s st = consumeLoop cb n s1 st1 := by
  rw [consumeLoop, h]
  simp only [if_neg hw, hc]

theorem consumeLoop_end {σ : Type} (cb : σ → Nat → Nat → St → Except Err (σ × St)) (n : Nat) (s : σ) (st : St) (rest : Bytes)
    (h : st.bytes = writeEndCompound ++ rest) : consumeLoop cb (n + 1) s st = .ok (s, { st with bytes := rest }) := by
  rw [consumeLoop, h, readEnd]
  simp

/-- Reading a list of messages one after the other: `R i m s st` holds before element `i` is read. -/
theorem all_read {σ : Type} (cb : σ → Nat → Nat → St → Except Err (σ × St))
    (g : Nat → Val → List Nat → Except Err (Bytes × List Nat)) (R : Nat → List Nat → σ → St → Prop) (all : List Val)
    (hstep : ∀ i v m bs m' s st rest, all[i]? = some v → g i v m = .ok (bs, m') → R i m s st → st.bytes = bs ++ rest →
      1 ≤ bs.length ∧ ∃ fld w bs1 s' st', readHeader st.bytes = .ok ((fld, w), bs1) ∧ w ≠ 7 ∧
        cb s fld w { st with bytes := bs1 } = .ok (s', st') ∧ st'.bytes = rest ∧ R (i + 1) m' s' st') :
    ∀ (vs : List Val) (i : Nat) (m : List Nat) (bs : Bytes) (m' : List Nat) (s : σ) (st : St) (rest : Bytes),
      all.drop i = vs → i ≤ all.length → writeAll g i vs m = .ok (bs, m') → R i m s st → st.bytes = bs ++ rest →
      vs.length ≤ bs.length ∧ ∃ s' st', readN cb vs.length s st = .ok (s', st') ∧
        (∀ k, consumeLoop cb (vs.length + k) s st = consumeLoop cb k s' st') ∧ st'.bytes = rest ∧ R all.length m' s' st' := by
  intro vs
  induction vs with
  | nil =>
    intro i m bs m' s st rest hd hi hw hR hb
    have hlen : i = all.length := by
      have := congrArg List.length hd
      rw [List.length_drop, List.length_nil] at this
      omega
    cases hw
    exact ⟨by simp, s, st, rfl, fun k => by simp, by simpa using hb, hlen ▸ hR⟩
  | cons v vs ih =>
    intro i m bs m' s st rest hd hi hw hR hb
    have hlen := congrArg List.length hd
    rw [List.length_drop, List.length_cons] at hlen
    have hv : all[i]? = some v := by
      have := congrArg (fun l => l[0]?) hd
      simpa using this
    have hd' : all.drop (i + 1) = vs := by
      have := congrArg List.tail hd
      simpa using this
    simp only [writeAll] at hw
    cases hg : g i v m with
    | error e => rw [hg] at hw; cases hw
    | ok r =>
      obtain ⟨b, m1⟩ := r
      rw [hg] at hw
      simp only at hw
      cases hg2 : writeAll g (i + 1) vs m1 with
      | error e => rw [hg2] at hw; cases hw
      | ok r2 =>
        obtain ⟨b2, m2⟩ := r2
        rw [hg2] at hw
        cases hw
        obtain ⟨hb1, fld, w, bs1, s1, st1, h1, h2, h3, h4, h5⟩ :=
          hstep i v m b m1 s st (b2 ++ rest) hv hg hR (by rw [hb, List.append_assoc])
        obtain ⟨hb2, s2, st2, e1, e2, e3, e4⟩ := ih (i + 1) m1 b2 m' s1 st1 rest hd' (by omega) hg2 h5 h4
        refine ⟨by simp only [List.length_cons, List.length_append]; omega, s2, st2, ?_, fun k => ?_, e3, e4⟩
        · rw [List.length_cons, readN, h1]
          simp only [h3, e1]
        · rw [List.length_cons, show vs.length + 1 + k = (vs.length + k) + 1 by omega,
            consumeLoop_step cb _ s st h1 h2 h3, e2]

/-! ### Lists of values -/

/-- Before element `i` of `all` is read: the values so far are renamed copies. -/
structure Part (heap : Nat → List Val) (m0 : List Nat) (h0 : List (List Val)) (all : List Val) (i : Nat) (m : List Nat)
    (vals : List Val) (st : St) : Prop where
  inv : Inv m st
  ext : Ext heap m0 h0 m st.heap
  vals : vals = renameAll (pos m) (all.take i)
  closed : ∀ a ∈ refsAll (all.take i), a ∈ m

theorem Part.start {heap : Nat → List Val} {m : List Nat} {all : List Val} {st : St} (h : Inv m st) :
    Part heap m st.heap all 0 m [] st :=
  ⟨h, Ext.refl _ _ _, by simp [renameAll], by simp [refsAll]⟩

theorem Part.next {heap : Nat → List Val} {m0 m m' : List Nat} {h0 : List (List Val)} {all vals : List Val} {i : Nat}
    {st st' : St} {v : Val} {rest : Bytes} (p : Part heap m0 h0 all i m vals st) (hv : all[i]? = some v)
    (h : Post heap m st.heap m' (refs v) rest st') :
    Part heap m0 h0 all (i + 1) m' (vals ++ [rename (pos m') v]) st' := by
  have ht : all.take (i + 1) = all.take i ++ [v] := by
    obtain ⟨hi, he⟩ := List.getElem?_eq_some_iff.1 hv
    rw [List.take_add_one, hv]; rfl
  refine ⟨h.inv, p.ext.trans h.ext, ?_, ?_⟩
  · rw [ht, renameAll_eq_map, List.map_append, ← renameAll_eq_map, renameAll_prefix h.ext.memo p.closed, ← p.vals]
    rfl
  · intro a ha
    rw [mem_refsAll] at ha
    obtain ⟨x, hx, hax⟩ := ha
    rw [ht, List.mem_append, List.mem_singleton] at hx
    rcases hx with hx | rfl
    · exact h.ext.memo.subset (p.closed a (mem_refsAll.2 ⟨x, hx, hax⟩))
    · exact h.closed a hax

theorem Part.done {heap : Nat → List Val} {m0 m : List Nat} {h0 : List (List Val)} {all vals : List Val}
    {st : St} (p : Part heap m0 h0 all all.length m vals st) :
    vals = renameAll (pos m) all ∧ ∀ a ∈ refsAll all, a ∈ m := by
  have := p.vals
  have hc := p.closed
  rw [List.take_length] at this hc
  exact ⟨this, hc⟩

/-! ### Lists and tuples of one type -/

theorem serElts_good {heap rec drec} (hg : Good heap rec drec) (t : Ty) (vs : List Val) (hlen : vs.length < 2 ^ 31)
    (m : List Nat) (bs : Bytes) (m' : List Nat) (st : St) (rest : Bytes) (hs : serElts rec t vs m = .ok (bs, m')) (hi : Inv m st)
    (hb : st.bytes = bs ++ rest) :
    ∃ st', deserSeq drec t st = .ok (renameAll (pos m') vs, st') ∧ Post heap m st.heap m' (refsAll vs) rest st' := by
  unfold serElts at hs
  cases hw : writeAll (fun _ => rec t 0) 0 vs m with
  | error e => rw [hw] at hs; cases hs
  | ok r =>
    obtain ⟨b, m1⟩ := r
    rw [hw] at hs
    cases hs
    rw [List.append_nil, writeVarintObject, List.append_assoc, List.append_assoc] at hb
    obtain ⟨-, vals, st', e1, -, e3, e4⟩ := all_read (eltCb drec t) (fun _ => rec t 0) (Part heap m st.heap vs) vs
      (fun i v m bs m' s st1 rest hv hgi hR hbs => by
        obtain ⟨h1, w, bs1, st', h2, h3, h4, h5⟩ := hg t 0 v m bs m' st1 rest (by norm_num) hgi hR.inv hbs
        refine ⟨h1, 0, w, bs1, _, st', h2, h3, ?_, h5.bytes, hR.next hv h5⟩
        unfold eltCb
        rw [if_neg (by simp), if_neg h3]
        simp only [h4]) vs 0 m b m' [] { st with bytes := b ++ rest } rest (by simp) (by omega) hw
      (Part.start (st := { st with bytes := b ++ rest }) (hi.bytes _)) rfl
    obtain ⟨d1, d2⟩ := e4.done
    refine ⟨st', ?_, e3, e4.inv, e4.ext, d2⟩
    unfold deserSeq
    rw [hb, readHeader_at 0 1 (by norm_num) (by omega)]
    simp only
    rw [(Wire.varint_roundtrip vs.length (by omega) _).1]
    simp only
    unfold deserBody
    split
    · rename_i h0
      rw [h0] at e1
      simp only [readN] at e1
      cases e1
      simp [← d1]
    · rw [if_pos rfl, e1, d1]

theorem plain_good {heap : Nat → List Val} (drec : Ty → Nat → St → Except Err (Val × St)) (t : Ty) (size : Nat)
    (hsz : podSize t = some size) (vs : List Val) (hlen : vs.length < 2 ^ 31) (hne : vs.length ≠ 0)
    (m : List Nat) (bs : Bytes) (m' : List Nat) (st : St) (rest : Bytes) (hs : serPlain t size vs m = .ok (bs, m')) (hi : Inv m st)
    (hb : st.bytes = bs ++ rest) :
    ∃ st', deserSeq drec t st = .ok (renameAll (pos m') vs, st') ∧ Post heap m st.heap m' (refsAll vs) rest st' := by
  unfold serPlain at hs
  split at hs
  · cases hs
  rename_i data hdata
  have hcl := podAll_closed t vs data hdata
  have hback := podAll_back t size hsz vs data hdata
  have hren := renameAll_closed (pos m') vs hcl
  have post : ∀ m1, m1 = m → Post heap m st.heap m1 (refsAll vs) rest { st with bytes := rest } := by
    rintro m1 rfl
    exact ⟨rfl, hi.bytes _, Ext.refl _ _ _, by simp [hcl]⟩
  refine ⟨{ st with bytes := rest }, ?_, ?_⟩
  · rw [hren]
    split at hs
    · rename_i h0
      cases hs
      rw [writeVarintObject, List.append_assoc] at hb
      unfold deserSeq
      rw [hb, readHeader_at 3 1 (by norm_num) (by omega)]
      simp only
      rw [(Wire.varint_roundtrip vs.length (by omega) _).1]
      simp only [deserBody, if_neg hne]
      subst h0
      have hd : data = [] := List.length_eq_zero_iff.1 (by rw [hback.1]; omega)
      have := hback.2 []
      rw [hd, List.append_nil] at this
      simp [hsz, this]
    split at hs
    · rename_i h0 h64
      split at hs
      · cases hs
      rename_i xs hxs
      obtain ⟨hx1, hx2⟩ := ints_spec vs xs hxs
      obtain ⟨b, hb1, hb2⟩ := int_list_roundtrip xs hx2 rest
      rw [hb1] at hs
      cases hs
      rw [writeVarintObject, List.append_assoc, List.append_assoc] at hb
      unfold deserSeq
      rw [hb, readHeader_at 1 1 (by norm_num) (by omega)]
      simp only
      rw [(Wire.varint_roundtrip vs.length (by omega) _).1]
      simp only [deserBody, if_neg hne]
      have hxl : vs.length = xs.length := by rw [hx1, List.length_map]
      rw [if_neg (by omega), if_pos trivial, if_pos h64, hxl, hb2]
      simp [hx1]
    split at hs
    · rename_i h0 h64 hbig
      cases hs
      rw [writeBeginBytes, List.append_assoc, List.append_assoc] at hb
      unfold deserSeq
      rw [hb, readHeader_at 2 4 (by norm_num) (by omega)]
      simp only
      rw [(Wire.varint_roundtrip (size * vs.length) (by omega) _).1]
      simp only [deserBody]
      have hne2 : size * vs.length ≠ 0 := Nat.mul_ne_zero h0 hne
      rw [if_neg hne2, if_neg (by omega), if_neg (by omega), if_pos trivial]
      simp only [hsz]
      rw [if_neg h0, Nat.mul_div_cancel_left _ (by omega), if_neg (by rw [Nat.mul_comm]; simp)]
      have := Wire.readBytes_append data rest
      rw [hback.1] at this
      rw [this]
      have hr := hback.2 []
      rw [List.append_nil] at hr
      simp only [hr]
    · cases hs
  · apply post
    split at hs
    · cases hs; rfl
    split at hs
    · split at hs
      · cases hs
      · split at hs
        · cases hs
        · cases hs; rfl
    split at hs
    · cases hs; rfl
    · cases hs

theorem body_good {heap rec drec} (hg : Good heap rec drec) (inline : Bool) (t : Ty) (vs : List Val) (hlen : vs.length < 2 ^ 31)
    (m : List Nat) (bs : Bytes) (m' : List Nat) (st : St) (rest : Bytes) (hs : serBody rec inline t vs m = .ok (bs, m'))
    (hi : Inv m st) (hb : st.bytes = bs ++ rest) :
    ∃ st', deserSeq drec t st = .ok (renameAll (pos m') vs, st') ∧ Post heap m st.heap m' (refsAll vs) rest st' := by
  unfold serBody at hs
  split at hs
  · rename_i h
    split at hs
    · rename_i size hsz
      exact plain_good drec t size hsz vs hlen h.1 m bs m' st rest hs hi hb
    · exact serElts_good hg t vs hlen m bs m' st rest hs hi hb
  · exact serElts_good hg t vs hlen m bs m' st rest hs hi hb

end Verif.Typed
