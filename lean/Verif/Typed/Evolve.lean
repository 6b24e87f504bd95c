import Verif.Typed.EvolveSpec
import Verif.Typed.EvolveMsg
/-
Reading what another version of the program wrote.
-/
namespace Verif.Typed

open Verif.Wire (Bytes Reg InRange writeVarint writeRegister writeEmpty writeBeginBytes writeBeginSingle writeBeginCompound
  writeEndCompound writeVarintObject readRegister readVarint readHeader readVarintObject readBytes header)
open Verif.Wire.Spec (IsVarint Msg Node Encodes wire)

/-- Making a default value always works and leaves the stream alone. -/
def MakesDefaults (dflt : Ty → St → Except Err (Val × St)) (D : Ty → Val → Prop) : Prop :=
  ∀ t st, ∃ v st', dflt t st = .ok (v, st') ∧ st'.bytes = st.bytes ∧ D t v

/-- What one version writes, the other reads. -/
def GoodV (env env' : Nat → Ty) (E : Ty → Ty → Prop) (D : Ty → Val → Prop)
    (rec : Ty → Nat → Val → List Nat → Except Err (Bytes × List Nat)) (drec : Ty → Nat → St → Except Err (Val × St)) : Prop :=
  ∀ ty ty' fld v m bs m' (st : St) rest, E ty ty' → fld < 2 ^ 61 → m.length ≤ 2 ^ 31 → rec ty fld v m = .ok (bs, m') →
    st.bytes = bs ++ rest →
    1 ≤ bs.length ∧ ∃ w bs1 v' st', readHeader st.bytes = .ok ((fld, w), bs1) ∧ w ≠ 7 ∧
      drec ty' w { st with bytes := bs1 } = .ok (v', st') ∧ st'.bytes = rest ∧ Migrates env env' D ty ty' v v'

theorem item_length {fld : Nat} {bs : Bytes} (h : Item fld bs) : 1 ≤ bs.length := by
  obtain ⟨hd, m, b, rfl, hv, -⟩ := h
  have := Wire.isVarint_pos hv
  rw [List.length_append]; omega

/-- Whatever is written can be stepped over. -/
theorem item_skipped {fld : Nat} {bs : Bytes} (h : Item fld bs) (rest : Bytes) :
    ∃ w bs1, readHeader (bs ++ rest) = .ok ((fld, w), bs1) ∧ w ≠ 7 ∧
      Wire.discardBody (2 * bs1.length + 3) w bs1 = .ok rest := by
  obtain ⟨hd, m, b, rfl, hv, hm⟩ := h
  have hw := Wire.wire_lt m
  refine ⟨wire m, b ++ rest, ?_, by omega, ?_⟩
  · rw [List.append_assoc]; exact Wire.readHeader_of_varint (by omega) hv _
  · exact (Wire.discard_exact hm rest _ (by rw [List.length_append]; omega)).1

/-! ### Tuples -/

theorem fillIn_defaults {dflt D} (hd : MakesDefaults dflt D) : ∀ (ts : List Ty) (s : List (Option Val)) (st : St), s.length = ts.length →
    ∃ vs st', fillIn dflt ts s st = .ok (vs, st') ∧ st'.bytes = st.bytes ∧ vs.length = ts.length ∧
      (∀ (j : Nat) x, s[j]? = some (some x) → vs[j]? = some x) ∧
      (∀ (j : Nat) t x, s[j]? = some none → ts[j]? = some t → vs[j]? = some x → D t x) := by
  intro ts
  induction ts with
  | nil =>
    intro s st hl
    obtain rfl : s = [] := List.length_eq_zero_iff.1 hl
    exact ⟨[], st, rfl, rfl, rfl, by simp, by simp⟩
  | cons t ts ih =>
    intro s st hl
    cases s with
    | nil => simp at hl
    | cons o s =>
      have hl' : s.length = ts.length := by simpa using hl
      cases o with
      | some v =>
        obtain ⟨vs, st', e1, e2, e3, e4, e5⟩ := ih s st hl'
        refine ⟨v :: vs, st', by simp only [fillIn, e1], e2, by simp [e3], ?_, ?_⟩
        · intro j x hj
          cases j with
          | zero => simpa using hj
          | succ j => exact e4 j x (by simpa using hj)
        · intro j u x hj hu hx
          cases j with
          | zero => simp at hj
          | succ j => exact e5 j u x (by simpa using hj) (by simpa using hu) (by simpa using hx)
      | none =>
        obtain ⟨v, st1, d1, d2, d3⟩ := hd t st
        obtain ⟨vs, st', e1, e2, e3, e4, e5⟩ := ih s st1 hl'
        refine ⟨v :: vs, st', by simp only [fillIn, d1, e1], by rw [e2, d2], by simp [e3], ?_, ?_⟩
        · intro j x hj
          cases j with
          | zero => simp at hj
          | succ j => exact e4 j x (by simpa using hj)
        · intro j u x hj hu hx
          cases j with
          | zero =>
            simp only [List.getElem?_cons_zero, Option.some.injEq] at hu hx
            subst hu hx; exact d3
          | succ j => exact e5 j u x (by simpa using hj) (by simpa using hu) (by simpa using hx)

/-- Before field `i` is read: the fields so far are there, the others are not. -/
structure Slots (env env' : Nat → Ty) (D : Ty → Val → Prop) (ts ts' : List Ty) (vs : List Val) (i : Nat) (m : List Nat)
    (s : List (Option Val)) : Prop where
  memo : m.length ≤ 2 ^ 31
  len : s.length = ts'.length
  got : ∀ (j : Nat) u u' x, j < i → ts[j]? = some u → ts'[j]? = some u' → vs[j]? = some x →
    ∃ x', s[j]? = some (some x') ∧ Migrates env env' D u u' x x'
  left : ∀ (j : Nat), i ≤ j → j < ts'.length → s[j]? = some none

theorem tupleV_step {env env' E D rec drec} (hg : GoodV env env' E D rec drec) (hm : Mess rec) (ts ts' : List Ty) (vs : List Val)
    (hl : vs.length = ts.length) (hs : ts.length < 2 ^ 31)
    (hE : ∀ (i : Nat) u u', ts[i]? = some u → ts'[i]? = some u' → E u u') :
    ∀ i v m bs m' (s : List (Option Val)) (st : St) rest, vs[i]? = some v → rec (ts.getD i .unit) i v m = .ok (bs, m') →
      Slots env env' D ts ts' vs i m s → st.bytes = bs ++ rest →
      1 ≤ bs.length ∧ ∃ fld w bs1 s' st', readHeader st.bytes = .ok ((fld, w), bs1) ∧ w ≠ 7 ∧
        fieldCb drec ts' s fld w { st with bytes := bs1 } = .ok (s', st') ∧ st'.bytes = rest ∧
        Slots env env' D ts ts' vs (i + 1) m' s' := by
  intro i v m bs m' s st rest hv hr hp hb
  have hi := (List.getElem?_eq_some_iff.1 hv).1
  have hti : ts[i]? = some (ts.getD i .unit) := by
    rw [List.getD_eq_getElem?_getD, List.getElem?_eq_getElem (by omega)]; rfl
  obtain ⟨hm', hitem⟩ := hm _ i v m bs m' (by omega) hp.memo hr
  by_cases hi' : i < ts'.length
  · have hti' : ts'[i]? = some ts'[i] := List.getElem?_eq_getElem hi'
    obtain ⟨h1, w, bs1, v', st', h2, h3, h4, h5, h6⟩ := hg _ _ i v m bs m' st rest (hE i _ _ hti hti') (by omega) hp.memo hr hb
    refine ⟨h1, i, w, bs1, s.set i (some v'), st', h2, h3, ?_, h5, hm', by rw [List.length_set, hp.len], ?_, ?_⟩
    · unfold fieldCb
      rw [hti']
      simp only [h4]
    · intro j u u' x hj hu hu' hx
      by_cases e : j = i
      · subst e
        rw [hti] at hu; rw [hti'] at hu'; rw [hv] at hx
        cases hu; cases hu'; cases hx
        exact ⟨v', List.getElem?_set_self (by rw [hp.len]; exact hi'), h6⟩
      · obtain ⟨x', k1, k2⟩ := hp.got j u u' x (by omega) hu hu' hx
        exact ⟨x', by rw [List.getElem?_set_ne (by omega)]; exact k1, k2⟩
    · intro j hj hj'
      rw [List.getElem?_set_ne (by omega)]
      exact hp.left j (by omega) hj'
  · have hti' : ts'[i]? = none := List.getElem?_eq_none (by omega)
    obtain ⟨w, bs1, h2, h3, h4⟩ := item_skipped hitem rest
    refine ⟨item_length hitem, i, w, bs1, s, { st with bytes := rest }, by rw [hb]; exact h2, h3, ?_, rfl, hm', hp.len, ?_, ?_⟩
    · unfold fieldCb
      rw [hti']
      simp only [h4]
    · intro j u u' x hj hu hu' hx
      have := (List.getElem?_eq_some_iff.1 hu').1
      exact hp.got j u u' x (by omega) hu hu' hx
    · intro j hj hj'
      exact hp.left j (by omega) hj'

theorem slots_start {env env' D} (ts ts' : List Ty) (vs : List Val) (m : List Nat) (hm : m.length ≤ 2 ^ 31) :
    Slots env env' D ts ts' vs 0 m (List.replicate ts'.length none) :=
  ⟨hm, by simp, fun j _ _ _ h => by omega, fun j _ h => by simp [h]⟩

theorem slots_end {env env' D dflt} (hd : MakesDefaults dflt D) {ts ts' : List Ty} {vs : List Val} (hl : vs.length = ts.length)
    {m : List Nat} {s : List (Option Val)} (h : Slots env env' D ts ts' vs vs.length m s) (st : St) :
    ∃ vs' st', fillIn dflt ts' s st = .ok (vs', st') ∧ st'.bytes = st.bytes ∧
      Migrates env env' D (.tuple ts) (.tuple ts') (.seq vs) (.seq vs') := by
  obtain ⟨vs', st', e1, e2, e3, e4, e5⟩ := fillIn_defaults hd ts' s st h.len
  refine ⟨vs', st', e1, e2, .tuple hl e3 ?_ ?_⟩
  · intro i u u' x x' hu hu' hx hx'
    have := (List.getElem?_eq_some_iff.1 hx).1
    obtain ⟨y, k1, k2⟩ := h.got i u u' x this hu hu' hx
    have := e4 i y k1
    rw [hx'] at this
    cases this
    exact k2
  · intro i u' x' hi hu' hx'
    have hi' := (List.getElem?_eq_some_iff.1 hu').1
    exact e5 i u' x' (h.left i (by omega) hi') hu' hx'

theorem tupleV_good {env env' E D rec drec dflt} (hg : GoodV env env' E D rec drec) (hmess : Mess rec) (hd : MakesDefaults dflt D)
    (ts ts' : List Ty) (vs : List Val) (hl : vs.length = ts.length) (hs : ts.length < 2 ^ 31)
    (hE : ∀ (i : Nat) u u', ts[i]? = some u → ts'[i]? = some u' → E u u') (fld : Nat) (hf : fld < 2 ^ 61) (m : List Nat)
    (hm : m.length ≤ 2 ^ 31) (bs : Bytes) (m' : List Nat) (st : St) (rest : Bytes) (hb : st.bytes = bs ++ rest)
    (h : (if ts.length = 0 then .ok (writeEmpty fld, m)
      else if ts.length = 1 then wrap (writeBeginSingle fld) [] (writeAll (fun i => rec (ts.getD i .unit) i) 0 vs m)
      else wrap (writeBeginCompound fld) writeEndCompound (writeAll (fun i => rec (ts.getD i .unit) i) 0 vs m)) = .ok (bs, m')) :
    1 ≤ bs.length ∧ ∃ w bs1 v' st', readHeader st.bytes = .ok ((fld, w), bs1) ∧ w ≠ 7 ∧
      deserTuple dflt drec ts' w { st with bytes := bs1 } = .ok (v', st') ∧ st'.bytes = rest ∧
      Migrates env env' D (.tuple ts) (.tuple ts') (.seq vs) v' := by
  have start := slots_start (env := env) (env' := env') (D := D) ts ts' vs m hm
  by_cases h0 : ts.length = 0
  · rw [if_pos h0] at h
    cases h
    have hvs : vs.length = 0 := by omega
    rw [← hvs] at start
    obtain ⟨vs', st', e1, e2, e3⟩ := slots_end hd hl start { st with bytes := rest }
    refine ⟨varint_length _, 0, rest, .seq vs', st', ?_, by omega, ?_, e2, e3⟩
    · rw [hb, writeEmpty, readHeader_at fld 0 hf (by omega)]
    · unfold deserTuple consume
      rw [if_pos rfl]
      simp only [e1]
  rw [if_neg h0] at h
  by_cases h1 : ts.length = 1
  · rw [if_pos h1] at h
    obtain ⟨b, hw, rfl⟩ := wrap_ok h
    rw [List.append_nil, writeBeginSingle, List.append_assoc] at hb
    refine ⟨by rw [List.append_nil]; exact lengths_pos _ _, 5, b ++ rest, ?_⟩
    obtain ⟨v, rfl⟩ : ∃ v, vs = [v] := List.length_eq_one_iff.1 (by omega)
    simp only [writeAll] at hw
    cases hr : rec (ts.getD 0 .unit) 0 v m with
    | error e => rw [hr] at hw; cases hw
    | ok r =>
      obtain ⟨b1, m1⟩ := r
      rw [hr] at hw
      simp only [Except.ok.injEq, Prod.mk.injEq, List.append_nil] at hw
      obtain ⟨rfl, rfl⟩ := hw
      obtain ⟨-, f, w, bs1, s', st', e1, e2, e3, e4, e5⟩ := tupleV_step hg hmess ts ts' [v] hl hs hE 0 v m b1 m1
        (List.replicate ts'.length none) { st with bytes := b1 ++ rest } rest rfl hr start rfl
      obtain ⟨vs', st2, q1, q2, q3⟩ := slots_end hd hl e5 st'
      refine ⟨.seq vs', st2, by rw [hb]; exact readHeader_at fld 5 hf (by omega) _, by omega, ?_, by rw [q2, e4], q3⟩
      unfold deserTuple consume
      rw [if_neg (by omega), if_pos rfl]
      simp only at e1 e3 ⊢
      rw [e1]
      simp only [e3, q1]
  · rw [if_neg h1] at h
    obtain ⟨b, hw, rfl⟩ := wrap_ok h
    rw [writeBeginCompound, List.append_assoc, List.append_assoc] at hb
    refine ⟨by rw [List.append_assoc]; exact lengths_pos _ _, 6, b ++ (writeEndCompound ++ rest), ?_⟩
    obtain ⟨hle, s', st', e1, e2, e3, e4⟩ := all_read (fieldCb drec ts') (fun i => rec (ts.getD i .unit) i)
      (fun i m s (_ : St) => Slots env env' D ts ts' vs i m s) vs
      (tupleV_step hg hmess ts ts' vs hl hs hE) vs 0 m b m' (List.replicate ts'.length none)
      { st with bytes := b ++ (writeEndCompound ++ rest) } (writeEndCompound ++ rest) (by simp) (by omega) hw start rfl
    obtain ⟨vs', st2, q1, q2, q3⟩ := slots_end hd hl e4 { st' with bytes := rest }
    refine ⟨.seq vs', st2, by rw [hb]; exact readHeader_at fld 6 hf (by omega) _, by omega, ?_, q2, q3⟩
    unfold deserTuple consume
    rw [if_neg (by omega), if_neg (by omega), if_neg (by omega)]
    simp only [List.length_append]
    obtain ⟨k, hk⟩ : ∃ k, b.length + (writeEndCompound.length + rest.length) + 1 = vs.length + (k + 1) :=
      ⟨b.length + (writeEndCompound.length + rest.length) - vs.length, by omega⟩
    rw [hk, e2, consumeLoop_end _ _ _ _ rest e3]
    simp only [q1]

/-! ### Lists -/

/-- Before element `i` is read: the values so far. -/
structure Elts (env env' : Nat → Ty) (D : Ty → Val → Prop) (ty ty' : Nat → Ty) (vs : List Val) (i : Nat) (m : List Nat)
    (got : List Val) : Prop where
  memo : m.length ≤ 2 ^ 31
  len : got.length = i
  all : ∀ (j : Nat) x x', vs[j]? = some x → got[j]? = some x' → Migrates env env' D (ty j) (ty' j) x x'

theorem Elts.next {env env' D ty ty' vs i m m' got v v'} (h : Elts env env' D ty ty' vs i m got) (hm : m'.length ≤ 2 ^ 31)
    (hv : vs[i]? = some v) (hx : Migrates env env' D (ty i) (ty' i) v v') :
    Elts env env' D ty ty' vs (i + 1) m' (got ++ [v']) := by
  refine ⟨hm, by rw [List.length_append, h.len, List.length_singleton], fun j x x' h1 h2 => ?_⟩
  by_cases hj : j < got.length
  · rw [List.getElem?_append_left hj] at h2
    exact h.all j x x' h1 h2
  · have := (List.getElem?_eq_some_iff.1 h2).1
    rw [List.length_append, List.length_singleton] at this
    obtain rfl : j = got.length := by omega
    rw [List.getElem?_concat_length] at h2
    cases h2
    rw [h.len] at h1
    rw [hv] at h1
    cases h1
    rw [h.len]; exact hx

theorem elts_start {env env' D ty ty'} (vs : List Val) (m : List Nat) (hm : m.length ≤ 2 ^ 31) :
    Elts env env' D ty ty' vs 0 m [] := ⟨hm, rfl, by simp⟩

theorem eltsV_good {env env' E D rec drec} (hg : GoodV env env' E D rec drec) (hmess : Mess rec) (t t' : Ty) (hE : E t t')
    (vs : List Val) (hlen : vs.length < 2 ^ 31) (m : List Nat) (hm : m.length ≤ 2 ^ 31) (bs : Bytes) (m' : List Nat) (st : St)
    (rest : Bytes) (hs : serElts rec t vs m = .ok (bs, m')) (hb : st.bytes = bs ++ rest) :
    ∃ vs' st', deserSeq drec t' st = .ok (vs', st') ∧ st'.bytes = rest ∧
      Migrates env env' D (.tupleOf t) (.tupleOf t') (.seq vs) (.seq vs') := by
  obtain ⟨b, hw, rfl⟩ := wrap_ok hs
  rw [List.append_nil, writeVarintObject, List.append_assoc, List.append_assoc] at hb
  obtain ⟨-, got, st', e1, -, e3, e4⟩ := all_read (eltCb drec t') (fun _ => rec t 0)
    (fun i m s (_ : St) => Elts env env' D (fun _ => t) (fun _ => t') vs i m s) vs
    (fun i v m bs m' s st1 rest hv hgi hR hbs => by
      obtain ⟨hm', -⟩ := hmess t 0 v m bs m' (by norm_num) hR.memo hgi
      obtain ⟨h1, w, bs1, v', st', h2, h3, h4, h5, h6⟩ := hg t t' 0 v m bs m' st1 rest hE (by norm_num) hR.memo hgi hbs
      refine ⟨h1, 0, w, bs1, _, st', h2, h3, ?_, h5, hR.next hm' hv h6⟩
      unfold eltCb
      rw [if_neg (by simp), if_neg h3]
      simp only [h4]) vs 0 m b m' [] { st with bytes := b ++ rest } rest (by simp) (by omega) hw (elts_start vs m hm) rfl
  refine ⟨got, st', ?_, e3, .tupleOf e4.len e4.all⟩
  unfold deserSeq
  rw [hb, readHeader_at 0 1 (by norm_num) (by omega)]
  simp only
  rw [(Wire.varint_roundtrip vs.length (by omega) _).1]
  simp only
  unfold deserBody
  split
  · rename_i h0
    rw [h0] at e1
    simp only [readN] at e1
    cases e1
    simp
  · rw [if_pos rfl, e1]

theorem plainV (drec : Ty → Nat → St → Except Err (Val × St)) (t : Ty) (size : Nat)
    (hsz : podSize t = some size) (vs : List Val) (hlen : vs.length < 2 ^ 31) (hne : vs.length ≠ 0)
    (m : List Nat) (bs : Bytes) (m' : List Nat) (st : St) (rest : Bytes) (hs : serPlain t size vs m = .ok (bs, m'))
    (hb : st.bytes = bs ++ rest) :
    deserSeq drec t st = .ok (vs, { st with bytes := rest }) := by
  unfold serPlain at hs
  split at hs
  · cases hs
  rename_i data hdata
  have hback := podAll_back t size hsz vs data hdata
  split at hs
  · rename_i h0
    cases hs
    rw [writeVarintObject, List.append_assoc] at hb
    unfold deserSeq
    rw [hb, readHeader_at 3 1 (by norm_num) (by omega)]
    simp only
    rw [(Wire.varint_roundtrip vs.length (by omega) _).1]
    simp only [deserBody, if_neg hne]
    subst h0
    have hd : data = [] := List.length_eq_zero_iff.1 (by rw [hback.1]; omega)
    have := hback.2 []
    rw [hd, List.append_nil] at this
    simp [hsz, this]
  split at hs
  · rename_i h0 h64
    split at hs
    · cases hs
    rename_i xs hxs
    obtain ⟨hx1, hx2⟩ := ints_spec vs xs hxs
    obtain ⟨b, hb1, hb2⟩ := int_list_roundtrip xs hx2 rest
    rw [hb1] at hs
    cases hs
    rw [writeVarintObject, List.append_assoc, List.append_assoc] at hb
    unfold deserSeq
    rw [hb, readHeader_at 1 1 (by norm_num) (by omega)]
    simp only
    rw [(Wire.varint_roundtrip vs.length (by omega) _).1]
    simp only [deserBody, if_neg hne]
    have hxl : vs.length = xs.length := by rw [hx1, List.length_map]
    rw [if_neg (by omega), if_pos trivial, if_pos h64, hxl, hb2]
    simp [hx1]
  split at hs
  · rename_i h0 h64 hbig
    cases hs
    rw [writeBeginBytes, List.append_assoc, List.append_assoc] at hb
    unfold deserSeq
    rw [hb, readHeader_at 2 4 (by norm_num) (by omega)]
    simp only
    rw [(Wire.varint_roundtrip (size * vs.length) (by omega) _).1]
    simp only [deserBody]
    have hne2 : size * vs.length ≠ 0 := Nat.mul_ne_zero h0 hne
    rw [if_neg hne2, if_neg (by omega), if_neg (by omega), if_pos trivial]
    simp only [hsz]
    rw [if_neg h0, Nat.mul_div_cancel_left _ (by omega), if_neg (by rw [Nat.mul_comm]; simp)]
    have := Wire.readBytes_append data rest
    rw [hback.1] at this
    rw [this]
    have hr := hback.2 []
    rw [List.append_nil] at hr
    simp only [hr]
  · cases hs

theorem bodyV_good {env env' E D rec drec} (hg : GoodV env env' E D rec drec) (hmess : Mess rec) (inline : Bool) (t t' : Ty)
    (hE : E t t') (hp : podSize t ≠ none → t' = t) (vs : List Val) (hlen : vs.length < 2 ^ 31) (m : List Nat)
    (hm : m.length ≤ 2 ^ 31) (bs : Bytes) (m' : List Nat) (st : St) (rest : Bytes)
    (hs : serBody rec inline t vs m = .ok (bs, m')) (hb : st.bytes = bs ++ rest) :
    ∃ vs' st', deserSeq drec t' st = .ok (vs', st') ∧ st'.bytes = rest ∧
      Migrates env env' D (.tupleOf t) (.tupleOf t') (.seq vs) (.seq vs') := by
  unfold serBody at hs
  split at hs
  · rename_i h
    split at hs
    · rename_i size hsz
      have hne : podSize t ≠ none := by rw [hsz]; simp
      obtain rfl := hp hne
      exact ⟨vs, _, plainV drec _ size hsz vs hlen h.1 m bs m' st rest hs hb, rfl, .plain hne⟩
    · exact eltsV_good hg hmess t t' hE vs hlen m hm bs m' st rest hs hb
  · exact eltsV_good hg hmess t t' hE vs hlen m hm bs m' st rest hs hb

theorem constDictV_good {env env' E D rec drec} (hg : GoodV env env' E D rec drec) (hmess : Mess rec) (k w k' w' : Ty) (hk : E k k')
    (hw' : E w w') (vs : List Val) (hlen : vs.length < 2 ^ 31) (hpair : vs.length % 2 = 0)
    (fld : Nat) (hf : fld < 2 ^ 61) (m : List Nat) (hm : m.length ≤ 2 ^ 31) (bs : Bytes) (m' : List Nat) (st : St) (rest : Bytes)
    (hb : st.bytes = bs ++ rest)
    (h : wrap (writeBeginCompound fld ++ writeVarintObject 0 (vs.length / 2)) writeEndCompound
        (writeAll (fun i => rec (kv k w i) 0) 0 vs m) = .ok (bs, m')) :
    1 ≤ bs.length ∧ ∃ wire bs1 v' st', readHeader st.bytes = .ok ((fld, wire), bs1) ∧ wire ≠ 7 ∧
      deserConstDict drec k' w' wire { st with bytes := bs1 } = .ok (v', st') ∧ st'.bytes = rest ∧
      Migrates env env' D (.constDict k w) (.constDict k' w') (.seq vs) v' := by
  have hkv : ∀ i, E (kv k w i) (kv k' w' i) := fun i => by unfold kv; split <;> assumption
  obtain ⟨b, hw, rfl⟩ := wrap_ok h
  rw [writeBeginCompound, writeVarintObject] at hb
  simp only [List.append_assoc] at hb
  obtain ⟨hle, s', st2, -, e2, e3, got, e4, e5⟩ := all_read (constDictCb drec k' w') (fun i => rec (kv k w i) 0)
    (fun i m1 (s : Items) (_ : St) => ∃ got, Elts env env' D (kv k w) (kv k' w') vs i m1 got ∧
      s = ⟨i + 1, 0, none, none, vs.length / 2, got⟩) vs
    (fun i v m1 bs m2 s stx rest hv hgi hR hbs => by
      obtain ⟨vals, hp, rfl⟩ := hR
      have hiv := (List.getElem?_eq_some_iff.1 hv).1
      obtain ⟨hm', -⟩ := hmess _ 0 v m1 bs m2 (by norm_num) hp.memo hgi
      obtain ⟨h1, w1, bs1, v', st', h2, h3, h4, h5, h6⟩ := hg (kv k w i) (kv k' w' i) 0 v m1 bs m2 stx rest (hkv i) (by norm_num)
        hp.memo hgi hbs
      refine ⟨h1, 0, w1, bs1, _, st', h2, h3, ?_, h5, _, hp.next hm' hv h6, rfl⟩
      unfold constDictCb
      simp only [Nat.add_sub_cancel]
      rw [if_neg (by simp), if_neg (by omega), if_neg (by omega), h4])
    vs 0 m b m' ⟨0 + 1, 0, none, none, vs.length / 2, []⟩ { st with bytes := b ++ (writeEndCompound ++ rest) }
    (writeEndCompound ++ rest) (by simp) (by omega) hw ⟨[], elts_start vs m hm, rfl⟩ rfl
  subst e5
  refine ⟨?_, 6, _, .seq got, { st2 with bytes := rest }, by rw [hb]; exact readHeader_at fld 6 hf (by omega) _, by omega, ?_,
    rfl, .constDict e4.len ?_ ?_⟩
  · rw [writeBeginCompound]; simp only [List.append_assoc]; exact lengths_pos _ _
  · unfold deserConstDict consume
    rw [if_neg (by omega), if_neg (by omega), if_neg (by omega)]
    simp only
    have hL : ∃ k, (writeVarint (header 0 1) ++ (writeVarint (vs.length / 2) ++ (b ++ (writeEndCompound ++ rest)))).length + 1 =
        (vs.length + (k + 1)) + 1 := by
      have h1 := varint_length (header 0 1)
      simp only [List.length_append]
      exact ⟨(writeVarint (header 0 1)).length + ((writeVarint (vs.length / 2)).length + (b.length + (writeEndCompound.length + rest.length)))
        - vs.length - 1, by omega⟩
    obtain ⟨k0, hk0⟩ := hL
    rw [hk0]
    rw [consumeLoop_step (s1 := ⟨0 + 1, 0, none, none, vs.length / 2, []⟩) (st1 := { st with bytes := b ++ (writeEndCompound ++ rest) })
      (constDictCb drec k' w') _ _ _ (readHeader_at 0 1 (by norm_num) (by omega) _) (by omega)
      (by
        unfold constDictCb
        rw [if_neg (by simp), if_pos rfl, if_neg (by simp)]
        simp only
        rw [(Wire.varint_roundtrip _ (by omega) _).1])]
    rw [e2, consumeLoop_end _ _ _ _ rest e3]
    simp only
    rw [if_neg (by simp)]
  · intro i x x' hi h1 h2
    have := e4.all i x x' h1 h2
    simpa [kv, hi] using this
  · intro i x x' hi h1 h2
    have := e4.all i x x' h1 h2
    simpa [kv, hi] using this

theorem goodV_step {env env' E D rec drec dflt} (hV : Versions env env' E) (inline : Bool) (heap : Nat → List Val)
    (hd : MakesDefaults dflt D) (hg : GoodV env env' E D rec drec) (hmess : Mess rec) :
    GoodV env env' E D (serStep env inline heap rec) (deserStep env' dflt drec) := by
  intro ty ty' fld v m bs m' st rest hE hf hm h hb
  unfold serStep at h
  split at h
  · rename_i r x
    obtain rfl := hV.reg _ _ hE
    split at h
    · rename_i hr
      cases h
      obtain ⟨body, e1, e2, e3⟩ := Wire.register_roundtrip fld hf r x ((inRange_iff r x).1 hr) rest
      refine ⟨by rw [e1]; exact lengths_pos _ _, Wire.regWire r, body ++ rest, .reg x, { st with bytes := rest },
        by rw [hb]; exact e2, ?_, by simp only [deserStep, e3], rfl, .reg r x⟩
      cases r <;> simp [Wire.regWire]
      split <;> omega
    · cases h
  · obtain rfl := hV.unit _ hE
    cases h
    exact ⟨varint_length _, 0, rest, .unit, { st with bytes := rest }, by rw [hb]; exact readHeader_at fld 0 hf (by omega) _,
      by omega, by simp [deserStep], rfl, .unit⟩
  · rename_i b
    obtain rfl := hV.bytes _ hE
    split at h
    · rename_i hl
      cases h
      rw [writeBeginBytes, List.append_assoc, List.append_assoc] at hb
      refine ⟨by rw [writeBeginBytes, List.append_assoc]; exact lengths_pos _ _, 4, _, .bytes b, { st with bytes := rest },
        by rw [hb]; exact readHeader_at fld 4 hf (by omega) _, by omega, ?_, rfl, .bytes b⟩
      simp only [deserStep]
      rw [if_neg (by omega), (Wire.varint_roundtrip b.length (by omega) _).1]
      simp only [Wire.readBytes_append]
    · cases h
  · rename_i s
    obtain rfl := hV.str _ hE
    split at h
    · rename_i hs
      rw [Bool.and_eq_true, List.all_eq_true, decide_eq_true_eq] at hs
      have hp : ∀ c ∈ s, c ≤ Str.Spec.maxPoint := fun c hc => by simpa using hs.1 c hc
      rw [Str.serialize_bytes _ _ (Str.normal_valid (Str.normal_python s hp)), Str.text_python] at h
      cases h
      rw [List.append_assoc, List.append_assoc] at hb
      refine ⟨by rw [List.append_assoc]; exact lengths_pos _ _, 4, _, .str s, { st with bytes := rest },
        by rw [hb]; exact readHeader_at fld 4 hf (by omega) _, by omega, ?_, rfl, .str s⟩
      simp only [deserStep, Str.deserialize_bytes s hp hs.2, Str.text_construct]
    · cases h
  · rename_i ts vs
    obtain ⟨ts', rfl, hE'⟩ := hV.tuple _ _ hE
    split at h
    · rename_i hl
      exact tupleV_good hg hmess hd ts ts' vs hl.1 hl.2 hE' fld hf m hm bs m' st rest hb h
    · cases h
  · rename_i ts i x
    obtain ⟨ts', rfl, hlen, hE'⟩ := hV.oneOf _ _ hE
    split at h
    · cases h
    rename_i t ht
    split at h
    · rename_i h8
      have hi := (List.getElem?_eq_some_iff.1 ht).1
      have ht' : ts'[i]? = some ts'[i] := List.getElem?_eq_getElem (by omega)
      obtain ⟨b, hr, rfl⟩ := wrap_ok h
      rw [List.append_nil, writeBeginSingle, List.append_assoc] at hb
      obtain ⟨-, w, bs1, v', st', e1, e2, e3, e4, e5⟩ := hg t _ i x m b m' { st with bytes := b ++ rest } rest (hE' i t _ ht ht')
        (by omega) hm hr rfl
      refine ⟨by rw [List.append_nil]; exact lengths_pos _ _, 5, b ++ rest, .tag i v', st',
        by rw [hb]; exact readHeader_at fld 5 hf (by omega) _, by omega, ?_, e4, .oneOf ht ht' e5⟩
      simp only [deserStep]
      unfold deserOneOf consume
      rw [if_neg (by omega), if_pos rfl]
      simp only at e1 e3 ⊢
      rw [e1]
      simp only [oneOfCb, ht', e3]
      rw [Nat.mod_eq_of_lt h8]
    · cases h
  · rename_i ts i x
    obtain ⟨ts', rfl, hlen, hE'⟩ := hV.alt _ _ hE
    split at h
    · cases h
    rename_i t ht
    split at h
    · rename_i h8
      have hi := (List.getElem?_eq_some_iff.1 ht).1
      have ht' : ts'[i]? = some ts'[i] := List.getElem?_eq_getElem (by omega)
      obtain ⟨b, hr, rfl⟩ := wrap_ok h
      rw [List.append_nil, writeBeginSingle, List.append_assoc] at hb
      obtain ⟨-, w, bs1, v', st', e1, e2, e3, e4, e5⟩ := hg t _ i x m b m' { st with bytes := b ++ rest } rest (hE' i t _ ht ht')
        (by omega) hm hr rfl
      refine ⟨by rw [List.append_nil]; exact lengths_pos _ _, 5, b ++ rest, .tag i v', st',
        by rw [hb]; exact readHeader_at fld 5 hf (by omega) _, by omega, ?_, e4, .alt ht ht' e5⟩
      simp only [deserStep]
      unfold deserAlt
      rw [if_neg (by omega)]
      simp only at e1 e3 ⊢
      rw [e1]
      simp only [ht', e3]
      rw [Nat.mod_eq_of_lt h8]
      simp
    · cases h
  · rename_i t vs
    obtain ⟨t', rfl, hE', hp⟩ := hV.tupleOf _ _ hE
    split at h
    · rename_i hl
      split at h
      · rename_i h0
        cases h
        have hvs : vs = [] := List.length_eq_zero_iff.1 h0
        subst hvs
        exact ⟨varint_length _, 0, rest, .seq [], { st with bytes := rest }, by rw [hb]; exact readHeader_at fld 0 hf (by omega) _,
          by omega, by simp [deserStep, deserTupleOf], rfl, .tupleOf rfl (by simp)⟩
      · obtain ⟨b, hbody, rfl⟩ := wrap_ok h
        rw [writeBeginCompound, List.append_assoc, List.append_assoc] at hb
        obtain ⟨vs', st2, e1, e2, e3⟩ := bodyV_good hg hmess inline t t' hE' hp vs hl m hm b m'
          { st with bytes := b ++ (writeEndCompound ++ rest) } (writeEndCompound ++ rest) hbody rfl
        refine ⟨by rw [List.append_assoc]; exact lengths_pos _ _, 6, _, .seq vs', { st2 with bytes := rest },
          by rw [hb]; exact readHeader_at fld 6 hf (by omega) _, by omega, ?_, rfl, e3⟩
        simp only [deserStep, deserTupleOf]
        rw [if_neg (by omega), if_neg (by omega)]
        simp only [e1, finish_end st2 rest e2]
    · cases h
  · exact absurd hE (hV.listOf _ _)
  · rename_i k w vs
    obtain ⟨k', w', rfl, hk, hw⟩ := hV.constDict _ _ _ hE
    split at h
    · rename_i hl
      exact constDictV_good hg hmess k w k' w' hk hw vs hl.1 hl.2 fld hf m hm bs m' st rest hb h
    · cases h
  · exact absurd hE (hV.dict _ _ _)
  · exact absurd hE (hV.set _ _)
  · obtain ⟨n', rfl, hn⟩ := hV.named _ _ hE
    obtain ⟨h1, w, bs1, v', st', e1, e2, e3, e4, e5⟩ := hg _ _ fld _ m bs m' st rest hn hf hm h hb
    exact ⟨h1, w, bs1, v', st', e1, e2, e3, e4, .named e5⟩
  · cases h

theorem goodV {env env' E D dflt} (hV : Versions env env' E) (inline : Bool) (heap : Nat → List Val) (hd : MakesDefaults dflt D) :
    ∀ depth, GoodV env env' E D (ser env inline heap depth) (deser env' dflt depth)
  | 0 => fun _ _ _ _ _ _ _ _ _ _ _ _ h => by cases h
  | n + 1 => goodV_step hV inline heap hd (goodV hV inline heap hd n) (mess env inline heap n)

end Verif.Typed
