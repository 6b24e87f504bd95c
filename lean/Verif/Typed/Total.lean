import Verif.Typed.Steps
import Mathlib.Data.List.Perm.Subperm
/-
Every value of a type can be written: serialization of a finite graph ends, cyclic or not.
-/
namespace Verif.Typed

open Verif.Wire (Bytes Reg InRange writeVarintObject writeBeginBytes writeBeginSingle writeBeginCompound writeEndCompound writeEmpty)

/-! ### Plain data -/

theorem podFields_total : ∀ (ts : List Ty) (vs : List Val) (s : Nat), vs.length = ts.length →
    (∀ i (h : i < ts.length) (h' : i < vs.length), ∀ s, podSize ts[i] = some s → ∃ b, podBytes ts[i] vs[i] = some b) →
    podSum ts = some s → ∃ b, podFields ts vs = some b
  | [], [], _, _, _, _ => ⟨[], rfl⟩
  | [], _ :: _, _, h, _, _ => by simp at h
  | _ :: _, [], _, h, _, _ => by simp at h
  | t :: ts, v :: vs, s, hl, h, hs => by
    simp only [podSum] at hs
    split at hs
    · rename_i x y hx hy
      obtain ⟨b, hb⟩ := h 0 (by simp) (by simp) x (by simpa using hx)
      obtain ⟨c, hc⟩ := podFields_total ts vs y (by simpa using hl)
        (fun i h1 h2 => h (i + 1) (by simpa using h1) (by simpa using h2)) hy
      refine ⟨b ++ c, ?_⟩
      simp only [podFields]
      rw [show podBytes t v = some b from hb, hc]
    · cases hs

theorem podChoice_eq : ∀ (ts : List Ty) (i : Nat) (h : i < ts.length) (v : Val), podChoice ts i v = podBytes ts[i] v
  | [], i, h, _ => by simp at h
  | t :: ts, 0, _, v => by simp [podChoice]
  | t :: ts, i + 1, h, v => by
    simp only [podChoice, List.getElem_cons_succ]
    exact podChoice_eq ts i (by simpa using h) v

theorem podMax_part : ∀ (ts : List Ty) (n i : Nat) (h : i < ts.length), podMax ts = some n → ∃ s, podSize ts[i] = some s
  | [], _, i, h, _ => by simp at h
  | t :: ts, n, i, h, hn => by
    simp only [podMax] at hn
    split at hn
    · rename_i x y hx hy
      cases i with
      | zero => exact ⟨x, hx⟩
      | succ i => exact podMax_part ts y i (by simpa using h) hy
    · cases hn

theorem pod_total {env heapTy dom} {t : Ty} {v : Val} (h : HasType env heapTy dom t v) :
    ∀ s, podSize t = some s → ∃ b, podBytes t v = some b := by
  induction h with
  | @reg r v hr => exact fun s _ => ⟨_, by simp only [podBytes]; rw [if_pos ((inRange_iff r v).2 hr)]⟩
  | unit => exact fun s _ => ⟨[], rfl⟩
  | bytes => intro s hs; simp [podSize] at hs
  | str => intro s hs; simp [podSize] at hs
  | @tuple ts vs hl _ _ ih =>
    intro s hs
    simp only [podSize] at hs
    exact podFields_total ts vs s hl ih hs
  | @oneOf ts i v hi h8 _ ih =>
    intro s hs
    simp only [podSize] at hs
    split at hs
    · cases hs
    rename_i n hn
    obtain ⟨x, hx⟩ := podMax_part ts n i hi hn
    obtain ⟨b, hb⟩ := ih x hx
    simp only [podBytes]
    rw [podChoice_eq ts i hi v, hb, hn]
    exact ⟨_, if_pos h8⟩
  | @alt ts i v hi h8 _ ih =>
    intro s hs
    simp only [podSize] at hs
    split at hs
    · rename_i hn
      obtain ⟨x, hx⟩ := podMax_part ts 0 i hi hn
      obtain ⟨b, hb⟩ := ih x hx
      simp only [podBytes]
      rw [podChoice_eq ts i hi v, hb, hn]
      exact ⟨_, if_pos h8⟩
    · cases hs
  | tupleOf => intro s hs; simp [podSize] at hs
  | constDict => intro s hs; simp [podSize] at hs
  | @ref t a he _ _ =>
    intro s hs
    cases t <;> simp [eltAt, podSize] at he hs
  | named => intro s hs; simp [podSize] at hs

theorem podAll_total {env heapTy dom} (t : Ty) (s : Nat) (hs : podSize t = some s) : ∀ (vs : List Val),
    (∀ v ∈ vs, HasType env heapTy dom t v) → ∃ b, podAll t vs = some b
  | [], _ => ⟨[], rfl⟩
  | v :: vs, h => by
    obtain ⟨b, hb⟩ := pod_total (h v (by simp)) s hs
    obtain ⟨c, hc⟩ := podAll_total t s hs vs fun x hx => h x (by simp [hx])
    exact ⟨b ++ c, by simp only [podAll, hb, hc]⟩

theorem ints_total {env heapTy dom} : ∀ (vs : List Val), (∀ v ∈ vs, HasType env heapTy dom (.reg (.int 8)) v) →
    ∃ xs, ints vs = some xs
  | [], _ => ⟨[], rfl⟩
  | v :: vs, h => by
    obtain ⟨xs, hx⟩ := ints_total vs fun x hx => h x (by simp [hx])
    cases h v (by simp) with
    | @reg _ x hr => exact ⟨x :: xs, by simp only [ints, hx]; rw [if_pos ((inRange_iff _ _).2 hr)]⟩
    | ref he _ _ => simp [eltAt] at he

theorem serPlain_total {env heapTy dom} (t : Ty) (s : Nat) (hs : podSize t = some s) (vs : List Val) (hf : Fits t vs.length)
    (h : ∀ v ∈ vs, HasType env heapTy dom t v) (m : List Nat) : ∃ b, serPlain t s vs m = .ok (b, m) := by
  obtain ⟨data, hd⟩ := podAll_total t s hs vs h
  unfold serPlain
  simp only [hd]
  split
  · exact ⟨_, rfl⟩
  split
  · rename_i h64
    have ht : t = .reg (.int 8) := by
      unfold isInt64 at h64
      split at h64
      · rfl
      · cases h64
    subst ht
    obtain ⟨xs, hx⟩ := ints_total vs h
    obtain ⟨b, hb, -⟩ := int_list_roundtrip xs (ints_spec vs xs hx).2 []
    simp only [hx, hb]
    exact ⟨_, rfl⟩
  · rw [if_pos (hf s hs)]
    exact ⟨_, rfl⟩

/-! ### Every value -/

/-- The memo lists objects of `dom`, each once. -/
structure Memo (dom m : List Nat) : Prop where
  nodup : m.Nodup
  sub : ∀ a ∈ m, a ∈ dom

theorem Memo.le {dom m : List Nat} (h : Memo dom m) : m.length ≤ dom.length :=
  (List.subperm_of_subset h.nodup h.sub).length_le

theorem Memo.add {dom m : List Nat} (h : Memo dom m) {a : Nat} (ha : a ∉ m) (hd : a ∈ dom) : Memo dom (m ++ [a]) := by
  refine ⟨?_, ?_⟩
  · rw [List.nodup_append]
    refine ⟨h.nodup, by simp, fun x hx y hy => ?_⟩
    rw [List.mem_singleton] at hy
    subst hy
    rintro rfl
    exact ha hx
  · intro x hx
    rcases List.mem_append.1 hx with hx | hx
    · exact h.sub x hx
    · rw [List.mem_singleton] at hx; exact hx ▸ hd

/-- The value can be written when at most `n` objects are missing from the memo. -/
def Writes (env : Nat → Ty) (inline : Bool) (heap : Nat → List Val) (dom : List Nat) (n : Nat) (t : Ty) (v : Val) : Prop :=
  ∀ fld m, Memo dom m → dom.length - m.length ≤ n →
    ∃ d b m', ser env inline heap d t fld v m = .ok (b, m') ∧ m <+: m' ∧ Memo dom m'

theorem writeAll_total {env inline heap dom n} (ty : Nat → Ty) (fld : Nat → Nat) : ∀ (vs : List Val) (i : Nat),
    (∀ j (h : j < vs.length), Writes env inline heap dom n (ty (i + j)) vs[j]) → ∀ m, Memo dom m → dom.length - m.length ≤ n →
    ∃ d b m', writeAll (fun i => ser env inline heap d (ty i) (fld i)) i vs m = .ok (b, m') ∧ m <+: m' ∧ Memo dom m'
  | [], i, _, m, hm, _ => ⟨0, [], m, rfl, List.prefix_refl _, hm⟩
  | v :: vs, i, h, m, hm, hn => by
    obtain ⟨d1, b1, m1, e1, p1, q1⟩ := h 0 (by simp) (fld i) m hm hn
    rw [Nat.add_zero, List.getElem_cons_zero] at e1
    obtain ⟨d2, b2, m2, e2, p2, q2⟩ := writeAll_total ty fld vs (i + 1)
      (fun j hj => by have := h (j + 1) (by simpa using hj); rwa [show i + (j + 1) = i + 1 + j by omega] at this) m1 q1
      (by have := p1.length_le; omega)
    refine ⟨max d1 d2, b1 ++ b2, m2, ?_, p1.trans p2, q2⟩
    simp only [writeAll]
    rw [ser_le env inline heap (Nat.le_max_left d1 d2) _ _ _ _ _ e1]
    simp only
    rw [writeAll_mono (fun i v m r => ser_le env inline heap (Nat.le_max_right d1 d2) _ _ _ _ _) vs (i + 1) m1 _ e2]

theorem serBody_total {env inline heap heapTy dom n} (t : Ty) (vs : List Val) (hf : Fits t vs.length)
    (ht : ∀ i (h : i < vs.length), HasType env heapTy dom t vs[i])
    (h : ∀ i (h : i < vs.length), Writes env inline heap dom n t vs[i]) (m : List Nat) (hm : Memo dom m)
    (hn : dom.length - m.length ≤ n) :
    ∃ d b m', serBody (ser env inline heap d) inline t vs m = .ok (b, m') ∧ m <+: m' ∧ Memo dom m' := by
  obtain ⟨d, b, m', e, p, q⟩ := writeAll_total (fun _ => t) (fun _ => 0) vs 0 h m hm hn
  have helts : ∃ b, serElts (ser env inline heap d) t vs m = .ok (b, m') := ⟨_, by unfold serElts; rw [e]; rfl⟩
  unfold serBody
  split
  · split
    · rename_i s hs
      obtain ⟨b', hb'⟩ := serPlain_total t s hs vs hf
        (fun v hv => by obtain ⟨i, hi, rfl⟩ := List.getElem_of_mem hv; exact ht i hi) m
      exact ⟨0, b', m, hb', List.prefix_refl _, hm⟩
    · exact ⟨d, helts.choose, m', helts.choose_spec, p, q⟩
  · exact ⟨d, helts.choose, m', helts.choose_spec, p, q⟩

theorem serObject_total {dom : List Nat} {fld a : Nat} {m : List Nat} (hm : Memo dom m) (hd : a ∈ dom) (hdl : dom.length ≤ 2 ^ 31)
    (body : Nat → List Nat → Except Err (Bytes × List Nat))
    (h : a ∉ m → ∃ d b m', body d (m ++ [a]) = .ok (b, m') ∧ (m ++ [a]) <+: m' ∧ Memo dom m') :
    ∃ d b m', serObject fld a m (body d) = .ok (b, m') ∧ m <+: m' ∧ Memo dom m' := by
  unfold serObject
  by_cases ha : a ∈ m
  · exact ⟨0, _, m, if_pos ha, List.prefix_refl _, hm⟩
  · obtain ⟨d, b, m', e, p, q⟩ := h ha
    have := (hm.add ha hd).le
    rw [List.length_append, List.length_singleton] at this
    refine ⟨d, (writeBeginCompound fld ++ writeVarintObject 0 m.length) ++ b ++ writeEndCompound, m', ?_,
      (List.prefix_append _ _).trans p, q⟩
    rw [if_neg ha, if_pos (by omega), e]
    rfl

theorem writes_all {env inline heap heapTy dom} (hh : HeapOk env heapTy dom heap) (hdl : dom.length ≤ 2 ^ 31) :
    ∀ n t v, HasType env heapTy dom t v → Writes env inline heap dom n t v := by
  intro n
  induction n using Nat.strongRecOn with
  | _ n ihn =>
  intro t v h
  induction h with
  | @reg r v hr => exact fun fld m hm _ => ⟨1, _, m, if_pos ((inRange_iff r v).2 hr), List.prefix_refl _, hm⟩
  | unit => exact fun fld m hm _ => ⟨1, _, m, rfl, List.prefix_refl _, hm⟩
  | @bytes b hl _ => exact fun fld m hm _ => ⟨1, _, m, if_pos hl, List.prefix_refl _, hm⟩
  | @str s hp hl =>
    intro fld m hm _
    refine ⟨1, (Wire.writeVarint (Wire.header fld 4) ++ Wire.writeVarint (s.flatMap Str.Spec.utf8).length ++
      s.flatMap Str.Spec.utf8), m, ?_, List.prefix_refl _, hm⟩
    simp only [ser, serStep]
    rw [if_pos (by rw [Bool.and_eq_true, List.all_eq_true]; exact ⟨fun c hc => by simpa using hp c hc, by simpa using hl⟩),
      Str.serialize_bytes _ _ (Str.normal_valid (Str.normal_python s hp)), Str.text_python]
  | @tuple ts vs hl hs _ ih =>
    intro fld m hm hn
    obtain ⟨d, b, m', e, p, q⟩ := writeAll_total (fun i => ts.getD i .unit) (fun i => i) vs 0
      (fun j hj => by
        have := ih j (by omega) hj
        rw [Nat.zero_add, List.getD_eq_getElem?_getD, List.getElem?_eq_getElem (by omega)]
        exact this) m hm hn
    by_cases h0 : ts.length = 0
    · refine ⟨1, writeEmpty fld, m, ?_, List.prefix_refl _, hm⟩
      simp only [ser, serStep]
      rw [if_pos ⟨hl, hs⟩, if_pos h0]
    · by_cases h1 : ts.length = 1
      · refine ⟨d + 1, writeBeginSingle fld ++ b ++ [], m', ?_, p, q⟩
        simp only [ser, serStep]
        rw [if_pos ⟨hl, hs⟩, if_neg h0, if_pos h1, e]
        rfl
      · refine ⟨d + 1, writeBeginCompound fld ++ b ++ writeEndCompound, m', ?_, p, q⟩
        simp only [ser, serStep]
        rw [if_pos ⟨hl, hs⟩, if_neg h0, if_neg h1, e]
        rfl
  | @oneOf ts i v hi h8 _ ih =>
    intro fld m hm hn
    obtain ⟨d, b, m', e, p, q⟩ := ih i m hm hn
    refine ⟨d + 1, writeBeginSingle fld ++ b ++ [], m', ?_, p, q⟩
    simp only [ser, serStep, List.getElem?_eq_getElem hi]
    rw [if_pos h8, e]
    rfl
  | @alt ts i v hi h8 _ ih =>
    intro fld m hm hn
    obtain ⟨d, b, m', e, p, q⟩ := ih i m hm hn
    refine ⟨d + 1, writeBeginSingle fld ++ b ++ [], m', ?_, p, q⟩
    simp only [ser, serStep, List.getElem?_eq_getElem hi]
    rw [if_pos h8, e]
    rfl
  | @tupleOf t vs hl hf ht ih =>
    intro fld m hm hn
    by_cases h0 : vs.length = 0
    · refine ⟨1, writeEmpty fld, m, ?_, List.prefix_refl _, hm⟩
      simp only [ser, serStep]
      rw [if_pos hl, if_pos h0]
    · obtain ⟨d, b, m', e, p, q⟩ := serBody_total t vs hf ht ih m hm hn
      refine ⟨d + 1, writeBeginCompound fld ++ b ++ writeEndCompound, m', ?_, p, q⟩
      simp only [ser, serStep]
      rw [if_pos hl, if_neg h0, e]
      rfl
  | @constDict k w vs hl h2 _ ih =>
    intro fld m hm hn
    obtain ⟨d, b, m', e, p, q⟩ := writeAll_total (kv k w) (fun _ => 0) vs 0
      (fun j hj => by rw [Nat.zero_add]; exact ih j hj) m hm hn
    refine ⟨d + 1, (writeBeginCompound fld ++ writeVarintObject 0 (vs.length / 2)) ++ b ++ writeEndCompound, m', ?_, p, q⟩
    simp only [ser, serStep]
    rw [if_pos ⟨hl, h2⟩, e]
    rfl
  | @ref t a he hd ht =>
    intro fld m hm hn
    have hless : a ∉ m → dom.length - (m ++ [a]).length < n := by
      intro ha
      have := (hm.add ha hd).le
      rw [List.length_append, List.length_singleton] at this ⊢
      omega
    have hsm := hh.small a hd
    have hel : ∀ e, eltAt t = some e → ∀ i (h : i < (heap a).length), HasType env heapTy dom (e i) (heap a)[i] := by
      intro e hee; exact hh.elts a hd e (by rw [ht]; exact hee)
    cases t with
    | listOf t =>
      obtain ⟨d, b, m', e, p, q⟩ := serObject_total (fld := fld) hm hd hdl
        (fun d => serBody (ser env inline heap d) inline t (heap a)) (fun ha =>
          serBody_total t (heap a) (hh.room a hd t ht) (hel _ rfl)
            (fun i hi => ihn _ (hless ha) t _ (hel _ rfl i hi)) (m ++ [a]) (hm.add ha hd) (Nat.le_refl _))
      refine ⟨d + 1, b, m', ?_, p, q⟩
      simp only [ser, serStep]
      rw [if_pos hsm, e]
    | dict k w =>
      obtain ⟨d, b, m', e, p, q⟩ := serObject_total (fld := fld) hm hd hdl
        (fun d m1 => wrap (writeVarintObject 0 ((heap a).length / 2)) []
          (writeAll (fun i => ser env inline heap d (kv k w i) 0) 0 (heap a) m1)) (fun ha => by
          obtain ⟨d, b, m', e, p, q⟩ := writeAll_total (kv k w) (fun _ => 0) (heap a) 0
            (fun j hj => by rw [Nat.zero_add]; exact ihn _ (hless ha) _ _ (hel _ rfl j hj)) (m ++ [a]) (hm.add ha hd) (Nat.le_refl _)
          exact ⟨d, writeVarintObject 0 ((heap a).length / 2) ++ b ++ [], m', by rw [e]; rfl, p, q⟩)
      refine ⟨d + 1, b, m', ?_, p, q⟩
      simp only [ser, serStep]
      rw [if_pos ⟨hsm, hh.pairs a hd k w ht⟩, e]
    | set k =>
      obtain ⟨d, b, m', e, p, q⟩ := serObject_total (fld := fld) hm hd hdl
        (fun d m1 => wrap (writeVarintObject 0 (heap a).length) []
          (writeAll (fun _ => ser env inline heap d k 0) 0 (heap a) m1)) (fun ha => by
          obtain ⟨d, b, m', e, p, q⟩ := writeAll_total (fun _ => k) (fun _ => 0) (heap a) 0
            (fun j hj => ihn _ (hless ha) _ _ (hel _ rfl j hj)) (m ++ [a]) (hm.add ha hd) (Nat.le_refl _)
          exact ⟨d, writeVarintObject 0 (heap a).length ++ b ++ [], m', by rw [e]; rfl, p, q⟩)
      refine ⟨d + 1, b, m', ?_, p, q⟩
      simp only [ser, serStep]
      rw [if_pos hsm, e]
    | _ => simp [eltAt] at he
  | @named k v _ ih =>
    intro fld m hm hn
    obtain ⟨d, b, m', e, p, q⟩ := ih fld m hm hn
    exact ⟨d + 1, b, m', e, p, q⟩

end Verif.Typed
