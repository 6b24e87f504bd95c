import Verif.TypeGroup.Props
import Verif.TypeGroup.Hash
import Verif.TypeGroup.View
/-
C92.  With a hash without collisions, objects with the same identity hash cannot be told apart by following
their walks to any depth, unless the hash is poison.
-/
namespace Verif.TypeGroup

open HashOps

variable {O O' H : Type} [LinearOrder O] [LinearOrder O'] [LinearOrder H] [HashOps H]
variable {W : World O H} {W' : World O' H}

theorem Ideal.parts {a b : H} (h : add a b ≠ poison) : a ≠ poison ∧ b ≠ poison := by
  constructor
  · rintro rfl; exact h (poison_add _)
  · rintro rfl; exact h (add_poison _)

theorem foldl_add_parts : ∀ {cs : List H} {a : H}, cs.foldl add a ≠ poison → a ≠ poison ∧ ∀ c ∈ cs, c ≠ poison
  | [], a, h => ⟨h, by simp⟩
  | c :: cs, a, h => by
    obtain ⟨h1, h2⟩ := foldl_add_parts (cs := cs) (a := add a c) h
    obtain ⟨h3, h4⟩ := Ideal.parts h1
    refine ⟨h3, fun d hd => ?_⟩
    rcases List.mem_cons.1 hd with rfl | hd
    · exact h4
    · exact h2 d hd

/-- A sum ends with its last element. -/
theorem foldl_add_snoc (l : List H) (c a : H) : (l ++ [c]).foldl add a = add (l.foldl add a) c := by
  rw [List.foldl_append]; rfl

/-- Sums from the same start, which is not a sum, are equal only when their parts are. -/
theorem foldl_add_inj (hi : Ideal H) {a : H} (ha : ∀ x y, add x y ≠ a) : ∀ (n : Nat) {l l' : List H},
    l.length = n → l.foldl add a = l'.foldl add a → l.foldl add a ≠ poison → l = l'
  | 0, l, l', hn, h, hp => by
    have : l = [] := List.length_eq_zero_iff.1 hn
    subst this
    rcases List.eq_nil_or_concat l' with rfl | ⟨m, c, rfl⟩
    · rfl
    · rw [List.concat_eq_append, foldl_add_snoc] at h
      exact absurd h.symm (ha _ _)
  | n + 1, l, l', hn, h, hp => by
    rcases List.eq_nil_or_concat l with rfl | ⟨m, c, rfl⟩
    · simp at hn
    · rw [List.concat_eq_append] at hn h hp ⊢
      rw [foldl_add_snoc] at h hp
      rcases List.eq_nil_or_concat l' with rfl | ⟨m', c', rfl⟩
      · exact absurd h (ha _ _)
      · rw [List.concat_eq_append] at h ⊢
        rw [foldl_add_snoc] at h
        obtain ⟨h1, h2⟩ := hi.add_inj _ _ _ _ h hp
        have := foldl_add_inj hi ha n (l := m) (l' := m') (by simpa using hn) h1 (Ideal.parts hp).1
        rw [this, h2]

/-- The hashes of the objects of a group. -/
theorem groupHash_list {reg : Reg O H} {order : List O} : ∀ {os : List O} {whole h : H},
    groupHash W reg order os whole = .ok h →
    ∃ ts : List H, ts.foldl add whole = h ∧ List.Forall₂ (fun o t => topoHash W reg order o = .ok t) os ts
  | [], whole, h, e => by
    simp only [groupHash, Except.ok.injEq] at e
    exact ⟨[], e, .nil⟩
  | o :: os, whole, h, e => by
    rw [groupHash] at e
    cases ht : topoHash W reg order o with
    | error x => rw [ht] at e; cases e
    | ok t =>
      rw [ht] at e
      obtain ⟨ts, h1, h2⟩ := groupHash_list (os := os) e
      exact ⟨t :: ts, h1, .cons ht h2⟩

/-- What is known of an object whose group has a hash that is not poison. -/
theorem group_hashed {reg : Reg O H} (hr : RegInv W reg) {x : O} {g : Grp O H} (hx : reg x = some g)
    (hp : g.hash ≠ poison) : ∃ ts : List H, ts.foldl add zero = g.hash ∧
      List.Forall₂ (fun o t => topoHash W reg g.members o = .ok t) g.members ts := by
  obtain ⟨S, hg, hS, hb⟩ := hr.built x g hx
  unfold build at hb
  split at hb
  · cases hb
  · rename_i root bad hroot
    split at hb
    · cases hb
    · cases bad with
      | true =>
        simp only [computeHash, if_true, Except.ok.injEq] at hb
        subst hb
        exact absurd rfl hp
      | false =>
        simp only [computeHash, Bool.false_eq_true, if_false] at hb
        cases hh : groupHash W reg (visit W S (S.length + 1) [] root) (visit W S (S.length + 1) [] root) zero with
        | error e => rw [hh] at hb; cases hb
        | ok h =>
          rw [hh] at hb
          simp only [Except.ok.injEq] at hb
          subst hb
          exact groupHash_list hh

/-- Two objects that the hash does not tell apart: the same constants, or registered objects with the same
identity hash, not poison. -/
def SameHash (W : World O H) (reg : Reg O H) (W' : World O' H) (reg' : Reg O' H) (x : O) (y : O') : Prop :=
  (∃ h, W.const x = some h ∧ W'.const y = some h) ∨
  ((∃ g, reg x = some g) ∧ (∃ g', reg' y = some g') ∧ shaHash W reg x = shaHash W' reg' y ∧
    shaHash W reg x ≠ poison)

/-- Records that the hash does not tell apart. -/
inductive SameRec (W : World O H) (W' : World O' H) (R : O → O' → Prop) : Rec O H → Rec O' H → Prop where
  | hash (h : H) : SameRec W W' R (.hash h) (.hash h)
  | str (s : String) : SameRec W W' R (.str s) (.str s)
  | topo {o o'} : R o o' → SameRec W W' R (.topo o) (.topo o')
  | named {n o o'} : R o o' → SameRec W W' R (.named n o) (.named n o')
  | hashConst {h o'} : W'.const o' = some h → SameRec W W' R (.hash h) (.topo o')
  | constHash {h o} : W.const o = some h → SameRec W W' R (.topo o) (.hash h)

/-- Is the record an error? -/
def Rec.isErr : Rec O H → Bool
  | .err _ => true
  | _ => false

section codes

variable {reg : Reg O H} {reg' : Reg O' H} {g : Grp O H} {g' : Grp O' H}

/-- The three forms of the code of an object. -/
theorem topoCode_cases {order : List O} {o : O} {c : H} (h : topoCode W reg order o = .ok c) :
    (∃ k, W.const o = some k ∧ c = add (raw1 1) k) ∨
    (W.const o = none ∧ o ∈ order ∧ c = raw2 3 (order.idxOf o)) ∨
    (W.const o = none ∧ o ∉ order ∧ ∃ g, reg o = some g ∧ c = add (add (raw1 4) g.hash) (raw1 (g.members.idxOf o))) := by
  unfold topoCode at h
  cases hc : W.const o with
  | some k =>
    rw [hc] at h
    simp only [Except.ok.injEq] at h
    exact .inl ⟨k, rfl, h.symm⟩
  | none =>
    rw [hc] at h
    by_cases ho : o ∈ order
    · simp only [ho, if_true, Except.ok.injEq] at h
      exact .inr (.inl ⟨rfl, ho, h.symm⟩)
    · simp only [ho, if_false] at h
      cases hg : reg o with
      | none => rw [hg] at h; cases h
      | some g =>
        rw [hg] at h
        simp only at h
        split at h
        · simp only [Except.ok.injEq] at h
          exact .inr (.inr ⟨rfl, ho, g, rfl, h.symm⟩)
        · cases h

theorem shaHash_of {o : O} (hc : W.const o = none) (hg : reg o = some g) :
    shaHash W reg o = add (add (raw1 2) g.hash) (raw1 (g.members.idxOf o)) := by
  unfold shaHash; rw [hc, hg]

theorem topoCode_same (hi : Ideal H) (hr : RegInv W reg) (hr' : RegInv W' reg') {x : O} {y : O'}
    (hx : reg x = some g) (hy : reg' y = some g') (hh : g.hash = g'.hash) (hp : g.hash ≠ poison)
    {o : O} {o' : O'} {c : H} (hc : c ≠ poison) (h : topoCode W reg g.members o = .ok c)
    (h' : topoCode W' reg' g'.members o' = .ok c) : SameHash W reg W' reg' o o' := by
  have key : ∀ (k : H), k ≠ poison → ∀ n : Nat, add (add (raw1 2) k) (raw1 n) ≠ poison := fun k hk n =>
    hi.add_ne_poison _ _ (hi.add_ne_poison _ _ (hi.raw1_ne_poison _) hk) (hi.raw1_ne_poison _)
  rcases topoCode_cases h with ⟨k, h1, e1⟩ | ⟨h1, hm, e1⟩ | ⟨h1, _, a, ha, e1⟩ <;>
  rcases topoCode_cases h' with ⟨k', h2, e2⟩ | ⟨h2, hm', e2⟩ | ⟨h2, _, a', ha', e2⟩
  · rw [e1] at e2
    rw [e1] at hc
    obtain ⟨_, rfl⟩ := hi.add_inj _ _ _ _ e2 hc
    exact .inl ⟨k, h1, h2⟩
  · rw [e1] at e2; exact absurd e2 (hi.add_raw2_ne _ _ _ _)
  · rw [e1] at e2
    rw [e1] at hc
    exact absurd (hi.add_inj _ _ _ _ e2 hc).1.symm (hi.add_raw1_ne _ _ _)
  · rw [e1] at e2; exact absurd e2.symm (hi.add_raw2_ne _ _ _ _)
  · rw [e1] at e2
    have hi2 := (hi.raw2_inj _ _ _ _ e2).2
    have hgo := hr.all x g hx o hm
    have hgo' := hr'.all y g' hy o' hm'
    refine .inr ⟨⟨g, hgo⟩, ⟨g', hgo'⟩, ?_, ?_⟩
    · rw [shaHash_of h1 hgo, shaHash_of h2 hgo', hh, hi2]
    · rw [shaHash_of h1 hgo]; exact key _ hp _
  · rw [e1] at e2; exact absurd e2.symm (hi.add_raw2_ne _ _ _ _)
  · rw [e1] at e2
    rw [e1] at hc
    exact absurd (hi.add_inj _ _ _ _ e2 hc).1 (hi.add_raw1_ne _ _ _)
  · rw [e1] at e2; exact absurd e2 (hi.add_raw2_ne _ _ _ _)
  · rw [e1] at e2
    rw [e1] at hc
    obtain ⟨e3, e4⟩ := hi.add_inj _ _ _ _ e2 hc
    have hq := Ideal.parts hc
    obtain ⟨_, e5⟩ := hi.add_inj _ _ _ _ e3 hq.1
    refine .inr ⟨⟨a, ha⟩, ⟨a', ha'⟩, ?_, ?_⟩
    · rw [shaHash_of h1 ha, shaHash_of h2 ha', e5, hi.raw1_inj _ _ e4]
    · rw [shaHash_of h1 ha]; exact key _ (Ideal.parts hq.1).2 _

/-- The codes of a walk do not depend on its errors. -/
theorem walkCodes_drop {order : List O} : ∀ rs : List (Rec O H),
    walkCodes W reg order rs = walkCodes W reg order (rs.filter (fun r => !r.isErr))
  | [] => rfl
  | r :: rs => by
    cases r with
    | err e =>
      rw [List.filter_cons_of_neg (by simp [Rec.isErr]), ← walkCodes_drop rs]
      simp only [walkCodes, recCodes, List.nil_append]
      cases walkCodes W reg order rs <;> rfl
    | hash k => rw [List.filter_cons_of_pos (by simp [Rec.isErr])]; simp only [walkCodes]; rw [← walkCodes_drop rs]
    | str k => rw [List.filter_cons_of_pos (by simp [Rec.isErr])]; simp only [walkCodes]; rw [← walkCodes_drop rs]
    | topo k => rw [List.filter_cons_of_pos (by simp [Rec.isErr])]; simp only [walkCodes]; rw [← walkCodes_drop rs]
    | named n k =>
      rw [List.filter_cons_of_pos (by simp [Rec.isErr])]; simp only [walkCodes]; rw [← walkCodes_drop rs]

theorem walkCodes_cons {order : List O} {r : Rec O H} {rs : List (Rec O H)} {cs : List H}
    (h : walkCodes W reg order (r :: rs) = .ok cs) :
    ∃ a b, recCodes W reg order r = .ok a ∧ walkCodes W reg order rs = .ok b ∧ cs = a ++ b := by
  rw [walkCodes] at h
  cases ha : recCodes W reg order r with
  | error e => rw [ha] at h; cases h
  | ok a =>
    cases hb : walkCodes W reg order rs with
    | error e => rw [ha, hb] at h; cases h
    | ok b =>
      rw [ha, hb] at h
      simp only [Except.ok.injEq] at h
      exact ⟨a, b, rfl, rfl, h.symm⟩

/-- The codes of a record that is not an error: one code, and before it the one of the name. -/
theorem recCodes_cases {order : List O} {r : Rec O H} {a : List H} (h : recCodes W reg order r = .ok a)
    (hr : r.isErr = false) :
    (∃ k, r = .hash k ∧ a = [add (raw1 1) k]) ∨ (∃ s, r = .str s ∧ a = [add (raw1 2) (sha s)]) ∨
    (∃ o c, r = .topo o ∧ topoCode W reg order o = .ok c ∧ a = [c]) ∨
    (∃ n o c, r = .named n o ∧ topoCode W reg order o = .ok c ∧ a = [add (raw1 5) (sha n), c]) := by
  cases r with
  | hash k => simp only [recCodes, Except.ok.injEq] at h; exact .inl ⟨k, rfl, h.symm⟩
  | str s => simp only [recCodes, Except.ok.injEq] at h; exact .inr (.inl ⟨s, rfl, h.symm⟩)
  | topo o =>
    rw [recCodes] at h
    cases ht : topoCode W reg order o with
    | error e => rw [ht] at h; cases h
    | ok c =>
      rw [ht] at h
      simp only [Except.map, Except.ok.injEq] at h
      exact .inr (.inr (.inl ⟨o, c, rfl, ht, h.symm⟩))
  | named n o =>
    rw [recCodes] at h
    cases ht : topoCode W reg order o with
    | error e => rw [ht] at h; cases h
    | ok c =>
      rw [ht] at h
      simp only [Except.map, Except.ok.injEq] at h
      exact .inr (.inr (.inr ⟨n, o, c, rfl, ht, h.symm⟩))
  | err e => cases hr

/-- The code of an object is not the one of a text or of a name; it is the one of a hash only for a
constant. -/
theorem topoCode_tag (hi : Ideal H) {order : List O} {o : O} {c k : H} {n : Nat} (hc : c ≠ poison)
    (h : topoCode W reg order o = .ok c) (e : c = add (raw1 n) k) : n = 1 ∧ W.const o = some k := by
  rcases topoCode_cases h with ⟨k', h1, e1⟩ | ⟨_, _, e1⟩ | ⟨_, _, a, _, e1⟩
  · rw [e1] at e hc
    obtain ⟨e2, rfl⟩ := hi.add_inj _ _ _ _ e hc
    exact ⟨(hi.raw1_inj _ _ e2).symm, h1⟩
  · rw [e1] at e; exact absurd e.symm (hi.add_raw2_ne _ _ _ _)
  · rw [e1] at e hc
    exact absurd (hi.add_inj _ _ _ _ e hc).1 (hi.add_raw1_ne _ _ _)

/-- Walks with the same codes are the same record by record. -/
theorem walkCodes_same (hi : Ideal H) (hr : RegInv W reg) (hr' : RegInv W' reg') {x : O} {y : O'}
    (hx : reg x = some g) (hy : reg' y = some g') (hh : g.hash = g'.hash) (hp : g.hash ≠ poison) :
    ∀ {rs : List (Rec O H)} {rs' : List (Rec O' H)} {cs : List H}, (∀ r ∈ rs, r.isErr = false) →
      (∀ r ∈ rs', r.isErr = false) → (∀ c ∈ cs, c ≠ poison) → walkCodes W reg g.members rs = .ok cs →
      walkCodes W' reg' g'.members rs' = .ok cs →
      List.Forall₂ (SameRec W W' (SameHash W reg W' reg')) rs rs'
  | [], [], _, _, _, _, _, _ => .nil
  | [], r' :: rs', cs, _, he', _, h, h' => by
    simp only [walkCodes, Except.ok.injEq] at h
    subst h
    obtain ⟨a, b, h1, h2, h3⟩ := walkCodes_cons h'
    have ha : a = [] := (List.append_eq_nil_iff.1 h3.symm).1
    rcases recCodes_cases h1 (he' r' (by simp)) with ⟨_, _, e⟩ | ⟨_, _, e⟩ | ⟨_, _, _, _, e⟩ | ⟨_, _, _, _, _, e⟩ <;>
      rw [ha] at e <;> cases e
  | r :: rs, [], cs, he, _, _, h, h' => by
    simp only [walkCodes, Except.ok.injEq] at h'
    subst h'
    obtain ⟨a, b, h1, h2, h3⟩ := walkCodes_cons h
    have ha : a = [] := (List.append_eq_nil_iff.1 h3.symm).1
    rcases recCodes_cases h1 (he r (by simp)) with ⟨_, _, e⟩ | ⟨_, _, e⟩ | ⟨_, _, _, _, e⟩ | ⟨_, _, _, _, _, e⟩ <;>
      rw [ha] at e <;> cases e
  | r :: rs, r' :: rs', cs, he, he', hc, h, h' => by
    obtain ⟨a, b, h1, h2, h3⟩ := walkCodes_cons h
    obtain ⟨a', b', h1', h2', h3'⟩ := walkCodes_cons h'
    have hrest : b = b' → List.Forall₂ (SameRec W W' (SameHash W reg W' reg')) rs rs' := by
      rintro rfl
      exact walkCodes_same hi hr hr' hx hy hh hp (fun r hr => he r (by simp [hr])) (fun r hr => he' r (by simp [hr]))
        (fun c hcb => hc c (by rw [h3]; simp [hcb])) h2 h2'
    have hca : ∀ c ∈ a, c ≠ poison := fun c h => hc c (by rw [h3]; simp [h])
    have hca' : ∀ c ∈ a', c ≠ poison := fun c h => hc c (by rw [h3']; simp [h])
    have happ : a ++ b = a' ++ b' := h3.symm.trans h3'
    rcases recCodes_cases h1 (he r (by simp)) with ⟨k, rfl, e⟩ | ⟨s, rfl, e⟩ | ⟨o, c, rfl, ho, e⟩ | ⟨n, o, c, rfl, ho, e⟩ <;>
    rcases recCodes_cases h1' (he' r' (by simp)) with ⟨k', rfl, e'⟩ | ⟨s', rfl, e'⟩ | ⟨o', c', rfl, ho', e'⟩ | ⟨n', o', c', rfl, ho', e'⟩ <;>
    subst e <;> subst e' <;> simp only [List.cons_append, List.nil_append, List.cons.injEq] at happ <;>
    simp only [List.mem_cons, List.not_mem_nil, or_false, forall_eq, forall_eq_or_imp] at hca hca'
    · obtain ⟨_, rfl⟩ := hi.add_inj _ _ _ _ happ.1 hca
      exact .cons (.hash k) (hrest happ.2)
    · have := hi.raw1_inj _ _ (hi.add_inj _ _ _ _ happ.1 hca).1; omega
    · exact .cons (.hashConst (topoCode_tag hi hca' ho' happ.1.symm).2) (hrest happ.2)
    · have := hi.raw1_inj _ _ (hi.add_inj _ _ _ _ happ.1 hca).1; omega
    · have := hi.raw1_inj _ _ (hi.add_inj _ _ _ _ happ.1 hca).1; omega
    · have e := (hi.add_inj _ _ _ _ happ.1 hca).2
      have e := hi.sha_inj _ _ e
      subst e
      exact .cons (.str s) (hrest happ.2)
    · have := (topoCode_tag hi hca' ho' happ.1.symm).1; omega
    · have := hi.raw1_inj _ _ (hi.add_inj _ _ _ _ happ.1 hca).1; omega
    · exact .cons (.constHash (topoCode_tag hi hca ho happ.1).2) (hrest happ.2)
    · have := (topoCode_tag hi hca ho happ.1).1; omega
    · obtain ⟨rfl, e⟩ := happ
      exact .cons (.topo (topoCode_same hi hr hr' hx hy hh hp hca ho ho')) (hrest e)
    · have := (topoCode_tag hi hca ho happ.1).1; omega
    · have := hi.raw1_inj _ _ (hi.add_inj _ _ _ _ happ.1 hca.1).1; omega
    · have := hi.raw1_inj _ _ (hi.add_inj _ _ _ _ happ.1 hca.1).1; omega
    · have := (topoCode_tag hi hca' ho' happ.1.symm).1; omega
    · have e := (hi.add_inj _ _ _ _ happ.1 hca.1).2
      have e := hi.sha_inj _ _ e
      subst e
      obtain ⟨_, rfl, e⟩ := happ
      exact .cons (.named (topoCode_same hi hr hr' hx hy hh hp hca.2 ho ho')) (hrest e)

/-- The start of the hash of an object as a list of summands. -/
def startParts (W : World O H) (n : Nat) (o : O) : List H :=
  match W.type o with
  | some (cat, name) => if n ≠ 1 then [raw2 1 cat, sha name] else [raw2 1 cat]
  | none => [raw1 2]

theorem topoStart_parts (order : List O) (o : O) :
    topoStart W order o = (startParts W order.length o).foldl add zero := by
  unfold topoStart startParts
  cases W.type o with
  | none => rfl
  | some p =>
    simp only
    split <;> rfl

end codes

/-- One level: what two registered objects with the same identity hash, not poison, have in common. -/
theorem sameHash_step (hi : Ideal H) {reg : Reg O H} {reg' : Reg O' H} (hr : RegInv W reg)
    (hr' : RegInv W' reg') {x : O} {y : O'} {g : Grp O H} {g' : Grp O' H} (hx : reg x = some g)
    (hy : reg' y = some g') (h : shaHash W reg x = shaHash W' reg' y) (hp : shaHash W reg x ≠ poison) :
    g.members.length = g'.members.length ∧ (W.type x).map Prod.fst = (W'.type y).map Prod.fst ∧
    (g.members.length ≠ 1 → W.type x = W'.type y) ∧
    List.Forall₂ (SameRec W W' (SameHash W reg W' reg')) ((W.walk x).filter (fun r => !r.isErr))
      ((W'.walk y).filter (fun r => !r.isErr)) := by
  rw [shaHash_of (hr.nonconst x g hx) hx] at h hp
  rw [shaHash_of (hr'.nonconst y g' hy) hy] at h
  obtain ⟨e1, e2⟩ := hi.add_inj _ _ _ _ h hp
  obtain ⟨_, hh⟩ := hi.add_inj _ _ _ _ e1 (Ideal.parts hp).1
  have hidx := hi.raw1_inj _ _ e2
  have hgp := (Ideal.parts (Ideal.parts hp).1).2
  obtain ⟨ts, t1, t2⟩ := group_hashed hr hx hgp
  obtain ⟨ts', t1', t2'⟩ := group_hashed hr' hy (hh ▸ hgp)
  have hts : ts = ts' := foldl_add_inj hi (fun a b => hi.add_zero_ne a b) ts.length rfl
    (by rw [t1, t1', hh]) (by rw [t1]; exact hgp)
  subst hts
  have hlen : g.members.length = g'.members.length := t2.length_eq.trans t2'.length_eq.symm
  refine ⟨hlen, ?_⟩
  have hxm := hr.self x g hx
  have hym := hr'.self y g' hy
  have hlt : g.members.idxOf x < g.members.length := List.idxOf_lt_length_iff.2 hxm
  have hlt' : g'.members.idxOf y < g'.members.length := List.idxOf_lt_length_iff.2 hym
  have hltt : g.members.idxOf x < ts.length := by rw [← t2.length_eq]; exact hlt
  have ht := (List.forall₂_iff_get.1 t2).2 (g.members.idxOf x) hlt hltt
  have ht' := (List.forall₂_iff_get.1 t2').2 (g'.members.idxOf y) hlt' (by rw [← t2'.length_eq]; exact hlt')
  simp only [List.get_eq_getElem, List.getElem_idxOf] at ht ht'
  have hte : ts[g.members.idxOf x]'hltt = ts[g'.members.idxOf y]'(by rw [← t2'.length_eq]; exact hlt') := by
    congr 1
  have htp : ts[g.members.idxOf x]'hltt ≠ poison :=
    (foldl_add_parts (by rw [t1]; exact hgp)).2 _ (List.getElem_mem _)
  rw [← hte] at ht'
  generalize ts[g.members.idxOf x]'hltt = t at ht ht' htp
  unfold topoHash at ht ht'
  cases hc : walkCodes W reg g.members (W.walk x) with
  | error e => rw [hc] at ht; cases ht
  | ok cs =>
    cases hc' : walkCodes W' reg' g'.members (W'.walk y) with
    | error e => rw [hc'] at ht'; cases ht'
    | ok cs' =>
      rw [hc] at ht
      rw [hc'] at ht'
      simp only [Except.map, Except.ok.injEq, topoStart_parts] at ht ht'
      rw [← List.foldl_append] at ht ht'
      have hall := foldl_add_inj hi (fun a b => hi.add_zero_ne a b) _ rfl (ht.trans ht'.symm) (by rw [ht]; exact htp)
      have hcp : ∀ c ∈ startParts W g.members.length x ++ cs, c ≠ poison :=
        (foldl_add_parts (by rw [ht]; exact htp)).2
      rw [hlen] at hall
      have fin : cs = cs' → List.Forall₂ (SameRec W W' (SameHash W reg W' reg'))
          ((W.walk x).filter (fun r => !r.isErr)) ((W'.walk y).filter (fun r => !r.isErr)) := by
        rintro rfl
        rw [walkCodes_drop] at hc hc'
        exact walkCodes_same hi hr hr' hx hy hh hgp (fun r hr => by simpa using (List.mem_filter.1 hr).2)
          (fun r hr => by simpa using (List.mem_filter.1 hr).2) (fun c h => hcp c (by simp [h])) hc hc'
      unfold startParts at hall
      cases hT : W.type x with
      | none =>
        cases hT' : W'.type y with
        | none =>
          rw [hT, hT'] at hall
          simp only [List.cons_append, List.nil_append, List.cons.injEq, true_and] at hall
          exact ⟨rfl, fun _ => rfl, fin hall⟩
        | some p =>
          rw [hT, hT'] at hall
          simp only at hall
          split at hall <;> simp only [List.cons_append, List.nil_append, List.cons.injEq] at hall <;>
            (have := hi.raw1_raw2 _ _ _ hall.1; omega)
      | some q =>
        cases hT' : W'.type y with
        | none =>
          rw [hT, hT'] at hall
          simp only at hall
          split at hall <;> simp only [List.cons_append, List.nil_append, List.cons.injEq] at hall <;>
            (have := hi.raw1_raw2 _ _ _ hall.1.symm; omega)
        | some p =>
          rw [hT, hT'] at hall
          simp only at hall
          split at hall
          · simp only [List.cons_append, List.nil_append, List.cons.injEq] at hall
            have e1 := (hi.raw2_inj _ _ _ _ hall.1).2
            have e2 := hi.sha_inj _ _ hall.2.1
            exact ⟨by simp [e1], fun _ => by rw [Prod.ext e1 e2], fin hall.2.2⟩
          · rename_i h1
            simp only [List.cons_append, List.nil_append, List.cons.injEq] at hall
            have e1 := (hi.raw2_inj _ _ _ _ hall.1).2
            exact ⟨by simp [e1], fun h => absurd (hlen ▸ h) h1, fin hall.2⟩

theorem filterMap_drop (sub : O → View H) (rs : List (Rec O H)) :
    rs.filterMap (recView sub) = (rs.filter (fun r => !r.isErr)).filterMap (recView sub) := by
  induction rs with
  | nil => rfl
  | cons r rs ih =>
    cases r with
    | err e => rw [List.filter_cons_of_neg (by simp [Rec.isErr]), List.filterMap_cons_none rfl, ih]
    | hash k => rw [List.filter_cons_of_pos (by simp [Rec.isErr]), List.filterMap_cons, List.filterMap_cons, ih]
    | str k => rw [List.filter_cons_of_pos (by simp [Rec.isErr]), List.filterMap_cons, List.filterMap_cons, ih]
    | topo k => rw [List.filter_cons_of_pos (by simp [Rec.isErr]), List.filterMap_cons, List.filterMap_cons, ih]
    | named n k =>
      rw [List.filter_cons_of_pos (by simp [Rec.isErr]), List.filterMap_cons, List.filterMap_cons, ih]

omit [LinearOrder O] [LinearOrder H] [HashOps H] in
theorem view_const {o : O} {h : H} (hc : W.const o = some h) (n : Nat) : view W n o = .hash h := by
  cases n <;> simp [view, hc]

omit [LinearOrder O] [LinearOrder H] [HashOps H] in
theorem view_zero {o : O} (hc : W.const o = none) : view W 0 o = .cut := by simp [view, hc]

omit [LinearOrder O] [LinearOrder H] [HashOps H] in
theorem view_succ {o : O} (hc : W.const o = none) (n : Nat) : view W (n + 1) o
    = .object ((W.type o).map Prod.fst) ((W.walk o).filterMap (recView (view W n))) := by simp [view, hc]

theorem sameHash_view (hi : Ideal H) {reg : Reg O H} {reg' : Reg O' H} (hr : RegInv W reg)
    (hr' : RegInv W' reg') : ∀ (n : Nat) {x : O} {y : O'}, SameHash W reg W' reg' x y →
      view W n x = view W' n y
  | n, x, y, .inl ⟨h, h1, h2⟩ => by
    rw [view_const h1, view_const h2]
  | 0, x, y, .inr ⟨⟨g, hx⟩, ⟨g', hy⟩, _, _⟩ => by
    rw [view_zero (hr.nonconst x g hx), view_zero (hr'.nonconst y g' hy)]
  | n + 1, x, y, .inr ⟨⟨g, hx⟩, ⟨g', hy⟩, h, hp⟩ => by
    obtain ⟨_, e1, _, e2⟩ := sameHash_step hi hr hr' hx hy h hp
    rw [view_succ (hr.nonconst x g hx), view_succ (hr'.nonconst y g' hy), e1]
    congr 1
    rw [filterMap_drop, filterMap_drop _ (W'.walk y)]
    generalize (W.walk x).filter (fun r => !r.isErr) = l at e2
    generalize (W'.walk y).filter (fun r => !r.isErr) = l' at e2
    induction e2 with
    | nil => rfl
    | @cons r r' rs rs' hrr _ ih =>
      have : recView (view W n) r = recView (view W' n) r' := by
        cases hrr with
        | hash k => rfl
        | str s => rfl
        | topo ho => simp only [recView, sameHash_view hi hr hr' n ho]
        | named ho => simp only [recView, sameHash_view hi hr hr' n ho]
        | hashConst hc => simp only [recView]; rw [view_const hc]
        | constHash hc => simp only [recView]; rw [view_const hc]
      rw [List.filterMap_cons, List.filterMap_cons, this, ih]

/-! ### The statements -/

/-- Two registered objects, in the same process or in two, with the same identity hash: whatever depth
walks are followed to, they look the same — unless the hash is poison. -/
theorem same_hash_same_view (hi : Ideal H) {s : Sys O H} {s' : Sys O' H} (hs : Reachable W s)
    (hs' : Reachable W' s') {x : O} {y : O'} {g : Grp O H} {g' : Grp O' H} (hx : s.reg x = some g)
    (hy : s'.reg y = some g') (h : shaHash W s.reg x = shaHash W' s'.reg y)
    (hp : shaHash W s.reg x ≠ poison) (depth : Nat) : view W depth x = view W' depth y :=
  sameHash_view hi (reachable_inv hs).reg (reachable_inv hs').reg depth
    (.inr ⟨⟨g, hx⟩, ⟨g', hy⟩, h, hp⟩)

/-- Types that are not alone in their group also have the same name, and the groups have the same size. -/
theorem same_hash_same_name (hi : Ideal H) {s : Sys O H} {s' : Sys O' H} (hs : Reachable W s)
    (hs' : Reachable W' s') {x : O} {y : O'} {g : Grp O H} {g' : Grp O' H} (hx : s.reg x = some g)
    (hy : s'.reg y = some g') (h : shaHash W s.reg x = shaHash W' s'.reg y)
    (hp : shaHash W s.reg x ≠ poison) :
    g.members.length = g'.members.length ∧ (g.members.length ≠ 1 → W.type x = W'.type y) :=
  let r := sameHash_step hi (reachable_inv hs).reg (reachable_inv hs').reg hx hy h hp
  ⟨r.1, r.2.2.1⟩

/-- Two objects of the same group never have the same identity hash, unless it is poison. -/
theorem same_group_different_hash (hi : Ideal H) {s : Sys O H} (hs : Reachable W s) {x y : O} {g : Grp O H}
    (hx : s.reg x = some g) (hy : s.reg y = some g) (hne : x ≠ y) (hp : shaHash W s.reg x ≠ poison) :
    shaHash W s.reg x ≠ shaHash W s.reg y := by
  have hr := (reachable_inv hs).reg
  intro h
  rw [shaHash_of (hr.nonconst x g hx) hx] at h hp
  rw [shaHash_of (hr.nonconst y g hy) hy] at h
  have := hi.raw1_inj _ _ (hi.add_inj _ _ _ _ h hp).2
  exact hne ((List.idxOf_inj (hr.self x g hx)).1 this)

/-- The identity hash of a registered object is poison exactly when the hash of its group is. -/
theorem poison_iff_group (hi : Ideal H) {s : Sys O H} (hs : Reachable W s) {x : O} {g : Grp O H}
    (hx : s.reg x = some g) : shaHash W s.reg x = poison ↔ g.hash = poison := by
  have hr := (reachable_inv hs).reg
  rw [shaHash_of (hr.nonconst x g hx) hx]
  constructor
  · intro h
    by_contra hg
    exact hi.add_ne_poison _ _ (hi.add_ne_poison _ _ (hi.raw1_ne_poison _) hg) (hi.raw1_ne_poison _) h
  · intro h
    rw [h, add_poison, poison_add]

end Verif.TypeGroup
