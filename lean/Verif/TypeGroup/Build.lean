import Verif.TypeGroup.Root
/-
Building a group never raises when its objects form a group of the graph and what they mention is
registered, and only depends on what they mention.
-/
namespace Verif.TypeGroup

open HashOps

variable {O H : Type} [LinearOrder O] [LinearOrder H] [HashOps H]

/-- A complete group of objects that see each other. -/
structure IsGroup (W : World O H) (topos : List O) : Prop where
  nodup : topos.Nodup
  ne : topos ≠ []
  conn : ∀ x ∈ topos, ∀ y ∈ topos, Sees W x y
  full : ∀ x ∈ topos, ∀ y, Together W x y → y ∈ topos
  nonconst : ∀ x ∈ topos, W.const x = none

theorem computeRoot_ok (W : World O H) (reg : Reg O H) {topos : List O} (h : topos ≠ []) :
    ∃ t b, computeRoot W reg topos = .ok (t, b) ∧ t ∈ topos := by
  unfold computeRoot
  cases h1 : single (byKey W.tpName topos).reverse with
  | some t => exact ⟨t, false, rfl, (single_byKey_max h1).mem⟩
  | none =>
    cases h2 : single (byKey W.pyName topos).reverse with
    | some t => exact ⟨t, false, rfl, (single_byKey_max h2).mem⟩
    | none =>
      cases h3 : single (byKey (fun t => some (passes W reg topos t)) topos) with
      | some t => exact ⟨t, false, rfl, (single_byKey_min h3).mem⟩
      | none =>
        obtain ⟨t, ht, e⟩ := anyRoot_byKey (key := passes W reg topos) h
        exact ⟨t, true, e, ht⟩

/-- The registry knows the index of what it registers. -/
def SelfReg (reg : Reg O H) : Prop := ∀ x g, reg x = some g → x ∈ g.members

theorem topoCode_ok {W : World O H} {reg : Reg O H} (hs : SelfReg reg) {order : List O} {o : O}
    (h : o ∈ order ∨ unassigned W reg o = false) : ∃ c, topoCode W reg order o = .ok c := by
  unfold topoCode
  cases hc : W.const o with
  | some k => exact ⟨_, rfl⟩
  | none =>
    by_cases ho : o ∈ order
    · simp only [ho, if_true]; exact ⟨_, rfl⟩
    · simp only [ho, if_false]
      cases hr : reg o with
      | none => simp [unassigned, hc, hr, ho] at h
      | some g => simp only [hs _ _ hr, if_true]; exact ⟨_, rfl⟩

theorem mem_succs {W : World O H} {x o : O} {r : Rec O H} (hr : r ∈ W.walk x) (ho : r.target = some o) :
    o ∈ W.succs x := List.mem_filterMap.2 ⟨r, hr, ho⟩

theorem walkCodes_ok {W : World O H} {reg : Reg O H} (hs : SelfReg reg) {order : List O}
    {rs : List (Rec O H)}
    (h : ∀ r ∈ rs, ∀ o, r.target = some o → o ∈ order ∨ unassigned W reg o = false) :
    ∃ c, walkCodes W reg order rs = .ok c := by
  induction rs with
  | nil => exact ⟨[], rfl⟩
  | cons r rs ih =>
    obtain ⟨b, hb⟩ := ih fun r' hr' => h r' (by simp [hr'])
    have : ∃ a, recCodes W reg order r = .ok a := by
      cases r with
      | hash k => exact ⟨_, rfl⟩
      | str s => exact ⟨_, rfl⟩
      | topo o =>
        obtain ⟨c, hc⟩ := topoCode_ok hs (h (.topo o) (by simp) o rfl)
        exact ⟨_, by rw [recCodes, hc]; rfl⟩
      | named n o =>
        obtain ⟨c, hc⟩ := topoCode_ok hs (h (.named n o) (by simp) o rfl)
        exact ⟨_, by rw [recCodes, hc]; rfl⟩
      | err e => exact ⟨_, rfl⟩
    obtain ⟨a, ha⟩ := this
    exact ⟨a ++ b, by simp only [walkCodes, ha, hb]⟩

theorem groupHash_ok {W : World O H} {reg : Reg O H} (hs : SelfReg reg) {order : List O} :
    ∀ (os : List O) (whole : H),
    (∀ x ∈ os, ∀ y ∈ W.succs x, y ∈ order ∨ unassigned W reg y = false) →
    ∃ h, groupHash W reg order os whole = .ok h
  | [], whole, _ => ⟨whole, rfl⟩
  | o :: os, whole, h => by
    obtain ⟨c, hc⟩ := walkCodes_ok (order := order) hs (rs := W.walk o)
      fun r hr y hy => h o (by simp) y (mem_succs hr hy)
    simp only [groupHash, topoHash, hc, Except.map]
    exact groupHash_ok hs os _ fun x hx => h x (by simp [hx])

/-- A complete group is built, and its objects are the given ones. -/
theorem build_ok {W : World O H} {reg : Reg O H} (hs : SelfReg reg) {topos : List O} (hg : IsGroup W topos)
    (ho : ∀ x ∈ topos, ∀ y ∈ W.succs x, y ∈ topos ∨ unassigned W reg y = false) :
    ∃ g, build W reg topos = .ok g ∧ g.members.Nodup ∧ ∀ x, x ∈ g.members ↔ x ∈ topos := by
  have hne : topos.insertionSort (· ≤ ·) ≠ [] := by
    intro h
    have := List.length_insertionSort (· ≤ ·) topos
    rw [h] at this
    exact hg.ne (List.length_eq_zero_iff.1 this.symm)
  obtain ⟨t, b, e, ht⟩ := computeRoot_ok W reg hne
  have ht' : t ∈ topos := (List.mem_insertionSort (· ≤ ·)).1 ht
  obtain ⟨v1, v2⟩ := visit_all ht' hg.full hg.conn
  have hl := visit_length ht' hg.nodup hg.full hg.conn
  have : ∃ h, computeHash W reg (visit W topos (topos.length + 1) [] t) b = .ok h := by
    unfold computeHash
    cases b with
    | true => exact ⟨_, rfl⟩
    | false =>
      apply groupHash_ok hs
      intro x hx y hy
      rw [v2]
      exact ho x ((v2 x).1 hx) y hy
  obtain ⟨h, hh⟩ := this
  refine ⟨⟨visit W topos (topos.length + 1) [] t, h⟩, ?_, v1, v2⟩
  unfold build
  rw [e]
  simp only [hl, ne_eq, not_true_eq_false, if_false, hh]

/-! ### Only the hashes of the objects mentioned matter -/

theorem byKey_congr {K : Type} [LinearOrder K] {key key' : O → Option K} {S : List O}
    (h : ∀ x ∈ S, key x = key' x) : byKey key S = byKey key' S := by
  unfold byKey
  generalize ([] : List (K × List O)) = m
  induction S generalizing m with
  | nil => rfl
  | cons s S ih =>
    simp only [List.foldl_cons, h s (by simp)]
    exact ih (fun x hx => h x (by simp [hx])) _

theorem pass_congr {W : World O H} {reg reg2 : Reg O H} {topos : List O} {cur cur2 : O → H} {t : O}
    (hc : ∀ y ∈ topos, cur y = cur2 y)
    (h : ∀ y ∈ W.succs t, y ∉ topos → reg y = reg2 y) :
    pass W reg topos cur t = pass W reg2 topos cur2 t := by
  have hone : ∀ y, y ∈ W.succs t → (if y ∈ topos then cur y else shaHash W reg y)
      = (if y ∈ topos then cur2 y else shaHash W reg2 y) := by
    intro y hy
    by_cases ht : y ∈ topos
    · simp only [ht, if_true, hc y ht]
    · simp only [ht, if_false, shaHash, h y hy ht]
  have : ∀ (rs : List (Rec O H)) (a : H), (∀ r ∈ rs, ∀ o, r.target = some o → o ∈ W.succs t) →
      rs.foldl (passRec W reg topos cur) a = rs.foldl (passRec W reg2 topos cur2) a := by
    intro rs
    induction rs with
    | nil => intros; rfl
    | cons r rs ih =>
      intro a hr
      simp only [List.foldl_cons]
      have e : passRec W reg topos cur a r = passRec W reg2 topos cur2 a r := by
        cases r with
        | hash k => rfl
        | str s => rfl
        | err e => rfl
        | topo o => rw [passRec, passRec, hone o (hr (.topo o) (by simp) o rfl)]
        | named n o => rw [passRec, passRec, hone o (hr (.named n o) (by simp) o rfl)]
      rw [e]
      exact ih _ fun r' hr' => hr r' (by simp [hr'])
  exact this _ _ fun r hr o ho => mem_succs hr ho

theorem passes_congr {W : World O H} {reg reg2 : Reg O H} {topos : List O}
    (h : ∀ x ∈ topos, ∀ y ∈ W.succs x, y ∉ topos → reg y = reg2 y) {t : O} (ht : t ∈ topos) :
    passes W reg topos t = passes W reg2 topos t := by
  unfold passes
  apply pass_congr
  · intro y hy
    exact pass_congr (fun _ _ => rfl) (h y hy)
  · exact h t ht

theorem computeRoot_congr {W : World O H} {reg reg2 : Reg O H} {topos : List O}
    (h : ∀ x ∈ topos, ∀ y ∈ W.succs x, y ∉ topos → reg y = reg2 y) :
    computeRoot W reg topos = computeRoot W reg2 topos := by
  unfold computeRoot
  rw [byKey_congr (key := fun t => some (passes W reg topos t)) (key' := fun t => some (passes W reg2 topos t))
    (S := topos) fun x hx => by rw [passes_congr h hx]]

theorem walkCodes_congr {W : World O H} {reg reg2 : Reg O H} {order : List O} {rs : List (Rec O H)}
    (h : ∀ r ∈ rs, ∀ o, r.target = some o → o ∉ order → reg o = reg2 o) :
    walkCodes W reg order rs = walkCodes W reg2 order rs := by
  induction rs with
  | nil => rfl
  | cons r rs ih =>
    have ht : ∀ o, r.target = some o → topoCode W reg order o = topoCode W reg2 order o := by
      intro o ho
      unfold topoCode
      by_cases hm : o ∈ order
      · simp only [hm, if_true]
      · rw [h r (by simp) o ho hm]
    have e : recCodes W reg order r = recCodes W reg2 order r := by
      cases r with
      | hash k => rfl
      | str s => rfl
      | err e => rfl
      | topo o => simp only [recCodes, ht o rfl]
      | named n o => simp only [recCodes, ht o rfl]
    simp only [walkCodes, e, ih fun r' hr' => h r' (by simp [hr'])]

theorem groupHash_congr {W : World O H} {reg reg2 : Reg O H} {order : List O} :
    ∀ (os : List O) (whole : H), (∀ x ∈ os, ∀ y ∈ W.succs x, y ∉ order → reg y = reg2 y) →
    groupHash W reg order os whole = groupHash W reg2 order os whole
  | [], _, _ => rfl
  | o :: os, whole, h => by
    have e : walkCodes W reg order (W.walk o) = walkCodes W reg2 order (W.walk o) :=
      walkCodes_congr fun r hr y hy => h o (by simp) y (mem_succs hr hy)
    simp only [groupHash, topoHash, e]
    cases walkCodes W reg2 order (W.walk o) with
    | error e => rfl
    | ok c => exact groupHash_congr os _ fun x hx => h x (by simp [hx])

theorem build_congr {W : World O H} {reg reg2 : Reg O H} {topos : List O} (hg : IsGroup W topos)
    (h : ∀ x ∈ topos, ∀ y ∈ W.succs x, y ∉ topos → reg y = reg2 y) :
    build W reg topos = build W reg2 topos := by
  have hne : topos.insertionSort (· ≤ ·) ≠ [] := by
    intro h
    have := List.length_insertionSort (· ≤ ·) topos
    rw [h] at this
    exact hg.ne (List.length_eq_zero_iff.1 this.symm)
  have hm : ∀ x, x ∈ topos.insertionSort (· ≤ ·) ↔ x ∈ topos := fun x => List.mem_insertionSort (· ≤ ·)
  have e : computeRoot W reg (topos.insertionSort (· ≤ ·)) = computeRoot W reg2 (topos.insertionSort (· ≤ ·)) :=
    computeRoot_congr fun x hx y hy hn => h x ((hm x).1 hx) y hy fun h' => hn ((hm y).2 h')
  unfold build
  rw [e]
  obtain ⟨t, b, e2, ht⟩ := computeRoot_ok W reg2 hne
  obtain ⟨v1, v2⟩ := visit_all ((hm t).1 ht) hg.full hg.conn
  rw [e2]
  have eh : computeHash W reg (visit W topos (topos.length + 1) [] t) b
      = computeHash W reg2 (visit W topos (topos.length + 1) [] t) b := by
    unfold computeHash
    rw [groupHash_congr]
    intro x hx y hy hn
    exact h x ((v2 x).1 hx) y hy fun h' => hn ((v2 y).2 h')
  simp only [eh]

end Verif.TypeGroup
