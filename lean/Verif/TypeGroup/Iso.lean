import Verif.TypeGroup.Props
/-
C91.  Identity hashes only depend on what objects look like: not on addresses, not on the order in which
groups were computed, not on the schedule of threads, not on the process.
-/
namespace Verif.TypeGroup

open HashOps

variable {O O' H : Type} [LinearOrder O] [LinearOrder O'] [LinearOrder H] [HashOps H]

/-- A record with its object renamed. -/
def Rec.rename (f : O → O') : Rec O H → Rec O' H
  | .hash h => .hash h
  | .str s => .str s
  | .topo o => .topo (f o)
  | .named n o => .named n (f o)
  | .err e => .err e

/-- The objects `D` of one process look like their images by `f` in another one. -/
structure LooksLike (W : World O H) (W' : World O' H) (D : O → Prop) (f : O → O') : Prop where
  closed : ∀ x, D x → ∀ y ∈ W.succs x, D y
  inj : ∀ x y, D x → D y → f x = f y → x = y
  walk : ∀ x, D x → W'.walk (f x) = (W.walk x).map (Rec.rename f)
  const : ∀ x, D x → W'.const (f x) = W.const x
  type : ∀ x, D x → W'.type (f x) = W.type x
  tpName : ∀ x, D x → W'.tpName (f x) = W.tpName x
  pyName : ∀ x, D x → W'.pyName (f x) = W.pyName x
  kindName : ∀ x, D x → W'.kindName (f x) = W.kindName x

variable {W : World O H} {W' : World O' H} {D : O → Prop} {f : O → O'}

omit [LinearOrder O] [LinearOrder O'] [LinearOrder H] [HashOps H] in
theorem rename_target (r : Rec O H) : (r.rename f).target = r.target.map f := by cases r <;> rfl

omit [LinearOrder O] [LinearOrder O'] [LinearOrder H] [HashOps H] in
theorem LooksLike.succs (h : LooksLike W W' D f) {x : O} (hx : D x) :
    W'.succs (f x) = (W.succs x).map f := by
  unfold World.succs
  rw [h.walk x hx]
  induction W.walk x with
  | nil => rfl
  | cons r rs ih =>
    cases hr : r.target with
    | none =>
      rw [List.map_cons, List.filterMap_cons_none (by rw [rename_target, hr]; rfl),
        List.filterMap_cons_none hr, ih]
    | some o =>
      rw [List.map_cons, List.filterMap_cons_some (b := f o) (by rw [rename_target, hr]; rfl),
        List.filterMap_cons_some hr, ih, List.map_cons]

omit [LinearOrder O] [LinearOrder O'] [LinearOrder H] [HashOps H] in
theorem LooksLike.sees (h : LooksLike W W' D f) {x y : O} (hx : D x) (hs : Sees W x y) :
    D y ∧ Sees W' (f x) (f y) := by
  induction hs with
  | refl => exact ⟨hx, .refl⟩
  | step _ hc ih =>
    refine ⟨h.closed _ ih.1 _ hc, ih.2.step ?_⟩
    rw [h.succs ih.1]
    exact List.mem_map.2 ⟨_, hc, rfl⟩

omit [LinearOrder O] [LinearOrder O'] [LinearOrder H] [HashOps H] in
theorem LooksLike.sees_back (h : LooksLike W W' D f) {x : O} {z : O'} (hx : D x) (hs : Sees W' (f x) z) :
    ∃ y, D y ∧ Sees W x y ∧ z = f y := by
  induction hs with
  | refl => exact ⟨x, hx, .refl, rfl⟩
  | step _ hc ih =>
    obtain ⟨y, hy, hs, rfl⟩ := ih
    rw [h.succs hy] at hc
    obtain ⟨w, hw, rfl⟩ := List.mem_map.1 hc
    exact ⟨w, h.closed _ hy _ hw, hs.step hw, rfl⟩

omit [LinearOrder O] [LinearOrder O'] [LinearOrder H] [HashOps H] in
theorem LooksLike.together (h : LooksLike W W' D f) {x : O} (hx : D x) (z : O') :
    Together W' (f x) z ↔ ∃ y, Together W x y ∧ z = f y := by
  constructor
  · rintro ⟨h1, h2⟩
    obtain ⟨y, hy, hs, rfl⟩ := h.sees_back hx h1
    obtain ⟨x', hx', hs', e⟩ := h.sees_back hy h2
    have := h.inj x x' hx hx' e
    subst this
    exact ⟨y, ⟨hs, hs'⟩, rfl⟩
  · rintro ⟨y, hy, rfl⟩
    have h1 := h.sees hx hy.1
    exact ⟨h1.2, (h.sees h1.1 hy.2).2⟩

theorem idxOf_map {l : List O} {x : O} (h : ∀ y ∈ l, f y = f x → y = x) :
    (l.map f).idxOf (f x) = l.idxOf x := by
  induction l with
  | nil => rfl
  | cons a l ih =>
    rw [List.map_cons, List.idxOf_cons, List.idxOf_cons, ih fun y hy => h y (by simp [hy])]
    by_cases ha : a = x
    · subst ha; simp
    · have : ¬ f a = f x := fun e => ha (h a (by simp) e)
      have e1 : (f a == f x) = false := by simpa using this
      have e2 : (a == x) = false := by simpa using ha
      rw [e1, e2]

/-- The groups of two objects that look alike: the same hash and, unless it is poison, the same order. -/
def Match (D : O → Prop) (f : O → O') (reg : Reg O H) (reg' : Reg O' H) (y : O) : Prop :=
  ∃ g g', reg y = some g ∧ reg' (f y) = some g' ∧ y ∈ g.members ∧ f y ∈ g'.members ∧ g'.hash = g.hash ∧
    (∀ z ∈ g.members, D z) ∧ (g.hash = poison ∨ g'.members = g.members.map f)

theorem Match.code (hl : LooksLike W W' D f) {reg : Reg O H} {reg' : Reg O' H} {y : O} (hy : D y)
    (hm : Match D f reg reg' y) (hc : W.const y = none) (t : Nat) : ∃ g g', reg y = some g ∧
      reg' (f y) = some g' ∧ y ∈ g.members ∧ f y ∈ g'.members ∧
      add (add (raw1 t) g'.hash) (raw1 (g'.members.idxOf (f y)))
        = add (add (raw1 t) g.hash) (raw1 (g.members.idxOf y)) := by
  obtain ⟨g, g', h1, h2, h3, h4, h5, h6, h7⟩ := hm
  refine ⟨g, g', h1, h2, h3, h4, ?_⟩
  rw [h5]
  rcases h7 with h | h
  · rw [h, add_poison, poison_add, poison_add]
  · rw [h, idxOf_map]
    exact fun z hz e => hl.inj z y (h6 z hz) hy e

theorem shaHash_match (hl : LooksLike W W' D f) {reg : Reg O H} {reg' : Reg O' H} {y : O} (hy : D y)
    (hm : IsConst W y ∨ Match D f reg reg' y) : shaHash W' reg' (f y) = shaHash W reg y := by
  unfold shaHash
  rw [hl.const y hy]
  cases hc : W.const y with
  | some h => rfl
  | none =>
    rcases hm with h | hm
    · simp [IsConst, hc] at h
    · obtain ⟨g, g', h1, h2, _, _, h5⟩ := hm.code hl hy hc 2
      simp only [h1, h2, h5]

theorem mem_rename (hl : LooksLike W W' D f) {S : List O} {S' : List O'} (hS : ∀ x ∈ S, D x)
    (hp : S'.Perm (S.map f)) {y : O} (hy : D y) : f y ∈ S' ↔ y ∈ S := by
  rw [hp.mem_iff, List.mem_map]
  constructor
  · rintro ⟨z, hz, e⟩
    rw [← hl.inj z y (hS z hz) hy e]; exact hz
  · exact fun h => ⟨y, h, rfl⟩

theorem visit_rename (hl : LooksLike W W' D f) {S : List O} {S' : List O'} (hS : ∀ x ∈ S, D x)
    (hp : S'.Perm (S.map f)) : ∀ (n : Nat) (ordering : List O) (p : O), (∀ x ∈ ordering, D x) → D p →
    visit W' S' n (ordering.map f) (f p) = (visit W S n ordering p).map f ∧
      ∀ x ∈ visit W S n ordering p, D x
  | 0, ordering, p, ho, _ => ⟨rfl, ho⟩
  | n + 1, ordering, p, ho, hd => by
    have e1 : f p ∈ S' ↔ p ∈ S := mem_rename hl hS hp hd
    have e2 : f p ∈ ordering.map f ↔ p ∈ ordering := mem_rename hl ho (List.Perm.refl _) hd
    rw [visit, visit]
    by_cases hc : p ∉ S ∨ p ∈ ordering
    · have hc' : f p ∉ S' ∨ f p ∈ ordering.map f := by rwa [e1, e2]
      rw [if_pos hc, if_pos hc']
      exact ⟨rfl, ho⟩
    · have hc' : ¬ (f p ∉ S' ∨ f p ∈ ordering.map f) := by rwa [e1, e2]
      rw [if_neg hc, if_neg hc', hl.succs hd]
      have key : ∀ (l a : List O), (∀ x ∈ l, D x) → (∀ x ∈ a, D x) →
          (l.map f).foldl (visit W' S' n) (a.map f) = (l.foldl (visit W S n) a).map f ∧
          ∀ x ∈ l.foldl (visit W S n) a, D x := by
        intro l
        induction l with
        | nil => exact fun a _ ha => ⟨rfl, ha⟩
        | cons y l ih =>
          intro a hl' ha
          obtain ⟨v1, v2⟩ := visit_rename hl hS hp n a y ha (hl' y (by simp))
          simp only [List.map_cons, List.foldl_cons]
          rw [v1]
          exact ih _ (fun x hx => hl' x (by simp [hx])) v2
      have := key (W.succs p) (ordering ++ [p]) (hl.closed p hd) (by
        intro x hx
        rcases List.mem_append.1 hx with h | h
        · exact ho x h
        · simp only [List.mem_singleton] at h; subst h; exact hd)
      rw [List.map_append] at this
      exact this

/-- What a group mentions outside of it looks alike in both processes. -/
def OutMatch (W : World O H) (D : O → Prop) (f : O → O') (reg : Reg O H) (reg' : Reg O' H) (S : List O) : Prop :=
  ∀ x ∈ S, ∀ y ∈ W.succs x, y ∉ S → IsConst W y ∨ Match D f reg reg' y

theorem pass_rename (hl : LooksLike W W' D f) {reg : Reg O H} {reg' : Reg O' H} {S : List O} {S' : List O'}
    (hS : ∀ x ∈ S, D x) (hp : S'.Perm (S.map f)) (ho : OutMatch W D f reg reg' S) {cur : O → H}
    {cur' : O' → H} (hc : ∀ y ∈ S, cur' (f y) = cur y) {t : O} (ht : t ∈ S) :
    pass W' reg' S' cur' (f t) = pass W reg S cur t := by
  have hone : ∀ y, y ∈ W.succs t → (if f y ∈ S' then cur' (f y) else shaHash W' reg' (f y))
      = (if y ∈ S then cur y else shaHash W reg y) := by
    intro y hy
    have hd := hl.closed t (hS t ht) y hy
    have e := mem_rename hl hS hp hd
    by_cases hy' : y ∈ S
    · rw [if_pos hy', if_pos (e.2 hy'), hc y hy']
    · rw [if_neg hy', if_neg (fun h => hy' (e.1 h)), shaHash_match hl hd (ho t ht y hy hy')]
  have : ∀ (rs : List (Rec O H)) (a : H), (∀ r ∈ rs, ∀ o, r.target = some o → o ∈ W.succs t) →
      (rs.map (Rec.rename f)).foldl (passRec W' reg' S' cur') a = rs.foldl (passRec W reg S cur) a := by
    intro rs
    induction rs with
    | nil => intros; rfl
    | cons r rs ih =>
      intro a hr
      simp only [List.map_cons, List.foldl_cons]
      have e : passRec W' reg' S' cur' a (r.rename f) = passRec W reg S cur a r := by
        cases r with
        | hash k => rfl
        | str s => rfl
        | err e => rfl
        | topo o => rw [Rec.rename, passRec, passRec, hone o (hr (.topo o) (by simp) o rfl)]
        | named m o => rw [Rec.rename, passRec, passRec, hone o (hr (.named m o) (by simp) o rfl)]
      rw [e]
      exact ih _ fun r' hr' => hr r' (by simp [hr'])
  unfold pass
  rw [hl.walk t (hS t ht), hl.kindName t (hS t ht)]
  exact this _ _ fun r hr o ho => mem_succs hr ho

theorem passes_rename (hl : LooksLike W W' D f) {reg : Reg O H} {reg' : Reg O' H} {S : List O} {S' : List O'}
    (hS : ∀ x ∈ S, D x) (hp : S'.Perm (S.map f)) (ho : OutMatch W D f reg reg' S) {t : O} (ht : t ∈ S) :
    passes W' reg' S' (f t) = passes W reg S t :=
  pass_rename hl hS hp ho (fun _ hy => pass_rename hl hS hp ho (fun _ _ => rfl) hy) ht

/-- The same root, unless the choice is marked as unstable in both processes. -/
theorem computeRoot_rename (hl : LooksLike W W' D f) {reg : Reg O H} {reg' : Reg O' H} {S : List O}
    {S' : List O'} (hS : ∀ x ∈ S, D x) (hp : S'.Perm (S.map f)) (ho : OutMatch W D f reg reg' S)
    (hne : S ≠ []) : ∃ t t' b, computeRoot W reg S = .ok (t, b) ∧ computeRoot W' reg' S' = .ok (t', b) ∧
      (b = false → t' = f t) := by
  have e1 := single_max_rename (key := W.tpName) (key' := W'.tpName) (fun x hx => hl.tpName x (hS x hx)) hp
  have e2 := single_max_rename (key := W.pyName) (key' := W'.pyName) (fun x hx => hl.pyName x (hS x hx)) hp
  have e3 := single_min_rename (key := fun t => some (passes W reg S t))
    (key' := fun t => some (passes W' reg' S' t)) (fun x hx => by rw [passes_rename hl hS hp ho hx]) hp
  unfold computeRoot
  rw [e1, e2, e3]
  cases h1 : single (byKey W.tpName S).reverse with
  | some t => exact ⟨t, f t, false, rfl, rfl, fun _ => rfl⟩
  | none =>
    cases h2 : single (byKey W.pyName S).reverse with
    | some t => exact ⟨t, f t, false, rfl, rfl, fun _ => rfl⟩
    | none =>
      cases h3 : single (byKey (fun t => some (passes W reg S t)) S) with
      | some t => exact ⟨t, f t, false, rfl, rfl, fun _ => rfl⟩
      | none =>
        obtain ⟨t, _, e⟩ := anyRoot_byKey (key := passes W reg S) hne
        have hne' : S' ≠ [] := by
          rintro rfl
          have := hp.length_eq
          simp only [List.length_nil, List.length_map] at this
          exact hne (List.length_eq_zero_iff.1 this.symm)
        obtain ⟨t', _, e'⟩ := anyRoot_byKey (key := passes W' reg' S') hne'
        exact ⟨t, t', true, e, e', by simp⟩

theorem topoCode_rename (hl : LooksLike W W' D f) {reg : Reg O H} {reg' : Reg O' H} {order : List O}
    (hS : ∀ x ∈ order, D x) {o : O} (hd : D o)
    (ho : o ∉ order → IsConst W o ∨ Match D f reg reg' o) :
    topoCode W' reg' (order.map f) (f o) = topoCode W reg order o := by
  unfold topoCode
  rw [hl.const o hd]
  cases hc : W.const o with
  | some h => rfl
  | none =>
    have e := mem_rename hl hS (List.Perm.refl _) hd
    by_cases hm : o ∈ order
    · simp only [hm, e.2 hm, if_true]
      rw [idxOf_map]
      exact fun z hz h => hl.inj z o (hS z hz) hd h
    · have hm' : ¬ f o ∈ order.map f := fun h => hm (e.1 h)
      simp only [hm, hm', if_false]
      rcases ho hm with h | h
      · simp [IsConst, hc] at h
      · obtain ⟨g, g', h1, h2, h3, h4, h5⟩ := h.code hl hd hc 4
        simp only [h1, h2, h3, h4, if_true, h5]

theorem walkCodes_rename (hl : LooksLike W W' D f) {reg : Reg O H} {reg' : Reg O' H} {order : List O}
    (hS : ∀ x ∈ order, D x) {rs : List (Rec O H)} (hd : ∀ r ∈ rs, ∀ o, r.target = some o → D o)
    (ho : ∀ r ∈ rs, ∀ o, r.target = some o → o ∉ order → IsConst W o ∨ Match D f reg reg' o) :
    walkCodes W' reg' (order.map f) (rs.map (Rec.rename f)) = walkCodes W reg order rs := by
  induction rs with
  | nil => rfl
  | cons r rs ih =>
    have e : recCodes W' reg' (order.map f) (r.rename f) = recCodes W reg order r := by
      cases r with
      | hash k => rfl
      | str s => rfl
      | err e => rfl
      | topo o =>
        simp only [Rec.rename, recCodes,
          topoCode_rename hl hS (hd (.topo o) (by simp) o rfl) (ho (.topo o) (by simp) o rfl)]
      | named m o =>
        simp only [Rec.rename, recCodes,
          topoCode_rename hl hS (hd (.named m o) (by simp) o rfl) (ho (.named m o) (by simp) o rfl)]
    simp only [List.map_cons, walkCodes, e,
      ih (fun r' hr' => hd r' (by simp [hr'])) (fun r' hr' => ho r' (by simp [hr']))]

theorem groupHash_rename (hl : LooksLike W W' D f) {reg : Reg O H} {reg' : Reg O' H} {order : List O}
    (hS : ∀ x ∈ order, D x) : ∀ (os : List O) (whole : H), (∀ x ∈ os, D x) →
    (∀ x ∈ os, ∀ y ∈ W.succs x, y ∉ order → IsConst W y ∨ Match D f reg reg' y) →
    groupHash W' reg' (order.map f) (os.map f) whole = groupHash W reg order os whole
  | [], _, _, _ => rfl
  | o :: os, whole, hd, ho => by
    have hdo := hd o (by simp)
    have e : walkCodes W' reg' (order.map f) (W'.walk (f o)) = walkCodes W reg order (W.walk o) := by
      rw [hl.walk o hdo]
      exact walkCodes_rename hl hS (fun r hr y hy => hl.closed o hdo y (mem_succs hr hy))
        (fun r hr y hy => ho o (by simp) y (mem_succs hr hy))
    have e2 : topoStart W' (order.map f) (f o) = topoStart W order o := by
      unfold topoStart; rw [hl.type o hdo, List.length_map]
    simp only [List.map_cons, groupHash, topoHash, e, e2]
    cases walkCodes W reg order (W.walk o) with
    | error e => rfl
    | ok c => exact groupHash_rename hl hS os _ (fun x hx => hd x (by simp [hx]))
                (fun x hx => ho x (by simp [hx]))

/-- Groups that look alike are built alike. -/
theorem build_rename (hl : LooksLike W W' D f) {reg : Reg O H} {reg' : Reg O' H} {S : List O}
    {S' : List O'} (hS : ∀ x ∈ S, D x) (hp : S'.Perm (S.map f)) (ho : OutMatch W D f reg reg' S)
    (hg : IsGroup W S) {g : Grp O H} {g' : Grp O' H} (hb : build W reg S = .ok g)
    (hb' : build W' reg' S' = .ok g') :
    g'.hash = g.hash ∧ (g.hash = poison ∨ g'.members = g.members.map f) := by
  have hm : ∀ x, x ∈ S.insertionSort (· ≤ ·) ↔ x ∈ S := fun x => List.mem_insertionSort (· ≤ ·)
  have hpm : (S'.insertionSort (· ≤ ·)).Perm ((S.insertionSort (· ≤ ·)).map f) :=
    (List.perm_insertionSort _ S').trans (hp.trans ((List.perm_insertionSort _ S).map f).symm)
  have hne : S.insertionSort (· ≤ ·) ≠ [] := by
    intro h
    have := List.length_insertionSort (· ≤ ·) S
    rw [h] at this
    exact hg.ne (List.length_eq_zero_iff.1 this.symm)
  obtain ⟨t, t', b, e, e', ht⟩ := computeRoot_rename hl (S := S.insertionSort (· ≤ ·))
    (S' := S'.insertionSort (· ≤ ·)) (fun x hx => hS x ((hm x).1 hx)) hpm
    (fun x hx y hy hn => ho x ((hm x).1 hx) y hy fun h => hn ((hm y).2 h)) hne
  have htm : t ∈ S := by
    obtain ⟨t2, b2, e2, h2⟩ := computeRoot_ok W reg hne
    rw [e] at e2
    simp only [Except.ok.injEq, Prod.mk.injEq] at e2
    rw [e2.1]; exact (hm t2).1 h2
  obtain ⟨v1, v2⟩ := visit_all htm hg.full hg.conn
  unfold build at hb hb'
  rw [e] at hb
  rw [e'] at hb'
  simp only at hb hb'
  split at hb
  · cases hb
  split at hb'
  · cases hb'
  cases b with
  | true =>
    simp only [computeHash, if_true, Except.ok.injEq] at hb hb'
    subst hb; subst hb'
    exact ⟨rfl, .inl rfl⟩
  | false =>
    have ht := ht rfl
    subst ht
    have hv := visit_rename hl hS hp (S.length + 1) [] t (by simp) (hS t htm)
    have hlen : S'.length = S.length := by rw [hp.length_eq, List.length_map]
    rw [hlen] at hb'
    rw [List.map_nil] at hv
    rw [hv.1] at hb'
    have hh := groupHash_rename hl (reg := reg) (reg' := reg') hv.2 (visit W S (S.length + 1) [] t) zero hv.2
      (by
        intro x hx y hy hn
        exact ho x ((v2 x).1 hx) y hy fun h => hn ((v2 y).2 h))
    simp only [computeHash, Bool.false_eq_true, if_false] at hb hb'
    rw [hh] at hb'
    cases hx : groupHash W reg (visit W S (S.length + 1) [] t) (visit W S (S.length + 1) [] t) zero with
    | error e => rw [hx] at hb; cases hb
    | ok h =>
      rw [hx] at hb hb'
      simp only [Except.ok.injEq] at hb hb'
      subst hb; subst hb'
      exact ⟨rfl, .inr rfl⟩

/-- In two processes, the groups of objects that look alike match. -/
theorem groups_match (hl : LooksLike W W' D f) {s : Sys O H} (hs : Reachable W s) :
    ∀ {s' : Sys O' H}, Reachable W' s' → ∀ {x : O} {g : Grp O H} {g' : Grp O' H}, D x → s.reg x = some g →
      s'.reg (f x) = some g' → Match D f s.reg s'.reg x := by
  induction hs with
  | init => intro s' _ x g g' _ h; cases h
  | @next s0 s1 hs0 hn ih =>
    intro s' hs' x g g' hx h h'
    obtain ⟨hi1, hkeep, hnew⟩ := next_inv (reachable_inv hs0) hn
    have hr1 := hi1.reg
    have hr' := (reachable_inv hs').reg
    have hD : ∀ z ∈ g.members, D z := fun z hz => (hl.sees hx ((hr1.scc x g h z).1 hz).1).1
    have hin := hr1.self x g h
    have hin' := hr'.self (f x) g' h'
    rcases hnew x g h with h0 | hout
    · obtain ⟨g0, g0', h1, h2, h3, h4, h5, h6, h7⟩ := ih hs' hx h0 h'
      rw [h0] at h1
      simp only [Option.some.injEq] at h1
      subst h1
      exact ⟨g, g0', h, h2, h3, h4, h5, h6, h7⟩
    · obtain ⟨S, hg, hSm, hb⟩ := hr1.built x g h
      obtain ⟨S', hg', hSm', hb'⟩ := hr'.built (f x) g' h'
      have hS : ∀ z ∈ S, D z := fun z hz => hD z ((hSm z).1 hz)
      have hnd : (S.map f).Nodup := by
        refine List.Pairwise.map _ ?_ (List.Pairwise.and_mem.1 hg.nodup)
        rintro a b ⟨ha, hb, hne⟩ he
        exact hne (hl.inj a b (hS a ha) (hS b hb) he)
      have hp : S'.Perm (S.map f) := by
        refine (List.perm_ext_iff_of_nodup hg'.nodup hnd).2 fun z => ?_
        rw [hSm' z, hr'.scc (f x) g' h' z, hl.together hx z, List.mem_map]
        constructor
        · rintro ⟨y, hy, rfl⟩
          exact ⟨y, (hSm y).2 ((hr1.scc x g h y).2 hy), rfl⟩
        · rintro ⟨y, hy, rfl⟩
          exact ⟨y, (hr1.scc x g h y).1 ((hSm y).1 hy), rfl⟩
      have ho : OutMatch W D f s1.reg s'.reg S := by
        intro z hz y hy hn
        have hzm := (hSm z).1 hz
        have hdy := hl.closed z (hS z hz) y hy
        rcases hout z hzm y hy with h1 | h1
        · exact absurd ((hSm y).2 h1) hn
        · rcases asg_iff.1 h1 with ⟨gy, hgy⟩ | hc
          · right
            have hfz : s'.reg (f z) = some g' := by
              refine hr'.all (f x) g' h' (f z) ((hSm' _).1 (hp.mem_iff.2 (List.mem_map.2 ⟨z, hz, rfl⟩)))
            have hfy : f y ∈ W'.succs (f z) := by
              rw [hl.succs (hS z hz)]; exact List.mem_map.2 ⟨y, hy, rfl⟩
            have hnc : W'.const (f y) = none := by
              rw [hl.const y hdy]; exact (reachable_inv hs0).reg.nonconst y gy hgy
            obtain ⟨gy', hgy'⟩ := asg_nonconst (hr'.closed (f z) g' hfz (f y) hfy) hnc
            obtain ⟨a, a', h1, h2, h3⟩ := ih hs' hdy hgy hgy'
            exact ⟨a, a', hkeep y a h1, h2, h3⟩
          · exact .inl hc
      obtain ⟨e1, e2⟩ := build_rename hl hS hp ho hg hb hb'
      exact ⟨g, g', h, h', hin, hin', e1, hD, e2⟩

/-! ### The statements -/

/-- Objects that look alike, in two processes with any addresses, any earlier calls and any schedule of
threads, have the same identity hash. -/
theorem identityHash_looksLike (hl : LooksLike W W' D f) {s : Sys O H} {s' : Sys O' H} (hs : Reachable W s)
    (hs' : Reachable W' s') {x r : O} {r' : O'} (hx : D x) (hr : r ∈ s.returned) (hsee : Sees W r x)
    (hr' : r' ∈ s'.returned) (hsee' : Sees W' r' (f x)) :
    shaHash W' s'.reg (f x) = shaHash W s.reg x := by
  by_cases hc : IsConst W x
  · exact shaHash_match hl hx (.inl hc)
  · have hc' : ¬ IsConst W' (f x) := by unfold IsConst; rw [hl.const x hx]; exact hc
    obtain ⟨g, hg⟩ := returned_registers hs hr hsee hc
    obtain ⟨g', hg'⟩ := returned_registers hs' hr' hsee' hc'
    exact shaHash_match hl hx (.inr (groups_match hl hs hs' hx hg hg'))

/-- The identity hash of an object does not depend on what was computed before, nor on the schedule of the
threads. -/
theorem identityHash_any_history {s s' : Sys O H} (hs : Reachable W s) (hs' : Reachable W s') {x r r' : O}
    (hr : r ∈ s.returned) (hsee : Sees W r x) (hr' : r' ∈ s'.returned) (hsee' : Sees W r' x) :
    shaHash W s'.reg x = shaHash W s.reg x := by
  have hid : ∀ r : Rec O H, r.rename id = r := by intro r; cases r <;> rfl
  refine identityHash_looksLike (D := fun _ => True) (f := id) ⟨fun _ _ _ _ => trivial, fun _ _ _ _ h => h,
    fun x _ => ?_, fun _ _ => rfl, fun _ _ => rfl, fun _ _ => rfl, fun _ _ => rfl, fun _ _ => rfl⟩
    hs hs' trivial hr hsee hr' hsee'
  rw [List.map_congr_left (g := id) (fun r _ => hid r), List.map_id]
  rfl

/-- The same for the members of a group with their indices, unless the hash of the group is poison. -/
theorem indices_looksLike (hl : LooksLike W W' D f) {s : Sys O H} {s' : Sys O' H} (hs : Reachable W s)
    (hs' : Reachable W' s') {x : O} (hx : D x) {g : Grp O H} {g' : Grp O' H} (h : s.reg x = some g)
    (h' : s'.reg (f x) = some g') :
    g'.hash = g.hash ∧ (g.hash = poison ∨ g'.members = g.members.map f) := by
  obtain ⟨a, a', h1, h2, _, _, h5, _, h7⟩ := groups_match hl hs hs' hx h h'
  rw [h] at h1; rw [h'] at h2
  simp only [Option.some.injEq] at h1 h2
  subst h1; subst h2
  exact ⟨h5, h7⟩

end Verif.TypeGroup
