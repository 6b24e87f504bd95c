import Verif.Common
import Verif.Mro.Props
import Verif.Mro.Class
/-
Facts about the classes that class statements make, used by `Verif.Mro.ClassProps`.
-/
namespace Verif.Mro.Obj

/-! ### Maps -/

theorem find_put {β : Type} (m : List (Name × β)) (n k : Name) (v : β) :
    find (put m n v) k = if n = k then some v else find m k := by
  induction m with
  | nil => rfl
  | cons p t ih =>
    obtain ⟨x, u⟩ := p
    unfold put
    by_cases h : x = n
    · rw [if_pos h]
      change (if n = k then some v else find t k) = if n = k then some v else
        (if x = k then some u else find t k)
      by_cases h' : n = k
      · simp [h']
      · have : ¬ x = k := by rw [h]; exact h'
        simp [h', this]
    · rw [if_neg h]
      change (if x = k then some u else find (put t n v) k) = if n = k then some v else
        (if x = k then some u else find t k)
      rw [ih]
      by_cases h' : x = k
      · have : ¬ n = k := by intro e; exact h (h'.trans e.symm)
        simp [h', this]
      · simp [h']

/-- The keys are distinct. -/
def Keys {β : Type} (m : List (Name × β)) : Prop := (m.map Prod.fst).Nodup

theorem mem_keys_put {β : Type} {m : List (Name × β)} {n k : Name} {v : β} :
    k ∈ (put m n v).map Prod.fst ↔ k = n ∨ k ∈ m.map Prod.fst := by
  induction m with
  | nil => simp [put]
  | cons p t ih =>
    obtain ⟨x, u⟩ := p
    unfold put
    by_cases h : x = n
    · rw [if_pos h]
      simp only [List.map_cons, List.mem_cons, h]
      constructor
      · rintro (h1 | h1)
        · exact Or.inl h1
        · exact Or.inr (Or.inr h1)
      · rintro (h1 | h1 | h1)
        · exact Or.inl h1
        · exact Or.inl h1
        · exact Or.inr h1
    · rw [if_neg h]
      simp only [List.map_cons, List.mem_cons, ih]
      constructor
      · rintro (h1 | h1 | h1)
        · exact Or.inr (Or.inl h1)
        · exact Or.inl h1
        · exact Or.inr (Or.inr h1)
      · rintro (h1 | h1 | h1)
        · exact Or.inr (Or.inl h1)
        · exact Or.inl h1
        · exact Or.inr (Or.inr h1)

theorem Keys.put {β : Type} {m : List (Name × β)} (h : Keys m) (n : Name) (v : β) :
    Keys (put m n v) := by
  induction m with
  | nil => simp [Keys, Obj.put]
  | cons p t ih =>
    obtain ⟨x, u⟩ := p
    have h1 : x ∉ t.map Prod.fst := (List.nodup_cons.mp h).1
    have h2 : Keys t := (List.nodup_cons.mp h).2
    unfold Obj.put
    by_cases e : x = n
    · rw [if_pos e]
      exact List.nodup_cons.mpr ⟨by rw [← e]; exact h1, h2⟩
    · rw [if_neg e]
      refine List.nodup_cons.mpr ⟨?_, ih h2⟩
      intro hm
      rcases mem_keys_put.mp hm with h3 | h3
      · exact e h3
      · exact h1 h3

theorem find_none_of_not_mem {β : Type} {m : List (Name × β)} {n : Name}
    (h : n ∉ m.map Prod.fst) : find m n = none := by
  induction m with
  | nil => rfl
  | cons p t ih =>
    obtain ⟨x, u⟩ := p
    change (if x = n then some u else find t n) = none
    simp only [List.map_cons, List.mem_cons, not_or] at h
    rw [if_neg (fun e => h.1 e.symm), ih h.2]

theorem mem_iff_find {β : Type} {m : List (Name × β)} (hk : Keys m) {n : Name} {v : β} :
    (n, v) ∈ m ↔ find m n = some v := by
  induction m with
  | nil => simp [find]
  | cons p t ih =>
    obtain ⟨x, u⟩ := p
    have h1 : x ∉ t.map Prod.fst := (List.nodup_cons.mp hk).1
    change _ ↔ (if x = n then some u else find t n) = some v
    rw [List.mem_cons, ih (List.nodup_cons.mp hk).2]
    by_cases e : x = n
    · rw [if_pos e]
      constructor
      · rintro (h | h)
        · simp only [Prod.mk.injEq] at h; rw [h.2]
        · rw [e] at h1; rw [find_none_of_not_mem h1] at h; cases h
      · intro h
        left
        simp only [Option.some.injEq] at h
        rw [e, h]
    · rw [if_neg e]
      constructor
      · rintro (h | h)
        · simp only [Prod.mk.injEq] at h; exact absurd h.1.symm e
        · exact h
      · exact Or.inr

/-- The overloads of two functions one after the other, when either may be missing. -/
def both : Option (List Ov) → Option (List Ov) → Option (List Ov)
  | none, x => x
  | some g, none => some g
  | some g, some f => some (g ++ f)

theorem find_mergeInto {s : List (Name × List Ov)} (hk : Keys s) :
    ∀ (t : List (Name × List Ov)) (n : Name),
      find (mergeInto t s) n = both (find t n) (find s n) := by
  induction s with
  | nil =>
    intro t n
    change find t n = both (find t n) none
    cases find t n <;> rfl
  | cons p s ih =>
    obtain ⟨x, f⟩ := p
    intro t n
    have h1 : x ∉ s.map Prod.fst := (List.nodup_cons.mp hk).1
    rw [mergeInto]
    rw [ih (List.nodup_cons.mp hk).2]
    change _ = both (find t n) (if x = n then some f else find s n)
    by_cases e : x = n
    · rw [if_pos e]
      subst e
      rw [find_none_of_not_mem h1]
      cases hf : find t x with
      | none => simp only [find_put, if_true]; rfl
      | some g => simp only [find_put, if_true]; rfl
    · rw [if_neg e]
      cases hf : find t x with
      | none => simp only [find_put, if_neg e]
      | some g => simp only [find_put, if_neg e]

theorem find_inherit {s : List (Name × PyObj)} (hk : Keys s) :
    ∀ (t : List (Name × PyObj)) (n : Name),
      find (inheritClassMembers t s) n = (find t n).or (find s n) := by
  induction s with
  | nil =>
    intro t n
    change find t n = (find t n).or none
    cases find t n <;> rfl
  | cons p s ih =>
    obtain ⟨x, v⟩ := p
    intro t n
    rw [inheritClassMembers]
    rw [ih (List.nodup_cons.mp hk).2]
    change _ = (find t n).or (if x = n then some v else find s n)
    by_cases e : x = n
    · rw [if_pos e]
      subst e
      cases hf : find t x with
      | none => simp only [find_put, if_true]; rfl
      | some g => simp only [hf]; rfl
    · rw [if_neg e]
      cases hf : find t x with
      | none => simp only [find_put, if_neg e]
      | some g => rfl

/-! ### Bodies -/

/-- The names in each map of a body are distinct. -/
structure Body.Wf (b : Body) : Prop where
  functions : Keys b.functions
  statics : Keys b.statics
  properties : Keys b.properties
  classMembers : Keys b.classMembers
  classMethods : Keys b.classMethods

theorem Keys.addOverload {m : List (Name × List Ov)} (h : Keys m) (n : Name) (f : Ov) :
    Keys (addOverload m n f) := by
  unfold Obj.addOverload
  split
  · exact h.put _ _
  · exact h.put _ _

theorem collect1_wf {b b' : Body} {n : Name} {e : Elt} (hb : b.Wf) (h : collect1 b n e = .ok b') :
    b'.Wf := by
  obtain ⟨h1, h2, h3, h4, h5⟩ := hb
  cases e with
  | member s ne o => cases h; exact ⟨h1, h2, h3, h4.put _ _, h5⟩
  | property f => cases h; exact ⟨h1, h2, h3.put _ _, h4, h5⟩
  | classmethod f =>
    simp only [collect1] at h
    split at h
    · cases h
    · cases h; exact ⟨h1, h2, h3, h4, h5.addOverload _ _⟩
  | staticmethod f =>
    simp only [collect1] at h
    split at h
    · cases h
    · cases h; exact ⟨h1, h2.addOverload _ _, h3, h4, h5⟩
  | function f => cases h; exact ⟨h1.addOverload _ _, h2, h3, h4, h5⟩
  | value o => cases h; exact ⟨h1, h2, h3, h4.put _ _, h5⟩

theorem collect_wf : ∀ {l : List (Name × Elt)} {b b' : Body}, b.Wf → collect b l = .ok b' →
    b'.Wf := by
  intro l
  induction l with
  | nil => intro b b' hb h; cases h; exact hb
  | cons p rest ih =>
    obtain ⟨n, e⟩ := p
    intro b b' hb h
    simp only [collect] at h
    split at h
    · cases h
    · rename_i b1 h1
      exact ih (collect1_wf hb h1) h

theorem empty_wf : ({} : Body).Wf := by
  refine ⟨?_, ?_, ?_, ?_, ?_⟩ <;> exact List.nodup_nil

/-! ### `Make` -/

theorem checkBases_ok {cm : List (Name × PyObj)} : ∀ {bs : List Cls} {n m : Nat},
    checkBases cm bs n = .ok m →
    (∀ b ∈ bs, b.final = false ∧ redefines b cm = false) ∧
      m = n + (bs.filter (fun b => !b.members.isEmpty)).length := by
  intro bs
  induction bs with
  | nil => intro n m h; cases h; simp
  | cons b rest ih =>
    intro n m h
    simp only [checkBases] at h
    split at h
    · cases h
    · rename_i hf
      split at h
      · cases h
      · rename_i hr
        obtain ⟨h1, h2⟩ := ih h
        refine ⟨?_, ?_⟩
        · intro x hx
          rcases List.mem_cons.mp hx with e | e
          · rw [e]; exact ⟨by simpa using hf, by simpa using hr⟩
          · exact h1 x e
        · rw [h2, List.filter_cons]
          cases hm : b.members with
          | nil => simp
          | cons a t => simp; omega

theorem baseMembers_eq : ∀ {bs : List Cls} {acc : List Mem},
    (bs.filter (fun b => !b.members.isEmpty)).length = 0 → baseMembers bs acc = acc := by
  intro bs
  induction bs with
  | nil => intro acc _; rfl
  | cons b rest ih =>
    intro acc h
    rw [List.filter_cons] at h
    rw [baseMembers]
    cases hm : b.members with
    | nil =>
      simp only [hm, List.isEmpty_nil, Bool.not_true] at h
      simp only [if_true]
      exact ih h
    | cons a t => simp [hm] at h

/-- With at most one base that has members, each base's members begin the list. -/
theorem baseMembers_prefix : ∀ {bs : List Cls},
    (bs.filter (fun b => !b.members.isEmpty)).length ≤ 1 →
    ∀ b ∈ bs, b.members ≠ [] → baseMembers bs [] = b.members := by
  intro bs
  induction bs with
  | nil => intro _ b hb; cases hb
  | cons x rest ih =>
    intro h b hb hne
    rw [List.filter_cons] at h
    rw [baseMembers]
    cases hm : x.members with
    | nil =>
      simp only [hm, List.isEmpty_nil, Bool.not_true] at h
      simp only [if_true]
      rcases List.mem_cons.mp hb with e | e
      · rw [e, hm] at hne; exact absurd rfl hne
      · exact ih h b e hne
    | cons a t =>
      simp only [hm, List.isEmpty_cons, Bool.not_false, if_true, List.length_cons] at h
      have h0 : (rest.filter (fun b => !b.members.isEmpty)).length = 0 := by omega
      have : (if (a :: t : List Mem) = [] then [] else a :: t) = a :: t := by simp
      rw [this, baseMembers_eq h0]
      rcases List.mem_cons.mp hb with e | e
      · rw [e, hm]
      · exfalso
        have : b ∈ rest.filter (fun b => !b.members.isEmpty) := by
          rw [List.mem_filter]
          refine ⟨e, ?_⟩
          cases hb' : b.members with
          | nil => exact absurd hb' hne
          | cons _ _ => rfl
        rw [List.length_eq_zero_iff.mp h0] at this
        cases this

theorem addMembers_ok : ∀ {own acc ms : List Mem}, addMembers acc own = .ok ms →
    (acc.map Mem.name).Nodup → ms = acc ++ own ∧ (ms.map Mem.name).Nodup := by
  intro own
  induction own with
  | nil => intro acc ms h hn; cases h; exact ⟨by simp, hn⟩
  | cons m rest ih =>
    intro acc ms h hn
    simp only [addMembers] at h
    split at h
    · cases h
    · rename_i hany
      have hn' : ((acc ++ [m]).map Mem.name).Nodup := by
        rw [List.map_append]
        rw [List.nodup_append]
        refine ⟨hn, by simp, ?_⟩
        intro a ha b hb e
        rw [List.map_singleton, List.mem_singleton] at hb
        apply hany
        obtain ⟨x, hx, rfl⟩ := List.mem_map.mp ha
        rw [List.any_eq_true]
        exact ⟨x, hx, by rw [e, hb]; simp⟩
      obtain ⟨h1, h2⟩ := ih h hn'
      exact ⟨by rw [h1]; simp, h2⟩

/-- The bodies along the order of a class. -/
def bodies (w : World) (k : Cls) : List Body := k.mro.map (ownOf w k.own)

/-- What `make` guarantees. -/
structure Made (w : World) (k : Cls) : Prop where
  final : ∀ b ∈ k.bases, ∀ kb, w[b]? = some kb → kb.final = false
  redefines : ∀ b ∈ k.bases, ∀ kb, w[b]? = some kb → redefines kb k.own.classMembers = false
  one : ((k.bases.filterMap (fun b => w[b]?)).filter (fun b => !b.members.isEmpty)).length ≤ 1
  mro : computeMro w.shape.mroOf w.length k.bases = some (.ok k.mro)
  members : addMembers (baseMembers (k.bases.filterMap (fun b => w[b]?)) []) k.own.members
    = .ok k.members
  functions : k.functions = (bodies w k).foldl (fun t b => mergeInto t b.functions) []
  statics : k.statics = (bodies w k).foldl (fun t b => mergeInto t b.statics) []
  properties : k.properties = (bodies w k).foldl (fun t b => mergeInto t b.properties) []
  classMembers : k.classMembers =
    (bodies w k).foldl (fun t b => inheritClassMembers t b.classMembers) []
  classMethods : k.classMethods = (bodies w k).foldl (fun t b => mergeInto t b.classMethods) []

theorem make_ok {w : World} {bases : List Nat} {final : Bool} {own : Body} {k : Cls}
    (h : make w bases final own = .ok k) :
    k.bases = bases ∧ k.final = final ∧ k.own = own ∧ Made w k := by
  unfold make at h
  simp only at h
  split at h
  · cases h
  · rename_i count hc
    split at h
    · cases h
    · rename_i hcount
      split at h
      · cases h
      · cases h
      · rename_i mro hm
        split at h
        · cases h
        · rename_i ms hms
          obtain ⟨h1, h2⟩ := checkBases_ok hc
          have hone : ((bases.filterMap (fun b => w[b]?)).filter
              (fun b => !b.members.isEmpty)).length ≤ 1 := by omega
          simp only [Except.ok.injEq] at h
          subst h
          refine ⟨rfl, rfl, rfl, ?_⟩
          refine ⟨?_, ?_, hone, hm, hms, rfl, rfl, rfl, rfl, rfl⟩
          · intro b hb kb hkb
            exact (h1 kb (List.mem_filterMap.mpr ⟨b, hb, hkb⟩)).1
          · intro b hb kb hkb
            exact (h1 kb (List.mem_filterMap.mpr ⟨b, hb, hkb⟩)).2

/-! ### Worlds -/

theorem shape_length (w : World) : w.shape.length = w.length := by
  unfold World.shape; simp

theorem shape_mroOf {w : World} {c : Nat} {k : Cls} (h : w[c]? = some k) :
    w.shape.mroOf c = k.mro := by
  unfold World.shape Mro.World.mroOf
  rw [List.getElem?_map, h]; rfl

theorem shape_basesOf {w : World} {c : Nat} {k : Cls} (h : w[c]? = some k) :
    w.shape.basesOf c = k.bases := by
  unfold World.shape Mro.World.basesOf
  rw [List.getElem?_map, h]; rfl

/-- The classes made by class statements without repeated bases. -/
structure World.Ok (w : World) : Prop where
  shape : w.shape.Ok
  wf : ∀ k ∈ w, k.own.Wf
  made : ∀ c k, w[c]? = some k → Made (w.take c) k

theorem exec_new {w : World} {s : Stmt} (h : (exec w s).1 ≠ w) :
    ∃ own k, (∀ b ∈ s.bases, b < w.length) ∧ collect {} s.body = .ok own ∧
      make w s.bases s.final own = .ok k ∧ exec w s = (w ++ [k], none) := by
  unfold exec at h ⊢
  by_cases hb : s.bases.all (fun b => decide (b < w.length)) = true
  · simp only [hb, if_true] at h ⊢
    cases hc : collect {} s.body with
    | error e => simp [hc] at h
    | ok own =>
      simp only [hc] at h
      cases hm : make w s.bases s.final own with
      | error e => simp [hm] at h
      | ok k =>
        refine ⟨own, k, ?_, rfl, hm, by simp only [hm]⟩
        intro b hb'
        rw [List.all_eq_true] at hb
        exact of_decide_eq_true (hb b hb')
  · simp only [hb] at h
    exact absurd rfl h

theorem take_append_le {w : World} {k : Cls} {c : Nat} (h : c ≤ w.length) :
    (w ++ [k]).take c = w.take c := List.take_append_of_le_length h

theorem World.Ok.exec {w : World} (hw : w.Ok) {s : Stmt} (hn : s.bases.Nodup) :
    (exec w s).1.Ok := by
  by_cases he : (Obj.exec w s).1 = w
  · rw [he]; exact hw
  · obtain ⟨own, k, hb, hc, hm, e⟩ := exec_new he
    rw [e]
    obtain ⟨k1, k2, k3, hmade⟩ := make_ok hm
    simp only
    refine ⟨?_, ?_, ?_⟩
    · have hs := hw.shape.declare hn
      have hd := declare_eq (w := w.shape) (bases := s.bases)
        (by rw [shape_length]; exact hb)
      have hmro := hmade.mro
      rw [k1, ← shape_length w] at hmro
      rw [hmro] at hd
      rw [hd] at hs
      have : World.shape (w ++ [k]) = w.shape ++ [⟨s.bases, k.mro⟩] := by
        unfold World.shape
        rw [List.map_append, List.map_singleton, k1]
      rw [this]
      exact hs
    · intro x hx
      rcases List.mem_append.mp hx with h | h
      · exact hw.wf x h
      · rw [List.mem_singleton] at h
        rw [h, k3]
        exact collect_wf empty_wf hc
    · intro c x hx
      by_cases hlt : c < w.length
      · rw [List.getElem?_append_left hlt] at hx
        rw [take_append_le (by omega)]
        exact hw.made c x hx
      · have hc' : c = w.length := by
          have := (List.getElem?_eq_some_iff.mp hx).1
          rw [List.length_append, List.length_singleton] at this
          omega
        subst hc'
        rw [List.getElem?_append_right (by omega)] at hx
        simp at hx
        rw [take_append_le (by omega), List.take_length, ← hx]
        exact hmade

theorem run_ok {ss : List Stmt} (hn : ∀ s ∈ ss, s.bases.Nodup) : (run ss).Ok := by
  have key : ∀ (ss : List Stmt) (w : World), w.Ok → (∀ s ∈ ss, s.bases.Nodup) →
      (ss.foldl (fun w s => (exec w s).1) w).Ok := by
    intro ss
    induction ss with
    | nil => intro w hw _; exact hw
    | cons s rest ih =>
      intro w hw hn
      exact ih _ (hw.exec (hn s (by simp))) (fun x hx => hn x (List.mem_cons_of_mem _ hx))
  refine key ss [] ⟨⟨?_, ?_, ?_, ?_⟩, ?_, ?_⟩ hn
  · intro c hc; simp [World.shape] at hc
  · intro c hc; simp [World.shape] at hc
  · intro c hc; simp [World.shape] at hc
  · intro c hc; simp [World.shape] at hc
  · intro k hk; cases hk
  · intro c k h; simp at h

/-- Classes are not changed by later class statements. -/
theorem exec_keeps {w : World} {s : Stmt} {c : Nat} {k : Cls} (h : w[c]? = some k) :
    (exec w s).1[c]? = some k := by
  by_cases he : (exec w s).1 = w
  · rw [he]; exact h
  · obtain ⟨own, k', _, _, _, e⟩ := exec_new he
    rw [e]
    simp only
    rw [List.getElem?_append_left (List.getElem?_eq_some_iff.mp h).1]
    exact h

variable {w : World}

theorem World.Ok.lt {c : Nat} {k : Cls} (h : w[c]? = some k) : c < w.length :=
  (List.getElem?_eq_some_iff.mp h).1

theorem World.Ok.base_lt (hw : w.Ok) {c b : Nat} {k : Cls} (h : w[c]? = some k)
    (hb : b ∈ k.bases) : b < c := by
  have hc : c < w.shape.length := by rw [shape_length]; exact World.Ok.lt h
  exact hw.shape.before c hc b (by rw [shape_basesOf h]; exact hb)

theorem World.Ok.base (hw : w.Ok) {c b : Nat} {k : Cls} (h : w[c]? = some k)
    (hb : b ∈ k.bases) : ∃ kb, w[b]? = some kb ∧ (w.take c)[b]? = some kb := by
  have h1 := hw.base_lt h hb
  have h2 := World.Ok.lt h
  refine ⟨w[b]'(by omega), by rw [List.getElem?_eq_getElem], ?_⟩
  rw [List.getElem?_take_of_lt h1, List.getElem?_eq_getElem]

/-- `Sub` in terms of classes. -/
theorem sub_cases {c d : Nat} {k : Cls} (h : w[c]? = some k) (hs : Sub w.shape.basesOf c d) :
    d = c ∨ ∃ b ∈ k.bases, Sub w.shape.basesOf b d := by
  cases hs with
  | refl => exact Or.inl rfl
  | @step _ b _ hb hs => rw [shape_basesOf h] at hb; exact Or.inr ⟨b, hb, hs⟩

/-- A superclass of a class is a class, made before it. -/
theorem World.Ok.sub_exists (hw : w.Ok) {d : Nat} : ∀ {c : Nat} {k : Cls}, w[c]? = some k →
    Sub w.shape.basesOf c d → ∃ kd, w[d]? = some kd ∧ d ≤ c := by
  intro c
  induction c using Nat.strongRecOn with
  | _ c ih =>
    intro k h hs
    rcases sub_cases h hs with e | ⟨b, hb, hs'⟩
    · rw [e]; exact ⟨k, h, Nat.le_refl _⟩
    · obtain ⟨kb, hkb, _⟩ := hw.base h hb
      have := hw.base_lt h hb
      obtain ⟨kd, h1, h2⟩ := ih b this hkb hs'
      exact ⟨kd, h1, by omega⟩

/-- A base's members begin the members of the class. -/
theorem World.Ok.base_members (hw : w.Ok) {c b : Nat} {k kb : Cls} (h : w[c]? = some k)
    (hb : b ∈ k.bases) (hkb : w[b]? = some kb) :
    kb.members <+: k.members := by
  have hm := hw.made c k h
  obtain ⟨kb', h1, h2⟩ := hw.base h hb
  rw [hkb] at h1
  cases h1
  cases hne : kb.members with
  | nil => exact List.nil_prefix
  | cons a t =>
    have hmem : kb ∈ k.bases.filterMap (fun b => (w.take c)[b]?) :=
      List.mem_filterMap.mpr ⟨b, hb, h2⟩
    have hbm := baseMembers_prefix hm.one kb hmem (by rw [hne]; simp)
    have hms := hm.members
    rw [hbm, hne] at hms
    -- the list only grows, whatever the names
    have grow : ∀ {own acc ms : List Mem}, addMembers acc own = .ok ms → acc <+: ms := by
      intro own
      induction own with
      | nil => intro acc ms h; cases h; exact List.prefix_refl _
      | cons m rest ih =>
        intro acc ms h
        simp only [addMembers] at h
        split at h
        · cases h
        · exact (List.prefix_append _ _).trans (ih h)
    exact grow hms

theorem World.Ok.sub_members (hw : w.Ok) {d : Nat} {kd : Cls} (hd : w[d]? = some kd) :
    ∀ {c : Nat} {k : Cls}, w[c]? = some k → Sub w.shape.basesOf c d →
      kd.members <+: k.members := by
  intro c
  induction c using Nat.strongRecOn with
  | _ c ih =>
    intro k h hs
    rcases sub_cases h hs with e | ⟨b, hb, hs'⟩
    · subst e; rw [hd] at h; cases h; exact List.prefix_refl _
    · obtain ⟨kb, hkb, _⟩ := hw.base h hb
      exact (ih b (hw.base_lt h hb) hkb hs').trans (hw.base_members h hb hkb)

theorem two_in_filter {α : Type} {p : α → Bool} {l : List α} {f : Nat → Option α} {bs : List Nat}
    (hl : l = bs.filterMap f) (hn : bs.Nodup) (h1 : (l.filter p).length ≤ 1)
    {a b : Nat} {x y : α} (ha : a ∈ bs) (hb : b ∈ bs) (hx : f a = some x) (hy : f b = some y)
    (px : p x = true) (py : p y = true) : a = b := by
  subst hl
  induction bs with
  | nil => cases ha
  | cons z rest ih =>
    rw [List.nodup_cons] at hn
    have in_rest : ∀ {c : Nat} {v : α}, c ∈ rest → f c = some v → p v = true →
        1 ≤ ((rest.filterMap f).filter p).length := by
      intro c v hc hv pv
      have : v ∈ (rest.filterMap f).filter p :=
        List.mem_filter.mpr ⟨List.mem_filterMap.mpr ⟨c, hc, hv⟩, pv⟩
      exact List.length_pos_of_mem this
    rcases List.mem_cons.mp ha with ea | ea
    · rcases List.mem_cons.mp hb with eb | eb
      · rw [ea, eb]
      · exfalso
        rw [← ea] at h1
        rw [List.filterMap_cons, hx] at h1
        simp only [List.filter_cons, px, if_true, List.length_cons] at h1
        have := in_rest eb hy py
        omega
    · rcases List.mem_cons.mp hb with eb | eb
      · exfalso
        rw [← eb] at h1
        rw [List.filterMap_cons, hy] at h1
        simp only [List.filter_cons, py, if_true, List.length_cons] at h1
        have := in_rest ea hx px
        omega
      · refine ih hn.2 ea eb ?_
        refine Nat.le_trans ?_ h1
        rw [List.filterMap_cons]
        split
        · exact Nat.le_refl _
        · rw [List.filter_cons]
          split
          · simp
          · exact Nat.le_refl _

/-- At most one base has members. -/
theorem World.Ok.one_base (hw : w.Ok) {c a b : Nat} {k ka kb : Cls} (h : w[c]? = some k)
    (ha : a ∈ k.bases) (hb : b ∈ k.bases) (hka : w[a]? = some ka) (hkb : w[b]? = some kb)
    (na : ka.members ≠ []) (nb : kb.members ≠ []) : a = b := by
  have hm := hw.made c k h
  obtain ⟨ka', h1, h2⟩ := hw.base h ha
  rw [hka] at h1; cases h1
  obtain ⟨kb', h3, h4⟩ := hw.base h hb
  rw [hkb] at h3; cases h3
  have hc : c < w.shape.length := by rw [shape_length]; exact World.Ok.lt h
  have hn := hw.shape.distinct c hc
  rw [shape_basesOf h] at hn
  have ne : ∀ {l : List Mem}, l ≠ [] → (!l.isEmpty) = true := by
    intro l hl; cases l with
    | nil => exact absurd rfl hl
    | cons _ _ => rfl
  exact two_in_filter rfl hn hm.one ha hb h2 h4 (ne na) (ne nb)

/-- Membership in the order is being a subclass. -/
theorem World.Ok.mem_mro (hw : w.Ok) {c d : Nat} {k : Cls} (h : w[c]? = some k) :
    d ∈ k.mro ↔ Sub w.shape.basesOf c d := by
  have hc : c < w.shape.length := by rw [shape_length]; exact World.Ok.lt h
  rw [← shape_mroOf h]
  constructor
  · intro hd
    have : ∀ c < w.shape.length, d ∈ w.shape.mroOf c → Sub w.shape.basesOf c d := by
      intro c
      induction c using Nat.strongRecOn with
      | _ c ih =>
        intro hc h
        rcases (mem_mro_iff hw.shape hc).mp h with e | ⟨b, hb, hd⟩
        · rw [e]; exact Sub.refl _
        · have := hw.shape.before c hc b hb
          exact Sub.step hb (ih b this (by omega) hd)
    exact this c hc hd
  · intro hs
    clear h
    induction hs with
    | refl a => exact head_mem hw.shape hc
    | @step a b d hb _ ih =>
      have := hw.shape.before a hc b hb
      exact (mem_mro_iff hw.shape hc).mpr (Or.inr ⟨b, hb, ih (by omega)⟩)

end Verif.Mro.Obj
