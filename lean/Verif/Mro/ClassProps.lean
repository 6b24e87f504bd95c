import Verif.Mro.ClassProofs
/-
C74: data members of a class are where all its superclasses expect them, and final classes have no
subclasses.  C75: what the compiler concludes from two classes about their instances.
-/
namespace Verif.Mro.Obj

/-! ### C74 -/

theorem baseMembers_cases : ∀ {bs : List Cls} {acc : List Mem},
    baseMembers bs acc = acc ∨ ∃ b ∈ bs, baseMembers bs acc = b.members := by
  intro bs
  induction bs with
  | nil => intro acc; exact Or.inl rfl
  | cons x rest ih =>
    intro acc
    rw [baseMembers]
    rcases ih (acc := if x.members = [] then acc else x.members) with h | ⟨b, hb, h⟩
    · rw [h]
      by_cases e : x.members = []
      · rw [if_pos e]; exact Or.inl rfl
      · rw [if_neg e]; exact Or.inr ⟨x, by simp, rfl⟩
    · exact Or.inr ⟨b, List.mem_cons_of_mem _ hb, h⟩

theorem World.Ok.names_nodup {w : World} (hw : w.Ok) : ∀ {c : Nat} {k : Cls}, w[c]? = some k →
    (k.members.map Mem.name).Nodup := by
  intro c
  induction c using Nat.strongRecOn with
  | _ c ih =>
    intro k h
    have hm := hw.made c k h
    refine (addMembers_ok hm.members ?_).2
    rcases baseMembers_cases (bs := k.bases.filterMap (fun b => (w.take c)[b]?)) (acc := [])
      with e | ⟨kb, hkb, e⟩
    · rw [e]; exact List.nodup_nil
    · rw [e]
      obtain ⟨b, hb, hb'⟩ := List.mem_filterMap.mp hkb
      obtain ⟨kb', h1, h2⟩ := hw.base h hb
      rw [hb'] at h2
      cases h2
      exact ih b (hw.base_lt h hb) h1

theorem World.Ok.final_sub {w : World} (hw : w.Ok) {d : Nat} {kd : Cls} (hd : w[d]? = some kd)
    (hf : kd.final = true) : ∀ {c : Nat} {k : Cls}, w[c]? = some k →
    Sub w.shape.basesOf c d → c = d := by
  intro c
  induction c using Nat.strongRecOn with
  | _ c ih =>
    intro k h hs
    rcases sub_cases h hs with e | ⟨b, hb, hs'⟩
    · exact e.symm
    · exfalso
      obtain ⟨kb, h1, h2⟩ := hw.base h hb
      have hbd : b = d := ih b (hw.base_lt h hb) h1 hs'
      subst hbd
      rw [hd] at h1
      cases h1
      have := (hw.made c k h).final b hb kd h2
      rw [hf] at this
      cases this

/-- C74 `members_inherited`.

After any class statements without repeated bases, the data members of a class begin with those of
each of its superclasses, in the same places, and no name is used twice. -/
theorem members_inherited {ss : List Stmt} (hn : ∀ s ∈ ss, s.bases.Nodup) {c d : Nat} {kc kd : Cls}
    (hc : (run ss)[c]? = some kc) (hd : (run ss)[d]? = some kd)
    (hs : Sub (run ss).shape.basesOf c d) :
    (kc.members.map Mem.name).Nodup ∧
    ∀ (ix : Nat) (m : Mem), kd.members[ix]? = some m → kc.members[ix]? = some m := by
  have hw := run_ok hn
  refine ⟨hw.names_nodup hc, ?_⟩
  intro ix m h
  obtain ⟨t, ht⟩ := hw.sub_members hd hc hs
  rw [← ht, List.getElem?_append_left (List.getElem?_eq_some_iff.mp h).1]
  exact h

/-- C74 `final_not_subclassed`.

A final class is the superclass of no other class. -/
theorem final_not_subclassed {ss : List Stmt} (hn : ∀ s ∈ ss, s.bases.Nodup) {c d : Nat}
    {kc kd : Cls} (hc : (run ss)[c]? = some kc) (hd : (run ss)[d]? = some kd)
    (hf : kd.final = true) (hs : Sub (run ss).shape.basesOf c d) : c = d :=
  (run_ok hn).final_sub hd hf hc hs

/-- C74 `member_layout`.

Compiled code that knows an instance of a class as an instance of any of its superclasses finds each
member of the superclass at the place where the interpreter keeps it; the members of an instance do
not overlap each other or the initialization bits; and the bit of each member that may be empty is
among the initialization bits. -/
theorem member_layout {ss : List Stmt} (hn : ∀ s ∈ ss, s.bases.Nodup) {c d : Nat} {kc kd : Cls}
    (hc : (run ss)[c]? = some kc) (hd : (run ss)[d]? = some kd)
    (hs : Sub (run ss).shape.basesOf c d) :
    (∀ ix < kd.members.length, memberPtr kd kc ix = offset kc ix) ∧
    (∀ (ix : Nat) (m : Mem), kc.members[ix]? = some m → initBytes kc ≤ offset kc ix ∧
      (∀ jx, ix < jx → offset kc ix + m.size ≤ offset kc jx) ∧
      (m.nonempty = false → ix / 8 < initBytes kc)) := by
  have hw := run_ok hn
  refine ⟨?_, ?_⟩
  · intro ix hix
    unfold memberPtr offset
    obtain ⟨t, ht⟩ := hw.sub_members hd hc hs
    have hb : bytesBefore kd.members ix = bytesBefore kc.members ix := by
      unfold bytesBefore
      rw [← ht, List.take_append_of_le_length (by omega)]
    rw [hb]
    by_cases hf : kd.final = true
    · have := hw.final_sub hd hf hc hs
      subst this
      rw [hc] at hd
      cases hd
      rw [if_pos hf]
    · rw [if_neg hf]
  · intro ix m hm
    refine ⟨by unfold offset; omega, ?_, ?_⟩
    · intro jx hlt
      unfold offset bytesBefore
      have h1 : kc.members.take jx = kc.members.take ix ++ (kc.members.take jx).drop ix := by
        conv => lhs; rw [← List.take_append_drop ix (kc.members.take jx)]
        rw [List.take_take, Nat.min_eq_left (by omega)]
      rw [h1]
      have hlen := (List.getElem?_eq_some_iff.mp hm).1
      have h2 : (kc.members.take jx).drop ix = m :: (kc.members.take jx).drop (ix + 1) := by
        rw [List.drop_eq_getElem_cons (by rw [List.length_take]; omega)]
        rw [List.getElem_take]
        have := (List.getElem?_eq_some_iff.mp hm).2
        rw [this]
      rw [h2]
      simp only [List.map_append, List.map_cons, List.sum_append, List.sum_cons]
      omega
    · intro hne
      have hlen := (List.getElem?_eq_some_iff.mp hm).1
      have hmem : m ∈ kc.members := List.mem_of_getElem? hm
      unfold initBytes
      rw [if_pos]
      · omega
      · rw [List.any_eq_true]
        exact ⟨m, hmem, by rw [hne]; rfl⟩

/-- Their hypotheses hold of a class with two more members than its base. -/
def demo : List Stmt :=
  [⟨[], false, [(10, .member 8 true 100)]⟩, ⟨[], false, [(11, .function 1)]⟩,
   ⟨[0, 1], true, [(12, .member 8 false 101), (13, .member 4 false 102)]⟩]

theorem demo_sub : Sub (run demo).shape.basesOf 2 0 :=
  Sub.step (b := 0) (by decide +kernel) (Sub.refl 0)

example : (∀ s ∈ demo, s.bases.Nodup) ∧
    ((run demo)[2]?.map (fun k => (k.members.map Mem.name, offset k 0, offset k 1, offset k 2)))
      = some ([10, 12, 13], 1, 9, 17) ∧
    (run demo)[0]?.map (fun kd => (run demo)[2]?.map (fun kc => memberPtr kd kc 0)) =
      some (some 1) ∧
    -- a further class statement with the final class as its base fails
    (exec (run demo) ⟨[2], false, []⟩).2 = some .finalBase ∧
    (exec (run demo) ⟨[0, 0], false, []⟩).2 = some .twoBasesWithMembers := by decide +kernel

/-! ### C75 -/

/-- Classes with members have a common subclass only if one is a subclass of the other. -/
theorem World.Ok.common_sub {w : World} (hw : w.Ok) {c d : Nat} {kc kd : Cls}
    (hc : w[c]? = some kc) (hd : w[d]? = some kd) (mc : kc.members ≠ []) (md : kd.members ≠ []) :
    ∀ {e : Nat} {ke : Cls}, w[e]? = some ke → Sub w.shape.basesOf e c → Sub w.shape.basesOf e d →
      Sub w.shape.basesOf c d ∨ Sub w.shape.basesOf d c := by
  intro e
  induction e using Nat.strongRecOn with
  | _ e ih =>
    intro ke he h1 h2
    rcases sub_cases he h1 with e1 | ⟨b1, hb1, s1⟩
    · rw [e1]; exact Or.inl h2
    · rcases sub_cases he h2 with e2 | ⟨b2, hb2, s2⟩
      · rw [e2]; exact Or.inr h1
      · obtain ⟨k1, hk1, _⟩ := hw.base he hb1
        obtain ⟨k2, hk2, _⟩ := hw.base he hb2
        have ne : ∀ {k kb : Cls}, k.members ≠ [] → k.members <+: kb.members → kb.members ≠ [] := by
          intro k kb hne hp e
          rw [e] at hp
          exact hne (List.prefix_nil.mp hp)
        have n1 := ne mc (hw.sub_members hc hk1 s1)
        have n2 := ne md (hw.sub_members hd hk2 s2)
        have hb : b1 = b2 := hw.one_base he hb1 hb2 hk1 hk2 n1 n2
        subst hb
        exact ih b1 (hw.base_lt he hb1) hk1 s1 s2

theorem run_append (ss ss' : List Stmt) :
    run (ss ++ ss') = ss'.foldl (fun w s => (exec w s).1) (run ss) := by
  unfold run; rw [List.foldl_append]

/-- Later class statements leave a class as it is. -/
theorem run_keeps {ss ss' : List Stmt} {c : Nat} {k : Cls} (h : (run ss)[c]? = some k) :
    (run (ss ++ ss'))[c]? = some k := by
  rw [run_append]
  have : ∀ (l : List Stmt) (w : World), w[c]? = some k →
      (l.foldl (fun w s => (exec w s).1) w)[c]? = some k := by
    intro l
    induction l with
    | nil => intro w h; exact h
    | cons s rest ih => intro w h; exact ih _ (exec_keeps h)
  exact this ss' _ h

/-- The class members of two classes do not contradict each other. -/
def Compatible (kc kd : Cls) : Prop :=
  ∀ n a b, exempt n = false → find kc.classMembers n = some a → find kd.classMembers n = some b →
    a = b

theorem mem_of_find {β : Type} {m : List (Name × β)} {n : Name} {v : β} :
    (n, v) ∈ m → (find m n).isSome := by
  induction m with
  | nil => intro h; cases h
  | cons p t ih =>
    obtain ⟨x, u⟩ := p
    intro h
    change (if x = n then some u else find t n).isSome
    by_cases e : x = n
    · rw [if_pos e]; rfl
    · rw [if_neg e]
      rcases List.mem_cons.mp h with h' | h'
      · simp only [Prod.mk.injEq] at h'; exact absurd h'.1.symm e
      · exact ih h'

theorem Keys.mergeIntoCM {s : List (Name × PyObj)} : ∀ {t : List (Name × PyObj)}, Keys t →
    Keys (inheritClassMembers t s) := by
  induction s with
  | nil => intro t h; exact h
  | cons p s ih =>
    obtain ⟨x, v⟩ := p
    intro t h
    rw [inheritClassMembers]
    apply ih
    split
    · exact h.put _ _
    · exact h

theorem World.Ok.classMembers_keys {w : World} (hw : w.Ok) {c : Nat} {k : Cls}
    (h : w[c]? = some k) : Keys k.classMembers := by
  rw [(hw.made c k h).classMembers]
  have : ∀ (bs : List Body) (t : List (Name × PyObj)), Keys t →
      Keys (bs.foldl (fun t b => inheritClassMembers t b.classMembers) t) := by
    intro bs
    induction bs with
    | nil => intro t h; exact h
    | cons b rest ih => intro t h; exact ih _ h.mergeIntoCM
  exact this _ [] List.nodup_nil

/-- C75 `could_be_yes`.

The compiler concludes that every instance of `c` is an instance of `d` exactly if `c` is a subclass
of `d`. -/
theorem could_be_yes {ss : List Stmt} (hn : ∀ s ∈ ss, s.bases.Nodup) {c d : Nat} {kc kd : Cls}
    (hc : (run ss)[c]? = some kc) (hd : (run ss)[d]? = some kd) :
    classCouldBeInstanceOf (run ss) c d = .yes ↔ Sub (run ss).shape.basesOf c d := by
  have hw := run_ok hn
  rw [← hw.mem_mro hc, ← List.contains_iff_mem]
  unfold classCouldBeInstanceOf
  rw [hc, hd]
  simp only
  by_cases h1 : kc.mro.contains d = true
  · simp only [h1, if_true]
  · simp only [h1]
    constructor
    · intro h
      exfalso
      revert h
      (repeat' split) <;> simp_all
    · intro h; cases h

/-- C75 `could_be_no_partial`.

If the compiler concludes that no instance of `c` is an instance of `d`, and the class members of the
two do not contradict each other, then no class is a subclass of both, neither now nor after any
further class statements.

Missing: classes with contradicting class members, which do have common subclasses; see
`could_be_no_refuted`. -/
theorem could_be_no_partial {ss ss' : List Stmt} (hn : ∀ s ∈ ss ++ ss', s.bases.Nodup) {c d : Nat}
    {kc kd : Cls} (hc : (run ss)[c]? = some kc) (hd : (run ss)[d]? = some kd)
    (hcomp : Compatible kc kd) (hno : classCouldBeInstanceOf (run ss) c d = .no) (e : Nat) (ke : Cls)
    (he : (run (ss ++ ss'))[e]? = some ke) :
    ¬ (Sub (run (ss ++ ss')).shape.basesOf e c ∧ Sub (run (ss ++ ss')).shape.basesOf e d) := by
  rintro ⟨h1, h2⟩
  have hw := run_ok hn
  have hw0 := run_ok (ss := ss) (fun s hs => hn s (List.mem_append_left _ hs))
  have hc' := run_keeps (ss' := ss') hc
  have hd' := run_keeps (ss' := ss') hd
  -- neither is a subclass of the other
  unfold classCouldBeInstanceOf at hno
  rw [hc, hd] at hno
  simp only at hno
  split at hno
  · cases hno
  · rename_i hcd
    split at hno
    · cases hno
    · rename_i hdc
      rw [List.contains_iff_mem, hw.mem_mro hc'] at hcd
      rw [List.contains_iff_mem, hw.mem_mro hd'] at hdc
      split at hno
      · rename_i hf
        rw [Bool.or_eq_true] at hf
        rcases hf with hf | hf
        · have := hw.final_sub hc' hf he h1
          rw [this] at h2
          exact hcd h2
        · have := hw.final_sub hd' hf he h2
          rw [this] at h1
          exact hdc h1
      · split at hno
        · rename_i hm
          have ne : ∀ {l : List Mem}, (!l.isEmpty) = true → l ≠ [] := by
            intro l hl e; rw [e] at hl; cases hl
          rw [Bool.and_eq_true] at hm
          rcases hw.common_sub hc' hd' (ne hm.1) (ne hm.2) he h1 h2 with h | h
          · exact hcd h
          · exact hdc h
        · split at hno
          · rename_i hany
            rw [List.any_eq_true] at hany
            obtain ⟨⟨n, a⟩, hmem, hp⟩ := hany
            rw [Bool.and_eq_true] at hp
            obtain ⟨hp1, hp2⟩ := hp
            simp only at hp1 hp2
            have ha := (mem_iff_find (hw0.classMembers_keys hc)).mp hmem
            cases hb : find kd.classMembers n with
            | none => rw [hb] at hp2; cases hp2
            | some b =>
              rw [hb] at hp2
              have := hcomp n a b (by simpa using hp1) ha hb
              rw [this] at hp2
              simp at hp2
          · cases hno

/-- Its hypotheses hold of two classes with members each: the compiler says no, and a class with both
as its bases is rejected. -/
example :
    let ss : List Stmt := [⟨[], false, [(10, .member 8 true 100)]⟩, ⟨[], false, [(11, .member 8 true 101)]⟩]
    (∀ s ∈ ss, s.bases.Nodup) ∧ classCouldBeInstanceOf (run ss) 0 1 = .no ∧
    (exec (run ss) ⟨[0, 1], false, []⟩).2 = some .twoBasesWithMembers := by decide +kernel

example : Compatible
    ⟨[], false, {}, [0], [], [], [], [], [(10, 100)], []⟩
    ⟨[], false, {}, [1], [], [], [], [], [(11, 101), (2, 5)], []⟩ := by
  intro n a b hx ha hb
  simp only [find] at ha hb
  split at ha
  · rename_i h; subst h; simp at hb
  · cases ha

/-- C75 `could_be_no_refuted`.

With `class A(Class): X = int`, `class B(Class): X = float` the compiler concludes that no instance of
`A` is an instance of `B`, although `class C(A, B): pass` is accepted, before or after. -/
theorem could_be_no_refuted :
    ∃ ss : List Stmt, (∀ s ∈ ss, s.bases.Nodup) ∧
      classCouldBeInstanceOf (run ss) 0 1 = .no ∧
      Sub (run ss).shape.basesOf 2 0 ∧ Sub (run ss).shape.basesOf 2 1 ∧
      (run ss)[2]?.isSome := by
  refine ⟨[⟨[], false, [(10, .value 100)]⟩, ⟨[], false, [(10, .value 101)]⟩, ⟨[0, 1], false, []⟩],
    by decide, by decide +kernel, ?_, ?_, by decide +kernel⟩
  · exact Sub.step (b := 0) (by decide +kernel) (Sub.refl 0)
  · exact Sub.step (b := 1) (by decide +kernel) (Sub.refl 1)

end Verif.Mro.Obj
