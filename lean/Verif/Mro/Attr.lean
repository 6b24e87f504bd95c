import Verif.Mro.ClassProps
/-
C76: which attribute an instance has, in the interpreter and in compiled code.
-/
namespace Verif.Mro.Obj

/-! ### Specification -/

/-- One kind of definitions of a class body. -/
inductive Kind where
  | method | static | property | classMethod
deriving DecidableEq, Repr

/-- The functions of this kind in the body of a class. -/
def Body.of (b : Body) : Kind → List (Name × List Ov)
  | .method => b.functions
  | .static => b.statics
  | .property => b.properties
  | .classMethod => b.classMethods

/-- The functions of this kind that instances of a class have. -/
def Cls.of (k : Cls) : Kind → List (Name × List Ov)
  | .method => k.functions
  | .static => k.statics
  | .property => k.properties
  | .classMethod => k.classMethods

/-- The overloads in the body of class `i`. -/
def definedBy (w : World) (kind : Kind) (n : Name) (i : Nat) : List Ov :=
  match w[i]? with
  | some ki => (find (ki.own.of kind) n).getD []
  | none => []

/-- The body of a class says something about the name. -/
def Binds (b : Body) (n : Name) : Prop :=
  (∃ kind fs, find (b.of kind) n = some fs) ∨ ∃ o, find b.classMembers n = some o

/-- The class uses the name for at most one of: methods, static methods, properties, class methods, and
values or data members. -/
def OneKind (k : Cls) (n : Name) : Prop :=
  ([(find k.functions n).isSome, (find k.statics n).isSome, (find k.properties n).isSome,
    (find k.classMethods n).isSome,
    (find k.classMembers n).isSome || (memberIndex k.members n).isSome].filter id).length ≤ 1

/-! ### Functions along the method resolution order -/

theorem foldl_both (f : Body → Option (List Ov)) : ∀ (bs : List Body) (a : Option (List Ov)),
    (bs.foldl (fun t b => both t (f b)) a = none ↔ a = none ∧ ∀ b ∈ bs, f b = none) ∧
    ∀ fs, bs.foldl (fun t b => both t (f b)) a = some fs →
      fs = a.getD [] ++ bs.flatMap (fun b => (f b).getD []) := by
  intro bs
  induction bs with
  | nil =>
    intro a
    constructor
    · simp
    · intro fs h
      simp only [List.foldl_nil] at h
      rw [h]; simp
  | cons b rest ih =>
    intro a
    rw [List.foldl_cons]
    obtain ⟨h1, h2⟩ := ih (both a (f b))
    constructor
    · rw [h1]
      cases a <;> cases hb : f b <;> simp [both, hb]
    · intro fs h
      rw [h2 fs h, List.flatMap_cons]
      cases a <;> cases hb : f b <;> simp [both]

theorem find_foldl_merge (sel : Body → List (Name × List Ov)) (n : Name) :
    ∀ (bs : List Body), (∀ b ∈ bs, Keys (sel b)) → ∀ (t : List (Name × List Ov)),
    find (bs.foldl (fun t b => mergeInto t (sel b)) t) n
      = bs.foldl (fun t b => both t (find (sel b) n)) (find t n) := by
  intro bs
  induction bs with
  | nil => intro _ t; rfl
  | cons b rest ih =>
    intro hk t
    rw [List.foldl_cons, List.foldl_cons, ih (fun x hx => hk x (List.mem_cons_of_mem _ hx)),
      find_mergeInto (hk b (by simp))]

theorem Body.Wf.keys {b : Body} (h : b.Wf) (kind : Kind) : Keys (b.of kind) := by
  cases kind
  · exact h.functions
  · exact h.statics
  · exact h.properties
  · exact h.classMethods

theorem Sub.trans {bases : Nat → List Nat} {a b c : Nat} (h : Sub bases a b) (h' : Sub bases b c) :
    Sub bases a c := by
  induction h with
  | refl => exact h'
  | step hb _ ih => exact Sub.step hb (ih h')

theorem World.Ok.mro_le {w : World} (hw : w.Ok) {c i : Nat} {k : Cls} (h : w[c]? = some k)
    (hi : i ∈ k.mro) : ∃ ki, w[i]? = some ki ∧ ownOf (w.take c) k.own i = ki.own := by
  have hs := (hw.mem_mro h).mp hi
  rcases sub_cases h hs with e | ⟨b, hb, hs'⟩
  · subst e
    refine ⟨k, h, ?_⟩
    unfold ownOf
    rw [List.getElem?_take, if_neg (by omega)]
  · obtain ⟨kb, h1, _⟩ := hw.base h hb
    obtain ⟨ki, hki, hle⟩ := hw.sub_exists h1 hs'
    have hlt := hw.base_lt h hb
    refine ⟨ki, hki, ?_⟩
    unfold ownOf
    rw [List.getElem?_take, if_pos (by omega), hki]

theorem World.Ok.body {w : World} (hw : w.Ok) {c : Nat} {k : Cls} (h : w[c]? = some k) {b : Body}
    (hb : b ∈ bodies (w.take c) k) : ∃ i ∈ k.mro, ∃ ki, w[i]? = some ki ∧ b = ki.own := by
  unfold bodies at hb
  obtain ⟨i, hi, e⟩ := List.mem_map.mp hb
  obtain ⟨ki, h1, h2⟩ := hw.mro_le h hi
  exact ⟨i, hi, ki, h1, by rw [← e, h2]⟩

theorem World.Ok.of {w : World} (hw : w.Ok) {c : Nat} {k : Cls} (h : w[c]? = some k) (kind : Kind) :
    k.of kind = (bodies (w.take c) k).foldl (fun t b => mergeInto t (b.of kind)) [] := by
  have hm := hw.made c k h
  cases kind
  · exact hm.functions
  · exact hm.statics
  · exact hm.properties
  · exact hm.classMethods

/-- C76 `functions_along_mro`.

After any class statements without repeated bases: a class has a method (static method, property,
class method) of a name exactly if one of the classes of its method resolution order defines one, and
then its overloads are those of all of these classes, in that order. -/
theorem functions_along_mro {ss : List Stmt} (hn : ∀ s ∈ ss, s.bases.Nodup) {c : Nat} {k : Cls}
    (h : (run ss)[c]? = some k) (kind : Kind) (n : Name) :
    (find (k.of kind) n = none ↔
      ∀ i ∈ k.mro, ∀ ki, (run ss)[i]? = some ki → find (ki.own.of kind) n = none) ∧
    ∀ fs, find (k.of kind) n = some fs → fs = k.mro.flatMap (definedBy (run ss) kind n) := by
  have hw := run_ok hn
  have hk : ∀ b ∈ bodies ((run ss).take c) k, Keys (b.of kind) := by
    intro b hb
    obtain ⟨i, _, ki, hki, e⟩ := hw.body h hb
    rw [e]
    exact (hw.wf ki (List.mem_of_getElem? hki)).keys kind
  rw [hw.of h kind, find_foldl_merge (fun b => b.of kind) n _ hk]
  obtain ⟨h1, h2⟩ := foldl_both (fun b => find (b.of kind) n) (bodies ((run ss).take c) k)
    (find ([] : List (Name × List Ov)) n)
  constructor
  · rw [h1]
    constructor
    · rintro ⟨_, ha⟩ i hi ki hki
      obtain ⟨ki', e1, e2⟩ := hw.mro_le h hi
      rw [hki] at e1
      cases e1
      rw [← e2]
      exact ha _ (List.mem_map.mpr ⟨i, hi, rfl⟩)
    · intro ha
      refine ⟨rfl, ?_⟩
      intro b hb
      obtain ⟨i, hi, ki, hki, e⟩ := hw.body h hb
      rw [e]
      exact ha i hi ki hki
  · intro fs hfs
    rw [h2 fs hfs]
    change [] ++ _ = _
    rw [List.nil_append]
    unfold bodies
    rw [List.flatMap_map]
    have key : ∀ i ∈ k.mro, (find ((ownOf ((run ss).take c) k.own i).of kind) n).getD []
        = definedBy (run ss) kind n i := by
      intro i hi
      obtain ⟨ki, e1, e2⟩ := hw.mro_le h hi
      rw [e2]
      unfold definedBy
      rw [e1]
    rw [List.flatMap_def, List.flatMap_def]
    congr 1
    exact List.map_congr_left key

theorem find_foldl_inherit (n : Name) : ∀ (bs : List Body), (∀ b ∈ bs, Keys b.classMembers) →
    ∀ (t : List (Name × PyObj)),
    find (bs.foldl (fun t b => inheritClassMembers t b.classMembers) t) n
      = ((find t n).or ((bs.map (fun b => find b.classMembers n)).findSome? id)) := by
  intro bs
  induction bs with
  | nil => intro _ t; simp
  | cons b rest ih =>
    intro hk t
    rw [List.foldl_cons, ih (fun x hx => hk x (List.mem_cons_of_mem _ hx)),
      find_inherit (hk b (by simp)), List.map_cons, List.findSome?_cons]
    cases find t n <;> cases hb : find b.classMembers n <;> simp

/-- C76 `class_member_of_first`.

The value of a class member is that of the first class of the method resolution order whose body
binds it. -/
theorem class_member_of_first {ss : List Stmt} (hn : ∀ s ∈ ss, s.bases.Nodup) {c : Nat} {k : Cls}
    (h : (run ss)[c]? = some k) (n : Name) (o : PyObj) :
    find k.classMembers n = some o ↔
      ∃ before i after ki, k.mro = before ++ i :: after ∧ (run ss)[i]? = some ki ∧
        find ki.own.classMembers n = some o ∧
        ∀ j ∈ before, ∀ kj, (run ss)[j]? = some kj → find kj.own.classMembers n = none := by
  have hw := run_ok hn
  have hk : ∀ b ∈ bodies ((run ss).take c) k, Keys b.classMembers := by
    intro b hb
    obtain ⟨i, _, ki, hki, e⟩ := hw.body h hb
    rw [e]
    exact (hw.wf ki (List.mem_of_getElem? hki)).classMembers
  rw [(hw.made c k h).classMembers, find_foldl_inherit n _ hk]
  change (none : Option PyObj).or _ = _ ↔ _
  rw [Option.none_or, List.findSome?_map]
  unfold bodies
  rw [List.findSome?_map, List.findSome?_eq_some_iff]
  constructor
  · rintro ⟨l1, i, l2, e, hf, hb⟩
    have hi : i ∈ k.mro := by rw [e]; simp
    obtain ⟨ki, e1, e2⟩ := hw.mro_le h hi
    refine ⟨l1, i, l2, ki, e, e1, ?_, ?_⟩
    · rw [← e2]; exact hf
    · intro j hj kj hkj
      obtain ⟨kj', e3, e4⟩ := hw.mro_le h (i := j) (by rw [e]; simp [hj])
      rw [hkj] at e3
      cases e3
      rw [← e4]
      exact hb j hj
  · rintro ⟨l1, i, l2, ki, e, e1, hf, hb⟩
    refine ⟨l1, i, l2, e, ?_, ?_⟩
    · obtain ⟨ki', e2, e3⟩ := hw.mro_le h (i := i) (by rw [e]; simp)
      rw [e1] at e2
      cases e2
      change find (ownOf _ _ i).classMembers n = _
      rw [e3]
      exact hf
    · intro j hj
      obtain ⟨kj, e3, e4⟩ := hw.mro_le h (i := j) (by rw [e]; simp [hj])
      change find (ownOf _ _ j).classMembers n = _
      rw [e4]
      exact hb j hj kj e3

/-! ### Compiled code -/

theorem World.Ok.sub_defines {ss : List Stmt} (hn : ∀ s ∈ ss, s.bases.Nodup) {c d : Nat}
    {kc kd : Cls} (hc : (run ss)[c]? = some kc) (hd : (run ss)[d]? = some kd)
    (hs : Sub (run ss).shape.basesOf c d) (kind : Kind) (n : Name)
    (h : (find (kd.of kind) n).isSome) : (find (kc.of kind) n).isSome := by
  have hw := run_ok hn
  cases e : find (kc.of kind) n with
  | some _ => rfl
  | none =>
    exfalso
    have h1 := ((functions_along_mro hn hc kind n).1).mp e
    have h2 : find (kd.of kind) n = none := by
      refine ((functions_along_mro hn hd kind n).1).mpr ?_
      intro i hi ki hki
      refine h1 i ?_ ki hki
      rw [hw.mem_mro hc]
      exact Sub.trans hs ((hw.mem_mro hd).mp hi)
    rw [h2] at h
    cases h

theorem findIdx_prefix {l l' : List Mem} {p : Mem → Bool} {i : Nat} (h : l <+: l')
    (hf : l.findIdx? p = some i) : l'.findIdx? p = some i := by
  obtain ⟨t, rfl⟩ := h
  rw [List.findIdx?_append, hf]
  rfl

/-- C76 `compiled_attribute_partial`.

For an instance of a class that uses the name for one kind of thing, compiled code that knows the
instance as one of any of its superclasses finds the same attribute as the interpreter, provided that
a class member of the superclass is not bound again in between.

Missing: names with two kinds of definitions and class members bound again, where they disagree; see
`compiled_attribute_refuted`. -/
theorem compiled_attribute_partial {ss : List Stmt} (hn : ∀ s ∈ ss, s.bases.Nodup) {c d : Nat}
    {kc kd : Cls} (hc : (run ss)[c]? = some kc) (hd : (run ss)[d]? = some kd)
    (hs : Sub (run ss).shape.basesOf c d) {n : Name} (hone : OneKind kc n)
    (hval : ∀ o, memberIndex kd.members n = none → find kd.classMembers n = some o →
      memberIndex kc.members n = none ∧ find kc.classMembers n = some o) :
    getattrCompiled kd kc n = getattr kc n := by
  have hw := run_ok hn
  have hm : ∀ ix, memberIndex kd.members n = some ix → memberIndex kc.members n = some ix :=
    fun ix h => findIdx_prefix (hw.sub_members hd hc hs) h
  have f1 := World.Ok.sub_defines hn hc hd hs .method n
  have f2 := World.Ok.sub_defines hn hc hd hs .static n
  have f3 := World.Ok.sub_defines hn hc hd hs .property n
  have f4 := World.Ok.sub_defines hn hc hd hs .classMethod n
  have ff : kd.final = true → kd = kc := by
    intro hf
    have := hw.final_sub hd hf hc hs
    subst this
    rw [hc] at hd
    cases hd
    rfl
  unfold OneKind at hone
  simp only [Cls.of] at f1 f2 f3 f4
  by_cases hf : kd.final = true
  · have := ff hf
    subst this
    unfold getattrCompiled getattr
    simp only [hf, if_true]
    cases h1 : find kd.functions n <;> cases h2 : find kd.statics n <;>
      cases h3 : find kd.properties n <;> cases h4 : find kd.classMethods n <;>
      cases h5 : find kd.classMembers n <;> cases h6 : memberIndex kd.members n <;>
      simp_all
  · unfold getattrCompiled getattr
    simp only [hf]
    cases h1 : find kc.functions n <;> cases h2 : find kc.statics n <;>
      cases h3 : find kc.properties n <;> cases h4 : find kc.classMethods n <;>
      cases h5 : find kc.classMembers n <;> cases h6 : memberIndex kc.members n <;>
      simp [h1, h2, h3, h4, h5, h6] at hone <;>
      simp only [h1, h2, h3, h4, Option.isSome_none, Option.isSome_some, Bool.false_eq_true,
        imp_false, Bool.not_eq_true, Option.isSome_eq_false_iff, Option.isNone_iff_eq_none]
        at f1 f2 f3 f4 <;>
      cases g1 : find kd.functions n <;> cases g2 : find kd.statics n <;>
      cases g3 : find kd.properties n <;> cases g4 : find kd.classMethods n <;>
      cases g5 : find kd.classMembers n <;> cases g6 : memberIndex kd.members n <;>
      simp_all

/-- Its hypotheses hold of a class with a base that has a method, a class member and a data member,
and the compiled code finds all three. -/
def demo2 : List Stmt :=
  [⟨[], false, [(10, .function 1), (11, .value 100), (12, .member 8 true 101)]⟩,
   ⟨[0], false, [(10, .function 2), (13, .value 102)]⟩]

instance (k : Cls) (n : Name) : Decidable (OneKind k n) := by unfold OneKind; infer_instance

example : (∀ s ∈ demo2, s.bases.Nodup) ∧
    (run demo2)[0]?.bind (fun kd => (run demo2)[1]?.map (fun kc =>
      ([10, 11, 12, 13].all (fun n => decide (OneKind kc n)),
       decide (memberIndex kc.members 11 = none ∧ find kd.classMembers 11 = find kc.classMembers 11),
       [10, 11, 12, 13].map (getattrCompiled kd kc))))
    = some (true, true, [some (.method [2, 1]), some (.value 100), some (.member 0),
        some (.value 102)]) := by decide +kernel

/-- C76 `compiled_attribute_refuted`.

1. With `x = Member(int)` and then `def x(self)` in one class, `c.x` is the data member in the
   interpreter and the method in compiled code.
2. With `X = 1` in a class, nothing in its subclass and `X = 2` in the subclass of that, compiled code
   that knows the instance as one of the first class finds 1 and the interpreter 2. -/
theorem compiled_attribute_refuted :
    (∃ ss k, (∀ s ∈ ss, s.bases.Nodup) ∧ (run ss)[0]? = some k ∧
      getattr k 10 = some (.member 0) ∧ getattrCompiled k k 10 = some (.method [1])) ∧
    (∃ ss kd kc, (∀ s ∈ ss, s.bases.Nodup) ∧ (run ss)[0]? = some kd ∧ (run ss)[2]? = some kc ∧
      Sub (run ss).shape.basesOf 2 0 ∧ OneKind kc 10 ∧
      getattr kc 10 = some (.value 101) ∧ getattrCompiled kd kc 10 = some (.value 100)) := by
  refine ⟨⟨[⟨[], false, [(10, .member 8 true 100), (10, .function 1)]⟩], _, by decide, rfl,
    by decide +kernel, by decide +kernel⟩, ?_⟩
  refine ⟨[⟨[], false, [(10, .value 100)]⟩, ⟨[0], false, []⟩, ⟨[1], false, [(10, .value 101)]⟩],
    _, _, by decide, rfl, rfl, ?_, by decide +kernel, by decide +kernel, by decide +kernel⟩
  exact Sub.step (b := 1) (by decide +kernel)
    (Sub.step (b := 0) (by decide +kernel) (Sub.refl 0))

/-! ### Python's lookup -/

theorem World.Ok.of_first {ss : List Stmt} (hn : ∀ s ∈ ss, s.bases.Nodup) {c : Nat} {k : Cls}
    (h : (run ss)[c]? = some k) {n : Name} {before after : List Nat} {i : Nat} {ki : Cls}
    (e : k.mro = before ++ i :: after) (hi : (run ss)[i]? = some ki)
    (hb : ∀ j ∈ before, ∀ kj, (run ss)[j]? = some kj → ¬ Binds kj.own n) (kind : Kind)
    {fs : List Ov} (hf : find (ki.own.of kind) n = some fs) :
    ∃ rest, find (k.of kind) n = some (fs ++ rest) := by
  obtain ⟨h1, h2⟩ := functions_along_mro hn h kind n
  cases g : find (k.of kind) n with
  | none =>
    have := h1.mp g i (by rw [e]; simp) ki hi
    rw [hf] at this
    cases this
  | some gs =>
    refine ⟨after.flatMap (definedBy (run ss) kind n), ?_⟩
    rw [h2 gs g, e, List.flatMap_append, List.flatMap_cons]
    have : before.flatMap (definedBy (run ss) kind n) = [] := by
      rw [List.flatMap_eq_nil_iff]
      intro j hj
      unfold definedBy
      cases hkj : (run ss)[j]? with
      | none => rfl
      | some kj =>
        cases hfj : find (kj.own.of kind) n with
        | none => simp only [hfj, Option.getD_none]
        | some f => exact absurd (Or.inl ⟨kind, f, hfj⟩) (hb j hj kj hkj)
    have h3 : definedBy (run ss) kind n i = fs := by
      unfold definedBy
      rw [hi]
      simp only [hf, Option.getD_some]
    rw [this, h3, List.nil_append]

/-- C76 `attribute_of_first_partial`.

For a name that a class uses for one kind of thing, an attribute of its instances is the one defined
by the first class of the method resolution order whose body binds the name, as in Python; the
overloads of later classes follow.

Missing: names used for more than one kind of thing; see `attribute_of_first_refuted`. -/
theorem attribute_of_first_partial {ss : List Stmt} (hn : ∀ s ∈ ss, s.bases.Nodup) {c : Nat} {k : Cls}
    (h : (run ss)[c]? = some k) {n : Name} (hone : OneKind k n) {before after : List Nat} {i : Nat}
    {ki : Cls} (e : k.mro = before ++ i :: after) (hi : (run ss)[i]? = some ki)
    (hb : ∀ j ∈ before, ∀ kj, (run ss)[j]? = some kj → ¬ Binds kj.own n) :
    (∀ fs, find ki.own.functions n = some fs → ∃ rest, getattr k n = some (.method (fs ++ rest))) ∧
    (∀ fs, find ki.own.properties n = some fs → ∃ rest, getattr k n = some (.property (fs ++ rest))) ∧
    (∀ fs, find ki.own.classMethods n = some fs →
      ∃ rest, getattr k n = some (.classMethod (fs ++ rest))) ∧
    (∀ fs, find ki.own.statics n = some fs → ∃ rest, getattr k n = some (.static (fs ++ rest))) ∧
    (∀ o, find ki.own.classMembers n = some o → (∀ m ∈ k.members, m.name ≠ n) →
      getattr k n = some (.value o)) ∧
    (∀ m ∈ ki.own.members, m.name = n →
      ∃ ix, getattr k n = some (.member ix) ∧ k.members[ix]? = some m) := by
  have hw := run_ok hn
  have hone' := hone
  unfold OneKind at hone'
  refine ⟨?_, ?_, ?_, ?_, ?_, ?_⟩
  · intro fs hf
    obtain ⟨rest, hr⟩ := World.Ok.of_first hn h e hi hb .method hf
    refine ⟨rest, ?_⟩
    simp only [Cls.of] at hr
    unfold getattr
    cases h2 : find k.statics n <;> cases h3 : find k.properties n <;>
      cases h4 : find k.classMethods n <;> cases h5 : find k.classMembers n <;>
      cases h6 : memberIndex k.members n <;> simp_all
  · intro fs hf
    obtain ⟨rest, hr⟩ := World.Ok.of_first hn h e hi hb .property hf
    refine ⟨rest, ?_⟩
    simp only [Cls.of] at hr
    unfold getattr
    cases h2 : find k.statics n <;> cases h3 : find k.functions n <;>
      cases h4 : find k.classMethods n <;> cases h5 : find k.classMembers n <;>
      cases h6 : memberIndex k.members n <;> simp_all
  · intro fs hf
    obtain ⟨rest, hr⟩ := World.Ok.of_first hn h e hi hb .classMethod hf
    refine ⟨rest, ?_⟩
    simp only [Cls.of] at hr
    unfold getattr
    cases h2 : find k.statics n <;> cases h3 : find k.functions n <;>
      cases h4 : find k.properties n <;> cases h5 : find k.classMembers n <;>
      cases h6 : memberIndex k.members n <;> simp_all
  · intro fs hf
    obtain ⟨rest, hr⟩ := World.Ok.of_first hn h e hi hb .static hf
    refine ⟨rest, ?_⟩
    simp only [Cls.of] at hr
    unfold getattr
    cases h2 : find k.classMethods n <;> cases h3 : find k.functions n <;>
      cases h4 : find k.properties n <;> cases h5 : find k.classMembers n <;>
      cases h6 : memberIndex k.members n <;> simp_all
  · intro o ho hm
    have hr : find k.classMembers n = some o := by
      rw [class_member_of_first hn h n o]
      refine ⟨before, i, after, ki, e, hi, ho, ?_⟩
      intro j hj kj hkj
      cases hf : find kj.own.classMembers n with
      | none => rfl
      | some f => exact absurd (Or.inr ⟨f, hf⟩) (hb j hj kj hkj)
    have h6 : memberIndex k.members n = none := by
      unfold memberIndex
      rw [List.findIdx?_eq_none_iff]
      intro m hmem
      simpa using hm m hmem
    unfold getattr
    cases h2 : find k.classMethods n <;> cases h3 : find k.functions n <;>
      cases h4 : find k.properties n <;> cases h5 : find k.statics n <;> simp_all
  · intro m hm hname
    have hs : Sub (run ss).shape.basesOf c i := (hw.mem_mro h).mp (by rw [e]; simp)
    have hmi : m ∈ ki.members := by
      rw [(addMembers_ok (hw.made i ki hi).members ?_).1]
      · exact List.mem_append_right _ hm
      · rcases baseMembers_cases (bs := ki.bases.filterMap (fun b => ((run ss).take i)[b]?))
          (acc := []) with e' | ⟨kb, hkb, e'⟩
        · rw [e']; exact List.nodup_nil
        · rw [e']
          obtain ⟨b, hb', hb''⟩ := List.mem_filterMap.mp hkb
          obtain ⟨kb', h1, h2⟩ := hw.base hi hb'
          rw [hb''] at h2
          cases h2
          exact hw.names_nodup h1
    have hmk : m ∈ k.members := (hw.sub_members hi h hs).subset hmi
    have hnd := hw.names_nodup h
    cases h6 : memberIndex k.members n with
    | none =>
      unfold memberIndex at h6
      rw [List.findIdx?_eq_none_iff] at h6
      have := h6 m hmk
      rw [hname] at this
      simp at this
    | some ix =>
      refine ⟨ix, by unfold getattr; rw [h6], ?_⟩
      unfold memberIndex at h6
      rw [List.findIdx?_eq_some_iff_getElem] at h6
      obtain ⟨hlt, hp, _⟩ := h6
      rw [List.getElem?_eq_some_iff]
      refine ⟨hlt, ?_⟩
      obtain ⟨jx, hj, ej⟩ := List.getElem_of_mem hmk
      have hij : (k.members.map Mem.name)[ix]'(by simpa using hlt)
          = (k.members.map Mem.name)[jx]'(by simpa using hj) := by
        rw [List.getElem_map, List.getElem_map, ej, hname]
        simpa using hp
      have := (List.getElem_inj hnd).mp hij
      subst this
      exact ej

/-- Its hypotheses hold of the method that both classes of `demo2` define. -/
example : (run demo2)[1]?.map (fun k => (k.mro, decide (OneKind k 10), getattr k 10)) =
      some ([1, 0], true, some (.method [2, 1])) ∧
    (run demo2)[1]?.map (fun k => find k.own.functions 10) = some (some [2]) := by decide +kernel

/-- C76 `attribute_of_first_refuted`.

With `def x(self)` in a class and `x = 2` in its subclass, `x` of an instance of the subclass is the
method of the base. -/
theorem attribute_of_first_refuted :
    ∃ ss k, (∀ s ∈ ss, s.bases.Nodup) ∧ (run ss)[1]? = some k ∧ k.mro = [1, 0] ∧
      find k.own.classMembers 10 = some 100 ∧ getattr k 10 = some (.method [1]) :=
  ⟨[⟨[], false, [(10, .function 1)]⟩, ⟨[0], false, [(10, .value 100)]⟩], _, by decide, rfl,
    by decide +kernel, by decide +kernel, by decide +kernel⟩

end Verif.Mro.Obj
