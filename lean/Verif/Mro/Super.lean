import Verif.Mro.Attr
import Mathlib.Data.List.Perm.Subperm
/-
C123: `super()` in methods of classes, in the interpreter and in compiled code.
-/
namespace Verif.Mro.Obj

/-! ### Model -/

/-- The classes after a class in an order; `none` if the class is not in it. -/
def afterClass (cls : Nat) : List Nat → Option (List Nat)
  | [] => none
  | c :: rest => if c = cls then some rest else afterClass cls rest

/-- `super().n` in a method of `cls`, with an instance of the class `actual`, in the interpreter: Python's `super` takes the first class after
`cls` in `__mro__` (PyClassInstance.cpp:824-859) whose dictionary has the name.  The dictionary of a class has all its methods, also those that it
inherits (PyClassInstance.cpp:719-737).  `none` is an exception.  Only methods are modelled. -/
def superInterpreted (w : World) (actual : Cls) (cls : Nat) (n : Name) : Option (List Ov) :=
  match afterClass cls actual.mro with
  | none => none
  | some rest => rest.findSome? fun i => match w[i]? with
    | some k => find k.functions n
    | none => none

/-- The same in compiled code, with a first argument of the class `view`: super_wrapper.py:95-121 `convert_call` takes the class that comes next,
and super_wrapper.py:142-148 `convert_attribute` looks for the method there only.  `none` is an exception, or an error in the compiler if the class is
not in the order (107-112, 121).  In a method that was found by virtual dispatch the class is that of the instance (class_wrapper.py:1273-1279). -/
def superCompiled (w : World) (view : Cls) (cls : Nat) (n : Name) : Option (List Ov) :=
  match afterClass cls view.mro with
  | none => none
  | some [] => none
  | some (i :: _) => match w[i]? with
    | some k => find k.functions n
    | none => none

/-! ### Specification -/

/-- What `super().n` is in Python for an instance of a class with this order: the overloads in the body of the first class after `cls` whose body
defines the method. -/
def SuperIs (w : World) (mro : List Nat) (cls : Nat) (n : Name) (fs : List Ov) : Prop :=
  ∃ pre before i after ki, mro = pre ++ cls :: (before ++ i :: after) ∧ cls ∉ pre ∧ w[i]? = some ki ∧ find ki.own.functions n = some fs ∧
    ∀ j ∈ before, ∀ kj, w[j]? = some kj → find kj.own.functions n = none

/-- No class after `cls` defines the method. -/
def NoSuper (w : World) (mro : List Nat) (cls : Nat) (n : Name) : Prop :=
  ∃ pre rest, mro = pre ++ cls :: rest ∧ cls ∉ pre ∧ ∀ j ∈ rest, ∀ kj, w[j]? = some kj → find kj.own.functions n = none

/-! ### Proofs -/

theorem afterClass_append {cls : Nat} {pre rest : List Nat} (h : cls ∉ pre) : afterClass cls (pre ++ cls :: rest) = some rest := by
  induction pre with
  | nil => simp [afterClass]
  | cons a pre ih =>
    have hne : a ≠ cls := fun e => h (by simp [e])
    simp only [List.cons_append, afterClass, hne, if_false]
    exact ih fun hm => h (List.mem_cons_of_mem _ hm)

theorem exists_after {cls : Nat} : ∀ {l : List Nat}, cls ∈ l → ∃ pre rest, l = pre ++ cls :: rest ∧ cls ∉ pre
  | a :: l, h => by
    by_cases e : a = cls
    · subst e; exact ⟨[], l, rfl, by simp⟩
    · obtain ⟨pre, rest, h1, h2⟩ := exists_after (l := l) ((List.mem_cons.mp h).resolve_left fun x => e x.symm)
      exact ⟨a :: pre, rest, by rw [h1]; rfl, by simp only [List.mem_cons, not_or]; exact ⟨fun x => e x.symm, h2⟩⟩

/-- The methods of a class begin with those of the first class of its order that defines the name. -/
theorem method_of_first {ss : List Stmt} (hn : ∀ s ∈ ss, s.bases.Nodup) {c : Nat} {k : Cls} (h : (run ss)[c]? = some k) {n : Name}
    {before after : List Nat} {i : Nat} {ki : Cls} (e : k.mro = before ++ i :: after) (hi : (run ss)[i]? = some ki)
    (hb : ∀ j ∈ before, ∀ kj, (run ss)[j]? = some kj → find kj.own.functions n = none) {fs : List Ov} (hf : find ki.own.functions n = some fs) :
    ∃ more, find k.functions n = some (fs ++ more) := by
  obtain ⟨h1, h2⟩ := functions_along_mro hn h .method n
  change (find k.functions n = none ↔ _) at h1
  change ∀ gs, find k.functions n = some gs → _ at h2
  cases g : find k.functions n with
  | none =>
    have := h1.mp g i (by rw [e]; simp) ki hi
    change find ki.own.functions n = none at this
    rw [hf] at this
    cases this
  | some gs =>
    refine ⟨after.flatMap (definedBy (run ss) .method n), ?_⟩
    rw [h2 gs g, e, List.flatMap_append, List.flatMap_cons]
    have hz : before.flatMap (definedBy (run ss) .method n) = [] := by
      rw [List.flatMap_eq_nil_iff]
      intro j hj
      unfold definedBy
      cases hkj : (run ss)[j]? with
      | none => rfl
      | some kj =>
        have := hb j hj kj hkj
        change (find kj.own.functions n).getD [] = []
        rw [this]; rfl
    have h3 : definedBy (run ss) .method n i = fs := by
      unfold definedBy
      rw [hi]
      change (find ki.own.functions n).getD [] = fs
      rw [hf]; rfl
    rw [hz, h3, List.nil_append]

/-- The order of a class begins with the class. -/
theorem World.Ok.mro_head {w : World} (hw : w.Ok) {c : Nat} {k : Cls} (h : w[c]? = some k) : ∃ rest, k.mro = c :: rest := by
  have hc : c < w.shape.length := by rw [shape_length]; exact World.Ok.lt h
  obtain ⟨out, _, e⟩ := hw.shape.order c hc
  rw [shape_mroOf h] at e
  exact ⟨out, e⟩

/-- Where no class has two bases, an order is the class and the order of its base. -/
theorem World.Ok.single_mro {w : World} (hw : w.Ok) {c : Nat} {k : Cls} (h : w[c]? = some k) (hs : k.bases.length ≤ 1) :
    (k.bases = [] ∧ k.mro = [c]) ∨ ∃ b kb, k.bases = [b] ∧ b < c ∧ w[b]? = some kb ∧ k.mro = c :: kb.mro := by
  have hc : c < w.shape.length := by rw [shape_length]; exact World.Ok.lt h
  obtain ⟨out, ho, e⟩ := hw.shape.order c hc
  rw [shape_mroOf h] at e
  rw [shape_basesOf h] at ho
  have hlin := ho.linearizes
  cases hb : k.bases with
  | nil =>
    left
    rw [hb] at hlin
    refine ⟨rfl, ?_⟩
    cases out with
    | nil => exact e
    | cons a out =>
      obtain ⟨l, hl, ha⟩ := (hlin.mem a).mp (.head _)
      simp [chains] at hl
      subst hl
      cases ha
  | cons b bs =>
    right
    have hbs : bs = [] := by
      rw [hb] at hs
      simp at hs
      exact hs
    subst hbs
    obtain ⟨kb, hkb, _⟩ := hw.base h (b := b) (by rw [hb]; simp)
    have hlt := hw.base_lt h (b := b) (by rw [hb]; simp)
    refine ⟨b, kb, rfl, hlt, hkb, ?_⟩
    rw [hb] at hlin
    have hch : chains w.shape.mroOf [b] = [kb.mro, [b]] := by
      simp [chains, shape_mroOf hkb]
    rw [hch] at hlin
    obtain ⟨rb, hrb⟩ := hw.mro_head hkb
    have hsub : kb.mro.Sublist out := hlin.keeps _ (by simp)
    have hle : out.length ≤ kb.mro.length := by
      apply List.Subperm.length_le
      apply hlin.nodup.subperm
      intro x hx
      obtain ⟨l, hl, hxl⟩ := (hlin.mem x).mp hx
      simp at hl
      rcases hl with rfl | rfl
      · exact hxl
      · simp at hxl; subst hxl; rw [hrb]; exact .head _
    rw [e, hsub.eq_of_length_le hle]

/-- Where no class has two bases, what comes after a class is the same in all orders. -/
theorem World.Ok.single_after {w : World} (hw : w.Ok) (hs : ∀ k ∈ w, k.bases.length ≤ 1) {cls : Nat} {kcls : Cls} (hcls : w[cls]? = some kcls) :
    ∀ {c : Nat} {k : Cls}, w[c]? = some k → cls ∈ k.mro → afterClass cls k.mro = some kcls.mro.tail := by
  intro c
  induction c using Nat.strongRecOn with
  | _ c ih =>
    intro k h hm
    by_cases e : c = cls
    · subst e
      rw [h] at hcls; cases hcls
      obtain ⟨rest, hr⟩ := hw.mro_head h
      rw [hr]
      simp [afterClass]
    · rcases hw.single_mro h (hs k (List.mem_of_getElem? h)) with ⟨_, hr⟩ | ⟨b, kb, _, hlt, hkb, hr⟩
      · rw [hr] at hm; simp at hm; exact absurd hm.symm e
      · rw [hr] at hm ⊢
        simp only [afterClass, e, if_false]
        exact ih b hlt hkb ((List.mem_cons.mp hm).resolve_left fun x => e x.symm)

theorem findSome_first {w : World} {n : Name} {i : Nat} {k : Cls} {rest : List Nat} {gs : List Ov} (h : w[i]? = some k) (hf : find k.functions n = some gs) :
    ((i :: rest).findSome? fun i => match w[i]? with | some k => find k.functions n | none => none) = some gs := by
  simp [h, hf]

/-- C123: if compiled code finds a method with `super()`, it is the one that the interpreter finds. -/
theorem super_compiled_same (w : World) (k : Cls) (cls : Nat) (n : Name) (gs : List Ov) (h : superCompiled w k cls n = some gs) :
    superInterpreted w k cls n = some gs := by
  unfold superCompiled at h
  unfold superInterpreted
  split at h
  · cases h
  · cases h
  · next i rest hr =>
    split at h
    · next ki hi => rw [hr]; exact findSome_first hi h
    · cases h

/-- C123: if the body of the class that comes next defines the method, `super()` is that method, in the interpreter and in compiled code; the
overloads of the classes after that one follow. -/
theorem super_next_partial {ss : List Stmt} (hn : ∀ s ∈ ss, s.bases.Nodup) {k : Cls} {cls i : Nat} {ki : Cls}
    {pre after : List Nat} {n : Name} {fs : List Ov} (e : k.mro = pre ++ cls :: i :: after) (hp : cls ∉ pre) (hi : (run ss)[i]? = some ki)
    (hf : find ki.own.functions n = some fs) :
    SuperIs (run ss) k.mro cls n fs ∧ ∃ more, superInterpreted (run ss) k cls n = some (fs ++ more) ∧ superCompiled (run ss) k cls n = some (fs ++ more) := by
  refine ⟨⟨pre, [], i, after, ki, e, hp, hi, hf, by simp⟩, ?_⟩
  obtain ⟨rest, hr⟩ := (run_ok hn).mro_head hi
  obtain ⟨more, hm⟩ := method_of_first hn hi (before := []) (n := n) hr hi (by simp) hf
  have hc : superCompiled (run ss) k cls n = some (fs ++ more) := by
    unfold superCompiled
    rw [e, afterClass_append hp]
    simp [hi, hm]
  exact ⟨more, super_compiled_same _ _ _ _ _ hc, hc⟩

/-- C123: where no class has more than one base, `super()` is Python's, in the interpreter and in compiled code, whatever class the instance has
and whatever superclass of it the compiler knows. -/
theorem super_single {ss : List Stmt} (hn : ∀ s ∈ ss, s.bases.Nodup) (hs : ∀ k ∈ run ss, k.bases.length ≤ 1) {c d cls : Nat} {kc kd : Cls}
    (hc : (run ss)[c]? = some kc) (hd : (run ss)[d]? = some kd) (hm : cls ∈ kc.mro) (hm' : cls ∈ kd.mro) (n : Name) :
    (∀ fs, SuperIs (run ss) kc.mro cls n fs → ∃ more, superInterpreted (run ss) kc cls n = some (fs ++ more) ∧
      superCompiled (run ss) kd cls n = some (fs ++ more)) ∧
    (NoSuper (run ss) kc.mro cls n → superInterpreted (run ss) kc cls n = none ∧ superCompiled (run ss) kd cls n = none) := by
  have hw := run_ok hn
  obtain ⟨kcls, hcls, _⟩ := hw.mro_le hc hm
  have h1 := hw.single_after hs hcls hc hm
  have h2 := hw.single_after hs hcls hd hm'
  rcases hw.single_mro hcls (hs kcls (List.mem_of_getElem? hcls)) with ⟨_, hr⟩ | ⟨b, kb, _, _, hkb, hr⟩
  · rw [hr] at h1 h2
    constructor
    · rintro fs ⟨pre, before, i, after, ki, e, hp, _⟩
      rw [e, afterClass_append hp] at h1
      simp at h1
    · intro _
      unfold superInterpreted superCompiled
      rw [h1, h2]
      exact ⟨rfl, rfl⟩
  · rw [hr] at h1 h2
    simp only [List.tail_cons] at h1 h2
    obtain ⟨rb, hrb⟩ := hw.mro_head hkb
    have hcomp : superCompiled (run ss) kd cls n = find kb.functions n := by
      unfold superCompiled
      rw [h2, hrb]
      simp [hkb]
    constructor
    · rintro fs ⟨pre, before, i, after, ki, e, hp, hi, hf, hb⟩
      rw [e, afterClass_append hp] at h1
      obtain ⟨more, hmore⟩ := method_of_first hn hkb (Option.some.inj h1).symm hi hb hf
      refine ⟨more, ?_, by rw [hcomp, hmore]⟩
      unfold superInterpreted
      rw [e, afterClass_append hp, h1, hrb]
      exact findSome_first hkb hmore
    · rintro ⟨pre, rest, e, hp, hnone⟩
      have h3 := h1
      rw [e, afterClass_append hp] at h3
      have h3 := Option.some.inj h3
      subst h3
      have hz : ∀ j ∈ kb.mro, ∀ kj, (run ss)[j]? = some kj → find kj.functions n = none := by
        intro j hj kj hkj
        refine ((functions_along_mro hn hkj .method n).1).mpr fun x hx kx hkx => ?_
        refine hnone x ?_ kx hkx
        rw [hw.mem_mro hkb]
        exact Sub.trans ((hw.mem_mro hkb).mp hj) ((hw.mem_mro hkj).mp hx)
      refine ⟨?_, by rw [hcomp]; exact hz b (by rw [hrb]; exact .head _) kb hkb⟩
      unfold superInterpreted
      rw [h1]
      simp only [List.findSome?_eq_none_iff]
      intro j hj
      split
      · next kj hkj => exact hz j hj kj hkj
      · rfl

/-! ### Where it is not -/

/-- C123: compiled code does not look beyond the class that comes next: if that class has no such method, there is none. -/
theorem super_gives_up (w : World) (k : Cls) (cls i : Nat) (ki : Cls) (pre after : List Nat) (n : Name) (e : k.mro = pre ++ cls :: i :: after)
    (hp : cls ∉ pre) (hi : w[i]? = some ki) (hf : find ki.functions n = none) : superCompiled w k cls n = none := by
  unfold superCompiled
  rw [e, afterClass_append hp]
  simp [hi, hf]

/-- A: f; B(A); C(A): f; D(B, C): f. -/
def diamond : List Stmt := [⟨[], false, [(10, .function 1)]⟩, ⟨[0], false, []⟩, ⟨[0], false, [(10, .function 2)]⟩, ⟨[1, 2], false, [(10, .function 3)]⟩]

/-- B; C: f; D(B, C): f. -/
def mixin : List Stmt := [⟨[], false, []⟩, ⟨[], false, [(10, .function 2)]⟩, ⟨[0, 1], false, [(10, .function 3)]⟩]

/-- A: f; B(A): f; C(B): nothing; D(C): f. -/
def line : List Stmt := [⟨[], false, [(10, .function 1)]⟩, ⟨[0], false, [(10, .function 2)]⟩, ⟨[1], false, []⟩, ⟨[2], false, [(10, .function 3)]⟩]

/-- C123: in a diamond `super().f` in D is C's f in Python, but A's f here, because B has inherited it. -/
theorem super_diamond : ∃ k, (run diamond)[3]? = some k ∧ k.mro = [3, 1, 2, 0] ∧ SuperIs (run diamond) k.mro 3 10 [2] ∧
    superInterpreted (run diamond) k 3 10 = some [1] ∧ superCompiled (run diamond) k 3 10 = some [1] := by
  refine ⟨((run diamond)[3]?).get (by decide +kernel), by simp, by decide +kernel, ?_, by decide +kernel, by decide +kernel⟩
  refine ⟨[], [1], 2, [0], ((run diamond)[2]?).get (by decide +kernel), by decide +kernel, by simp, by simp, by decide +kernel, ?_⟩
  intro j hj kj hkj
  simp at hj
  subst hj
  have : (run diamond)[1]? = some (((run diamond)[1]?).get (by decide +kernel)) := by simp
  rw [this] at hkj
  cases hkj
  decide +kernel

/-- C123: with two bases of which only the second has the method, the interpreter finds it and compiled code does not. -/
theorem super_mixin : ∃ k, (run mixin)[2]? = some k ∧ superInterpreted (run mixin) k 2 10 = some [2] ∧ superCompiled (run mixin) k 2 10 = none :=
  ⟨((run mixin)[2]?).get (by decide +kernel), by simp, by decide +kernel, by decide +kernel⟩

/-- A: f; B(A): f; C(A): f; D(B, C): the case of the unit test. -/
def diamond' : List Stmt := [⟨[], false, [(10, .function 1)]⟩, ⟨[0], false, [(10, .function 2)]⟩, ⟨[0], false, [(10, .function 3)]⟩, ⟨[1, 2], false, []⟩]

/-- The hypotheses of `super_next_partial` are met by a diamond whose classes all define the method: from D to B, from B to C and from C to A. -/
example : ((run diamond')[3]?.map fun k => [superCompiled (run diamond') k 3 10, superCompiled (run diamond') k 1 10, superCompiled (run diamond') k 2 10,
    superInterpreted (run diamond') k 3 10, superInterpreted (run diamond') k 1 10, superInterpreted (run diamond') k 2 10]) =
      some [some [2, 1], some [3, 1], some [1], some [2, 1], some [3, 1], some [1]] := by decide +kernel
/-- The hypotheses of `super_single` are met, with a class in between that does not define the method. -/
example : (∀ s ∈ line, s.bases.Nodup) ∧ (∀ k ∈ run line, k.bases.length ≤ 1) ∧
    ((run line)[3]?.map fun k => (k.mro, superInterpreted (run line) k 3 10, superCompiled (run line) k 3 10)) =
      some ([3, 2, 1, 0], some [2, 1], some [2, 1]) := by decide +kernel
/-- In the middle of the line, and at its end. -/
example : ((run line)[3]?.map fun k => [superInterpreted (run line) k 1 10, superCompiled (run line) k 1 10, superInterpreted (run line) k 0 10,
    superCompiled (run line) k 0 10, superCompiled (run line) k 7 10]) = some [some [1], some [1], none, none, none] := by decide +kernel

end Verif.Mro.Obj
