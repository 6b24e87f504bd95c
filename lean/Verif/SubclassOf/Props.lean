import Verif.SubclassOf.Model
import Verif.Mro.ClassProps
import Verif.Mro.Attr
/-
C131.  `Sub` (Mro/Spec) is "is the class itself or has a base that is a subclass".
-/
namespace Verif.SubclassOf
open Verif.Mro.Obj
open Verif.Mro (Sub)

/-- `e` is a subclass of `d`, by the bases of the class statements. -/
abbrev IsSub (ss : List Stmt) (e d : Nat) : Prop := Sub (run ss).shape.basesOf e d

theorem typePtr_spec {ss : List Stmt} (hn : ∀ s ∈ ss, s.bases.Nodup) {e d : Nat} {ke : Cls} (he : (run ss)[e]? = some ke) :
    typePtrIsSubclass (run ss) e d = true ↔ IsSub ss e d := by
  have hw := run_ok hn
  unfold typePtrIsSubclass isSubclassOf
  by_cases h : e = d
  · rw [if_pos h, h]; exact ⟨fun _ => Sub.refl d, fun _ => rfl⟩
  · rw [if_neg h, if_neg (fun h' => h h'.symm), he]
    simp only
    rw [List.contains_iff_mem, hw.mem_mro he]

theorem trivially_spec {ss : List Stmt} (hn : ∀ s ∈ ss, s.bases.Nodup) {c d : Nat} {kc : Cls} (hc : (run ss)[c]? = some kc) :
    canConvertToTrivially (run ss) c d = true ↔ IsSub ss c d := typePtr_spec hn hc

/-- What was a subclass remains one. -/
theorem sub_later {ss ss' : List Stmt} (hn : ∀ s ∈ ss ++ ss', s.bases.Nodup) {c d : Nat} {kc : Cls} (hc : (run ss)[c]? = some kc) :
    IsSub ss c d ↔ IsSub (ss ++ ss') c d := by
  have hw := run_ok hn
  have hw0 := run_ok (ss := ss) (fun s hs => hn s (List.mem_append_left _ hs))
  exact (hw0.mem_mro hc).symm.trans (hw.mem_mro (run_keeps (ss' := ss') hc))

/-- C131: `issubclass` of a class value and a known class is right, whatever classes are made after the code was compiled, if the class members of the two
do not contradict each other.

Missing: classes with contradicting class members, see `issubclass_wrong`. -/
theorem issubclass_known_partial {ss ss' : List Stmt} (hn : ∀ s ∈ ss ++ ss', s.bases.Nodup) {c d e : Nat} {kc kd ke : Cls}
    (hc : (run ss)[c]? = some kc) (hd : (run ss)[d]? = some kd) (he : (run (ss ++ ss'))[e]? = some ke) (hcomp : Compatible kc kd)
    (hec : IsSub (ss ++ ss') e c) : issubclassKnown (run ss) (run (ss ++ ss')) c d e = true ↔ IsSub (ss ++ ss') e d := by
  have hn0 : ∀ s ∈ ss, s.bases.Nodup := fun s hs => hn s (List.mem_append_left _ hs)
  unfold issubclassKnown
  cases hcb : classCouldBeInstanceOf (run ss) c d with
  | yes =>
    have := (sub_later hn hc).mp ((could_be_yes hn0 hc hd).mp hcb)
    exact ⟨fun _ => Sub.trans hec this, fun _ => rfl⟩
  | no => exact ⟨fun h => (by cases h), fun h => (could_be_no_partial hn hc hd hcomp hcb e ke he ⟨hec, h⟩).elim⟩
  | maybe =>
    simp only [hd]
    cases hf : kd.final with
    | false => simp only [Bool.false_eq_true, if_false]; exact typePtr_spec hn he
    | true =>
      simp only [if_true, decide_eq_true_eq]
      exact ⟨fun h => h ▸ Sub.refl e, fun h => (run_ok hn).final_sub (run_keeps hd) hf he h⟩

/-- C131: the same of two class values. -/
theorem issubclass_both_partial {ss ss' : List Stmt} (hn : ∀ s ∈ ss ++ ss', s.bases.Nodup) {c d e f : Nat} {kc kd ke : Cls}
    (hc : (run ss)[c]? = some kc) (hd : (run ss)[d]? = some kd) (he : (run (ss ++ ss'))[e]? = some ke) (hcomp : Compatible kc kd)
    (hec : IsSub (ss ++ ss') e c) (hfd : IsSub (ss ++ ss') f d) :
    issubclassBoth (run ss) (run (ss ++ ss')) c d e f = true ↔ IsSub (ss ++ ss') e f := by
  unfold issubclassBoth
  split
  · next h => exact ⟨fun h => (by cases h), fun h' => (could_be_no_partial hn hc hd hcomp h e ke he ⟨hec, Sub.trans h' hfd⟩).elim⟩
  · exact typePtr_spec hn he

/-- C131: a class value is accepted as a `SubclassOf(d)` exactly if it is a subclass of `d`, and remains the same class. -/
theorem to_subclass_of_partial {ss ss' : List Stmt} (hn : ∀ s ∈ ss ++ ss', s.bases.Nodup) {c d e : Nat} {kc kd ke : Cls}
    (hc : (run ss)[c]? = some kc) (hd : (run ss)[d]? = some kd) (he : (run (ss ++ ss'))[e]? = some ke) (hcomp : Compatible kc kd)
    (hec : IsSub (ss ++ ss') e c) (r : Nat) :
    toSubclassOf (run ss) (run (ss ++ ss')) c d e = some r ↔ r = e ∧ IsSub (ss ++ ss') e d := by
  have hn0 : ∀ s ∈ ss, s.bases.Nodup := fun s hs => hn s (List.mem_append_left _ hs)
  unfold toSubclassOf canConvert
  by_cases ht : canConvertToTrivially (run ss) c d = true
  · have := Sub.trans hec ((sub_later hn hc).mp ((trivially_spec hn0 hc).mp ht))
    simp only [ht, if_true, Option.some.injEq]
    exact ⟨fun h => ⟨h.symm, this⟩, fun h => h.1.symm⟩
  · by_cases hno : classCouldBeInstanceOf (run ss) c d = .no
    · simp only [ht, hno, Bool.false_eq_true, if_false, if_true]
      exact ⟨fun h => (by cases h), fun h => (could_be_no_partial hn hc hd hcomp hno e ke he ⟨hec, h.2⟩).elim⟩
    · simp only [ht, hno, Bool.false_eq_true, if_false]
      by_cases hs : typePtrIsSubclass (run (ss ++ ss')) e d = true
      · simp only [hs, if_true, Option.some.injEq]
        exact ⟨fun h => ⟨h.symm, (typePtr_spec hn he).mp hs⟩, fun h => h.1.symm⟩
      · simp only [hs]
        exact ⟨fun h => (by cases h), fun h => (hs ((typePtr_spec hn he).mpr h.2)).elim⟩

/-- C131: converted to a class that it is known to be a subclass of, a class value becomes that class, whatever it is. -/
theorem to_known_base {ss : List Stmt} (hn : ∀ s ∈ ss, s.bases.Nodup) {c d e : Nat} {kc : Cls} (hc : (run ss)[c]? = some kc) (h : IsSub ss c d) :
    toKnown (run ss) c d e = some d := by
  unfold toKnown canConvert
  rw [if_pos ((trivially_spec hn hc).mpr h)]

/-- C131: otherwise it is accepted only if it is that class. -/
theorem to_known_other {ss : List Stmt} (hn : ∀ s ∈ ss, s.bases.Nodup) {c d e : Nat} {kc : Cls} (hc : (run ss)[c]? = some kc) (h : ¬ IsSub ss c d) (r : Nat)
    (hr : toKnown (run ss) c d e = some r) : r = e ∧ e = d := by
  unfold toKnown canConvert at hr
  rw [if_neg (fun h' => h ((trivially_spec hn hc).mp h'))] at hr
  by_cases hno : classCouldBeInstanceOf (run ss) c d = .no
  · rw [if_pos hno] at hr; cases hr
  · rw [if_neg hno] at hr
    simp only at hr
    split at hr
    · next h => cases hr; exact ⟨h.symm, h⟩
    · cases hr

/-- C131: and it is accepted then, if the class members do not contradict each other. -/
theorem to_known_same_partial {ss ss' : List Stmt} (hn : ∀ s ∈ ss ++ ss', s.bases.Nodup) {c d : Nat} {kc kd : Cls}
    (hc : (run ss)[c]? = some kc) (hd : (run ss)[d]? = some kd) (hcomp : Compatible kc kd) (hdc : IsSub (ss ++ ss') d c) :
    toKnown (run ss) c d d = some d := by
  unfold toKnown canConvert
  by_cases ht : canConvertToTrivially (run ss) c d = true
  · rw [if_pos ht]
  · rw [if_neg ht]
    by_cases hno : classCouldBeInstanceOf (run ss) c d = .no
    · exact (could_be_no_partial hn hc hd hcomp hno d kd (run_keeps hd) ⟨hdc, Sub.refl d⟩).elim
    · rw [if_neg hno]
      exact if_pos rfl

theorem first_of {P : Nat → Prop} : ∀ {l : List Nat}, (∃ i ∈ l, P i) → ∃ before i after, l = before ++ i :: after ∧ P i ∧ ∀ j ∈ before, ¬ P j
  | [], h => by obtain ⟨_, h, _⟩ := h; cases h
  | a :: l, h => by
    by_cases ha : P a
    · exact ⟨[], a, l, rfl, ha, fun j hj => by cases hj⟩
    · obtain ⟨i, hi, hp⟩ := h
      have : i ∈ l := by
        rcases List.mem_cons.mp hi with rfl | hi
        · exact (ha hp).elim
        · exact hi
      obtain ⟨b, j, t, e, hj, hb⟩ := first_of ⟨i, this, hp⟩
      refine ⟨a :: b, j, t, by rw [e]; rfl, hj, fun x hx => ?_⟩
      rcases List.mem_cons.mp hx with rfl | hx
      · exact ha
      · exact hb x hx

/-- A class has the class member that a superclass binds, if no superclass binds another value. -/
theorem has_member {ss : List Stmt} (hn : ∀ s ∈ ss, s.bases.Nodup) {c i : Nat} {k ki : Cls} (h : (run ss)[c]? = some k) (hi : (run ss)[i]? = some ki)
    (hs : IsSub ss c i) {n : Name} {o : PyObj} (ho : find ki.own.classMembers n = some o)
    (hone : ∀ j kj v, IsSub ss c j → (run ss)[j]? = some kj → find kj.own.classMembers n = some v → v = o) : find k.classMembers n = some o := by
  have hw := run_ok hn
  obtain ⟨b, j, t, e, ⟨kj, v, hkj, hv⟩, hb⟩ := first_of (P := fun i => ∃ ki v, (run ss)[i]? = some ki ∧ find ki.own.classMembers n = some v)
    ⟨i, (hw.mem_mro h).mpr hs, ki, o, hi, ho⟩
  have hj : IsSub ss c j := (hw.mem_mro h).mp (by rw [e]; simp)
  refine (class_member_of_first hn h n o).mpr ⟨b, j, t, kj, e, hkj, ?_, fun x hx kx hkx => ?_⟩
  · rw [hv, hone j kj v hj hkj hv]
  · cases hf : find kx.own.classMembers n with
    | none => rfl
    | some v => exact (hb x hx ⟨kx, v, hkx, hf⟩).elim

/-- C131: a class member bound by a superclass of the static class, and bound to nothing else by any superclass of the class held, is found by compiled code,
and is the one of the class held.

Missing: class members that superclasses bind differently, see `class_member_wrong`. -/
theorem class_member_partial {ss ss' : List Stmt} (hn : ∀ s ∈ ss ++ ss', s.bases.Nodup) {c e i : Nat} {kc ke ki : Cls} (hc : (run ss)[c]? = some kc)
    (he : (run (ss ++ ss'))[e]? = some ke) (hi : (run ss)[i]? = some ki) (hec : IsSub (ss ++ ss') e c) (hci : IsSub ss c i) {n : Name} {o : PyObj}
    (ho : find ki.own.classMembers n = some o)
    (hone : ∀ j kj v, IsSub (ss ++ ss') e j → (run (ss ++ ss'))[j]? = some kj → find kj.own.classMembers n = some v → v = o) :
    classMember (run ss) c n = some o ∧ find ke.classMembers n = some o := by
  have hn0 : ∀ s ∈ ss, s.bases.Nodup := fun s hs => hn s (List.mem_append_left _ hs)
  have hci' := (sub_later hn hc).mp hci
  refine ⟨?_, has_member hn he (run_keeps hi) (Sub.trans hec hci') ho hone⟩
  unfold classMember
  rw [hc]
  exact has_member hn0 hc hi hci ho fun j kj v hj hkj hv =>
    hone j kj v (Sub.trans hec ((sub_later hn hc).mp hj)) (run_keeps hkj) hv

/-- `class A(Class): X = 100`, `class B(Class): X = 101`, `class C(A, B): pass`. -/
def clash : List Stmt := [⟨[], false, [(10, .value 100)]⟩, ⟨[], false, [(10, .value 101)]⟩, ⟨[0, 1], false, []⟩]

/-- C131: with `C` known as a subclass of `A`, `issubclass(C, B)` is false, and it is not accepted as a `SubclassOf(B)`. -/
theorem issubclass_wrong : IsSub clash 2 0 ∧ IsSub clash 2 1 ∧ issubclassKnown (run clash) (run clash) 0 1 2 = false ∧
    issubclassBoth (run clash) (run clash) 0 1 2 1 = false ∧ toSubclassOf (run clash) (run clash) 0 1 2 = none :=
  ⟨Sub.step (b := 0) (by decide +kernel) (Sub.refl 0), Sub.step (b := 1) (by decide +kernel) (Sub.refl 1), by decide +kernel, by decide +kernel,
    by decide +kernel⟩

/-- C131: and known as a subclass of `B`, its class member `X` is that of `B`, where it has that of `A`. -/
theorem class_member_wrong : IsSub clash 2 1 ∧ classMember (run clash) 1 10 = some 101 ∧ ((run clash)[2]?.bind fun k => find k.classMembers 10) = some 100 :=
  ⟨Sub.step (b := 1) (by decide +kernel) (Sub.refl 1), by decide +kernel, by decide +kernel⟩

/-! ### Cases -/

/-- A class, a subclass and one made after compilation: `class A`, `class B(A)`, then `class D(B)`. -/
def chain : List Stmt := [⟨[], false, [(10, .value 100)]⟩, ⟨[0], false, []⟩]
def made : List Stmt := [⟨[1], false, []⟩]

example : (∀ s ∈ chain ++ made, s.bases.Nodup) ∧ (run chain)[0]?.isSome ∧ (run chain)[1]?.isSome ∧ (run (chain ++ made))[2]?.isSome ∧
    issubclassKnown (run chain) (run (chain ++ made)) 0 1 2 = true ∧ issubclassKnown (run chain) (run (chain ++ made)) 0 1 0 = false ∧
    toSubclassOf (run chain) (run (chain ++ made)) 0 1 2 = some 2 ∧ toKnown (run chain) 1 0 2 = some 0 ∧
    issubclassBoth (run chain) (run (chain ++ made)) 0 0 2 1 = true ∧ issubclassBoth (run chain) (run (chain ++ made)) 0 0 1 2 = false := by decide +kernel

example : IsSub (chain ++ made) 2 0 :=
  Sub.step (b := 1) (by decide +kernel) (Sub.step (b := 0) (by decide +kernel) (Sub.refl 0))

/-- A class member of the first, known as the second, which binds nothing itself. -/
example : classMember (run chain) 1 10 = some 100 ∧ ((run (chain ++ made))[2]?.bind fun k => find k.classMembers 10) = some 100 ∧
    ((run (chain ++ made)).map fun k => find k.own.classMembers 10) = [some 100, none, none] := by decide +kernel

/-- Their class members do not contradict each other. -/
example : ∃ ka kb, (run chain)[0]? = some ka ∧ (run chain)[1]? = some kb ∧ ka.classMembers = kb.classMembers ∧ Compatible ka kb := by
  have h : ((run chain)[0]?.map Cls.classMembers) = ((run chain)[1]?.map Cls.classMembers) ∧ (run chain)[0]?.isSome ∧ (run chain)[1]?.isSome := by decide +kernel
  obtain ⟨h, ha, hb⟩ := h
  obtain ⟨ka, ha⟩ := Option.isSome_iff_exists.mp ha
  obtain ⟨kb, hb⟩ := Option.isSome_iff_exists.mp hb
  rw [ha, hb] at h
  have h : ka.classMembers = kb.classMembers := Option.some.inj h
  refine ⟨ka, kb, ha, hb, h, fun n a b _ h1 h2 => ?_⟩
  rw [h, h2] at h1
  exact (Option.some.inj h1).symm

end Verif.SubclassOf
