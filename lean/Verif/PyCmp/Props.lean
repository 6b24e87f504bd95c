import Verif.PyCmp.Basic
/-
Comparing a typed value with a plain Python object: equality, the order of numbers, tuples and lists, and the order of the operands.
-/
namespace Verif.PyCmp

open Verif.Conv (Reg Num Const Ty Data Env Has Fits)

/-! ### Equality -/

theorem elts_equal {m : Machine} {P : Floats} {t : Ty} {op : Op} {fl : Bool} (hop : op = .eq ∨ op = .ne) : ∀ (ds : List Data) (os : List Obj),
    (∀ d ∈ ds, ∀ o, Tame fl (contents t d) → Tame fl o → compare m t .eq d o = python P .eq (contents t d) o) →
    Tames fl (ds.map (contents t)) → Tames fl os →
    (compareElts (compare m t) op ds os).map (holds op) = pythons P op (ds.map (contents t)) os
  | [], [], _, _, _ => by rcases hop with rfl | rfl <;> rfl
  | [], _ :: _, _, _, _ => by rcases hop with rfl | rfl <;> rfl
  | _ :: _, [], _, _, _ => by rcases hop with rfl | rfl <;> rfl
  | d :: ds, o :: os, ih, h1, h2 => by
    simp only [List.map_cons, Tames] at h1 h2
    have hd := ih d (by simp) o h1.1 h2.1
    have rest := elts_equal hop ds os (fun d' hd' => ih d' (by simp [hd'])) h1.2 h2.2
    simp only [List.map_cons, compareElts, pythons, element, hd]
    rcases hb : python P .eq (contents t d) o with _ | _ | _
    · rfl
    · rcases hop with rfl | rfl <;> rfl
    · simpa using rest

theorem fields_equal {m : Machine} {P : Floats} {op : Op} {fl : Bool} (hop : op = .eq ∨ op = .ne) : ∀ (ts : List Ty) (ds : List Data) (os : List Obj),
    ts.length = ds.length →
    (∀ (i : Nat) (t : Ty) (d : Data), ts[i]? = some t → ds[i]? = some d →
      ∀ o, Tame fl (contents t d) → Tame fl o → compare m t .eq d o = python P .eq (contents t d) o) →
    Tames fl (contentsAll ts ds) → Tames fl os →
    (compareFields m ts op ds os).map (holds op) = pythons P op (contentsAll ts ds) os
  | [], [], [], _, _, _, _ => by rcases hop with rfl | rfl <;> rfl
  | [], [], _ :: _, _, _, _, _ => by rcases hop with rfl | rfl <;> rfl
  | [], _ :: _, _, h, _, _, _ => by simp at h
  | _ :: _, [], _, h, _, _, _ => by simp at h
  | _ :: _, _ :: _, [], _, _, _, _ => by rcases hop with rfl | rfl <;> rfl
  | t :: ts, d :: ds, o :: os, hl, ih, h1, h2 => by
    simp only [contentsAll, Tames] at h1 h2
    have hd := ih 0 t d rfl rfl o h1.1 h2.1
    have rest := fields_equal hop ts ds os (by simpa using hl) (fun i t' d' ht hd' => ih (i + 1) t' d' (by simpa using ht) (by simpa using hd')) h1.2 h2.2
    simp only [compareFields, contentsAll, pythons, element, hd]
    rcases hb : python P .eq (contents t d) o with _ | _ | _
    · rfl
    · rcases hop with rfl | rfl <;> rfl
    · simpa using rest

theorem compareAt_get {m : Machine} : ∀ {ts : List Ty} {k : Nat} {t : Ty}, ts[k]? = some t → ∀ op d o, compareAt m ts k op d o = compare m t op d o
  | [], _, _, h, _, _, _ => by simp at h
  | _ :: _, 0, _, h, _, _, _ => by
    simp only [List.getElem?_cons_zero, Option.some.injEq] at h
    subst h
    simp only [compareAt]
  | _ :: ts, k + 1, _, h, op, d, o => by
    simp only [compareAt]
    exact compareAt_get (by simpa using h) op d o

theorem contentsAt_get : ∀ {ts : List Ty} {k : Nat} {t : Ty}, ts[k]? = some t → ∀ d, contentsAt ts k d = contents t d
  | [], _, _, h, _ => by simp at h
  | _ :: _, 0, _, h, _ => by
    simp only [List.getElem?_cons_zero, Option.some.injEq] at h
    subst h
    simp only [contentsAt]
  | _ :: ts, k + 1, _, h, d => by
    simp only [contentsAt]
    exact contentsAt_get (by simpa using h) d

theorem const_fits {e : Env} {r : Reg} {n : Num} (h : Const.ok e (.num r n)) : Fits e r n := by
  cases r <;> cases n <;> simp [Conv.Const.ok] at h <;> first | exact h | trivial

/-- C113, equality.  For every type of numbers, text, bytes, constants, lists, tuples and choices, every value of it and every plain
Python object, `==` and `!=` answer what Python answers for an object with the same contents, as long as no number is beyond what 64
bits hold and none beyond 2 ** 53 meets a float. -/
theorem equality_partial {m : Machine} {P : Floats} (hs : Sound m P) {t : Ty} {d : Data} (h : Has m.env t d) {fl : Bool} {op : Op}
    (hop : op = .eq ∨ op = .ne) {o : Obj} (h1 : Tame fl (contents t d)) (h2 : Tame fl o) :
    onLeft m t d op o = python P op (contents t d) o := by
  simp only [onLeft]
  induction h generalizing op o with
  | none => cases o <;> rcases hop with rfl | rfl <;> rfl
  | reg hf => exact compareReg_agrees hs op hf h1 h2
  | str => exact compareStr_agrees hs hop h1 h2
  | bytes _ => exact compareBytes_agrees hs hop h1 h2
  | value hc =>
    rename_i c
    cases c with
    | num r n => exact compareReg_agrees hs op (const_fits hc) h1 h2
    | str s => exact compareStr_agrees hs hop h1 h2
    | bytes b => exact compareBytes_agrees hs hop h1 h2
  | tupleOf _ ih =>
    cases o <;> try (rcases hop with rfl | rfl <;> rfl)
    simp only [contents, Tame] at h1 h2
    simp only [compare, contents, python]
    exact elts_equal hop _ _ (fun d hd o a b => ih d hd (Or.inl rfl) a b) h1 h2
  | listOf _ ih =>
    cases o <;> try (rcases hop with rfl | rfl <;> rfl)
    simp only [contents, Tame] at h1 h2
    simp only [compare, contents, python]
    exact elts_equal hop _ _ (fun d hd o a b => ih d hd (Or.inl rfl) a b) h1 h2
  | tuple hl _ ih =>
    cases o <;> try (rcases hop with rfl | rfl <;> rfl)
    simp only [contents, Tame] at h1 h2
    simp only [compare, contents, python]
    exact fields_equal hop _ _ _ hl (fun i t d ht hd o a b => ih i t d ht hd (Or.inl rfl) a b) h1 h2
  | named hl _ ih =>
    cases o <;> try (rcases hop with rfl | rfl <;> rfl)
    simp only [contents, Tame] at h1 h2
    simp only [compare, contents, python]
    exact fields_equal hop _ _ _ hl (fun i t d ht hd o a b => ih i t d ht hd (Or.inl rfl) a b) h1 h2
  | oneOf hk _ ih =>
    simp only [contents, contentsAt_get hk] at h1 ⊢
    simp only [compare, compareAt_get hk]
    exact ih hop h1 h2

/-! ### Order -/

/-- The floats that are `ok` are in a line: of two of them, the first is less, or they are equal, or the second is less. -/
structure Line (m : Machine) (ok : Nat → Prop) : Prop where
  apart : ∀ x y, ok x → ok y → m.env.feq x y = false → m.less y x = !m.less x y
  equal : ∀ x y, ok x → ok y → m.env.feq x y = true → m.less x y = false
  ints : ∀ n : Int, ok (m.env.double n)

/-- What an operator answers for objects that are not equal, the first of them less than the second or not. -/
def decided (op : Op) (less : Bool) : Bool := op.of false less (!less)

theorem numbers_decided {m : Machine} {P : Floats} (hs : Sound m P) {ok : Nat → Prop} (hl : Line m ok) (op : Op) {a b : Obj} {x y : Num} {fl : Bool}
    (ha : number a = some x) (hb : number b = some y) (ta : Tame fl a) (tb : Tame fl b) (na : Numeric ok a) (nb : Numeric ok b) :
    numbers P op x y = if numbers P .eq x y then op.of true false false else decided op (numbers P .lt x y) := by
  have key : ∀ (e l g : Bool), (e = true → l = false ∧ g = false) → (e = false → g = !l) →
      op.of e l g = if e then op.of true false false else decided op l := by
    intro e l g h1 h2
    cases e
    · rw [h2 rfl]; rfl
    · rw [(h1 rfl).1, (h1 rfl).2]; rfl
  have float : ∀ u v, ok u → ok v → (m.env.feq u v = true → m.less u v = false ∧ m.less v u = false) ∧
      (m.env.feq u v = false → m.less v u = !m.less u v) := by
    intro u v hu hv
    exact ⟨fun h => ⟨hl.equal u v hu hv h, hl.equal v u hv hu (by rw [← hs.symm]; exact h)⟩, hl.apart u v hu hv⟩
  have ofNum : ∀ (c : Obj) (n : Int), number c = some (.int n) → Tame fl c → fl = true → -2 ^ 53 ≤ n ∧ n ≤ 2 ^ 53 := by
    intro c n hc ht hfl
    cases c <;> simp [number] at hc
    · rename_i b; cases b <;> simp at hc <;> omega
    · subst hc; simp only [Tame] at ht; exact ht.2.2 hfl
  have ofFlt : ∀ (c : Obj) (z : Nat), number c = some (.flt z) → Tame fl c → Numeric ok c → fl = true ∧ ok z := by
    intro c z hc ht hn
    cases c <;> simp [number] at hc
    subst hc; simp only [Tame, Numeric] at ht hn; exact ⟨ht, hn⟩
  cases x with
  | int u =>
    cases y with
    | int v =>
      refine key _ _ _ (fun h => ?_) (fun h => ?_)
      · simp at h; subst h; simp
      · simp at h; by_cases h' : u < v <;> simp [h'] <;> omega
    | flt v =>
      obtain ⟨hfl, hv⟩ := ofFlt b v hb tb nb
      obtain ⟨l1, l2⟩ := ofNum a u ha ta hfl
      simp only [numbers, hs.intEq u v l1 l2, hs.intLess u v l1 l2, hs.lessInt u v l1 l2]
      obtain ⟨f1, f2⟩ := float _ v (hl.ints u) hv
      exact key _ _ _ f1 f2
  | flt u =>
    obtain ⟨hfl, hu⟩ := ofFlt a u ha ta na
    cases y with
    | int v =>
      obtain ⟨l1, l2⟩ := ofNum b v hb tb hfl
      simp only [numbers, hs.intEq v u l1 l2, hs.intLess v u l1 l2, hs.lessInt v u l1 l2, hs.symm (m.env.double v)]
      obtain ⟨f1, f2⟩ := float u _ hu (hl.ints v)
      exact key _ _ _ f1 f2
    | flt v =>
      obtain ⟨-, hv⟩ := ofFlt b v hb tb nb
      simp only [numbers, hs.eq, hs.less]
      obtain ⟨f1, f2⟩ := float u v hu hv
      exact key _ _ _ f1 f2

mutual
/-- In Python, the order of numbers and of tuples and lists of them is settled by `==` and `<`. -/
theorem python_decided {m : Machine} {P : Floats} (hs : Sound m P) {ok : Nat → Prop} (hl : Line m ok) {fl : Bool} (op : Op) :
    ∀ (a b : Obj), Tame fl a → Tame fl b → Numeric ok a → Numeric ok b →
    (python P .eq a b = some true → python P op a b = some (op.of true false false)) ∧
    (python P .eq a b = some false → op ≠ .eq → op ≠ .ne → python P op a b = (python P .lt a b).map (decided op))
  | .tuple as, b, ta, tb, na, nb => by
    cases b <;> try (refine ⟨fun h => by simp [python, unordered] at h, fun _ h1 h2 => ?_⟩; cases op <;> first | exact absurd rfl h1 | exact absurd rfl h2 | rfl)
    simp only [Tame, Numeric] at ta tb na nb
    simp only [python]
    exact pythons_decided hs hl op as _ ta tb na nb
  | .list as, b, ta, tb, na, nb => by
    cases b <;> try (refine ⟨fun h => by simp [python, unordered] at h, fun _ h1 h2 => ?_⟩; cases op <;> first | exact absurd rfl h1 | exact absurd rfl h2 | rfl)
    simp only [Tame, Numeric] at ta tb na nb
    simp only [python]
    exact pythons_decided hs hl op as _ ta tb na nb
  | .bool v, b, ta, tb, na, nb => num_decided hs hl op (a := .bool v) rfl b ta tb na nb
  | .int v, b, ta, tb, na, nb => num_decided hs hl op (a := .int v) rfl b ta tb na nb
  | .float v, b, ta, tb, na, nb => num_decided hs hl op (a := .float v) rfl b ta tb na nb
  | .none, _, _, _, na, _ => by simp only [Numeric] at na
  | .str _, _, _, _, na, _ => by simp only [Numeric] at na
  | .bytes _, _, _, _, na, _ => by simp only [Numeric] at na
  | .other _, _, _, _, na, _ => by simp only [Numeric] at na
termination_by structural a => a
/-- The same of the items of tuples and lists. -/
theorem pythons_decided {m : Machine} {P : Floats} (hs : Sound m P) {ok : Nat → Prop} (hl : Line m ok) {fl : Bool} (op : Op) :
    ∀ (as bs : List Obj), Tames fl as → Tames fl bs → Numerics ok as → Numerics ok bs →
    (pythons P .eq as bs = some true → pythons P op as bs = some (op.of true false false)) ∧
    (pythons P .eq as bs = some false → op ≠ .eq → op ≠ .ne → pythons P op as bs = (pythons P .lt as bs).map (decided op))
  | [], [], _, _, _, _ => by
    refine ⟨fun _ => rfl, fun h _ _ => ?_⟩
    simp [pythons, Op.of] at h
  | [], _ :: _, _, _, _, _ => by
    refine ⟨fun h => by simp [pythons, Op.of] at h, fun _ _ _ => ?_⟩
    cases op <;> rfl
  | _ :: _, [], _, _, _, _ => by
    refine ⟨fun h => by simp [pythons, Op.of] at h, fun _ _ _ => ?_⟩
    cases op <;> rfl
  | a :: as, b :: bs, ta, tb, na, nb => by
    simp only [Tames, Numerics] at ta tb na nb
    have h := python_decided hs hl op a b ta.1 tb.1 na.1 nb.1
    have rest := pythons_decided hs hl op as bs ta.2 tb.2 na.2 nb.2
    simp only [pythons]
    rcases hb : python P .eq a b with _ | _ | _
    · simp
    · refine ⟨fun h => by simp at h, fun _ h1 h2 => ?_⟩
      have := h.2 hb h1 h2
      cases op <;> first | exact absurd rfl h1 | exact absurd rfl h2 | exact this
    · exact rest
termination_by structural as => as
/-- The same of a number. -/
theorem num_decided {m : Machine} {P : Floats} (hs : Sound m P) {ok : Nat → Prop} (hl : Line m ok) {fl : Bool} (op : Op) {a : Obj} {x : Num}
    (ha : number a = some x) (b : Obj) (ta : Tame fl a) (tb : Tame fl b) (na : Numeric ok a) (nb : Numeric ok b) :
    (python P .eq a b = some true → python P op a b = some (op.of true false false)) ∧
    (python P .eq a b = some false → op ≠ .eq → op ≠ .ne → python P op a b = (python P .lt a b).map (decided op)) := by
  rw [python_number P .eq ha, python_number P op ha, python_number P .lt ha]
  cases hb : number b with
  | none =>
    refine ⟨fun h => by simp [unordered] at h, fun _ h1 h2 => ?_⟩
    cases op <;> first | exact absurd rfl h1 | exact absurd rfl h2 | rfl
  | some y =>
    have key := numbers_decided hs hl op ha hb ta tb na nb
    refine ⟨fun h => ?_, fun h _ _ => ?_⟩
    · simp only [Option.some.injEq] at h
      simp only [key, h, if_true]
    · simp only [Option.some.injEq] at h
      rw [h] at key
      simp only [key, Option.map_some, Bool.false_eq_true, if_false]
end

theorem holds_small (op : Op) : holds op (-1) = decided op true ∧ holds op 1 = decided op false ∧ holds op 0 = op.of true false false := by
  cases op <;> decide +kernel

theorem elts_order {m : Machine} {P : Floats} (hs : Sound m P) {ok : Nat → Prop} (hl : Line m ok) {t : Ty} {op : Op} {fl : Bool}
    (h1' : op ≠ .eq) (h2' : op ≠ .ne) : ∀ (ds : List Data) (os : List Obj),
    (∀ d ∈ ds, ∀ op o, Tame fl (contents t d) → Tame fl o → Numeric ok (contents t d) → Numeric ok o →
      compare m t op d o = python P op (contents t d) o) →
    Tames fl (ds.map (contents t)) → Tames fl os → Numerics ok (ds.map (contents t)) → Numerics ok os →
    (compareElts (compare m t) op ds os).map (holds op) = pythons P op (ds.map (contents t)) os
  | [], [], _, _, _, _, _ => by simp [compareElts, pythons, (holds_small op).2.2]
  | [], _ :: _, _, _, _, _, _ => by
    simp only [compareElts, List.map_nil, pythons, Option.map_some, (holds_small op).1]
    cases op <;> rfl
  | _ :: _, [], _, _, _, _, _ => by
    simp only [compareElts, List.map_cons, pythons, Option.map_some, (holds_small op).2.1]
    cases op <;> rfl
  | d :: ds, o :: os, ih, t1, t2, n1, n2 => by
    simp only [List.map_cons, Tames, Numerics] at t1 t2 n1 n2
    have he := ih d (by simp) .eq o t1.1 t2.1 n1.1 n2.1
    have hlt := ih d (by simp) .lt o t1.1 t2.1 n1.1 n2.1
    have rest := elts_order hs hl h1' h2' ds os (fun d' hd' => ih d' (by simp [hd'])) t1.2 t2.2 n1.2 n2.2
    have dec := python_decided hs hl op (contents t d) o t1.1 t2.1 n1.1 n2.1
    simp only [List.map_cons, compareElts, pythons, element, he, hlt]
    rcases hb : python P .eq (contents t d) o with _ | _ | _
    · rfl
    · have hd := dec.2 hb h1' h2'
      have : (match op with | .eq => some false | .ne => some true | op => python P op (contents t d) o) = python P op (contents t d) o := by
        cases op <;> first | exact absurd rfl h1' | exact absurd rfl h2' | rfl
      simp only [this, hd]
      have hno : ¬ (op = .eq ∨ op = .ne) := by simp [h1', h2']
      rcases python P .lt (contents t d) o with _ | _ | _ <;>
        simp [hno, (holds_small op).1, (holds_small op).2.1]
    · simpa using rest

theorem fields_order {m : Machine} {P : Floats} (hs : Sound m P) {ok : Nat → Prop} (hl : Line m ok) {op : Op} {fl : Bool}
    (h1' : op ≠ .eq) (h2' : op ≠ .ne) : ∀ (ts : List Ty) (ds : List Data) (os : List Obj), ts.length = ds.length →
    (∀ (i : Nat) (t : Ty) (d : Data), ts[i]? = some t → ds[i]? = some d →
      ∀ op o, Tame fl (contents t d) → Tame fl o → Numeric ok (contents t d) → Numeric ok o →
      compare m t op d o = python P op (contents t d) o) →
    Tames fl (contentsAll ts ds) → Tames fl os → Numerics ok (contentsAll ts ds) → Numerics ok os →
    (compareFields m ts op ds os).map (holds op) = pythons P op (contentsAll ts ds) os
  | [], [], [], _, _, _, _, _, _ => by simp [compareFields, contentsAll, pythons, (holds_small op).2.2]
  | [], [], _ :: _, _, _, _, _, _, _ => by
    simp only [compareFields, contentsAll, pythons, Option.map_some, (holds_small op).1]
    cases op <;> rfl
  | [], _ :: _, _, h, _, _, _, _, _ => by simp at h
  | _ :: _, [], _, h, _, _, _, _, _ => by simp at h
  | _ :: _, _ :: _, [], _, _, _, _, _, _ => by
    simp only [compareFields, contentsAll, pythons, Option.map_some, (holds_small op).2.1]
    cases op <;> rfl
  | t :: ts, d :: ds, o :: os, hlen, ih, t1, t2, n1, n2 => by
    simp only [contentsAll, Tames, Numerics] at t1 t2 n1 n2
    have he := ih 0 t d rfl rfl .eq o t1.1 t2.1 n1.1 n2.1
    have hlt := ih 0 t d rfl rfl .lt o t1.1 t2.1 n1.1 n2.1
    have rest := fields_order hs hl h1' h2' ts ds os (by simpa using hlen)
      (fun i t' d' ht hd' => ih (i + 1) t' d' (by simpa using ht) (by simpa using hd')) t1.2 t2.2 n1.2 n2.2
    have dec := python_decided hs hl op (contents t d) o t1.1 t2.1 n1.1 n2.1
    simp only [compareFields, contentsAll, pythons, element, he, hlt]
    rcases hb : python P .eq (contents t d) o with _ | _ | _
    · rfl
    · have hd := dec.2 hb h1' h2'
      have : (match op with | .eq => some false | .ne => some true | op => python P op (contents t d) o) = python P op (contents t d) o := by
        cases op <;> first | exact absurd rfl h1' | exact absurd rfl h2' | rfl
      simp only [this, hd]
      have hno : ¬ (op = .eq ∨ op = .ne) := by simp [h1', h2']
      rcases python P .lt (contents t d) o with _ | _ | _ <;>
        simp [hno, (holds_small op).1, (holds_small op).2.1]
    · simpa using rest

/-- C113, order.  For numbers and for lists and tuples of them, however deeply nested, every operator answers what Python answers, and
raises where Python raises, as long as no float is a NaN. -/
theorem order_partial {m : Machine} {P : Floats} (hs : Sound m P) {ok : Nat → Prop} (hl : Line m ok) {t : Ty} {d : Data} (h : Has m.env t d)
    {fl : Bool} {op : Op} {o : Obj} (h1 : Tame fl (contents t d)) (h2 : Tame fl o) (n1 : Numeric ok (contents t d)) (n2 : Numeric ok o) :
    onLeft m t d op o = python P op (contents t d) o := by
  by_cases he : op = .eq
  · exact equality_partial hs h (Or.inl he) h1 h2
  by_cases hn : op = .ne
  · exact equality_partial hs h (Or.inr hn) h1 h2
  have eqv : ∀ {t d} (_ : Has m.env t d) {op} (_ : op = .eq ∨ op = .ne) {o}, Tame fl (contents t d) → Tame fl o →
      compare m t op d o = python P op (contents t d) o := fun h _ ho _ a b => equality_partial hs h ho a b
  simp only [onLeft]
  induction h generalizing op o with
  | none => simp [contents, Numeric] at n1
  | reg hf => exact compareReg_agrees hs op hf h1 h2
  | str => simp [contents, Numeric] at n1
  | bytes _ => simp [contents, Numeric] at n1
  | value hc =>
    rename_i c
    cases c with
    | num r n => exact compareReg_agrees hs op (const_fits hc) h1 h2
    | str s => simp [contents, plainConst, Numeric] at n1
    | bytes b => simp [contents, plainConst, Numeric] at n1
  | tupleOf hh ih =>
    cases o <;> try (cases op <;> first | exact absurd rfl he | exact absurd rfl hn | rfl)
    simp only [contents, Tame, Numeric] at h1 h2 n1 n2
    simp only [compare, contents, python]
    refine elts_order hs hl he hn _ _ (fun d hd op o a b c e => ?_) h1 h2 n1 n2
    by_cases hop : op = .eq ∨ op = .ne
    · exact eqv (hh d hd) hop a b
    · exact ih d hd a b c e (fun h => hop (Or.inl h)) (fun h => hop (Or.inr h))
  | listOf hh ih =>
    cases o <;> try (cases op <;> first | exact absurd rfl he | exact absurd rfl hn | rfl)
    simp only [contents, Tame, Numeric] at h1 h2 n1 n2
    simp only [compare, contents, python]
    refine elts_order hs hl he hn _ _ (fun d hd op o a b c e => ?_) h1 h2 n1 n2
    by_cases hop : op = .eq ∨ op = .ne
    · exact eqv (hh d hd) hop a b
    · exact ih d hd a b c e (fun h => hop (Or.inl h)) (fun h => hop (Or.inr h))
  | tuple hlen hh ih =>
    cases o <;> try (cases op <;> first | exact absurd rfl he | exact absurd rfl hn | rfl)
    simp only [contents, Tame, Numeric] at h1 h2 n1 n2
    simp only [compare, contents, python]
    refine fields_order hs hl he hn _ _ _ hlen (fun i t d ht hd op o a b c e => ?_) h1 h2 n1 n2
    by_cases hop : op = .eq ∨ op = .ne
    · exact eqv (hh i t d ht hd) hop a b
    · exact ih i t d ht hd a b c e (fun h => hop (Or.inl h)) (fun h => hop (Or.inr h))
  | named hlen hh ih =>
    cases o <;> try (cases op <;> first | exact absurd rfl he | exact absurd rfl hn | rfl)
    simp only [contents, Tame, Numeric] at h1 h2 n1 n2
    simp only [compare, contents, python]
    refine fields_order hs hl he hn _ _ _ hlen (fun i t d ht hd op o a b c e => ?_) h1 h2 n1 n2
    by_cases hop : op = .eq ∨ op = .ne
    · exact eqv (hh i t d ht hd) hop a b
    · exact ih i t d ht hd a b c e (fun h => hop (Or.inl h)) (fun h => hop (Or.inr h))
  | oneOf hk _ ih =>
    simp only [contents, contentsAt_get hk] at h1 n1 ⊢
    simp only [compare, compareAt_get hk]
    exact ih h1 h2 n1 n2 he hn

/-! ### The typed value on the right -/

theorem numbers_mirror (P : Floats) (hP : ∀ x y, P.eq x y = P.eq y x) (op : Op) (x y : Num) : numbers P op x y = numbers P (reverse op) y x := by
  cases x <;> cases y <;> cases op <;> simp [numbers, Op.of, reverse, hP, eq_comm] <;> rw [hP]

theorem unordered_mirror (op : Op) : unordered op = unordered (reverse op) := by cases op <;> rfl

theorem of_mirror (op : Op) (e e' l g : Bool) (he : e = e') : op.of e l g = (reverse op).of e' g l := by
  subst he
  cases op <;> rfl

mutual
/-- In Python, exchanging the operands and turning the operator round changes nothing. -/
theorem python_mirror (P : Floats) (hP : ∀ x y, P.eq x y = P.eq y x) : ∀ (op : Op) (a b : Obj), python P op a b = python P (reverse op) b a
  | op, .tuple as, b => by
    cases b <;> try (simp only [python, number]; exact unordered_mirror op)
    simp only [python]
    exact pythons_mirror P hP op as _
  | op, .list as, b => by
    cases b <;> try (simp only [python, number]; exact unordered_mirror op)
    simp only [python]
    exact pythons_mirror P hP op as _
  | op, .none, b => by
    cases b <;> try (simp only [python, number]; exact unordered_mirror op)
    cases op <;> rfl
  | op, .str s, b => by
    cases b <;> try (simp only [python, number]; exact unordered_mirror op)
    simp only [python, Option.some.injEq]
    exact of_mirror op _ _ _ _ (by simp [eq_comm])
  | op, .bytes s, b => by
    cases b <;> try (simp only [python, number]; exact unordered_mirror op)
    simp only [python, Option.some.injEq]
    exact of_mirror op _ _ _ _ (by simp [eq_comm])
  | op, .other s, b => by
    cases b <;> try (simp only [python, number]; exact unordered_mirror op)
    rename_i s'
    simp only [python]
    by_cases h : s = s'
    · subst h; cases op <;> simp [reverse]
    · rw [if_neg h, if_neg (Ne.symm h)]; exact unordered_mirror op
  | op, .bool v, b => by
    cases b <;> simp only [python, number, Option.some.injEq] <;> first | exact unordered_mirror op | exact numbers_mirror P hP op _ _
  | op, .int v, b => by
    cases b <;> simp only [python, number, Option.some.injEq] <;> first | exact unordered_mirror op | exact numbers_mirror P hP op _ _
  | op, .float v, b => by
    cases b <;> simp only [python, number, Option.some.injEq] <;> first | exact unordered_mirror op | exact numbers_mirror P hP op _ _
termination_by structural _ a => a
/-- The same of the items of tuples and lists. -/
theorem pythons_mirror (P : Floats) (hP : ∀ x y, P.eq x y = P.eq y x) : ∀ (op : Op) (as bs : List Obj), pythons P op as bs = pythons P (reverse op) bs as
  | op, [], [] => by cases op <;> rfl
  | op, [], _ :: _ => by cases op <;> rfl
  | op, _ :: _, [] => by cases op <;> rfl
  | op, a :: as, b :: bs => by
    have he := python_mirror P hP .eq a b
    have ho := python_mirror P hP op a b
    have rest := pythons_mirror P hP op as bs
    simp only [reverse] at he
    simp only [pythons, he]
    rcases python P .eq b a with _ | _ | _
    · rfl
    · cases op <;> first | rfl | exact ho
    · exact rest
termination_by structural _ as => as
end

/-- C113, the other way round.  With the plain object on the left, `==` and `!=` answer what Python answers, under the same conditions. -/
theorem equality_right_partial {m : Machine} {P : Floats} (hs : Sound m P) {t : Ty} {d : Data} (h : Has m.env t d) {fl : Bool} {op : Op}
    (hop : op = .eq ∨ op = .ne) {o : Obj} (h1 : Tame fl (contents t d)) (h2 : Tame fl o) :
    onRight m t d op o = python P op o (contents t d) := by
  rw [python_mirror P (fun x y => by rw [hs.eq, hs.eq, hs.symm]) op o]
  exact equality_partial hs h (by rcases hop with rfl | rfl <;> simp [reverse]) h1 h2

/-- C113, the other way round.  With the plain object on the left, every operator answers what Python answers for numbers and for lists
and tuples of them. -/
theorem order_right_partial {m : Machine} {P : Floats} (hs : Sound m P) {ok : Nat → Prop} (hl : Line m ok) {t : Ty} {d : Data} (h : Has m.env t d)
    {fl : Bool} {op : Op} {o : Obj} (h1 : Tame fl (contents t d)) (h2 : Tame fl o) (n1 : Numeric ok (contents t d)) (n2 : Numeric ok o) :
    onRight m t d op o = python P op o (contents t d) := by
  rw [python_mirror P (fun x y => by rw [hs.eq, hs.eq, hs.symm]) op o]
  exact order_partial hs hl h h1 h2 n1 n2

end Verif.PyCmp
