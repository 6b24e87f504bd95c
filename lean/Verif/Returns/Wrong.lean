import Verif.Returns.Props
/-
Concrete cases that meet the hypotheses, and where the result of a method is not of the promised type, or the compiler expects something else
than the interpreter enforces.
-/
namespace Verif.Returns.Wrong

/-! ### The hypotheses can be met -/

/-- The alternatives of a type. -/
def atoms : Ty → List Atom
  | .atom a => [a]
  | .oneOf ts => ts

/-- A OneOf of all alternatives, unless there is only one type. -/
def merge : List Ty → Ty
  | [] => .oneOf []
  | t :: ts => if ∀ u ∈ ts, u = t then t else .oneOf ((t :: ts).flatMap atoms)

theorem of_atoms {sub : Nat → Nat → Bool} {v : Val} {t : Ty} : Of sub v t ↔ ∃ a ∈ atoms t, OfAtom sub v a := by
  cases t <;> simp [Of, atoms]

theorem merge_covers (sub : Nat → Nat → Bool) : Covers sub merge := by
  intro ts t ht v hv
  have key : Of sub v (.oneOf (ts.flatMap atoms)) := by
    obtain ⟨a, ha, hv⟩ := of_atoms.mp hv
    exact ⟨a, List.mem_flatMap.mpr ⟨t, ht, ha⟩, hv⟩
  cases ts with
  | nil => cases ht
  | cons x ts =>
    simp only [merge]
    split
    · rename_i h
      rcases List.mem_cons.mp ht with rfl | ht
      · exact hv
      · exact h t ht ▸ hv
    · exact key

/-- An overload that states the type `t`, and of which it is known that it matches, does not, or may; `m` is whether it does. -/
def states (t : Ty) (known : Tri) (m : Bool) : Overload := ⟨.type t, fun _ => known, some t, fun _ => m⟩

/-- An overload without a result type. -/
def silent (known : Tri) (m : Bool) : Overload := ⟨.unspecified, fun _ => known, none, fun _ => m⟩

/-- An overload with a signature function that cannot be asked before the call. -/
def asks (t : Ty) (known : Tri) (m : Bool) : Overload := ⟨.cannot, fun _ => known, some t, fun _ => m⟩

/-- What is known is true. -/
def Fair (known : Tri) (m : Bool) : Prop := (known = .yes → m = true) ∧ (known = .no → m = false)

theorem states_honest {t : Ty} {k : Tri} {m : Bool} (h : Fair k m) : Honest (states t k m) where
  unspecified e := by cases e
  type _ e := by cases e; rfl
  cannot e := by cases e
  yes _ e := h.1 e
  no _ e := h.2 e

theorem silent_honest {k : Tri} {m : Bool} (h : Fair k m) : Honest (silent k m) where
  unspecified _ := rfl
  type _ e := by cases e
  cannot e := by cases e
  yes _ e := h.1 e
  no _ e := h.2 e

/-- int, str, float, and two classes of which 11 is a subclass of 10, and 12 of 11. -/
def int : Atom := .named 0
def str : Atom := .named 1
def float : Atom := .named 2
def below : Nat → Nat → Bool
  | 11, 10 => true
  | 12, 10 => true
  | 12, 11 => true
  | _, _ => false

theorem below_transitive : Transitive below := by
  intro a b c h1 h2
  have hb : ∀ x y, below x y = true ↔ (x = 11 ∧ y = 10) ∨ (x = 12 ∧ y = 10) ∨ (x = 12 ∧ y = 11) := by
    intro x y
    unfold below
    split <;> simp_all
  rw [hb] at h1 h2 ⊢
  omega

/-- A method returns 12; its class is above one that says 11 for some arguments and `int` for others, and one that says 10 for all. -/
def hierarchy : List Block := [[states (.atom int) .maybe false, states (.atom (.named 11)) .maybe true], [silent .no false, states (.atom (.named 10)) .yes true]]

theorem hierarchy_honest : ∀ b ∈ hierarchy, ∀ o ∈ b, Honest o := by
  intro b hb o ho
  simp only [hierarchy, List.mem_cons, List.not_mem_nil, or_false] at hb
  rcases hb with rfl | rfl <;> simp only [List.mem_cons, List.not_mem_nil, or_false] at ho <;> rcases ho with rfl | rfl
  · exact states_honest ⟨by simp, by simp⟩
  · exact states_honest ⟨by simp, by simp⟩
  · exact silent_honest ⟨by simp, by simp⟩
  · exact states_honest ⟨by simp, by simp⟩

/-- The promise of all three classes is kept. -/
example : interpreted below (states (.atom (.named 12)) .yes true) hierarchy = .type (.atom (.named 12)) := by decide

example (v : Val) (hv : Of below v (.atom (.named 12))) : Of below v (.atom (.named 10)) :=
  promised_partial below_transitive (o := states (.atom (.named 12)) .yes true) (bs := hierarchy) (by decide)
    (fun a b ha hb => by
      simp [states, hierarchy, statedAbove, firstMatch, levels, silent] at ha hb
      rcases ha with rfl | rfl | rfl <;> rcases hb with rfl | rfl | rfl <;> simp [Safe]) (by decide) hv

/-- All overloads say something, or something is decided above them. -/
def regular : List Block := [[states (.atom int) .maybe false, silent .maybe true], [states (.atom (.named 10)) .yes true]]

example : NothingOpen ([states (.atom (.named 12)) .yes true] :: regular) := by
  refine ⟨.inl ?_, .inr (.inl ⟨?_, _, .head _, .signature, rfl⟩), .inl ?_, True.intro⟩ <;> intro o ho <;>
    rw [List.mem_singleton.mp ho] <;> simp [Says, states]

example : expected below merge (states (.atom (.named 12)) .yes true) regular = .type (.atom (.named 12)) := by decide
example : expected below merge (silent .yes true) regular = .type (.atom (.named 10)) := by decide
example : interpreted below (silent .yes true) regular = .type (.atom (.named 10)) := by decide
example : expected below merge (states (.atom str) .yes true) [[states (.atom int) .yes true]] = .invalid := by decide
example : expected below merge (silent .yes true) [[asks (.atom int) .maybe true]] = .cannot := by decide
example : expected below merge (silent .yes true) [[silent .maybe true]] = .unspecified := by decide

/-! ### Promises that are not kept -/

/-- Of two OneOfs only the first alternative is compared: `OneOf(int, str)` is trivially `OneOf(int, float)`, and so it is whatever follows the first. -/
theorem only_first_compared (sub : Nat → Nat → Bool) (c : Nat) (rest rest' : List Atom) :
    trivial sub (.oneOf (.named c :: rest)) (.oneOf (.named c :: rest')) = true := by
  unfold trivial
  split
  · rfl
  · simp [trivialAtom]

/-- A method that overrides one with the result `OneOf(c, ...)` may return anything if its own result type is a OneOf that begins with `c`: no
error, and the result is of a type that was not promised. -/
theorem promise_broken (sub : Nat → Nat → Bool) (c : Nat) (rest rest' : List Atom) (v : Val) (hv : ∃ a ∈ rest, OfAtom sub v a)
    (hn : ¬ OfAtom sub v (.named c) ∧ ∀ a ∈ rest', ¬ OfAtom sub v a) :
    interpreted sub (states (.oneOf (.named c :: rest)) .yes true) [[states (.oneOf (.named c :: rest')) .yes true]] = .type (.oneOf (.named c :: rest)) ∧
    Of sub v (.oneOf (.named c :: rest)) ∧ ¬ Of sub v (.oneOf (.named c :: rest')) := by
  refine ⟨?_, ?_, ?_⟩
  · simp [interpreted, states, statedAbove, firstMatch, levels, narrow, only_first_compared]
  · obtain ⟨a, ha, h⟩ := hv
    exact ⟨a, .tail _ ha, h⟩
  · rintro ⟨a, ha, h⟩
    rcases List.mem_cons.mp ha with rfl | ha
    · exact hn.1 h
    · exact hn.2 a ha h

/-- A text from a method that promised an `int` or a `float`. -/
example : interpreted below (states (.oneOf [int, str]) .yes true) [[states (.oneOf [int, float]) .yes true]] = .type (.oneOf [int, str]) ∧
    Of below (.inst 1 7) (.oneOf [int, str]) ∧ ¬ Of below (.inst 1 7) (.oneOf [int, float]) :=
  promise_broken below 0 [str] [float] (.inst 1 7) ⟨str, .head _, .inl rfl⟩ ⟨by simp [OfAtom, below], by simp [OfAtom, float, below]⟩

/-- A class is accepted for an instance: `SubclassOf(C)` is trivially `D` if `C` is a subclass of `D`. -/
theorem class_for_instance (sub : Nat → Nat → Bool) {c d : Nat} (h : sub c d = true) :
    interpreted sub (states (.atom (.subclassOf c)) .yes true) [[states (.atom (.named d)) .yes true]] = .type (.atom (.subclassOf c)) ∧
    Of sub (.cls c) (.atom (.subclassOf c)) ∧ ¬ Of sub (.cls c) (.atom (.named d)) := by
  refine ⟨?_, .inl rfl, fun h => h.elim⟩
  simp [interpreted, states, statedAbove, firstMatch, levels, narrow, trivial, trivialAtom, h]

example : below 11 10 = true := rfl

/-! ### Promises that are kept, and refused -/

/-- The value 1 is not trivially `OneOf(1, "a")`. -/
theorem value_refused (sub : Nat → Nat → Bool) (k c k' c' : Nat) :
    interpreted sub (states (.atom (.value k c)) .yes true) [[states (.oneOf [.value k c, .value k' c']) .yes true]] = .error ∧
    ∀ v, Of sub v (.atom (.value k c)) → Of sub v (.oneOf [.value k c, .value k' c']) := by
  refine ⟨?_, fun v hv => ⟨_, .head _, hv⟩⟩
  simp [interpreted, states, statedAbove, firstMatch, levels, narrow, trivial, trivialAtom]

/-- A `SubclassOf` is not trivially a OneOf that has it as an alternative. -/
theorem subclass_refused (sub : Nat → Nat → Bool) (c : Nat) (rest : List Atom) :
    interpreted sub (states (.atom (.subclassOf c)) .yes true) [[states (.oneOf (.subclassOf c :: rest)) .yes true]] = .error ∧
    ∀ v, Of sub v (.atom (.subclassOf c)) → Of sub v (.oneOf (.subclassOf c :: rest)) := by
  refine ⟨?_, fun v hv => ⟨_, .head _, hv⟩⟩
  simp [interpreted, states, statedAbove, firstMatch, levels, narrow, trivial]

/-- A OneOf of two subclasses is not trivially the class. -/
theorem oneOf_refused (sub : Nat → Nat → Bool) (ht : Transitive sub) {a b c : Nat} (ha : sub a c = true) (hb : sub b c = true) :
    interpreted sub (states (.oneOf [.named a, .named b]) .yes true) [[states (.atom (.named c)) .yes true]] = .error ∧
    ∀ v, Of sub v (.oneOf [.named a, .named b]) → Of sub v (.atom (.named c)) := by
  constructor
  · simp [interpreted, states, statedAbove, firstMatch, levels, narrow, trivial]
  · rintro v ⟨x, hx, hv⟩
    simp only [List.mem_cons, List.not_mem_nil, or_false] at hx
    rcases hx with rfl | rfl
    · exact trivialAtom_sound ht (b := .named c) (by simp [trivialAtom, ha]) (fun _ _ e => by cases e) hv
    · exact trivialAtom_sound ht (b := .named c) (by simp [trivialAtom, hb]) (fun _ _ e => by cases e) hv

/-! ### What the compiler gets wrong -/

/-- A method without a result type that overrides one that states `t` for some arguments: the compiler expects a `t` for all of them, the interpreter
takes anything for the others. -/
theorem expects_too_much (sub : Nat → Nat → Bool) (t : Ty) :
    expected sub merge (silent .yes true) [[states t .maybe false]] = .type t ∧
    interpreted sub (silent .yes true) [[states t .maybe false]] = .anything := by
  constructor
  · simp [expected, pathsOf, silent, pathsAbove, tries, levels, scan, states, unstatedPaths, mergeReturns, typesIn, merge]
  · simp [interpreted, silent, states, statedAbove, firstMatch, levels, narrow]

/-- The same within one class above: of two overloads one states a type, and the other, which is the one that matches, does not. -/
theorem forgets_the_silent (sub : Nat → Nat → Bool) (t : Ty) :
    expected sub merge (silent .yes true) [[states t .maybe false, silent .yes true]] = .type t ∧
    interpreted sub (silent .yes true) [[states t .maybe false, silent .yes true]] = .anything := by
  constructor
  · simp [expected, pathsOf, silent, pathsAbove, tries, levels, scan, states, unstatedPaths, mergeReturns, typesIn, merge]
  · simp [interpreted, silent, states, statedAbove, firstMatch, levels, narrow]

/-- The compiler is certain of an error where there is none: the class above does not say what its method returns, and the class above that says
something for other arguments only.  `Base.f(self, x: A) -> int`, `Middle.f(self, x)`, `Child.f(self, x) -> str`. -/
theorem expects_an_error (sub : Nat → Nat → Bool) {t u : Ty} (h : trivial sub t u = false) :
    expected sub merge (states t .yes true) [[silent .yes true], [states u .maybe false]] = .invalid ∧
    interpreted sub (states t .yes true) [[silent .yes true], [states u .maybe false]] = .type t := by
  constructor
  · simp [expected, pathsOf, silent, pathsAbove, tries, levels, scan, states, unstatedPaths, mergeReturns, typesIn, goodAbove, h]
  · simp [interpreted, silent, states, statedAbove, firstMatch, levels, narrow]

example : trivial below (.atom str) (.atom int) = false := by decide

/-- A signature function gets the type of the last positional argument for every keyword. -/
theorem keywords_lost {α : Type} (args : List α) (a : α) (kwargs : List (String × α)) :
    signatureArguments (args ++ [a]) kwargs = some (args ++ [a], kwargs.map fun p => (p.1, a)) := by
  simp [signatureArguments]

/-- So `f(1, y="a")` asks the signature function for an `int` as `y`, and a call with keywords only fails. -/
example : signatureArguments [int] [("y", str)] = some ([int], [("y", int)]) := by decide
theorem keywords_alone {α : Type} (p : String × α) (kwargs : List (String × α)) : signatureArguments [] (p :: kwargs) = none := by
  simp [signatureArguments]

end Verif.Returns.Wrong
