import Verif.CConv.Refuse
import Verif.Conv.Examples
/-
C109: what the compiler says in advance about a conversion is what happens.
-/
namespace Verif.CConv

open Verif.Conv

/-- C109.  A conversion of which the compiler said that it succeeds does succeed, whatever the value is, and makes a value of the target
type. -/
theorem certain_conversion_succeeds {e : Env} (p : Fp) (he : Laws e) {s t : Ty} {d : Data} {l : Level} (ht : Good e t) (hs : Has e s d)
    (hl : l < .new) (h : canConvert s t l = .yes) : ∃ d', convertTo e p s t d l = .ok d' ∧ Has e t d' := by
  rw [convertTo]
  split
  · rename_i hst
    exact ⟨d, rfl, hst ▸ hs⟩
  · rw [if_neg (by rw [h]; exact nofun)]
    obtain ⟨_, h2, h3⟩ := sure he p t ht s d l hs hl
    obtain ⟨d', hd'⟩ := h3 h
    exact ⟨d', hd', h2 d' hd'⟩

/-- C109.  Whatever the compiler said, success is reported only of a value that was stored, and it is of the target type. -/
theorem conversion_stores_the_type {e : Env} (p : Fp) (he : Laws e) {s t : Ty} {d : Data} {l : Level} (ht : Good e t) (hs : Has e s d)
    (hl : l < .new) : convertTo e p s t d l ≠ .junk ∧ ∀ d', convertTo e p s t d l = .ok d' → Has e t d' := by
  rw [convertTo]
  split
  · rename_i hst
    exact ⟨nofun, fun d' h => by cases h; exact hst ▸ hs⟩
  · split
    · exact ⟨nofun, nofun⟩
    · obtain ⟨h1, h2, _⟩ := sure he p t ht s d l hs hl
      exact ⟨h1, h2⟩

/-- C109.  What the compiler refuses in advance the interpreter refuses as well, for every value of the type, at that level and below.
Missing: the level `Implicit`, where it is false, see `refused_but_accepted`. -/
theorem refused_conversion_is_refused_partial {e : Env} {s t : Ty} {d : Data} {l l' : Level} (ht : Good e t) (hs : Has e s d)
    (h : canConvert s t l = .no) (hi : l ≠ .implicit) (hl : l < .new) (hl' : l' ≤ l) : conv e t (extract s d) l' = none :=
  refused_all t ht s d l l' h hi hl hl' hs

/-- C109.  Refusing in advance is all there is to it: the conversion does not succeed. -/
theorem refused_conversion_fails {e : Env} {p : Fp} {s t : Ty} {d : Data} {l : Level} (h : canConvert s t l = .no) :
    convertTo e p s t d l = .fail := by
  rw [convertTo, if_neg (canConvert_no.mp h).1, if_pos h]

/-- C109, refuted at the level `Implicit`: `Tuple(ListOf(int))` for `TupleOf(ListOf(float))` is refused by the compiler, and accepted by
the interpreter, which converts the elements at a higher level. -/
theorem refused_but_accepted (e : Env) (n : Int) :
    canConvert (.tuple [.listOf (.reg .i64)]) (.tupleOf (.listOf (.reg .f64))) .implicit = .no ∧
      conv e (.tupleOf (.listOf (.reg .f64))) (extract (.tuple [.listOf (.reg .i64)]) (.seq [.seq [.num (.int n)]])) .implicit =
        some (.seq [.seq [.num (.flt (e.double n))]]) := by
  refine ⟨by decide +kernel, ?_⟩
  rfl

/-- C109, refuted for literals: `1.5` is converted to an integer at the level `Upcast`, where the compiler and the interpreter refuse
every float. -/
theorem literal_loses_fraction (e : Env) (p : Fp) (x : Nat) :
    literalTo e p .f64 (.flt x) .i64 .upcast = .ok (.num (Conv.cast e .i64 (.flt x))) ∧
      canConvert (.reg .f64) (.reg .i64) .upcast = .no ∧ convertTo e p (.reg .f64) (.reg .i64) (.num (.flt x)) .upcast = .fail ∧
      conv e (.reg .i64) (extract (.reg .f64) (.num (.flt x))) .upcast = none := by
  refine ⟨by rw [literalTo, if_neg (by decide), if_pos (by decide)], by decide +kernel,
    refused_conversion_fails (by decide +kernel), ?_⟩
  exact refused_conversion_is_refused_partial (l := .upcast) .reg (.reg trivial) (by decide +kernel) (by decide) (by decide) (Level.le_refl _)

/-! ### Examples -/

theorem sample_laws : Laws sample := ⟨sample_lawful, fun _ _ h => by cases h⟩

/-- All floats are finite. -/
def tame : Fp := ⟨fun _ => false, fun _ => true⟩

/-- A NamedTuple of a number, a tuple of texts and a choice. -/
def sampleRow : Ty := .named ["id", "tags", "size"] [.reg .u8, .tupleOf .str, .oneOf [.none, .reg .i64]]

theorem sampleRow_good : Good sample sampleRow := by
  refine .named (by decide) rfl (fun t ht => ?_)
  simp only [List.mem_cons, List.not_mem_nil, or_false] at ht
  rcases ht with rfl | rfl | rfl
  · exact .reg
  · exact .tupleOf .str
  · refine .oneOf (fun t ht => ?_) (fun t ht => ?_)
    · simp only [List.mem_cons, List.not_mem_nil, or_false] at ht
      rcases ht with rfl | rfl
      · exact .none
      · exact .reg
    · simp only [List.mem_cons, List.not_mem_nil, or_false] at ht
      rcases ht with rfl | rfl <;> exact nofun

/-- A NamedTuple with fewer fields, in another order. -/
def sampleSource : Ty := .named ["size", "id"] [.reg .i64, .reg .u8]

theorem sampleSource_has : Has sample sampleSource (.seq [.num (.int 7), .num (.int 200)]) := by
  refine .named rfl (fun i t d ht hd => ?_)
  match i with
  | 0 => simp only [List.getElem?_cons_zero, Option.some.injEq] at ht hd; subst ht hd; exact .reg (by simp [Fits, InInt64])
  | 1 => simp only [List.getElem?_cons_succ, List.getElem?_cons_zero, Option.some.injEq] at ht hd; subst ht hd; exact .reg (by simp [Fits])
  | n + 2 => simp at ht

-- the compiler is sure of it, and it happens: the missing field has its default, and the choice holds the integer
example : canConvert sampleSource sampleRow .upcast = .yes := by decide +kernel

example : convertTo sample tame sampleSource sampleRow (.seq [.num (.int 7), .num (.int 200)]) .upcast =
    .ok (.seq [.num (.int 200), .seq [], .tag 1 (.num (.int 7))]) := by decide +kernel

example : ∃ d', convertTo sample tame sampleSource sampleRow (.seq [.num (.int 7), .num (.int 200)]) .upcast = .ok d' ∧
    Has sample sampleRow d' :=
  certain_conversion_succeeds tame sample_laws sampleRow_good sampleSource_has (by decide) (by decide +kernel)

-- a conversion of which the compiler is not sure, that fails for one value and succeeds for another
example : canConvert (.oneOf [.none, .reg .i64]) (.reg .i64) .signature = .maybe ∧
    convertTo sample tame (.oneOf [.none, .reg .i64]) (.reg .i64) (.tag 0 .unit) .signature = .fail ∧
    convertTo sample tame (.oneOf [.none, .reg .i64]) (.reg .i64) (.tag 1 (.num (.int 3))) .signature = .ok (.num (.int 3)) := by
  decide +kernel

-- a field that is too wide is refused
example : conv sample sampleRow (extract (.named ["id"] [.reg .i64]) (.seq [.num (.int 7)])) .upcastContainers = none := by
  refine refused_conversion_is_refused_partial (l := .upcastContainers) sampleRow_good ?_ (by decide +kernel) (by decide) (by decide) (Level.le_refl _)
  refine .named rfl (fun i t d ht hd => ?_)
  match i with
  | 0 => simp only [List.getElem?_cons_zero, Option.some.injEq] at ht hd; subst ht hd; exact .reg (by simp [Fits, InInt64])
  | n + 1 => simp at ht

end Verif.CConv
