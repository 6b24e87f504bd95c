import Verif.Common
import Verif.MapReduce.Model
/-
C50: `map` and `reduce`.
-/
namespace Verif.MapReduce.Props

open Verif.MapReduce

variable {F K V T E : Type}

/-! ### Specification -/

/-- `f` applied to each element, left to right; the first exception ends it. -/
def each (call : V → Except E V) (vs : List V) : Except E (List V) := vs.mapM call

/-- `f(...f(f(t0), t1)..., tn)`, and `None` for the empty tuple -/
def folded (one : V → Except E V) (two : V → V → Except E V) (none_ : V) : List V → Except E V
  | [] => .ok none_
  | v :: vs => do
    let r ← one v
    vs.foldlM two r

/-! ### map -/

theorem outElts_eq (W : World F K V T E) (f : F) : ∀ vs, outElts W f vs = each (W.call f) vs
  | [] => rfl
  | v :: vs => by
    simp only [outElts, each, List.mapM_cons]
    cases h : W.call f v with
    | error e => rfl
    | ok w =>
      rw [outElts_eq W f vs]
      simp only [each]
      cases List.mapM (W.call f) vs <;> rfl

/-- `infer` knows a type for each element, which the value `f` returns for it has. -/
def Sound (W : World F K V T E) (f : F) (vs : List V) : Prop :=
  ∀ v ∈ vs, ∃ t, W.infer f (W.typeOf v) = some t ∧ ∀ w, W.call f v = .ok w → W.convert t w = .ok w

/-- the inferred types, one per element -/
def types (W : World F K V T E) (f : F) (vs : List V) : List T :=
  vs.filterMap (fun v => W.infer f (W.typeOf v))

theorem outTypes_eq {W : World F K V T E} {f : F} : ∀ {vs : List V}, Sound W f vs →
    outTypes W f vs = .ok (types W f vs)
  | [], _ => rfl
  | v :: vs, h => by
    obtain ⟨t, ht, _⟩ := h v (by simp)
    simp only [outTypes, ht, types, List.filterMap_cons]
    rw [outTypes_eq (vs := vs) (fun u hu => h u (by simp [hu]))]
    rfl

theorem build_eq {W : World F K V T E} {f : F} : ∀ {vs ws : List V}, Sound W f vs →
    each (W.call f) vs = .ok ws → build W (types W f vs) ws = .ok ws
  | [], ws, _, h => by
    simp only [each, List.mapM_nil, pure, Except.pure, Except.ok.injEq] at h
    subst h; rfl
  | v :: vs, ws, hs, h => by
    obtain ⟨t, ht, hc⟩ := hs v (by simp)
    simp only [each, List.mapM_cons] at h
    cases h1 : W.call f v with
    | error e => rw [h1] at h; simp [bind, Except.bind] at h
    | ok w =>
      rw [h1] at h
      cases h2 : List.mapM (W.call f) vs with
      | error e => rw [h2] at h; simp [bind, Except.bind] at h
      | ok ws' =>
        rw [h2] at h
        simp only [bind, Except.bind, pure, Except.pure, Except.ok.injEq] at h
        subst h
        simp only [types, List.filterMap_cons, ht]
        have := build_eq (vs := vs) (ws := ws') (fun u hu => hs u (by simp [hu])) h2
        simp only [types] at this
        simp only [build, hc w h1, this]

/-- The types of the elements of a tuple are the ones its type declares (no `OneOf`, no `object`, no
subclass). -/
def Exact (W : World F K V T E) (tup : Tup V T) : Prop := tup.vals.map W.typeOf = tup.ty.elems

/-- What the compiler infers for a call depends on the type of the function only. -/
def ByType (W : World F K V T E) : Prop :=
  ∀ f g t, W.ftype f = W.ftype g → W.infer f t = W.infer g t

/-- the cache holds what would be computed now -/
def CacheOK (W : World F K V T E) (c : Cache K T) : Prop :=
  ∀ k r, (k, r) ∈ c → ∃ f : F, W.ftype f = k.1 ∧
    r = { elems := k.2.elems.filterMap (W.infer f), names := k.2.names }

variable [DecidableEq K] [DecidableEq T]

theorem lookup_mem : ∀ {c : Cache K T} {k : K × TupTy T} {r : TupTy T}, lookup c k = some r →
    (k, r) ∈ c
  | [], _, _, h => by simp [lookup] at h
  | (k', r') :: rest, k, r, h => by
    simp only [lookup] at h
    split at h
    · rename_i hk; simp only [Option.some.injEq] at h; subst h; subst hk; simp
    · exact List.mem_cons_of_mem _ (lookup_mem h)

theorem types_exact {W : World F K V T E} {f : F} {tup : Tup V T} (h : Exact W tup) :
    types W f tup.vals = tup.ty.elems.filterMap (W.infer f) := by
  rw [← h, List.filterMap_map]; rfl

theorem outTypes_ok {W : World F K V T E} {f : F} : ∀ {vs : List V} {ts : List T},
    outTypes W f vs = .ok ts → ts = types W f vs
  | [], ts, h => by simp only [outTypes, Except.ok.injEq] at h; subst h; rfl
  | v :: vs, ts, h => by
    simp only [outTypes] at h
    split at h
    · simp at h
    · rename_i t ht
      split at h
      · simp at h
      · rename_i ts' h'
        simp only [Except.ok.injEq] at h
        subst h
        simp only [types, List.filterMap_cons, ht]
        rw [outTypes_ok h']; rfl

theorem mapCall_cache {W : World F K V T E} {c : Cache K T} {f : F} {a : Arg V T} (hc : CacheOK W c)
    (ha : ∀ t, a = .tuple t → Exact W t) : CacheOK W (mapCall W c f a).2 := by
  unfold mapCall
  split
  · exact hc
  · rename_i tup
    split
    · exact hc
    · split
      · exact hc
      · rename_i ts hts
        intro k r hk
        simp only [List.mem_cons, Prod.mk.injEq] at hk
        rcases hk with ⟨rfl, rfl⟩ | hk
        · refine ⟨f, rfl, ?_⟩
          rw [resTy, outTypes_ok hts, types_exact (ha tup rfl)]
        · exact hc k r hk

theorem runCalls_cache {W : World F K V T E} : ∀ (h : List (F × Arg V T)) (c : Cache K T), CacheOK W c →
    (∀ f t, (f, Arg.tuple t) ∈ h → Exact W t) → CacheOK W (runCalls W c h)
  | [], _, hc, _ => hc
  | (f, a) :: rest, c, hc, hh => by
    simp only [runCalls]
    refine runCalls_cache rest _ (mapCall_cache hc ?_) (fun g t hg => hh g t (by simp [hg]))
    rintro t rfl
    exact hh f t (by simp)

/-- C50, `map`: whatever calls of `map` were made before, `map(f, t)` applies `f` to the elements in
order, raises what the first failing call raises, and otherwise is the tuple of the results, each
element having the type inferred for it. What is missing: tuples with elements declared `OneOf` or
`object`, and functions whose result type depends on more than their type (`map_depends_on_history`,
`map_depends_on_closures`); functions that never return (`map_hides_exception`). -/
theorem map_elements_partial (W : World F K V T E) (hty : ByType W) (history : List (F × Arg V T))
    (hh : ∀ g t, (g, Arg.tuple t) ∈ history → Exact W t) (f : F) (tup : Tup V T) (hx : Exact W tup)
    (hs : Sound W f tup.vals) :
    (mapCall W (runCalls W [] history) f (.tuple tup)).1 =
      match each (W.call f) tup.vals with
      | .error e => .error e
      | .ok ws => .ok { ty := { elems := types W f tup.vals, names := tup.ty.names }, vals := ws } := by
  have hc : CacheOK W (runCalls W [] history) :=
    runCalls_cache history [] (by intro k r h; simp at h) hh
  have key : ∀ resT : TupTy T, resT = { elems := types W f tup.vals, names := tup.ty.names } →
      applyWith W f tup resT = match each (W.call f) tup.vals with
        | .error e => .error e
        | .ok ws => .ok { ty := { elems := types W f tup.vals, names := tup.ty.names }, vals := ws } := by
    rintro resT rfl
    simp only [applyWith, outElts_eq]
    cases h : each (W.call f) tup.vals with
    | error e => rfl
    | ok ws => simp only [build_eq hs h]
  unfold mapCall
  simp only
  split
  · rename_i resT hl
    refine key resT ?_
    obtain ⟨g, h1, h2⟩ := hc _ _ (lookup_mem hl)
    rw [h2, types_exact hx]
    rw [show W.infer g = W.infer f from funext fun t => hty g f t h1]
  · rw [outTypes_eq hs]
    exact key _ rfl

/-- C50: `map` of anything but a typed tuple raises `TypeError`, whatever was called before. -/
theorem map_other (W : World F K V T E) (c : Cache K T) (f : F) :
    mapCall W c f .other = (.error W.typeError, c) := rfl

omit [DecidableEq K] [DecidableEq T] in
/-- C50, compiled `map`: the results of the calls in order, with no dependence on earlier calls. -/
theorem map_compiled (W : World F K V T E) (inferDecl : F → T → Option T) (f : F) (tup : Tup V T) :
    (match mapCompiled W inferDecl f tup with
      | .error e => .error e
      | .ok t => .ok t.vals) = each (W.call f) tup.vals := by
  unfold mapCompiled
  rw [outElts_eq]
  cases each (W.call f) tup.vals <;> rfl

/-! ### reduce -/

omit [DecidableEq K] [DecidableEq T] in
theorem reduceLoop_false (one : V → Except E V) (two : V → V → Except E V) (none_ : V) :
    ∀ (vs : List V) (r : V), reduceLoop one two none_ false r vs = vs.foldlM two r
  | [], r => rfl
  | v :: vs, r => by
    simp only [reduceLoop, List.foldlM_cons]
    cases h : two r v with
    | error e => rfl
    | ok r' => exact reduceLoop_false one two none_ vs r'

omit [DecidableEq T] in
/-- C50, `reduce`: for every function and tuple. -/
theorem reduce_folds (typeError : E) (one : V → Except E V) (two : V → V → Except E V) (none_ : V)
    (t : Tup V T) : reduceCall typeError one two none_ (.tuple t) = folded one two none_ t.vals := by
  show reduceLoop one two none_ true none_ t.vals = _
  cases t.vals with
  | nil => rfl
  | cons v vs =>
    simp only [reduceLoop, folded]
    cases h : one v with
    | error e => rfl
    | ok r => exact reduceLoop_false one two none_ vs r

omit [DecidableEq T] in
theorem reduce_other (typeError : E) (one : V → Except E V) (two : V → V → Except E V) (none_ : V) :
    reduceCall (T := T) typeError one two none_ .other = .error typeError := rfl

omit [DecidableEq K] [DecidableEq T] in
theorem reduceRest_eq (two : V → V → Except E V) : ∀ (vs : List V) (r : V),
    reduceRest two r vs = match vs.foldlM two r with | .error e => .raised e | .ok v => .value v
  | [], r => rfl
  | v :: vs, r => by
    simp only [reduceRest, List.foldlM_cons]
    cases h : two r v with
    | error e => rfl
    | ok r' => exact reduceRest_eq two vs r'

omit [DecidableEq K] [DecidableEq T] in
/-- C50, compiled `reduce` of a tuple that is not empty; for the empty tuple see
`reduce_empty_compiled`. -/
theorem reduce_compiled_partial (one : V → Except E V) (two : V → V → Except E V) (none_ : V)
    (vs : List V) (h : vs ≠ []) :
    reduceCompiled one two vs =
      match folded one two none_ vs with | .error e => .raised e | .ok v => .value v := by
  cases vs with
  | nil => exact absurd rfl h
  | cons v vs =>
    simp only [reduceCompiled, folded]
    cases h : one v with
    | error e => rfl
    | ok r => exact reduceRest_eq two vs r

omit [DecidableEq K] [DecidableEq T] in
/-- Compiled `reduce` of an empty tuple should be `None`; the conversion returns Python's `None`, which
means that control never returns, but emits no code that raises. -/
theorem reduce_empty_compiled (one : V → Except E V) (two : V → V → Except E V) (none_ : V) :
    folded one two none_ [] = .ok none_ ∧ reduceCompiled one two [] = (.unreachable : Compiled V E) :=
  ⟨rfl, rfl⟩

/-! ### Cases -/

/-- Values of a small world. -/
inductive Value where
  | int (i : Int)
  | str (s : String)
  deriving DecidableEq, Repr

inductive Ty where
  | int | str | oneOf
  deriving DecidableEq, Repr

/-- Functions: the identity, one that adds one to an int, one that always raises, and two closures
`lambda x: c` over different captured values. -/
inductive Fn where
  | ident | inc | fail | const (v : Value)
  deriving DecidableEq, Repr

def tyOf : Value → Ty
  | .int _ => .int
  | .str _ => .str

def world : World Fn Nat Value Ty String where
  ftype f := match f with | .ident => 0 | .inc => 1 | .fail => 2 | .const _ => 3
  typeOf := tyOf
  infer f t := match f with
    | .ident => some t
    | .inc => some .int
    | .fail => none
    | .const v => some (tyOf v)
  call f v := match f, v with
    | .ident, v => .ok v
    | .inc, .int i => .ok (.int (i + 1))
    | .inc, .str _ => .error "TypeError"
    | .fail, _ => .error "ValueError"
    | .const c, _ => .ok c
  convert t v := match t, v with
    | .int, .int i => .ok (.int i)
    | .str, .str s => .ok (.str s)
    | .oneOf, v => .ok v
    | _, _ => .error "TypeError: cannot convert"
  attributeError := "AttributeError"
  typeError := "TypeError"

def pair (i j : Int) : Tup Value Ty := ⟨⟨[.int, .int], none⟩, [.int i, .int j]⟩
def either (v : Value) : Tup Value Ty := ⟨⟨[.oneOf], some ["x"]⟩, [v]⟩

example : Exact world (pair 1 2) ∧ Sound world .inc (pair 1 2).vals := by
  refine ⟨rfl, fun v hv => ⟨.int, rfl, fun w hw => ?_⟩⟩
  simp only [pair, List.mem_cons, List.not_mem_nil, or_false] at hv
  rcases hv with rfl | rfl <;> simp only [world, Except.ok.injEq] at hw <;> subst hw <;> rfl

example : (mapCall world (runCalls world [] [(.inc, .tuple (pair 5 6)), (.ident, .other)]) .inc
    (.tuple (pair 1 2))).1 = .ok (pair 2 3) := by decide +kernel

/-- `map` depends on earlier calls: `map(f, t)` for `t: NamedTuple(x=OneOf(int, str))` works for
`x="a"`, unless the first call with this function and tuple type had an int in `x`. -/
theorem map_depends_on_history :
    (mapCall world (runCalls world [] []) .ident (.tuple (either (.str "a")))).1 =
      .ok ⟨⟨[.str], some ["x"]⟩, [.str "a"]⟩ ∧
    (mapCall world (runCalls world [] [(.ident, .tuple (either (.int 1)))]) .ident
      (.tuple (either (.str "a")))).1 = .error "TypeError: cannot convert" := by decide +kernel

/-- The same for two functions of one type that close over values of different types. -/
theorem map_depends_on_closures :
    (mapCall world (runCalls world [] []) (.const (.str "a")) (.tuple (pair 1 2))).1 =
      .ok ⟨⟨[.str, .str], none⟩, [.str "a", .str "a"]⟩ ∧
    (mapCall world (runCalls world [] [(.const (.int 7), .tuple (pair 1 2))]) (.const (.str "a"))
      (.tuple (pair 1 2))).1 = .error "TypeError: cannot convert" := by decide +kernel

/-- A function that always raises: its result type is `None`, and `map` raises `AttributeError`
instead of the function's exception. -/
theorem map_hides_exception :
    each (world.call .fail) (pair 1 2).vals = .error "ValueError" ∧
    (mapCall world (runCalls world [] []) .fail (.tuple (pair 1 2))).1 = .error "AttributeError" := by
  decide +kernel

example : reduceCall (T := Ty) (V := Value) "TypeError" (fun v => .ok v)
    (fun a b => match a, b with | .int i, .int j => .ok (.int (10 * i + j)) | _, _ => .error "no")
    (.str "None") (.tuple ⟨⟨[.int, .int, .int], none⟩, [.int 1, .int 2, .int 3]⟩) = .ok (.int 123) := by
  decide +kernel

end Verif.MapReduce.Props
