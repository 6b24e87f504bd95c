import Verif.CConv.Agree
import Verif.CConv.Props
/-
C110: types for which compiled code converts as the interpreter does, and the conversions at which they differ.
-/
namespace Verif.CConv

open Verif.Conv

/-- A set of conversions that contains every next one and nothing odd. -/
theorem usual_of {Q : Pair → Prop} (hstep : ∀ a b, Q a → Step a b → Q b) (hodd : ∀ a, Q a → ¬ Odd a) {a : Pair} (h : Q a) : Usual a := by
  intro b hm
  induction hm with
  | here => exact hodd _ h
  | next hs _ ih => exact ih (hstep _ _ h hs)

/-- Types of a fixed shape: numbers, text, bytes and `None`, and tuples of them. -/
inductive Record : Ty → Prop
  | none : Record .none
  | reg {r : Reg} : Record (.reg r)
  | str : Record .str
  | bytes : Record .bytes
  | tuple {ts : List Ty} : (∀ t ∈ ts, Record t) → Record (.tuple ts)
  | named {ns : List String} {ts : List Ty} : (∀ t ∈ ts, Record t) → Record (.named ns ts)

/-- No number is a constant in the type. -/
inductive NoNumber : Ty → Prop
  | none : NoNumber .none
  | reg {r : Reg} : NoNumber (.reg r)
  | str : NoNumber .str
  | bytes : NoNumber .bytes
  | text {s : List Nat} : NoNumber (.value (.str s))
  | octets {b : List Nat} : NoNumber (.value (.bytes b))
  | tupleOf {t : Ty} : NoNumber t → NoNumber (.tupleOf t)
  | listOf {t : Ty} : NoNumber t → NoNumber (.listOf t)
  | tuple {ts : List Ty} : (∀ t ∈ ts, NoNumber t) → NoNumber (.tuple ts)
  | named {ns : List String} {ts : List Ty} : (∀ t ∈ ts, NoNumber t) → NoNumber (.named ns ts)
  | oneOf {ts : List Ty} : (∀ t ∈ ts, NoNumber t) → NoNumber (.oneOf ts)

theorem typeOf_mem {ns : List String} {ts : List Ty} {n : String} {t : Ty} (h : typeOf ns ts n = some t) : t ∈ ts := by
  induction ns generalizing ts with
  | nil => simp [typeOf] at h
  | cons m ns ih =>
    cases ts with
    | nil => simp [typeOf] at h
    | cons u ts =>
      rw [typeOf] at h
      split at h
      · cases h
        simp
      · exact List.mem_cons_of_mem _ (ih h)

theorem record_noChoice {s : Ty} (h : Record s) : noChoice s = true := by
  induction h with
  | tuple _ ih | named _ ih =>
    rename_i ts _
    rw [noChoice]
    clear * - ih
    induction ts with
    | nil => rfl
    | cons t ts iht =>
      rw [noChoices, ih t (by simp), iht (fun t ht => ih t (by simp [ht]))]
      rfl
  | _ => rfl

theorem record_usual {s t : Ty} {l : Level} (hs : Record s) (ht : NoNumber t) (hl : l ≤ .upcast) : Usual ⟨l, l, true, s, t⟩ := by
  have hlow : ∀ {m : Level}, m ≤ .upcast → ¬ .upcastContainers ≤ m ∧ ¬ .implicit ≤ m ∧ fieldLevel m = m := by
    intro m hm
    rw [Level.le_iff] at hm
    cases m <;> simp_all [Level.le_iff, Level.toInt, fieldLevel, Level.lt_iff]
  refine usual_of (Q := fun a => a.compiled = a.interpreted ∧ a.compiled ≤ .upcast ∧ a.asked = true ∧ Record a.source ∧ NoNumber a.target)
    ?_ ?_ ⟨rfl, hl, rfl, hs, ht⟩
  · rintro a b ⟨h1, h2, h3, h4, h5⟩ hstep
    cases hstep with
    | alternative => cases h4
    | constant => cases h4
    | choice _ hb hm _ =>
      cases h5 with
      | oneOf h5 => exact ⟨rfl, Level.le_trans hm h2, rfl, h4, h5 _ hb⟩
    | last _ hb =>
      cases h5 with
      | oneOf h5 => exact ⟨h1, h2, rfl, h4, h5 _ hb⟩
    | element _ _ hu => exact absurd hu (hlow h2).1
    | item _ _ _ hu => exact absurd hu (hlow h2).1
    | field hss hts hv hu _ =>
      simp only at h1 h2 h3
      subst h1
      refine ⟨(hlow h2).2.2.symm, h2, h3, ?_, ?_⟩
      · cases h4 <;> simp only [fieldsOf, Option.some.injEq, reduceCtorEq] at hss <;> subst hss <;>
          (rename_i h; exact h _ (List.mem_of_getElem? hv))
      · cases h5 <;> simp only [fieldsOf, Option.some.injEq, reduceCtorEq] at hts <;> subst hts <;>
          (rename_i h; exact h _ (List.mem_of_getElem? hu))
    | name hni hu hv _ =>
      simp only at h1 h2 h3
      subst h1
      refine ⟨(hlow h2).2.2.symm, h2, h3, ?_, ?_⟩
      · cases h4 with
        | named h => exact h _ (typeOf_mem hv)
      · cases h5 with
        | named h => exact h _ (List.mem_of_getElem? hu)
  · rintro a ⟨h1, h2, h3, h4, h5⟩ ho
    cases ho with
    | fraction h => exact (hlow h2).2.1 h
    | rounded h => exact (hlow h2).2.1 h
    | constant => cases h5
    | noneText => cases h3
    | noneTruth => cases h3
    | bytesNumber => cases h3
    | truth => cases h3
    | text _ _ _ h => exact (hlow h2).1 h
    | shape h => cases h4 <;> simp [eltOf] at h
    | copied _ h => rw [record_noChoice h4] at h; cases h
    | list _ h => exact h h1
    | inner => exact absurd (show Level.implicit ≤ Level.upcast from h2) (by decide)

/-- C110.  Numbers, text, bytes, `None` and tuples of them are converted at the levels `Signature` and `Upcast`, those of function
arguments, to what the interpreter converts them to, whatever the target is, as long as no constant in it is a number. -/
theorem records_convert_as_interpreted {e : Env} (p : Fp) (he : Laws e) {s t : Ty} {d : Data} {l : Level} (ht : Good e t) (hs : Has e s d)
    (hl : l ≤ .upcast) (hr : Record s) (hn : NoNumber t) : convertTo e p s t d l = toOut (conv e t (extract s d) l) := by
  have hp : s.plain = true := by cases hr <;> rfl
  by_cases hst : s = t
  · subst hst
    rw [convertTo, if_pos rfl, conv_self hs hp]
    rfl
  · refine compiled_converts_as_interpreted_partial p he ht hs ?_ hst (.inl hp) (record_usual hr hn hl)
    rw [Level.le_iff] at hl
    rw [Level.lt_iff]
    exact Nat.lt_of_le_of_lt hl (by decide)

/-! ### Where they differ -/

/-- C110, refuted: what is not finite is not converted to an integer in compiled code; the interpreter truncates it. -/
theorem infinite_float_differs (e : Env) (p : Fp) (x : Nat) (h : p.finite x = false) :
    convertTo e p (.reg .f64) (.reg .i64) (.num (.flt x)) .implicit = .fail ∧
      conv e (.reg .i64) (extract (.reg .f64) (.num (.flt x))) .implicit = some (.num (Conv.cast e .i64 (.flt x))) := by
  refine ⟨?_, rfl⟩
  rw [convertTo, if_neg (by decide), if_neg (by decide +kernel), into, resolve_plain rfl]
  simp only [own]
  rw [if_pos (by decide), numTo.eq_def]
  simp [h, Reg.isFloat]

/-- C110, refuted: NaN is false in compiled code and true in the interpreter. -/
theorem nan_truth_differs (e : Env) (p : Fp) (x : Nat) (h : p.nan x = true) (h' : e.nonzero x = true) :
    convertTo e p (.reg .f64) (.reg .bool) (.num (.flt x)) .implicit = .ok (.num (.int 0)) ∧
      conv e (.reg .bool) (extract (.reg .f64) (.num (.flt x))) .implicit = some (.num (.int 1)) := by
  constructor
  · rw [convertTo, if_neg (by decide), if_neg (by decide +kernel), into, resolve_plain rfl]
    simp only [own]
    rw [if_pos (by decide), numTo.eq_def]
    simp [h]
  · simp [extract, numToPy, conv, copyOr, convTo, convReg, isValidConversion, Level.le_iff, Level.toInt, Conv.cast, h']

/-- C110, refuted: an integer becomes a Float32 by one rounding in compiled code and by two in the interpreter. -/
theorem single_rounding_differs (e : Env) (p : Fp) (n : Int) :
    convertTo e p (.reg .i64) (.reg .f32) (.num (.int n)) .implicit = .ok (.num (.flt (e.single n))) ∧
      conv e (.reg .f32) (extract (.reg .i64) (.num (.int n))) .implicit = some (.num (.flt (e.narrow (e.double n)))) := by
  refine ⟨?_, rfl⟩
  rw [convertTo, if_neg (by decide), if_neg (by decide +kernel), into, resolve_plain rfl]
  simp only [own]
  rw [if_pos (by decide), numTo.eq_def]
  rfl

/-- C110, refuted: `1.0` for `OneOf(1, float)` is the constant `1` in compiled code and the float in the interpreter. -/
theorem constant_differs (e : Env) (p : Fp) (x : Nat) (h : e.feq (e.double 1) x = true) :
    convertTo e p (.reg .f64) (.oneOf [.value (.num .i64 (.int 1)), .reg .f64]) (.num (.flt x)) .signature = .ok (.tag 0 .unit) ∧
      conv e (.oneOf [.value (.num .i64 (.int 1)), .reg .f64]) (extract (.reg .f64) (.num (.flt x))) .signature = some (.tag 1 (.num (.flt x))) := by
  refine ⟨?_, rfl⟩
  have hc : isConst e (.num .i64 (.int 1)) (.reg .f64) (.num (.flt x)) = true := by
    have : promotesTo .i64 .f64 = .f64 := by decide
    simp only [isConst, eqNum, this, Conv.cast, sameNum, h]
  have hany : intoAny e p [.value (.num .i64 (.int 1)), .reg .f64] (.reg .f64) (.num (.flt x)) .signature 0 = .ok (.tag 0 .unit) := by
    rw [intoAny, if_neg (by decide), if_neg (by decide +kernel), into, own_none (by simp) (by simp), resolve_plain rfl]
    simp only
    rw [if_pos hc]
  rw [convertTo, if_neg (by decide), if_neg (by decide +kernel), into, own_none (by simp) (by simp), resolve_plain rfl]
  simp only
  have hls : oneOfLevels.filter (· ≤ Level.signature) = [.signature] := rfl
  rw [hls, List.foldr_cons, List.foldr_nil, hany]
  simp [promised]

/-- C110, refuted: a OneOf that holds `None` is converted to the text "None", and to false, where the interpreter refuses. -/
theorem none_differs (e : Env) (p : Fp) (l : Level) (hl : l < .new) :
    convertTo e p (.oneOf [.none, .str]) .str (.tag 0 .unit) l = .ok (.str noneText) ∧
      conv e .str (extract (.oneOf [.none, .str]) (.tag 0 .unit)) l = none ∧
      convertTo e p (.oneOf [.none, .reg .bool]) (.reg .bool) (.tag 0 .unit) l = .ok (.num (.int 0)) ∧
      conv e (.reg .bool) (extract (.oneOf [.none, .reg .bool]) (.tag 0 .unit)) l = none := by
  have hn : ¬ Level.new ≤ l := Nat.not_le.mpr hl
  have hc : ∀ t : Ty, canConvert (.oneOf [.none, t]) t l ≠ .no := fun t h => by simp [canConvert_no, canTo] at h
  refine ⟨?_, by simp [extract, extractAt, conv, copyOr, convTo, convStr, hn], ?_, by simp [extract, extractAt, conv, copyOr, convTo, convReg, hn]⟩
  · rw [convertTo, if_neg (by decide), if_neg (hc _), into, resolve, resolveAt, resolve]
    rfl
    all_goals simp
  · rw [convertTo, if_neg (by decide), if_neg (hc _), into, resolve, resolveAt, resolve]
    rfl
    all_goals simp

/-- C110, refuted: a OneOf that holds bytes is converted to the number the bytes spell, where the interpreter refuses. -/
theorem bytes_differ (e : Env) (p : Fp) (l : Level) (hl : l < .new) (b : List Nat) (n : Int) (h : e.long (.bytes b) = some n) :
    convertTo e p (.oneOf [.bytes, .reg .i64]) (.reg .i64) (.tag 0 (.bytes b)) l = .ok (.num (.int n)) ∧
      conv e (.reg .i64) (extract (.oneOf [.bytes, .reg .i64]) (.tag 0 (.bytes b))) l = none := by
  have hn : ¬ Level.new ≤ l := Nat.not_le.mpr hl
  refine ⟨?_, by simp [extract, extractAt, conv, copyOr, convTo, convReg, hn]⟩
  rw [convertTo, if_neg (by decide), if_neg (fun h => by simp [canConvert_no, canTo] at h), into, resolve, resolveAt, resolve]
  simp only [own, h]
  all_goals simp

/-- C110, refuted: a OneOf that holds a container, a tuple or bytes is converted to whether it is not empty, where the
interpreter refuses. -/
theorem truth_differs (e : Env) (p : Fp) (l : Level) (hl : l < .new) :
    (∀ ds : List Data, convertTo e p (.oneOf [.tupleOf (.reg .i64), .reg .bool]) (.reg .bool) (.tag 0 (.seq ds)) l =
        .ok (.num (.int (if ds = [] then 0 else 1))) ∧
      conv e (.reg .bool) (extract (.oneOf [.tupleOf (.reg .i64), .reg .bool]) (.tag 0 (.seq ds))) l = none) ∧
    (∀ (ts : List Ty) (ds : List Data), convertTo e p (.oneOf [.tuple ts, .reg .bool]) (.reg .bool) (.tag 0 (.seq ds)) l =
        .ok (.num (.int (if ts = [] then 0 else 1))) ∧
      conv e (.reg .bool) (extract (.oneOf [.tuple ts, .reg .bool]) (.tag 0 (.seq ds))) l = none) ∧
    (∀ b : List Nat, convertTo e p (.oneOf [.bytes, .reg .bool]) (.reg .bool) (.tag 0 (.bytes b)) l =
        .ok (.num (.int (if b = [] then 0 else 1))) ∧
      conv e (.reg .bool) (extract (.oneOf [.bytes, .reg .bool]) (.tag 0 (.bytes b))) l = none) := by
  have hn : ¬ Level.new ≤ l := Nat.not_le.mpr hl
  refine ⟨fun ds => ⟨?_, by simp [extract, extractAt, conv, copyOr, convTo, convReg, hn]⟩,
    fun ts ds => ⟨?_, by simp [extract, extractAt, conv, copyOr, convTo, convReg, hn]⟩,
    fun b => ⟨?_, by simp [extract, extractAt, conv, copyOr, convTo, convReg, hn]⟩⟩
  · rw [convertTo, if_neg (by decide), if_neg (fun h => by simp [canConvert_no, canTo] at h), into, resolve, resolveAt, resolve]
    · cases ds <;> simp [own, truth]
    all_goals simp
  · rw [convertTo, if_neg (by simp), if_neg (fun h => by simp [canConvert_no, canTo] at h), into, resolve, resolveAt, resolve]
    · cases ts <;> simp [own, truth]
    all_goals simp
  · rw [convertTo, if_neg (by decide), if_neg (fun h => by simp [canConvert_no, canTo] at h), into, resolve, resolveAt, resolve]
    · cases b <;> simp [own, truth]
    all_goals simp

/-- C110, refuted: text becomes a tuple of letters in compiled code, at a level at which the interpreter refuses. -/
theorem text_differs (e : Env) (p : Fp) (c : Nat) :
    convertTo e p .str (.tupleOf .str) (.str [c]) .upcastContainers = .ok (.seq [.str [c]]) ∧
      conv e (.tupleOf .str) (extract .str (.str [c])) .upcastContainers = none := by
  refine ⟨?_, rfl⟩
  rw [convertTo, if_neg (by decide), if_neg (by decide +kernel), into, own_none (by simp) (by simp), resolve_plain rfl]
  simp only
  have hv : canFrom (.tupleOf .str) .str .upcastContainers = .maybe := by decide +kernel
  rw [hv, seqSelf, if_neg (by decide)]
  simp [elements, each, into, resolve, own, Out.bind, promised]

/-- C110, refuted: a TupleOf is never converted to a Tuple in compiled code; the interpreter converts one of the right length. -/
theorem shape_differs (e : Env) (p : Fp) (n : Int) :
    convertTo e p (.tupleOf (.reg .i64)) (.tuple [.reg .i64]) (.seq [.num (.int n)]) .upcast = .fail ∧
      conv e (.tuple [.reg .i64]) (extract (.tupleOf (.reg .i64)) (.seq [.num (.int n)])) .upcast =
        some (.seq [.num (Conv.cast e .i64 (.int (longBits n)))]) := by
  refine ⟨?_, rfl⟩
  rw [convertTo, if_neg (by decide), if_neg (by decide +kernel), into, own_none (by simp) (by simp), resolve_plain rfl]

/-- C110, refuted: a tuple that is converted has the containers in it copied element by element, and a float in it can become a
constant; the interpreter copies the container. -/
theorem copy_differs (e : Env) (p : Fp) (x : Nat) (n : Int) (h : e.feq (e.double 1) x = true) :
    let c : Ty := .tupleOf (.oneOf [.value (.num .i64 (.int 1)), .reg .f64])
    convertTo e p (.tuple [c, .reg .i32]) (.tuple [c, .reg .i64]) (.seq [.seq [.tag 1 (.num (.flt x))], .num (.int n)]) .upcastContainers =
        .ok (.seq [.seq [.tag 0 .unit], .num (Conv.cast e .i64 (.int n))]) ∧
      conv e (.tuple [c, .reg .i64]) (extract (.tuple [c, .reg .i32]) (.seq [.seq [.tag 1 (.num (.flt x))], .num (.int n)])) .upcastContainers =
        some (.seq [.seq [.tag 1 (.num (.flt x))], .num (Conv.cast e .i64 (.int n))]) := by
  intro c
  refine ⟨?_, rfl⟩
  have hc : isConst e (.num .i64 (.int 1)) (.reg .f64) (.num (.flt x)) = true := by
    have : promotesTo .i64 .f64 = .f64 := by decide
    simp only [isConst, eqNum, this, Conv.cast, sameNum, h]
  have hany : intoAny e p [.value (.num .i64 (.int 1)), .reg .f64] (.reg .f64) (.num (.flt x)) .signature 0 = .ok (.tag 0 .unit) := by
    rw [intoAny, if_neg (by decide), if_neg (by decide +kernel), into, own_none (by simp) (by simp), resolve_plain rfl]
    simp only
    rw [if_pos hc]
  have helem : into e p (.oneOf [.value (.num .i64 (.int 1)), .reg .f64]) (.oneOf [.value (.num .i64 (.int 1)), .reg .f64]) (.tag 1 (.num (.flt x)))
      .upcastContainers = .ok (.tag 0 .unit) := by
    rw [into, own_none (by simp) (by simp), resolve, resolveAt, resolveAt, resolve]
    simp only
    have hls : oneOfLevels.filter (· ≤ Level.upcastContainers) = [.signature, .upcast, .upcastContainers] := rfl
    rw [hls, List.foldr_cons, hany]
    simp [promised]
    all_goals simp
  have hseq : into e p c c (.seq [.tag 1 (.num (.flt x))]) .upcastContainers = .ok (.seq [.tag 0 .unit]) := by
    rw [into, own_none (by simp) (by simp), resolve_plain rfl]
    simp only [c]
    have hv : canFrom c c .upcastContainers = .yes := by decide +kernel
    rw [hv, seqSelf, if_neg (by decide)]
    simp [elements, each, helem, Out.bind, promised]
  have hnum : into e p (.reg .i64) (.reg .i32) (.num (.int n)) .upcastContainers = .ok (.num (Conv.cast e .i64 (.int n))) := by
    rw [into, resolve_plain rfl]
    simp only [own]
    rw [if_pos (by decide)]
    rfl
  rw [convertTo, if_neg (by decide), if_neg (by decide +kernel), into, own_none (by simp) (by simp), resolve_plain rfl]
  simp only [List.length_cons, List.length_nil, ne_eq, not_true, if_false, List.zip_cons_cons, List.zip_nil_left]
  rw [intoZip, hseq]
  simp only [Out.bind]
  rw [intoZip, hnum]
  simp [Out.bind, intoZip, promised]

/-- C110, refuted at the level `Signature`: a OneOf that holds a Tuple is converted to a NamedTuple, where the interpreter refuses. -/
theorem signature_differs (e : Env) (p : Fp) (n : Int) :
    convertTo e p (.oneOf [.none, .tuple [.reg .i64]]) (.named ["x"] [.reg .i64]) (.tag 1 (.seq [.num (.int n)])) .signature =
        .ok (.seq [.num (Conv.cast e .i64 (.int n))]) ∧
      conv e (.named ["x"] [.reg .i64]) (extract (.oneOf [.none, .tuple [.reg .i64]]) (.tag 1 (.seq [.num (.int n)]))) .signature = none := by
  refine ⟨?_, rfl⟩
  have hnum : into e p (.reg .i64) (.reg .i64) (.num (.int n)) .signature = .ok (.num (Conv.cast e .i64 (.int n))) := by
    rw [into, resolve_plain rfl]
    simp only [own]
    rw [if_pos (by decide)]
    rfl
  rw [convertTo, if_neg (by decide), if_neg (by decide +kernel), into, own_none (by simp) (by simp), resolve, resolveAt, resolveAt, resolve]
  simp only [List.length_cons, List.length_nil, ne_eq, not_true, if_false, List.zip_cons_cons, List.zip_nil_left]
  rw [intoZip, hnum]
  simp [Out.bind, intoZip, promised, canFrom, Level.lt_iff, Level.toInt]
  all_goals simp

/-! ### Examples -/

theorem sampleSource_record : Record sampleSource := by
  refine .named (fun t ht => ?_)
  simp only [List.mem_cons, List.not_mem_nil, or_false] at ht
  rcases ht with rfl | rfl <;> exact .reg

theorem sampleRow_noNumber : NoNumber sampleRow := by
  refine .named (fun t ht => ?_)
  simp only [List.mem_cons, List.not_mem_nil, or_false] at ht
  rcases ht with rfl | rfl | rfl
  · exact .reg
  · exact .tupleOf .str
  · refine .oneOf (fun t ht => ?_)
    simp only [List.mem_cons, List.not_mem_nil, or_false] at ht
    rcases ht with rfl | rfl
    · exact .none
    · exact .reg

-- both make the same of it: the missing field has its default, and the choice holds the integer
example : convertTo sample tame sampleSource sampleRow (.seq [.num (.int 7), .num (.int 200)]) .upcast =
    toOut (conv sample sampleRow (extract sampleSource (.seq [.num (.int 7), .num (.int 200)])) .upcast) :=
  records_convert_as_interpreted tame sample_laws sampleRow_good sampleSource_has (by decide) sampleSource_record sampleRow_noNumber

example : conv sample sampleRow (extract sampleSource (.seq [.num (.int 7), .num (.int 200)])) .upcast =
    some (.seq [.num (.int 200), .seq [], .tag 1 (.num (.int 7))]) := by decide +kernel

/-- A list of integers for a choice of nothing or a tuple of floats, at the highest level. -/
theorem list_usual : Usual ⟨.implicitContainers, .implicitContainers, true, .listOf (.reg .i64), .oneOf [.none, .tupleOf (.reg .f64)]⟩ := by
  refine usual_of (Q := fun a =>
    (a = ⟨.implicitContainers, .implicitContainers, true, .listOf (.reg .i64), .oneOf [.none, .tupleOf (.reg .f64)]⟩) ∨
    (a.compiled = a.interpreted ∧ a.source = .listOf (.reg .i64) ∧ (a.target = .none ∨ a.target = .tupleOf (.reg .f64))) ∨
    (a.source = .reg .i64 ∧ a.target = .reg .f64)) ?_ ?_ (.inl rfl)
  · rintro ⟨l, l', g, s, t⟩ b h hstep
    simp only [Pair.mk.injEq] at h
    rcases h with ⟨rfl, rfl, rfl, rfl, rfl⟩ | ⟨rfl, rfl, rfl | rfl⟩ | ⟨rfl, rfl⟩
    · cases hstep with
      | choice _ hb _ _ =>
        simp only [List.mem_cons, List.not_mem_nil, or_false] at hb
        exact .inr (.inl ⟨rfl, rfl, hb⟩)
      | last _ hb =>
        simp only [List.mem_cons, List.not_mem_nil, or_false] at hb
        exact .inr (.inl ⟨rfl, rfl, hb⟩)
      | element _ h => simp [eltOf] at h
      | item h => simp [fieldsOf] at h
      | field h => simp [fieldsOf] at h
    · cases hstep with
      | element _ h => simp [eltOf] at h
      | item h => simp [fieldsOf] at h
      | field h => simp [fieldsOf] at h
    · cases hstep with
      | element h h' =>
        simp only [yields, eltOf, Option.some.injEq] at h h'
        exact .inr (.inr ⟨h.symm, h'.symm⟩)
      | item h => simp [fieldsOf] at h
      | field h => simp [fieldsOf] at h
    · cases hstep with
      | element h => simp [yields] at h
      | item h => simp [fieldsOf] at h
      | field h => simp [fieldsOf] at h
  · rintro ⟨l, l', g, s, t⟩ h ho
    simp only [Pair.mk.injEq] at h
    rcases h with ⟨rfl, rfl, rfl, rfl, rfl⟩ | ⟨rfl, rfl, rfl | rfl⟩ | ⟨rfl, rfl⟩
    · cases ho with
      | text h => simp at h
      | shape _ h => simp [fieldsOf] at h
    · cases ho with
      | text h => simp at h
      | shape _ h => simp [fieldsOf] at h
      | inner _ h => simp [hasList] at h
    · cases ho with
      | text h => simp at h
      | shape _ h => simp [fieldsOf] at h
      | inner _ h => simp [hasList] at h
    · cases ho with
      | fraction _ h => simp [Reg.isFloat] at h
      | text h => simp at h
      | shape h => simp [eltOf] at h
      | inner _ h => simp [hasList] at h

example (ns : List Int) (h : ∀ n ∈ ns, InInt64 n) :
    convertTo sample tame (.listOf (.reg .i64)) (.oneOf [.none, .tupleOf (.reg .f64)]) (.seq (ns.map fun n => .num (.int n))) .implicitContainers =
      toOut (conv sample (.oneOf [.none, .tupleOf (.reg .f64)]) (extract (.listOf (.reg .i64)) (.seq (ns.map fun n => .num (.int n)))) .implicitContainers) := by
  refine compiled_converts_as_interpreted_partial tame sample_laws ?_ ?_ (by decide) (by decide) (.inl rfl) list_usual
  · refine .oneOf (fun t ht => ?_) (fun t ht => ?_) <;> simp only [List.mem_cons, List.not_mem_nil, or_false] at ht <;> rcases ht with rfl | rfl
    · exact .none
    · exact .tupleOf .reg
    · exact nofun
    · exact nofun
  · refine .listOf (fun d hd => ?_)
    obtain ⟨n, hn, rfl⟩ := List.mem_map.mp hd
    exact .reg (h n hn)

example : conv sample (.oneOf [.none, .tupleOf (.reg .f64)]) (extract (.listOf (.reg .i64)) (.seq [.num (.int 3)])) .implicitContainers =
    some (.tag 1 (.seq [.num (.flt 3)])) := by decide +kernel

end Verif.CConv
