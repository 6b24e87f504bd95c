import Verif.Conv.KeepSpec
import Verif.Conv.Restore
/-
Conversions without explicit or implicit changes of kind (the levels up to `UpcastContainers`) keep the content of a value.
-/
namespace Verif.Conv

/-- A number of one machine type fits every integer type it may be upcast to. -/
theorem upcast_fits {e : Env} {src dst : Reg} {n : Int} (h : isValidUpcast src dst = true) (hn : Fits e src (.int n))
    (hd : dst.isFloat = false) : Fits e dst (.int n) := by
  cases src <;> cases dst <;> simp [isValidUpcast, Reg.isFloat, Reg.isUnsigned, Reg.bits] at h hd <;>
    simp only [Fits, InInt64] at hn ⊢ <;> omega

/-- Integer upcasts are lossless. -/
theorem upcast_lossless {e : Env} {src dst : Reg} {n : Int} (h : isValidUpcast src dst = true) (hn : Fits e src (.int n))
    (hd : dst.isFloat = false) : cast e dst (.int n) = .int n :=
  cast_fits (upcast_fits h hn hd)

/-- Upcasts of floats are lossless. -/
theorem upcast_float_lossless {e : Env} {src dst : Reg} {x : Nat} (h : isValidUpcast src dst = true) (hn : Fits e src (.flt x)) :
    cast e dst (.flt x) = .flt x := by
  cases src <;> simp only [Fits] at hn <;> cases dst <;> simp [isValidUpcast, Reg.isFloat, Reg.bits] at h <;> simp [cast, hn]

theorem valid_below {src dst : Reg} {l : Level} (hl : l ≤ .upcastContainers) (h : isValidConversion src dst l = true) :
    src = dst ∨ isValidUpcast src dst = true := by
  rw [isValidConversion, if_neg] at h
  · split at h
    · exact .inl ‹_›
    · split at h
      · rename_i hh
        exact .inr hh.2
      · cases h
  · revert hl
    cases l <;> decide

/-- A machine number after a valid conversion. -/
theorem cast_holds {e : Env} {src dst : Reg} {n : Num} {l : Level} {v : Py} (hl : l ≤ .upcastContainers)
    (h : isValidConversion src dst l = true) (hn : Fits e src n) (hi : ∀ m, n = .int m → IsInt v m) (hf : ∀ x, n = .flt x → IsFloat v x) :
    Holds e (.reg dst) (.num (cast e dst n)) v := by
  rcases valid_below hl h with rfl | hu
  · rw [cast_fits hn]
    cases n with
    | int m => exact .int (hi m rfl)
    | flt x => exact .float (hf x rfl)
  · cases n with
    | flt x =>
      rw [upcast_float_lossless hu hn]
      exact .float (hf x rfl)
    | int m =>
      cases hd : dst.isFloat with
      | false =>
        rw [upcast_lossless hu hn hd]
        exact .int (hi m rfl)
      | true =>
        cases dst <;> simp [Reg.isFloat] at hd
        · exact .single (hi m rfl)
        · exact .double (hi m rfl)

theorem not_new {l : Level} (hl : l ≤ .upcastContainers) : ¬ Level.new ≤ l := by
  revert hl
  cases l <;> decide

theorem reg_holds {e : Env} {r : Reg} {v : Py} {l : Level} {d : Data} (hl : l ≤ .upcastContainers) (hv : Sound e v)
    (h : convReg e r v l = some d) : Holds e (.reg r) d v := by
  have hnew := not_new hl
  have key : ∀ src (x : Data) (y : Option Data), (if isValidConversion src r l = true then some x else (if Level.new ≤ l then y else none)) = some d →
      isValidConversion src r l = true ∧ x = d := by
    intro src x y hh
    rw [if_neg hnew] at hh
    split at hh
    · rename_i hvalid
      cases hh
      exact ⟨hvalid, rfl⟩
    · cases hh
  cases v with
  | bool b =>
    obtain ⟨h1, rfl⟩ := key _ _ _ h
    exact cast_holds hl h1 (by cases b <;> simp [Fits]) (fun m hm => by cases hm; exact .bool) nofun
  | float x =>
    obtain ⟨h1, rfl⟩ := key _ _ _ h
    exact cast_holds hl h1 (by simp [Fits]) nofun (fun y hy => by cases hy; exact .float)
  | int n =>
    obtain ⟨h1, rfl⟩ := key _ _ _ h
    cases hv with
    | int hn =>
      rw [fromInt]
      rcases valid_below hl h1 with rfl | hu
      · simp only [Reg.isFloat, Bool.false_eq_true, if_false]
        rw [longBits_fits hn, cast_fits (show Fits e .i64 (.int n) from hn)]
        exact .int .int
      · cases r <;> simp [isValidUpcast, Reg.isFloat, Reg.isUnsigned, Reg.bits] at hu
        · simp only [Reg.isFloat, Bool.false_eq_true, if_false]
          rw [longBits_fits hn, cast_fits (show Fits e .i64 (.int n) from hn)]
          exact .int .int
        · exact .double .int
  | inst t' d' =>
    cases t' with
    | reg src =>
      cases d' with
      | num n =>
        obtain ⟨h1, rfl⟩ := key _ _ _ h
        cases hv with
        | inst hh =>
          cases hh with
          | reg hn => exact cast_holds hl h1 hn (fun m hm => by cases hm; exact .inst) (fun y hy => by cases hy; exact .inst)
      | _ => simp [convReg, hnew] at h
    | _ => simp [convReg, hnew] at h
  | _ => simp [convReg, hnew] at h

/-- What is read from data of a type is sound. -/
theorem extract_sound {e : Env} {t : Ty} {d : Data} (h : Has e t d) : Sound e (extract t d) := by
  induction h with
  | none => exact .none
  | @reg r n h =>
    simp only [extract, numToPy]
    split
    · exact .int h
    · exact .float
    · exact .bool
    · exact .inst (.reg h)
  | str => exact .str
  | bytes h => exact .bytes h
  | @value c h =>
    simp only [extract]
    cases c with
    | str s => exact .str
    | bytes s => exact .bytes h
    | num r n =>
      cases r <;> simp only [Const.ok] at h
      case bool => cases n <;> simp_all [Fits, constToPy, numToPy]; exact .bool
      case i64 => cases n <;> simp_all [Fits, constToPy, numToPy]; exact .int h
      case f64 => cases n <;> simp_all [constToPy, numToPy]; exact .float
  | tupleOf h _ => exact .inst (.tupleOf h)
  | listOf h _ => exact .inst (.listOf h)
  | tuple h h' _ => exact .inst (.tuple h h')
  | named h h' _ => exact .inst (.named h h')
  | oneOf hk _ ih =>
    rw [extract, extractAt_eq hk]
    exact ih

theorem zip_sound {e : Env} : ∀ {ts : List Ty} {ds : List Data},
    (∀ (i : Nat) (t : Ty) (d : Data), ts[i]? = some t → ds[i]? = some d → Has e t d) → ∀ x ∈ List.zipWith extract ts ds, Sound e x
  | [], _, _ => by simp
  | _ :: _, [], _ => by simp
  | t :: ts, d :: ds, h => by
    intro x hx
    rw [List.zipWith_cons_cons, List.mem_cons] at hx
    rcases hx with rfl | hx
    · exact extract_sound (h 0 t d rfl rfl)
    · exact zip_sound (fun i t d ht hd => h (i + 1) t d (by simpa using ht) (by simpa using hd)) x hx

/-- The items of a sequence. -/
theorem items_contents {v : Py} {xs : List Py} (hs : isSequence v = true) (h : items v = some xs) : Contents v xs := by
  cases v with
  | tuple ys => cases h; exact .tuple
  | list ys => cases h; exact .list
  | inst t d =>
    cases t <;> simp [isSequence] at hs <;> cases d <;> simp [items] at h
    · subst h; exact .tupleOf
    · subst h; exact .listOf
    · subst h; exact .typedTuple
    · subst h; exact .named
  | _ => simp [isSequence] at hs

theorem contents_sound {e : Env} {v : Py} {xs : List Py} (h : Contents v xs) (hv : Sound e v) : ∀ x ∈ xs, Sound e x := by
  cases h with
  | tuple => cases hv; assumption
  | list => cases hv; assumption
  | tupleOf =>
    cases hv with
    | inst hh =>
      cases hh with
      | tupleOf hd =>
        intro x hx
        obtain ⟨d, hd', rfl⟩ := List.mem_map.mp hx
        exact extract_sound (hd d hd')
  | listOf =>
    cases hv with
    | inst hh =>
      cases hh with
      | listOf hd =>
        intro x hx
        obtain ⟨d, hd', rfl⟩ := List.mem_map.mp hx
        exact extract_sound (hd d hd')
  | typedTuple =>
    cases hv with
    | inst hh =>
      cases hh with
      | tuple _ hd => exact zip_sound hd
  | named =>
    cases hv with
    | inst hh =>
      cases hh with
      | named _ hd => exact zip_sound hd

/-- What the induction is about. -/
def Kept (e : Env) (t : Ty) : Prop := TyOk e t → ∀ v l d, l ≤ .upcastContainers → Sound e v → conv e t v l = some d → Holds e t d v

theorem mapM_some {α β : Type} {f : α → Option β} : ∀ {xs : List α} {ys : List β}, xs.mapM f = some ys →
    ys.length = xs.length ∧ ∀ (i : Nat) (y : β) (x : α), ys[i]? = some y → xs[i]? = some x → f x = some y
  | [], ys, h => by
    simp at h
    subst h
    simp
  | x :: xs, ys, h => by
    rw [List.mapM_cons] at h
    cases hx : f x with
    | none => rw [hx] at h; cases h
    | some y =>
      rw [hx] at h
      cases hxs : xs.mapM f with
      | none => rw [hxs] at h; cases h
      | some zs =>
        rw [hxs] at h
        cases h
        obtain ⟨h1, h2⟩ := mapM_some hxs
        refine ⟨by simp [h1], ?_⟩
        intro i y' x' hy' hx'
        cases i with
        | zero =>
          simp only [List.getElem?_cons_zero, Option.some.injEq] at hy' hx'
          rw [← hy', ← hx']
          exact hx
        | succ i => exact h2 i y' x' (by simpa using hy') (by simpa using hx')

theorem convZip_some {e : Env} {l : Level} : ∀ {ts : List Ty} {xs : List Py} {ds : List Data}, convZip e ts xs l = some ds →
    ds.length = xs.length ∧ ts.length = xs.length ∧ ∀ (i : Nat) (t : Ty) (d : Data) (x : Py), ts[i]? = some t → ds[i]? = some d →
      xs[i]? = some x → conv e t x l = some d
  | [], [], ds, h => by
    rw [convZip] at h
    cases h
    simp
  | [], _ :: _, ds, h => by rw [convZip] at h; all_goals simp_all
  | _ :: _, [], ds, h => by rw [convZip] at h; all_goals simp_all
  | t :: ts, x :: xs, ds, h => by
    rw [convZip] at h
    obtain ⟨d, h1, h2⟩ := Option.bind_eq_some_iff.mp h
    obtain ⟨ds', h3, rfl⟩ := map_some h2
    obtain ⟨h4, h5, h6⟩ := convZip_some h3
    refine ⟨by simp [h4], by simp [h5], ?_⟩
    intro i t' d' x' ht' hd' hx'
    cases i with
    | zero =>
      simp only [List.getElem?_cons_zero, Option.some.injEq] at ht' hd' hx'
      rw [← ht', ← hd', ← hx']
      exact h1
    | succ i => exact h6 i t' d' x' (by simpa using ht') (by simpa using hd') (by simpa using hx')

theorem convFields_some {e : Env} {l : Level} {get : String → Option Py} : ∀ {ts : List Ty} {ns : List String} {ds : List Data},
    convFields e ns ts get l = some ds → ds.length = ts.length ∧
      ∀ (i : Nat) (n : String) (t : Ty) (d : Data), ns[i]? = some n → ts[i]? = some t → ds[i]? = some d →
        (match get n with
          | some x => conv e t x l
          | none => dflt t) = some d
  | [], ns, ds, h => by
    rw [convFields] at h
    cases h
    simp
  | t :: ts, ns, ds, h => by
    rw [convFields] at h
    obtain ⟨d, h1, h2⟩ := Option.bind_eq_some_iff.mp h
    obtain ⟨ds', h3, rfl⟩ := map_some h2
    obtain ⟨h4, h5⟩ := convFields_some h3
    refine ⟨by simp [h4], ?_⟩
    intro i n t' d' hn ht' hd'
    cases ns with
    | nil => simp at hn
    | cons m ns =>
      cases i with
      | zero =>
        simp only [List.getElem?_cons_zero, Option.some.injEq] at hn ht' hd'
        rw [← ht', ← hd', ← hn]
        exact h1
      | succ i => exact h5 i n t' d' (by simpa using hn) (by simpa using ht') (by simpa using hd')

theorem seqChild_below {v : Py} {l s : Level} {b : Bool} (hl : l ≤ .upcastContainers) (h : seqChild b v l = some s) :
    b = false ∧ isSequence v = true ∧ s = .upcastContainers := by
  revert h hl
  cases l <;> cases b <;> cases hv : isSequence v <;> simp [seqChild, hv, Level.le_iff, Level.lt_iff, Level.toInt]
  exact fun h => h.symm

theorem compChild_below {v : Py} {l s : Level} (hl : l ≤ .upcastContainers) (h : compChild v l = some s) :
    isSequence v = true ∧ s ≤ .upcastContainers := by
  revert h hl
  cases l <;> cases hv : isSequence v <;> simp [compChild, hv, Level.le_iff, Level.lt_iff, Level.toInt] <;> rintro rfl <;> simp

/-- The positional half of the conversions to `Tuple` and `NamedTuple`. -/
theorem pos_holds {e : Env} {ts : List Ty} {v : Py} {l : Level} {d : Data} (ih : ∀ t ∈ ts, Kept e t) (hok : ∀ t ∈ ts, TyOk e t)
    (hl : l ≤ .upcastContainers) (hv : Sound e v)
    (h : (match compChild v l with
      | none => none
      | some child => match length v, items v with
        | some n, some xs => if n = ts.length then (convZip e ts xs child).map Data.seq else none
        | _, _ => none) = some d) :
    ∃ xs ds, d = .seq ds ∧ Contents v xs ∧ ds.length = xs.length ∧ ts.length = xs.length ∧
      ∀ (i : Nat) (t : Ty) (d : Data) (x : Py), ts[i]? = some t → ds[i]? = some d → xs[i]? = some x → Holds e t d x := by
  cases hs : compChild v l with
  | none => rw [hs] at h; cases h
  | some s =>
    obtain ⟨h1, h2⟩ := compChild_below hl hs
    rw [hs] at h
    simp only at h
    cases hn : length v with
    | none => rw [hn] at h; cases h
    | some n =>
      cases hi : items v with
      | none => rw [hn, hi] at h; cases h
      | some xs =>
        rw [hn, hi] at h
        simp only at h
        split at h
        · obtain ⟨ds, h3, rfl⟩ := map_some h
          obtain ⟨h4, h5, h6⟩ := convZip_some h3
          have hc := items_contents h1 hi
          refine ⟨xs, ds, rfl, hc, h4, h5, ?_⟩
          intro i t d x ht hd hx
          exact ih t (List.mem_of_getElem? ht) (hok t (List.mem_of_getElem? ht)) x s d h2
            (contents_sound hc hv x (List.mem_of_getElem? hx)) (h6 i t d x ht hd hx)
        · cases h

theorem dictGet_mem {ks vs : List Py} {n : String} {x : Py} (h : dictGet ks vs n = some x) : x ∈ vs := by
  induction ks generalizing vs with
  | nil => cases vs <;> simp [dictGet] at h
  | cons k ks ih =>
    cases vs with
    | nil => cases k <;> simp [dictGet] at h
    | cons v vs =>
      cases k with
      | str s =>
        simp only [dictGet] at h
        split at h
        · cases h
          simp
        · exact List.mem_cons_of_mem _ (ih h)
      | _ =>
        simp only [dictGet] at h
        exact List.mem_cons_of_mem _ (ih h)

theorem keysAreNames_spec {ns : List String} : ∀ {ks : List Py}, keysAreNames ns ks = true → ∀ k ∈ ks, ∃ n ∈ ns, k = .str (points n)
  | [], _ => by simp
  | k :: ks, h => by
    cases k <;> simp only [keysAreNames, Bool.false_eq_true] at h
    rename_i s
    rw [Bool.and_eq_true, List.any_eq_true] at h
    obtain ⟨⟨n, hn, hp⟩, h2⟩ := h
    intro k hk
    rcases List.mem_cons.mp hk with rfl | hk
    · exact ⟨n, hn, by rw [of_decide_eq_true hp]⟩
    · exact keysAreNames_spec h2 k hk

theorem fieldOf_sound {e : Env} {ns : List String} {ts : List Ty} {ds : List Data} {n : String} {x : Py}
    (hh : ∀ (i : Nat) (t : Ty) (d : Data), ts[i]? = some t → ds[i]? = some d → Has e t d) (h : fieldOf ns ts ds n = some x) : Sound e x := by
  induction ns generalizing ts ds with
  | nil => simp [fieldOf] at h
  | cons m ns ih =>
    cases ts with
    | nil => simp [fieldOf] at h
    | cons t ts =>
      cases ds with
      | nil => simp [fieldOf] at h
      | cons d ds =>
        simp only [fieldOf] at h
        split at h
        · cases h
          exact extract_sound (hh 0 t d rfl rfl)
        · exact ih (fun i t d ht hd => hh (i + 1) t d (by simpa using ht) (by simpa using hd)) h

theorem const_holds {e : Env} {c : Const} {v : Py} (hok : c.ok e) (hv : Sound e v) (h : constEq e c v true = true) :
    Holds e (.value c) .unit v := by
  cases c with
  | str s =>
    cases v <;> simp_all [constEq]
    exact .constStr
  | bytes s =>
    cases v <;> simp_all [constEq]
    exact .constBytes
  | num r n =>
    simp only [constEq, Bool.true_and] at h
    split at h
    · cases h
    rename_i hex
    simp only [Bool.not_eq_true', Bool.not_eq_false] at hex
    cases r <;> simp only [Const.ok] at hok
    case bool =>
      cases n with
      | flt x => simp [Fits] at hok
      | int n =>
        cases v <;> simp only [exactNum, Bool.false_eq_true] at hex
        rename_i b
        simp only [Fits] at hok
        have : n = if b then 1 else 0 := by
          rcases hok with rfl | rfl <;> cases b <;> simp_all [eqNumPy, eqNum, promotesTo, cast, sameNum]
        rw [this]
        exact .constInt .bool
    case i64 =>
      cases n with
      | flt x => simp [Fits] at hok
      | int n =>
        have h1 := cast_fits (e := e) (r := .i64) hok
        cases v <;> simp only [exactNum, Bool.false_eq_true] at hex
        · rename_i b
          have h2 := cast_fits (e := e) (r := .i64) (n := .int (if b then 1 else 0)) (by cases b <;> simp [Fits, InInt64])
          simp only [eqNumPy, eqNum, promotesTo, reduceCtorEq, if_false, if_true] at h
          rw [h1, h2] at h
          simp only [sameNum, decide_eq_true_eq] at h
          rw [h]
          exact .constInt .bool
        · rename_i m
          cases hv with
          | int hm =>
            have h2 := cast_fits (e := e) (show Fits e .i64 (.int m) from hm)
            simp only [eqNumPy] at h
            rw [if_pos (inInt64_iff.mpr hm), eqNum, show promotesTo .i64 .i64 = Reg.i64 from by decide, h1, h2] at h
            simp only [sameNum, decide_eq_true_eq] at h
            rw [h]
            exact .constInt .int
    case f64 =>
      cases n with
      | int n => simp at hok
      | flt x =>
        cases v <;> simp only [exactNum, Bool.false_eq_true] at hex
        rename_i y
        refine .constFloat ?_
        simpa [eqNumPy, eqNum, promotesTo, cast, sameNum, Reg.isFloat, Reg.bits] using h

theorem of_convTo {e : Env} {t : Ty} (h : TyOk e t → ∀ v l d, l ≤ .upcastContainers → Sound e v → convTo e t v l = some d → Holds e t d v) :
    Kept e t := by
  intro hok v l d hl hv hc
  by_cases hi : ∃ d', v = .inst t d'
  · obtain ⟨d', rfl⟩ := hi
    simp only [conv, copyOr, if_true, Option.some.injEq] at hc
    subst hc
    exact .same
  · rw [conv, copyOr_other (fun d' hd => hi ⟨d', hd⟩)] at hc
    exact h hok v l d hl hv hc

theorem kept (e : Env) (t : Ty) : Kept e t := by
  refine Ty.ind (P := Kept e) ?_ ?_ ?_ ?_ ?_ ?_ ?_ ?_ ?_ ?_ t
  · refine of_convTo fun _ v l d _ _ h => ?_
    cases v <;> simp [convTo] at h
    subst h
    exact .none
  · refine fun r => of_convTo fun _ v l d hl hv h => ?_
    rw [convTo] at h
    exact reg_holds hl hv h
  · refine of_convTo fun _ v l d hl _ h => ?_
    have hnew := not_new hl
    cases v <;> simp [convTo, convStr, hnew] at h
    subst h
    exact .str
  · refine of_convTo fun _ v l d hl _ h => ?_
    have hnew := not_new hl
    cases v <;> simp [convTo, convBytes, hnew] at h
    subst h
    exact .bytes
  · refine fun c => of_convTo fun hok v l d hl hv h => ?_
    have hnew := not_new hl
    rw [convTo] at h
    simp only [hnew, decide_false, Bool.not_false] at h
    split at h
    · cases h
      cases hok with
      | value hc => exact const_holds hc hv ‹_›
    · cases h
  · refine fun t ih => of_convTo fun hok v l d hl hv h => ?_
    rw [convTo] at h
    cases hs : seqChild false v l with
    | none => rw [hs] at h; cases h
    | some s =>
      obtain ⟨-, h1, rfl⟩ := seqChild_below hl hs
      rw [hs] at h
      have hraw : rawBytes t v = none := by
        cases v <;> simp [isSequence] at h1 <;> simp [rawBytes]
      simp only [hraw] at h
      cases hi : items v with
      | none => rw [hi] at h; cases h
      | some xs =>
        rw [hi] at h
        simp only at h
        obtain ⟨ds, h3, rfl⟩ := map_some h
        obtain ⟨h4, h5⟩ := mapM_some h3
        have hc := items_contents h1 hi
        refine .tupleOf hc h4 ?_
        intro i d x hd hx
        cases hok with
        | tupleOf hok =>
          exact ih hok x _ d (by decide) (contents_sound hc hv x (List.mem_of_getElem? hx)) (h5 i d x hd hx)
  · refine fun t ih => of_convTo fun hok v l d hl hv h => ?_
    rw [convTo] at h
    cases hs : seqChild true v l with
    | none => rw [hs] at h; cases h
    | some s => cases (seqChild_below hl hs).1
  · refine fun ts ih => of_convTo fun hok v l d hl hv h => ?_
    rw [convTo] at h
    cases hok with
    | tuple hok =>
      obtain ⟨xs, ds, rfl, h1, h2, h3, h4⟩ := pos_holds ih hok hl hv h
      exact .tuple h1 h2 h3 h4
  · refine fun ns ts ih => of_convTo fun hok v l d hl hv h => ?_
    cases hok with
    | named hlen hok =>
      have byName : ∀ (get : String → Option Py) s ds, s ≤ .upcastContainers → getField v = get → (∀ n x, get n = some x → Sound e x) →
          AllNamed v ns → convFields e ns ts get s = some ds → Holds e (.named ns ts) (.seq ds) v := by
        intro get s ds hs hget hsound hall hconv
        obtain ⟨h4, h5⟩ := convFields_some hconv
        subst hget
        refine .byName hall h4 ?_ ?_
        · intro i n t d x hn ht hd hx
          have := h5 i n t d hn ht hd
          rw [hx] at this
          exact ih t (List.mem_of_getElem? ht) (hok t (List.mem_of_getElem? ht)) x s d hs (hsound n x hx) this
        · intro i n t d hn ht hd hx
          have := h5 i n t d hn ht hd
          rw [hx] at this
          exact this
      have pos : (match compChild v l with
          | none => none
          | some child => match length v, items v with
            | some n, some xs => if n = ts.length then (convZip e ts xs child).map Data.seq else none
            | _, _ => none) = some d → Holds e (.named ns ts) d v := by
        intro hh
        obtain ⟨xs, ds, rfl, h1, h2, h3, h4⟩ := pos_holds ih hok hl hv hh
        exact .named h1 h2 h3 h4
      cases v with
      | dict ks vs =>
        rw [convTo] at h
        split at h
        · split at h
          · obtain ⟨ds, h3, rfl⟩ := map_some h
            refine byName _ _ ds ?_ rfl ?_ (keysAreNames_spec ‹_›) h3
            · split
              · rename_i hh
                exact absurd (Level.le_trans hh hl) (by decide)
              · exact hl
            · intro n x hx
              cases hv with
              | dict _ hv => exact hv x (dictGet_mem hx)
          · cases h
        · cases h
      | inst t' d' =>
        cases t' with
        | named ns' ts' =>
          cases d' with
          | seq ds =>
            rw [convTo] at h
            cases hs : compChild (.inst (.named ns' ts') (.seq ds)) l with
            | none => rw [hs] at h; cases h
            | some s =>
              rw [hs] at h
              simp only at h
              split at h
              · rename_i hk
                obtain ⟨ds', h3, rfl⟩ := map_some h
                refine byName _ s ds' (compChild_below hl hs).2 rfl ?_ ?_ h3
                · intro n x hx
                  cases hv with
                  | inst hh =>
                    cases hh with
                    | named _ hh => exact fieldOf_sound hh hx
                · intro n hn
                  have := List.all_eq_true.mp hk n hn
                  simpa using this
              · cases h
          | _ => simp only [convTo] at h; exact pos h
        | _ => simp only [convTo] at h; exact pos h
      | _ => simp only [convTo] at h; exact pos h
  · refine fun ts ih => of_convTo fun hok v l d hl hv h => ?_
    rw [convTo, findSome_levels] at h
    obtain ⟨s, h1, h2, h3, -⟩ := h
    obtain ⟨k, t, d', rfl, h5, h6, -⟩ := (convAny_eq h2).mp h3
    rw [Nat.zero_add]
    cases hok with
    | oneOf hok =>
      have ht := List.mem_of_getElem? h5
      exact .oneOf h5 (ih t ht (hok t ht) v s d' (Level.le_trans h1 hl) hv h6)

/-- Up to the level of `UpcastContainers`, the data a value is converted to represents it: integers, text and bytes unchanged,
sequences item by item, named parts by name, nothing dropped. -/
theorem upcast_keeps_content_partial {e : Env} {t : Ty} {v : Py} {l : Level} {d : Data} (ht : TyOk e t) (hl : l ≤ .upcastContainers)
    (hv : Sound e v) (h : conv e t v l = some d) : Holds e t d v :=
  kept e t ht v l d hl hv h

/-- An explicit conversion to a constant `True`, `False` or integer takes exactly the booleans and integers (of 64 bits) equal to
the constant. -/
theorem const_explicit {e : Env} {r : Reg} {k : Int} {v : Py} {m : Int} (hr : r = .bool ∨ r = .i64) (hk : Fits e r (.int k))
    (hm : InInt64 m) (hv : v = .int m ∨ ∃ b : Bool, v = .bool b ∧ m = if b then 1 else 0) :
    conv e (.value (.num r (.int k))) v .new = some .unit ↔ k = m := by
  have hc : conv e (.value (.num r (.int k))) v .new =
      if eqNumPy e r (.int k) v then some .unit else none := by
    rcases hv with rfl | ⟨b, rfl, -⟩ <;> rfl
  have he : eqNumPy e r (.int k) v = decide (k = m) := by
    have hk64 : Fits e .i64 (.int k) := by
      rcases hr with rfl | rfl
      · simp only [Fits] at hk
        simp only [Fits, InInt64]
        omega
      · exact hk
    have h1 := cast_fits (e := e) hk64
    have h2 := cast_fits (e := e) (r := .i64) (n := .int m) hm
    rcases hv with rfl | ⟨b, rfl, rfl⟩
    · rw [eqNumPy, if_pos (inInt64_iff.mpr hm), eqNum]
      rcases hr with rfl | rfl
      · rw [show promotesTo .bool .i64 = Reg.i64 from by decide, h1, h2]; rfl
      · rw [show promotesTo .i64 .i64 = Reg.i64 from by decide, h1, h2]; rfl
    · rw [eqNumPy, eqNum]
      rcases hr with rfl | rfl
      · rw [show promotesTo .bool .bool = Reg.bool from by decide, cast_fits hk,
          cast_fits (by cases b <;> simp [Fits])]
        rfl
      · rw [show promotesTo .i64 .bool = Reg.i64 from by decide, h1, h2]; rfl
  rw [hc, he]
  by_cases h : k = m <;> simp [h]

end Verif.Conv
