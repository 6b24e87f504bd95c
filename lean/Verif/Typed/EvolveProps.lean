import Verif.Typed.Evolve
import Verif.Common
/-
C112: reading what another version of the program wrote.
-/
namespace Verif.Typed.Evolve

open Verif.Typed
open Verif.Wire (Bytes Reg)
open Verif.Wire.Spec (IsVarint Msg Node Encodes wire)

/-- **C112, every value is one message.**  Whatever value of whatever type is written, with however many shared and
cyclic objects, the bytes are a header and one message of the wire format. -/
theorem written_is_message (env : Nat → Ty) (inline : Bool) (heap : Nat → List Val) (depth : Nat) (t : Ty) (v : Val) (bytes : Bytes)
    (h : serialize env inline heap depth t v = .ok bytes) :
    ∃ hd m b, bytes = hd ++ b ∧ IsVarint hd (wire m) ∧ Encodes (.body m) b := by
  unfold serialize at h
  split at h
  · cases h
  rename_i b m' hs
  cases h
  obtain ⟨hd, m, b, e1, e2, e3⟩ := (mess env inline heap depth t 0 v [] bytes m' (by norm_num) (by simp) hs).2
  exact ⟨hd, m, b, e1, by simpa using e2, e3⟩

/-- **C112, unknown values are stepped over.**  A reader that discards the value, without knowing its type, stops exactly
where it ends, whatever follows. -/
theorem written_is_skipped (env : Nat → Ty) (inline : Bool) (heap : Nat → List Val) (depth : Nat) (t : Ty) (v : Val)
    (bytes rest : Bytes) (h : serialize env inline heap depth t v = .ok bytes) :
    ∃ w, Wire.discard (2 * (bytes ++ rest).length + 3) (bytes ++ rest) = .ok (w, rest) := by
  obtain ⟨hd, m, b, rfl, hv, hm⟩ := written_is_message env inline heap depth t v bytes h
  refine ⟨wire m, (Wire.discard_exact hm rest _ ?_).2 hd 0 (by simpa using hv)⟩
  simp only [List.length_append]; omega

/-- **C112, versions (partial).**  A value written by one version of a program is read by another whose types have fields
added or dropped at the end of tuples and cases added at the end of `OneOf`s and `Alternative`s, at any depth: the fields
both know have their values, the others have defaults, and nothing else of the stream is read.

Missing: places of type `ListOf`, `Dict` and `Set` that both versions have (`lost_object` shows that dropping a field can
break those), cases dropped from a `OneOf` (see `dropped_case`), and lists of plain data whose element type changed (see
`plain_records`). -/
theorem versions_read_partial {env env' : Nat → Ty} {E : Ty → Ty → Prop} (hV : Versions env env' E)
    {dflt : Ty → St → Except Err (Val × St)} {D : Ty → Val → Prop} (hd : MakesDefaults dflt D) (inline : Bool)
    (heap : Nat → List Val) (depth : Nat) (t t' : Ty) (ht : E t t') (v : Val) (bytes rest : Bytes)
    (h : serialize env inline heap depth t v = .ok bytes) :
    ∃ v' st, deserialize env' dflt depth t' (bytes ++ rest) = .ok (v', st) ∧ st.bytes = rest ∧ Migrates env env' D t t' v v' := by
  unfold serialize at h
  split at h
  · cases h
  rename_i b m' hs
  cases h
  obtain ⟨-, w, bs1, v', st', e1, e2, e3, e4, e5⟩ := goodV hV inline heap hd depth t t' 0 v [] bytes m' ⟨bytes ++ rest, [], []⟩ rest
    ht (by norm_num) (by simp) hs rfl
  refine ⟨v', st', ?_, e4, e5⟩
  unfold deserialize
  simp only at e1
  rw [e1]
  exact e3

/-! ### Fields added or dropped, in plain words -/

/-- The types in which no mutable container occurs and no name. -/
inductive Frozen : Ty → Prop
  | reg (r) : Frozen (.reg r)
  | unit : Frozen .unit
  | bytes : Frozen .bytes
  | str : Frozen .str
  | tuple {ts} : (∀ t ∈ ts, Frozen t) → Frozen (.tuple ts)
  | oneOf {ts} : (∀ t ∈ ts, Frozen t) → Frozen (.oneOf ts)
  | alt {ts} : (∀ t ∈ ts, Frozen t) → Frozen (.alt ts)
  | tupleOf {t} : Frozen t → Frozen (.tupleOf t)
  | constDict {k w} : Frozen k → Frozen w → Frozen (.constDict k w)

/-- The relation that allows a change only at the outermost tuple. -/
def Outer (ts ts' : List Ty) (t t' : Ty) : Prop := (t = .tuple ts ∧ t' = .tuple ts') ∨ (Frozen t ∧ t' = t)

theorem outer_versions {env env' : Nat → Ty} {ts ts' : List Ty} (hf : ∀ t ∈ ts, Frozen t)
    (h : ∀ (i : Nat) u u', ts[i]? = some u → ts'[i]? = some u' → u' = u) : Versions env env' (Outer ts ts') where
  reg r t' := by rintro (⟨h, -⟩ | ⟨-, h⟩); cases h; exact h
  unit t' := by rintro (⟨h, -⟩ | ⟨-, h⟩); cases h; exact h
  bytes t' := by rintro (⟨h, -⟩ | ⟨-, h⟩); cases h; exact h
  str t' := by rintro (⟨h, -⟩ | ⟨-, h⟩); cases h; exact h
  tuple us t' := by
    rintro (⟨he, rfl⟩ | ⟨hz, rfl⟩)
    · cases he
      exact ⟨ts', rfl, fun i u u' hu hu' => .inr ⟨hf u (List.mem_of_getElem? hu), h i u u' hu hu'⟩⟩
    · cases hz with
      | tuple hz =>
        refine ⟨us, rfl, fun i u u' hu hu' => .inr ⟨hz u (List.mem_of_getElem? hu), ?_⟩⟩
        rw [hu] at hu'; cases hu'; rfl
  oneOf us t' := by
    rintro (⟨he, -⟩ | ⟨hz, rfl⟩)
    · cases he
    · cases hz with
      | oneOf hz =>
        refine ⟨us, rfl, Nat.le_refl _, fun i u u' hu hu' => .inr ⟨hz u (List.mem_of_getElem? hu), ?_⟩⟩
        rw [hu] at hu'; cases hu'; rfl
  alt us t' := by
    rintro (⟨he, -⟩ | ⟨hz, rfl⟩)
    · cases he
    · cases hz with
      | alt hz =>
        refine ⟨us, rfl, Nat.le_refl _, fun i u u' hu hu' => .inr ⟨hz u (List.mem_of_getElem? hu), ?_⟩⟩
        rw [hu] at hu'; cases hu'; rfl
  tupleOf u t' := by
    rintro (⟨he, -⟩ | ⟨hz, rfl⟩)
    · cases he
    · cases hz with | tupleOf hz => exact ⟨u, rfl, .inr ⟨hz, rfl⟩, fun _ => rfl⟩
  constDict k w t' := by
    rintro (⟨he, -⟩ | ⟨hz, rfl⟩)
    · cases he
    · cases hz with | constDict h1 h2 => exact ⟨k, w, rfl, .inr ⟨h1, rfl⟩, .inr ⟨h2, rfl⟩⟩
  named n t' := by
    rintro (⟨he, -⟩ | ⟨hz, -⟩)
    · cases he
    · cases hz
  listOf u t' := by
    rintro (⟨he, -⟩ | ⟨hz, -⟩)
    · cases he
    · cases hz
  dict k w t' := by
    rintro (⟨he, -⟩ | ⟨hz, -⟩)
    · cases he
    · cases hz
  set k t' := by
    rintro (⟨he, -⟩ | ⟨hz, -⟩)
    · cases he
    · cases hz

/-- Between equal types nothing changes. -/
theorem migrates_same {env env' : Nat → Ty} {D : Ty → Val → Prop} {t t' : Ty} {v v' : Val} (hm : Migrates env env' D t t' v v') :
    Frozen t → t' = t → v' = v := by
  induction hm with
  | reg | unit | bytes | str => intros; rfl
  | @tuple ts ts' vs vs' h1 h2 h3 h4 ih =>
    intro hz he
    cases he
    cases hz with
    | tuple hz =>
      congr 1
      refine List.ext_getElem (by omega) fun i hi hi' => ?_
      have hu : ts[i]? = some ts[i] := List.getElem?_eq_getElem (by omega)
      exact ih i _ _ _ _ hu hu (List.getElem?_eq_getElem hi') (List.getElem?_eq_getElem hi) (hz _ (List.mem_of_getElem? hu)) rfl
  | @oneOf ts ts' i u u' x x' h1 h2 h3 ih =>
    intro hz he
    cases he
    rw [h1] at h2
    cases h2
    cases hz with | oneOf hz => rw [ih (hz _ (List.mem_of_getElem? h1)) rfl]
  | @alt ts ts' i u u' x x' h1 h2 h3 ih =>
    intro hz he
    cases he
    rw [h1] at h2
    cases h2
    cases hz with | alt hz => rw [ih (hz _ (List.mem_of_getElem? h1)) rfl]
  | plain => intros; rfl
  | @tupleOf u u' vs vs' h1 h2 ih =>
    intro hz he
    cases he
    cases hz with
    | tupleOf hz =>
      congr 1
      refine List.ext_getElem (by omega) fun i hi hi' => ?_
      exact ih i _ _ (List.getElem?_eq_getElem hi') (List.getElem?_eq_getElem hi) hz rfl
  | @constDict k w k' w' vs vs' h1 h2 h3 ih2 ih3 =>
    intro hz he
    cases he
    cases hz with
    | constDict hk hw =>
      congr 1
      refine List.ext_getElem (by omega) fun i hi hi' => ?_
      rcases Nat.mod_two_eq_zero_or_one i with e | e
      · exact ih2 i _ _ e (List.getElem?_eq_getElem hi') (List.getElem?_eq_getElem hi) hk rfl
      · exact ih3 i _ _ e (List.getElem?_eq_getElem hi') (List.getElem?_eq_getElem hi) hw rfl
  | named _ _ => intro hz; cases hz

/-- **C112, fields added.**  A tuple written before fields were added is read with its own values first and defaults of
the new types, whatever those are, after them. -/
theorem added_fields {env env' : Nat → Ty} {dflt : Ty → St → Except Err (Val × St)} {D : Ty → Val → Prop}
    (hd : MakesDefaults dflt D) (inline : Bool) (heap : Nat → List Val) (depth : Nat) (ts new : List Ty)
    (hf : ∀ t ∈ ts, Frozen t) (vs : List Val) (bytes rest : Bytes)
    (h : serialize env inline heap depth (.tuple ts) (.seq vs) = .ok bytes) :
    ∃ more st, deserialize env' dflt depth (.tuple (ts ++ new)) (bytes ++ rest) = .ok (.seq (vs ++ more), st) ∧ st.bytes = rest ∧
      more.length = new.length ∧ ∀ (i : Nat) u x, new[i]? = some u → more[i]? = some x → D u x := by
  have hpre : ∀ (i : Nat) u u', ts[i]? = some u → (ts ++ new)[i]? = some u' → u' = u := by
    intro i u u' hu hu'
    rw [List.getElem?_append_left (List.getElem?_eq_some_iff.1 hu).1, hu] at hu'
    cases hu'; rfl
  obtain ⟨v', st, e1, e2, e3⟩ := versions_read_partial (env' := env') (outer_versions hf hpre) hd inline heap depth (.tuple ts)
    (.tuple (ts ++ new)) (.inl ⟨rfl, rfl⟩) (.seq vs) bytes rest h
  cases e3 with
  | @tuple _ _ _ vs' h1 h2 h3 h4 =>
    rw [List.length_append] at h2
    have hv : vs'.take ts.length = vs := by
      refine List.ext_getElem (by rw [List.length_take]; omega) fun i hi hi' => ?_
      rw [List.length_take] at hi
      rw [List.getElem_take]
      have hu : ts[i]? = some ts[i] := List.getElem?_eq_getElem (by omega)
      have hu2 : (ts ++ new)[i]? = some ts[i] := by rw [List.getElem?_append_left (by omega), hu]
      exact migrates_same (h3 i _ _ _ _ hu hu2 (List.getElem?_eq_getElem hi') (List.getElem?_eq_getElem (by omega)))
        (hf _ (List.mem_of_getElem? hu)) rfl
    refine ⟨vs'.drop ts.length, st, ?_, e2, by rw [List.length_drop]; omega, ?_⟩
    · rw [e1]
      congr 3
      conv_lhs => rw [← List.take_append_drop ts.length vs', hv]
    · intro i u x hu hx
      rw [List.getElem?_drop] at hx
      exact h4 (ts.length + i) u x (by omega) (by rw [List.getElem?_append_right (by omega)]; simpa using hu) hx

/-- **C112, fields dropped.**  A tuple with more fields than the reader knows, whatever their types, is read with the
values of the fields it does know. -/
theorem dropped_fields {env env' : Nat → Ty} {dflt : Ty → St → Except Err (Val × St)} {D : Ty → Val → Prop}
    (hd : MakesDefaults dflt D) (inline : Bool) (heap : Nat → List Val) (depth : Nat) (ts old : List Ty)
    (hf : ∀ t ∈ ts, Frozen t) (vs : List Val) (bytes rest : Bytes)
    (h : serialize env inline heap depth (.tuple (ts ++ old)) (.seq vs) = .ok bytes) :
    ∃ st, deserialize env' dflt depth (.tuple ts) (bytes ++ rest) = .ok (.seq (vs.take ts.length), st) ∧ st.bytes = rest := by
  have hV : Versions env env' fun t t' => (t = .tuple (ts ++ old) ∧ t' = .tuple ts) ∨ (Frozen t ∧ t' = t) := by
    have key : ∀ (us : List Ty) (i : Nat) u u', (∀ t ∈ us, Frozen t) → us[i]? = some u → us[i]? = some u' →
        (u = .tuple (ts ++ old) ∧ u' = .tuple ts) ∨ (Frozen u ∧ u' = u) := by
      intro us i u u' hz hu hu'
      rw [hu] at hu'; cases hu'
      exact .inr ⟨hz u (List.mem_of_getElem? hu), rfl⟩
    refine ⟨?_, ?_, ?_, ?_, ?_, ?_, ?_, ?_, ?_, ?_, ?_, ?_, ?_⟩
    · rintro r t' (⟨h, -⟩ | ⟨-, h⟩); cases h; exact h
    · rintro t' (⟨h, -⟩ | ⟨-, h⟩); cases h; exact h
    · rintro t' (⟨h, -⟩ | ⟨-, h⟩); cases h; exact h
    · rintro t' (⟨h, -⟩ | ⟨-, h⟩); cases h; exact h
    · rintro us t' (⟨he, rfl⟩ | ⟨hz, rfl⟩)
      · cases he
        refine ⟨ts, rfl, fun i u u' hu hu' => .inr ?_⟩
        rw [List.getElem?_append_left (List.getElem?_eq_some_iff.1 hu').1, hu'] at hu
        cases hu
        exact ⟨hf _ (List.mem_of_getElem? hu'), rfl⟩
      · cases hz with | tuple hz => exact ⟨us, rfl, fun i u u' => key us i u u' hz⟩
    · rintro us t' (⟨he, -⟩ | ⟨hz, rfl⟩)
      · cases he
      · cases hz with | oneOf hz => exact ⟨us, rfl, Nat.le_refl _, fun i u u' => key us i u u' hz⟩
    · rintro us t' (⟨he, -⟩ | ⟨hz, rfl⟩)
      · cases he
      · cases hz with | alt hz => exact ⟨us, rfl, Nat.le_refl _, fun i u u' => key us i u u' hz⟩
    · rintro u t' (⟨he, -⟩ | ⟨hz, rfl⟩)
      · cases he
      · cases hz with | tupleOf hz => exact ⟨u, rfl, .inr ⟨hz, rfl⟩, fun _ => rfl⟩
    · rintro k w t' (⟨he, -⟩ | ⟨hz, rfl⟩)
      · cases he
      · cases hz with | constDict h1 h2 => exact ⟨k, w, rfl, .inr ⟨h1, rfl⟩, .inr ⟨h2, rfl⟩⟩
    · rintro n t' (⟨he, -⟩ | ⟨hz, -⟩)
      · cases he
      · cases hz
    · rintro u t' (⟨he, -⟩ | ⟨hz, -⟩)
      · cases he
      · cases hz
    · rintro k w t' (⟨he, -⟩ | ⟨hz, -⟩)
      · cases he
      · cases hz
    · rintro k t' (⟨he, -⟩ | ⟨hz, -⟩)
      · cases he
      · cases hz
  obtain ⟨v', st, e1, e2, e3⟩ := versions_read_partial (env' := env') hV hd inline heap depth (.tuple (ts ++ old)) (.tuple ts)
    (.inl ⟨rfl, rfl⟩) (.seq vs) bytes rest h
  cases e3 with
  | @tuple _ _ _ vs' h1 h2 h3 h4 =>
    rw [List.length_append] at h1
    refine ⟨st, ?_, e2⟩
    rw [e1]
    congr 3
    refine List.ext_getElem (by rw [List.length_take]; omega) fun i hi hi' => ?_
    rw [List.getElem_take]
    have hu : ts[i]? = some ts[i] := List.getElem?_eq_getElem (by omega)
    have hu2 : (ts ++ old)[i]? = some ts[i] := by rw [List.getElem?_append_left (by omega), hu]
    exact migrates_same (h3 i _ _ _ _ hu2 hu (List.getElem?_eq_getElem (by omega)) (List.getElem?_eq_getElem hi))
      (hf _ (List.mem_of_getElem? hu)) rfl

/-! ### A case -/

def u8 : Ty := .reg (.uint 1)
def i64 : Ty := .reg (.int 8)
def noNames : Nat → Ty := fun _ => .unit

/-- A maker of defaults for the examples: zero, empty, the first choice; a `ListOf` is a new empty object. -/
def zero : Ty → St → Except Err (Val × St)
  | .reg _, st => .ok (.reg 0, st)
  | .bytes, st => .ok (.bytes [], st)
  | .str, st => .ok (.str [], st)
  | .tupleOf _, st => .ok (.seq [], st)
  | .oneOf _, st => .ok (.tag 0 (.reg 0), st)
  | .listOf _, st => .ok (.ref st.heap.length, { st with heap := st.heap ++ [[]] })
  | _, st => .ok (.unit, st)

theorem zero_makes : MakesDefaults zero fun t v => ∃ st st', zero t st = .ok (v, st') := by
  intro t st
  cases t <;> exact ⟨_, _, rfl, rfl, st, _, rfl⟩

/-- A record of a number and a tuple of texts, written with a shared list in a third field that the reader does not know;
and the same read with two fields more. -/
example : ∃ bytes, serialize noNames true (fun _ => [.reg 7, .reg 8]) 9 (.tuple ([i64, .tupleOf .str] ++ [.listOf u8, .listOf u8]))
      (.seq [.reg (-3), .seq [.str [65], .str []], .ref 4, .ref 4]) = .ok bytes ∧
    (deserialize noNames zero 9 (.tuple [i64, .tupleOf .str]) bytes).toOption.map (·.1) =
      some (.seq [.reg (-3), .seq [.str [65], .str []]]) := by
  refine ⟨_, rfl, ?_⟩
  decide +kernel

example : ∀ t ∈ [i64, Ty.tupleOf .str], Frozen t := by
  intro t ht
  simp only [List.mem_cons, List.not_mem_nil, or_false] at ht
  rcases ht with rfl | rfl
  · exact .reg _
  · exact .tupleOf .str

example : ∃ bytes, serialize noNames true (fun _ => []) 9 (.tuple [i64, .tupleOf .str])
      (.seq [.reg (-3), .seq [.str [65], .str []]]) = .ok bytes ∧
    (deserialize noNames zero 9 (.tuple ([i64, .tupleOf .str] ++ [.oneOf [u8, .str], .listOf u8])) bytes).toOption.map (·.1) =
      some (.seq [.reg (-3), .seq [.str [65], .str []], .tag 0 (.reg 0), .ref 0]) := by
  refine ⟨_, rfl, ?_⟩
  decide +kernel

/-! ### Where versions do not mix -/

/-- **C112, violated: records of plain data.**  The elements of a `TupleOf` (or `ListOf`) that consist of numbers only are
written as raw memory, so adding a field is not noticed: four records of one byte are read as two records of two.  The
values of the first field of the second version are 1 and 3, where the first wrote 1, 2, 3, 4. -/
theorem plain_records :
    serialize noNames true (fun _ => []) 9 (.tupleOf (.tuple [u8])) (.seq [.seq [.reg 1], .seq [.reg 2], .seq [.reg 3], .seq [.reg 4]]) =
      .ok [6, 20, 4, 1, 2, 3, 4, 7] ∧
    deserialize noNames zero 9 (.tupleOf (.tuple [u8, u8])) [6, 20, 4, 1, 2, 3, 4, 7] =
      .ok (.seq [.seq [.reg 1, .reg 2], .seq [.reg 3, .reg 4]], ⟨[], [], []⟩) := by
  decide +kernel

/-- One record written on its own is read with a default, as it should be; three of them in a `TupleOf` cannot be read. -/
theorem plain_records_refused :
    deserialize noNames zero 9 (.tuple [u8, u8]) [5, 1, 1] = .ok (.seq [.reg 1, .reg 0], ⟨[], [], []⟩) ∧
    serialize noNames true (fun _ => []) 9 (.tuple [u8]) (.seq [.reg 1]) = .ok [5, 1, 1] ∧
    serialize noNames true (fun _ => []) 9 (.tupleOf (.tuple [u8])) (.seq [.seq [.reg 1], .seq [.reg 2], .seq [.reg 3]]) =
      .ok [6, 20, 3, 1, 2, 3, 7] ∧
    deserialize noNames zero 9 (.tupleOf (.tuple [u8, u8])) [6, 20, 3, 1, 2, 3, 7] = .error .corrupt := by
  decide +kernel

/-- **C112, violated: a case the reader does not know.**  The message of an unknown case of a `OneOf` is not stepped over
but read as the fields that follow: the tuple (-5 as the second case, 17, 24) is read, by a program that knows only the
first case, as (default, 9, 17). -/
theorem dropped_case :
    serialize noNames true (fun _ => []) 9 (.tuple [.oneOf [u8, i64], u8, u8]) (.seq [.tag 1 (.reg (-5)), .reg 17, .reg 24]) =
      .ok [6, 5, 9, 9, 9, 17, 17, 24, 7] ∧
    deserialize noNames zero 9 (.tuple [.oneOf [u8], u8, u8]) [6, 5, 9, 9, 9, 17, 17, 24, 7] =
      .ok (.seq [.tag 0 (.reg 0), .reg 9, .reg 17], ⟨[], [], []⟩) := by
  decide +kernel

/-- **C112, violated: an object that was first met in a dropped field.**  A list that stands in a field the reader does not
know and again in one it does is written in full only in the first place; stepping over that loses it, and reading the
second place fails. -/
theorem lost_object :
    serialize noNames true (fun _ => [.reg 7, .reg 8]) 9 (.tuple [.tuple [u8, .listOf u8], .listOf u8])
      (.seq [.seq [.reg 1, .ref 0], .ref 0]) = .ok [6, 6, 1, 1, 14, 1, 0, 20, 2, 7, 8, 7, 7, 13, 1, 0, 7] ∧
    deserialize noNames zero 9 (.tuple [.tuple [u8], .listOf u8]) [6, 6, 1, 1, 14, 1, 0, 20, 2, 7, 8, 7, 7, 13, 1, 0, 7] =
      .error (.wire .outOfData) := by
  decide +kernel

end Verif.Typed.Evolve
