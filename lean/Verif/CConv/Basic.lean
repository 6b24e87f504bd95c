import Verif.CConv.Model
import Verif.CConv.Spec
import Verif.Conv.Restore
import Verif.Conv.Typing
/-
Facts about the pieces of compiled conversions.
-/
namespace Verif.CConv

open Verif.Conv

theorem plain_cases {t : Ty} (h : t.plain = true) : (∀ c, t ≠ .value c) ∧ (∀ ts, t ≠ .oneOf ts) := by
  cases t <;> simp_all [Ty.plain]

theorem constTy_plain (c : Const) : (constTy c).plain = true := by cases c <;> rfl

theorem const_has {e : Env} {c : Const} (h : c.ok e) : Has e (constTy c) (constData c) := by
  cases c with
  | str s => exact .str
  | bytes b => exact .bytes h
  | num r n =>
    refine .reg ?_
    cases r <;> simp only [Const.ok] at h
    · exact h
    · exact h
    · cases n with
      | int n => simp at h
      | flt x => trivial

theorem resolveAt_eq {ts : List Ty} {k : Nat} {t : Ty} {d : Data} (h : ts[k]? = some t) : resolveAt ts k d = resolve t d := by
  induction ts generalizing k with
  | nil => simp at h
  | cons u us ih =>
    cases k with
    | zero =>
      simp only [List.getElem?_cons_zero, Option.some.injEq] at h
      subst h
      rw [resolveAt]
    | succ k =>
      rw [resolveAt]
      exact ih (by simpa using h)

theorem resolve_plain {t : Ty} {d : Data} (h : t.plain = true) : resolve t d = (t, d) := by
  cases t <;> simp_all [Ty.plain, resolve]

theorem resolve_oneOf {ts : List Ty} {k : Nat} {t : Ty} {d : Data} (h : ts[k]? = some t) :
    resolve (.oneOf ts) (.tag k d) = resolve t d := by
  rw [resolve, resolveAt_eq h]

theorem resolve_value {c : Const} {d : Data} : resolve (.value c) d = (constTy c, constData c) := by rw [resolve]

theorem resolve_has {e : Env} {s : Ty} {d : Data} (h : Has e s d) :
    Has e (resolve s d).1 (resolve s d).2 ∧ (resolve s d).1.plain = true := by
  induction h with
  | none => exact ⟨.none, rfl⟩
  | reg h => exact ⟨.reg h, rfl⟩
  | str => exact ⟨.str, rfl⟩
  | bytes h => exact ⟨.bytes h, rfl⟩
  | value h => rw [resolve_value]; exact ⟨const_has h, constTy_plain _⟩
  | tupleOf h _ => exact ⟨.tupleOf h, rfl⟩
  | listOf h _ => exact ⟨.listOf h, rfl⟩
  | tuple h h' _ => exact ⟨.tuple h h', rfl⟩
  | named h h' _ => exact ⟨.named h h', rfl⟩
  | oneOf h _ ih => rw [resolve_oneOf h]; exact ih

theorem const_extract (c : Const) : extract (constTy c) (constData c) = constToPy c := by
  cases c <;> simp [constTy, constData, constToPy, extract]

theorem extract_resolve {e : Env} {s : Ty} {d : Data} (h : Has e s d) :
    extract (resolve s d).1 (resolve s d).2 = extract s d := by
  induction h with
  | value h => rw [resolve_value, const_extract, extract]
  | oneOf h _ ih => rw [resolve_oneOf h, ih, extract, extractAt_eq h]
  | _ => rfl

/-! ### Levels -/

theorem levels_cons (l : Level) : ∃ ls, oneOfLevels.filter (· ≤ l) = .signature :: ls := by
  cases l <;> exact ⟨_, rfl⟩

theorem isValid_self (r : Reg) (l : Level) : isValidConversion r r l = true := by
  simp [isValidConversion]

/-! ### Verdicts -/

theorem join_yes {a b : Verdict} : a.join b = .yes ↔ a = .yes ∨ b = .yes := by
  cases a <;> cases b <;> simp [Verdict.join]

theorem join_no {a b : Verdict} : a.join b = .no ↔ a = .no ∧ b = .no := by
  cases a <;> cases b <;> simp [Verdict.join]

theorem both_yes {a b : Verdict} : a.both b = .yes ↔ a = .yes ∧ b = .yes := by
  cases a <;> cases b <;> simp [Verdict.both]

theorem both_no {a b : Verdict} : a.both b = .no ↔ a = .no ∨ b = .no := by
  cases a <;> cases b <;> simp [Verdict.both]

theorem canConvert_self (t : Ty) (l : Level) : canConvert t t l = .yes := by simp [canConvert, verdict]

theorem canConvert_yes {s t : Ty} {l : Level} : canConvert s t l = .yes ↔ s = t ∨ canTo s t l = .yes ∨ canFrom t s l = .yes := by
  rw [canConvert, verdict]
  by_cases h : s = t <;> simp [h, join_yes]

theorem canConvert_no {s t : Ty} {l : Level} : canConvert s t l = .no ↔ s ≠ t ∧ canTo s t l = .no ∧ canFrom t s l = .no := by
  rw [canConvert, verdict]
  by_cases h : s = t <;> simp [h, join_no]

theorem canTo_yes {s t : Ty} {l : Level} (h : canTo s t l = .yes) : ∃ r r', s = .reg r ∧ t = .reg r' ∧ isValidConversion r r' l = true ∧
    (r.isFloat && !r'.isFloat && r' ≠ .bool) = false := by
  cases s <;> simp only [canTo] at h <;> try contradiction
  cases t <;> simp only [] at h <;> try contradiction
  rename_i r r'
  refine ⟨r, r', rfl, rfl, ?_⟩
  cases hv : isValidConversion r r' l
  · simp [hv] at h
  · refine ⟨rfl, ?_⟩
    simp only [hv, Bool.not_true, Bool.false_eq_true, if_false] at h
    split at h
    · contradiction
    · rename_i hn
      simpa using hn

/-! ### Element by element -/

/-- When every element succeeds, the container is made. -/
theorem each_ok {α : Type} {f : α → Out} {k : List Data → Out} : ∀ {xs : List α}, (∀ x ∈ xs, ∃ d, f x = .ok d) →
    ∃ ds, each f xs k = k ds ∧ ds.length = xs.length ∧ ∀ (i : Nat) (x : α) (d : Data), xs[i]? = some x → ds[i]? = some d → f x = .ok d := by
  intro xs
  induction xs generalizing k with
  | nil => intro _; exact ⟨[], rfl, rfl, by simp⟩
  | cons x xs ih =>
    intro h
    obtain ⟨d, hd⟩ := h x (by simp)
    obtain ⟨ds, h1, h2, h3⟩ := ih (k := fun ds => k (d :: ds)) (fun y hy => h y (by simp [hy]))
    refine ⟨d :: ds, by simp only [each, hd, Out.bind, h1], by simp [h2], ?_⟩
    intro i y d' hy hd'
    cases i with
    | zero => simp_all
    | succ i => exact h3 i y d' (by simpa using hy) (by simpa using hd')

/-- Otherwise the outcome is that of the first element that does not succeed. -/
theorem each_cases {α : Type} {f : α → Out} {k : List Data → Out} : ∀ (xs : List α),
    (∀ x ∈ xs, ∃ d, f x = .ok d) ∨
      ∃ x ∈ xs, (∀ d, f x ≠ .ok d) ∧ each f xs k = f x := by
  intro xs
  induction xs generalizing k with
  | nil => exact .inl (by simp)
  | cons x xs ih =>
    by_cases hx : ∃ d, f x = .ok d
    · obtain ⟨d, hd⟩ := hx
      rcases ih (k := fun ds => k (d :: ds)) with h | ⟨y, hy, h1, h2⟩
      · exact .inl (by
          intro y hy
          rcases List.mem_cons.mp hy with rfl | hy
          · exact ⟨d, hd⟩
          · exact h y hy)
      · exact .inr ⟨y, by simp [hy], h1, by simp only [each, hd, Out.bind, h2]⟩
    · refine .inr ⟨x, by simp, fun d hd => hx ⟨d, hd⟩, ?_⟩
      rw [each]
      cases hf : f x with
      | ok d => exact absurd ⟨d, hf⟩ hx
      | _ => rfl

/-- Field by field. -/
theorem intoZip_each {e : Env} {p : Fp} {l : Level} : ∀ {ts : List Ty} {xs : List (Ty × Data)} {k : List Data → Out},
    intoZip e p ts xs l k = each (fun q : Ty × Ty × Data => into e p q.1 q.2.1 q.2.2 l) (ts.zip xs) k := by
  intro ts
  induction ts with
  | nil => intro xs k; simp [intoZip, each]
  | cons t ts ih =>
    intro xs k
    cases xs with
    | nil => simp [intoZip, each]
    | cons x xs => simp only [intoZip, List.zip_cons_cons, each, ih]

/-- What becomes of a field of the target: the conversion of the field of the other with its name, or its default. -/
def slotOut (e : Env) (p : Fp) (l : Level) (q : Ty × Option (Ty × Data)) : Out :=
  match q.2 with
  | some x => into e p q.1 x.1 x.2 l
  | none => match dflt q.1 with
    | some d => .ok d
    | none => .fail

/-- The fields of the target and what they are made of. -/
def slots (get : String → Option (Ty × Data)) : List String → List Ty → List (Ty × Option (Ty × Data))
  | _, [] => []
  | ns, t :: ts => (t, get (ns.headD "")) :: slots get ns.tail ts

theorem intoFields_each {e : Env} {p : Fp} {l : Level} {get : String → Option (Ty × Data)} :
    ∀ {ts : List Ty} {ns : List String} {k : List Data → Out},
    intoFields e p ns ts get l k = each (slotOut e p l) (slots get ns ts) k := by
  intro ts
  induction ts with
  | nil => intro ns k; simp [intoFields, each, slots]
  | cons t ts ih =>
    intro ns k
    rw [intoFields, slots, each]
    simp only [ih]
    rfl

theorem slots_length {get : String → Option (Ty × Data)} : ∀ {ts : List Ty} {ns : List String}, (slots get ns ts).length = ts.length := by
  intro ts
  induction ts with
  | nil => intro ns; rfl
  | cons t ts ih => intro ns; simp [slots, ih]

theorem slots_get {get : String → Option (Ty × Data)} : ∀ {ts : List Ty} {ns : List String} {i : Nat} {t : Ty}, ts[i]? = some t →
    (slots get ns ts)[i]? = some (t, get (ns[i]?.getD "")) := by
  intro ts
  induction ts with
  | nil => intro ns i t h; simp at h
  | cons u us ih =>
    intro ns i t h
    cases i with
    | zero =>
      simp only [List.getElem?_cons_zero, Option.some.injEq] at h
      subst h
      cases ns <;> simp [slots]
    | succ i =>
      rw [slots, List.getElem?_cons_succ, ih (ns := ns.tail) (by simpa using h)]
      cases ns <;> simp

theorem typeOf_fieldNamed {ns : List String} {ss : List Ty} {ds : List Data} {n : String} (h : ss.length = ds.length) :
    typeOf ns ss n = (fieldNamed ns ss ds n).map (·.1) := by
  induction ns generalizing ss ds with
  | nil => cases ss <;> simp [typeOf, fieldNamed]
  | cons m ns ih =>
    cases ss with
    | nil => simp [typeOf, fieldNamed]
    | cons t ss =>
      cases ds with
      | nil => simp at h
      | cons d ds =>
        rw [typeOf, fieldNamed]
        by_cases hm : m = n
        · simp [hm]
        · simp only [hm, if_false]
          exact ih (by simpa using h)

theorem fieldNamed_mem {ns : List String} {ss : List Ty} {ds : List Data} {n : String} {x : Ty × Data}
    (h : fieldNamed ns ss ds n = some x) : ∃ i : Nat, ns[i]? = some n ∧ ss[i]? = some x.1 ∧ ds[i]? = some x.2 := by
  induction ns generalizing ss ds with
  | nil => simp [fieldNamed] at h
  | cons m ns ih =>
    cases ss with
    | nil => simp [fieldNamed] at h
    | cons t ss =>
      cases ds with
      | nil => simp [fieldNamed] at h
      | cons d ds =>
        rw [fieldNamed] at h
        split at h
        · rename_i hm
          cases h
          exact ⟨0, by simp [hm], by simp, by simp⟩
        · obtain ⟨i, h1, h2, h3⟩ := ih h
          exact ⟨i + 1, by simpa using h1, by simpa using h2, by simpa using h3⟩

/-- With different names, the field with the name of a field is that field. -/
theorem fieldNamed_self {ns : List String} (hn : ns.Nodup) : ∀ {ts : List Ty} {ds : List Data} {i : Nat} {n : String} {t : Ty} {d : Data},
    ns[i]? = some n → ts[i]? = some t → ds[i]? = some d → fieldNamed ns ts ds n = some (t, d) := by
  induction ns with
  | nil => intro ts ds i n t d h; simp at h
  | cons m ns ih =>
    intro ts ds i n t d h1 h2 h3
    obtain ⟨hm, hns⟩ := List.nodup_cons.mp hn
    cases ts with
    | nil => simp at h2
    | cons u ts =>
      cases ds with
      | nil => simp at h3
      | cons d' ds =>
        cases i with
        | zero =>
          simp only [List.getElem?_cons_zero, Option.some.injEq] at h1 h2 h3
          subst h1 h2 h3
          simp [fieldNamed]
        | succ i =>
          have h1' : ns[i]? = some n := by simpa using h1
          have hne : m ≠ n := by
            rintro rfl
            exact hm (List.mem_of_getElem? h1')
          rw [fieldNamed, if_neg hne]
          exact ih hns h1' (by simpa using h2) (by simpa using h3)

theorem canZip_yes {l : Level} : ∀ {ts ss : List Ty}, canZip ts ss l = .yes → ∀ q ∈ ts.zip ss, canConvert q.2 q.1 l = .yes := by
  intro ts
  induction ts with
  | nil => intro ss _ q hq; simp at hq
  | cons t ts ih =>
    intro ss h q hq
    cases ss with
    | nil => simp at hq
    | cons s ss =>
      rw [canZip, both_yes] at h
      rw [List.zip_cons_cons, List.mem_cons] at hq
      rcases hq with rfl | hq
      · exact h.1
      · exact ih h.2 q hq

theorem canZip_no {l : Level} : ∀ {ts ss : List Ty}, canZip ts ss l = .no → ∃ q ∈ ts.zip ss, canConvert q.2 q.1 l = .no := by
  intro ts
  induction ts with
  | nil => intro ss h; simp [canZip] at h
  | cons t ts ih =>
    intro ss h
    cases ss with
    | nil => simp [canZip] at h
    | cons s ss =>
      rw [canZip, both_no] at h
      rcases h with h | h
      · exact ⟨(t, s), by simp, h⟩
      · obtain ⟨q, hq, h⟩ := ih h
        exact ⟨q, by simp [hq], h⟩

theorem canFields_yes {l : Level} {get : String → Option Ty} : ∀ {ts : List Ty} {ns : List String}, canFields ns ts get l = .yes →
    ∀ (i : Nat) (t : Ty), ts[i]? = some t → match get (ns[i]?.getD "") with
      | some s => canConvert s t l = .yes
      | none => (dflt t).isSome = true := by
  intro ts
  induction ts with
  | nil => intro ns _ i t h; simp at h
  | cons u us ih =>
    intro ns h i t hi
    rw [canFields, both_yes] at h
    cases i with
    | zero =>
      simp only [List.getElem?_cons_zero, Option.some.injEq] at hi
      subst hi
      have h1 := h.1
      have hh : ns.headD "" = ns[0]?.getD "" := by cases ns <;> simp
      rw [hh] at h1
      cases hg : get (ns[0]?.getD "") with
      | some s => rw [hg] at h1; exact h1
      | none =>
        rw [hg] at h1
        simp only at h1
        split at h1
        · assumption
        · cases h1
    | succ i =>
      have := ih h.2 i t (by simpa using hi)
      have ht : ns.tail[i]? = ns[i + 1]? := by cases ns <;> simp
      rwa [ht] at this

theorem canFields_no {l : Level} {get : String → Option Ty} : ∀ {ts : List Ty} {ns : List String}, canFields ns ts get l = .no →
    ∃ (i : Nat) (t : Ty), ts[i]? = some t ∧ match get (ns[i]?.getD "") with
      | some s => canConvert s t l = .no
      | none => dflt t = none := by
  intro ts
  induction ts with
  | nil => intro ns h; simp [canFields] at h
  | cons u us ih =>
    intro ns h
    rw [canFields, both_no] at h
    have hh : ns.headD "" = ns[0]?.getD "" := by cases ns <;> simp
    rcases h with h | h
    · refine ⟨0, u, by simp, ?_⟩
      rw [hh] at h
      cases hg : get (ns[0]?.getD "") with
      | some s => rw [hg] at h; exact h
      | none =>
        rw [hg] at h
        simp only at h ⊢
        split at h
        · cases h
        · rename_i hd
          simpa using hd
    · obtain ⟨i, t, h1, h2⟩ := ih h
      have ht : ns.tail[i]? = ns[i + 1]? := by cases ns <;> simp
      rw [ht] at h2
      exact ⟨i + 1, t, by simpa using h1, h2⟩

end Verif.CConv
