import Verif.Conv.Model
import Mathlib.Data.List.Basic
/-
Raising the level of a conversion never changes its result.
-/
namespace Verif.Conv

/-- Induction on types. -/
theorem Ty.ind {P : Ty → Prop} (none : P .none) (reg : ∀ r, P (.reg r)) (str : P .str) (bytes : P .bytes)
    (value : ∀ c, P (.value c)) (tupleOf : ∀ t, P t → P (.tupleOf t)) (listOf : ∀ t, P t → P (.listOf t))
    (tuple : ∀ ts, (∀ t ∈ ts, P t) → P (.tuple ts)) (named : ∀ ns ts, (∀ t ∈ ts, P t) → P (.named ns ts))
    (oneOf : ∀ ts, (∀ t ∈ ts, P t) → P (.oneOf ts)) (t : Ty) : P t :=
  Ty.rec (motive_1 := P) (motive_2 := fun ts => ∀ t ∈ ts, P t)
    none reg str bytes value tupleOf listOf tuple named oneOf (by simp)
    (fun t ts ht hts => by
      intro u hu
      rcases List.mem_cons.mp hu with rfl | hu
      · exact ht
      · exact hts u hu) t

theorem Level.le_iff {a b : Level} : a ≤ b ↔ a.toInt ≤ b.toInt := Iff.rfl
theorem Level.lt_iff {a b : Level} : a < b ↔ a.toInt < b.toInt := Iff.rfl

theorem Level.le_trans {a b c : Level} (h : a ≤ b) (h' : b ≤ c) : a ≤ c :=
  Nat.le_trans (m := b.toInt) h h'

theorem Level.le_refl (a : Level) : a ≤ a := Nat.le_refl a.toInt

theorem isValidConversion_mono {src dst : Reg} {l l' : Level} (hl : l ≤ l') (h : isValidConversion src dst l = true) :
    isValidConversion src dst l' = true := by
  revert h hl
  cases l <;> cases l' <;> simp [isValidConversion, Level.le_iff, Level.toInt] <;> tauto

/-- What `copyOr` is for an object that is not of the type. -/
theorem copyOr_mono {t : Ty} {v : Py} {a b : Option Data} {d : Data} (hab : ∀ d, a = some d → b = some d)
    (h : copyOr t v a = some d) : copyOr t v b = some d := by
  cases v with
  | inst t' d' =>
    simp only [copyOr] at h ⊢
    split
    · rename_i ht
      rw [if_pos ht] at h
      exact h
    · rename_i ht
      rw [if_neg ht] at h
      exact hab _ h
  | _ => exact hab _ h

theorem convReg_mono {e : Env} {r : Reg} {v : Py} {l l' : Level} {d : Data} (hl : l ≤ l') (h : convReg e r v l = some d) :
    convReg e r v l' = some d := by
  by_cases hnew : Level.new ≤ l
  · have : l = .new := by
      revert hnew
      cases l <;> simp [Level.le_iff, Level.toInt]
    have hl' : l' = .new := by
      revert hl
      rw [this]
      cases l' <;> simp [Level.le_iff, Level.toInt]
    rw [this] at h
    rw [hl']
    exact h
  · have key : ∀ src (x : Data) (y y' : Option Data), (if isValidConversion src r l = true then some x else (if Level.new ≤ l then y else none)) = some d →
        (if isValidConversion src r l' = true then some x else y') = some d := by
      intro src x y y' hh
      rw [if_neg hnew] at hh
      split at hh
      · rename_i hv
        rw [if_pos (isValidConversion_mono hl hv)]
        exact hh
      · cases hh
    cases v with
    | bool b => exact key _ _ _ _ h
    | int n => exact key _ _ _ _ h
    | float x => exact key _ _ _ _ h
    | inst t' d' =>
      cases t' with
      | reg src =>
        cases d' with
        | num n => exact key _ _ _ _ h
        | _ => simp [convReg, hnew] at h
      | _ => simp [convReg, hnew] at h
    | _ => simp [convReg, hnew] at h

theorem constEq_weaken {e : Env} {c : Const} {v : Py} {b b' : Bool} (hb : b' = true → b = true) (h : constEq e c v b = true) :
    constEq e c v b' = true := by
  cases c with
  | num r n =>
    simp only [constEq] at h ⊢
    cases b' <;> cases b <;> simp_all
  | _ => exact h

theorem seqChild_mono {isList : Bool} {v : Py} {l l' : Level} {s : Level} (hl : l ≤ l') (h : seqChild isList v l = some s) :
    ∃ s', seqChild isList v l' = some s' ∧ s ≤ s' := by
  revert h hl
  cases l <;> cases l' <;> cases isList <;> cases hv : isSequence v <;> simp [seqChild, Level.le_iff, Level.lt_iff, Level.toInt, hv] <;>
    rintro rfl <;> simp

theorem compChild_mono {v : Py} {l l' : Level} {s : Level} (hl : l ≤ l') (h : compChild v l = some s) :
    ∃ s', compChild v l' = some s' ∧ s ≤ s' := by
  revert h hl
  cases l <;> cases l' <;> cases hv : isSequence v <;> simp [compChild, Level.le_iff, Level.lt_iff, Level.toInt, hv] <;>
    rintro rfl <;> simp

/-- Elements convert alike, so lists of them do. -/
theorem mapM_mono {α β : Type} {f g : α → Option β} (hfg : ∀ a b, f a = some b → g a = some b) :
    ∀ {xs : List α} {ys : List β}, xs.mapM f = some ys → xs.mapM g = some ys
  | [], ys, h => by simpa using h
  | x :: xs, ys, h => by
    rw [List.mapM_cons] at h ⊢
    cases hx : f x with
    | none => rw [hx] at h; cases h
    | some y =>
      rw [hx] at h
      rw [hfg x y hx]
      cases hxs : xs.mapM f with
      | none => rw [hxs] at h; cases h
      | some zs =>
        rw [hxs] at h
        rw [mapM_mono hfg hxs]
        exact h

theorem map_some {α β : Type} {f : α → β} {x : Option α} {y : β} (h : x.map f = some y) : ∃ a, x = some a ∧ f a = y := by
  cases x with
  | none => cases h
  | some a => exact ⟨a, rfl, by simpa using h⟩

/-- What the induction is about. -/
def Mono (e : Env) (t : Ty) : Prop := ∀ v l l' d, l ≤ l' → convTo e t v l = some d → convTo e t v l' = some d

theorem convZip_mono {e : Env} {l l' : Level} (hl : l ≤ l') :
    ∀ {ts : List Ty} {xs : List Py} {ds : List Data}, (∀ t ∈ ts, Mono e t) → convZip e ts xs l = some ds →
      convZip e ts xs l' = some ds
  | [], [], ds, _, h => by rw [convZip] at h ⊢; exact h
  | [], _ :: _, ds, _, h => by rw [convZip] at h; all_goals simp_all
  | _ :: _, [], ds, _, h => by rw [convZip] at h; all_goals simp_all
  | t :: ts, x :: xs, ds, ih, h => by
    rw [convZip] at h ⊢
    cases hx : copyOr t x (convTo e t x l) with
    | none => rw [hx] at h; cases h
    | some d =>
      rw [hx] at h
      rw [copyOr_mono (fun d' => ih t (by simp) x l l' d' hl) hx]
      obtain ⟨ds', h1, h2⟩ := map_some (Option.bind_some (f := fun d => (convZip e ts xs l).map (d :: ·)) d ▸ h)
      simp only [Option.bind_some]
      rw [convZip_mono hl (fun u hu => ih u (by simp [hu])) h1]
      exact congrArg some h2

theorem convFields_mono {e : Env} {l l' : Level} {get : String → Option Py} (hl : l ≤ l') :
    ∀ {ts : List Ty} {ns : List String} {ds : List Data}, (∀ t ∈ ts, Mono e t) → convFields e ns ts get l = some ds →
      convFields e ns ts get l' = some ds
  | [], ns, ds, _, h => by rw [convFields] at h ⊢; exact h
  | t :: ts, ns, ds, ih, h => by
    rw [convFields] at h ⊢
    obtain ⟨d, h1, h2⟩ := Option.bind_eq_some_iff.mp h
    obtain ⟨ds', h3, h4⟩ := map_some h2
    refine Option.bind_eq_some_iff.mpr ⟨d, ?_, ?_⟩
    · cases hg : get (ns.headD "") with
      | none => rw [hg] at h1; exact h1
      | some x =>
        rw [hg] at h1
        exact copyOr_mono (fun d' => ih t (by simp) x l l' d' hl) h1
    · rw [convFields_mono hl (fun u hu => ih u (by simp [hu])) h3]
      exact congrArg some h4

theorem findSome_prefix {α β : Type} {f : α → Option β} {xs ys : List α} {b : β} (h : xs.findSome? f = some b) :
    (xs ++ ys).findSome? f = some b := by
  rw [List.findSome?_append, h]
  rfl

theorem oneOfLevels_prefix {l l' : Level} (hl : l ≤ l') :
    ∃ rest, oneOfLevels.filter (· ≤ l') = oneOfLevels.filter (· ≤ l) ++ rest := by
  revert hl
  cases l <;> cases l' <;> simp [oneOfLevels, Level.le_iff, Level.toInt]

theorem dictLevel_mono {l l' : Level} (hl : l ≤ l') :
    (if Level.implicitContainers ≤ l then Level.implicitContainers else l) ≤ (if Level.implicitContainers ≤ l' then Level.implicitContainers else l') := by
  revert hl
  cases l <;> cases l' <;> simp [Level.le_iff, Level.toInt]

/-- The sequence half of the conversions to `TupleOf` and `ListOf`. -/
theorem convSeq_mono {e : Env} {t : Ty} {b : Bool} {v : Py} {l l' : Level} {d : Data} (ih : Mono e t) (hl : l ≤ l')
    (h : (match seqChild b v l with
      | none => none
      | some child => match rawBytes t v with
        | some d => some d
        | none => match items v with
          | none => none
          | some xs => (xs.mapM fun x => copyOr t x (convTo e t x child)).map .seq) = some d) :
    (match seqChild b v l' with
      | none => none
      | some child => match rawBytes t v with
        | some d => some d
        | none => match items v with
          | none => none
          | some xs => (xs.mapM fun x => copyOr t x (convTo e t x child)).map Data.seq) = some d := by
  cases hs : seqChild b v l with
  | none => rw [hs] at h; cases h
  | some s =>
    obtain ⟨s', h1, h2⟩ := seqChild_mono hl hs
    rw [hs] at h
    rw [h1]
    simp only at h ⊢
    cases hr : rawBytes t v with
    | some d' => rw [hr] at h; exact h
    | none =>
      rw [hr] at h
      simp only at h ⊢
      cases hi : items v with
      | none => rw [hi] at h; cases h
      | some xs =>
        rw [hi] at h
        simp only at h ⊢
        obtain ⟨ds, h3, h4⟩ := map_some h
        rw [mapM_mono (fun x d' => copyOr_mono (fun d'' => ih x s s' d'' h2)) h3]
        exact congrArg some h4

/-- The positional half of the conversions to `Tuple` and `NamedTuple`. -/
theorem convPos_mono {e : Env} {ts : List Ty} {v : Py} {l l' : Level} {d : Data} (ih : ∀ t ∈ ts, Mono e t) (hl : l ≤ l')
    (h : (match compChild v l with
      | none => none
      | some child => match length v, items v with
        | some n, some xs => if n = ts.length then (convZip e ts xs child).map .seq else none
        | _, _ => none) = some d) :
    (match compChild v l' with
      | none => none
      | some child => match length v, items v with
        | some n, some xs => if n = ts.length then (convZip e ts xs child).map Data.seq else none
        | _, _ => none) = some d := by
  cases hs : compChild v l with
  | none => rw [hs] at h; cases h
  | some s =>
    obtain ⟨s', h1, h2⟩ := compChild_mono hl hs
    rw [hs] at h
    rw [h1]
    simp only at h ⊢
    cases hn : length v with
    | none => rw [hn] at h; cases h
    | some n =>
      cases hi : items v with
      | none => rw [hn, hi] at h; cases h
      | some xs =>
        rw [hn, hi] at h
        simp only at h ⊢
        split at h
        · rename_i hlen
          rw [if_pos hlen]
          obtain ⟨ds, h3, h4⟩ := map_some h
          rw [convZip_mono h2 ih h3]
          exact congrArg some h4
        · cases h

theorem mono (e : Env) (t : Ty) : Mono e t := by
  refine Ty.ind (P := Mono e) ?_ ?_ ?_ ?_ ?_ ?_ ?_ ?_ ?_ ?_ t
  · intro v l l' d _ h
    cases v <;> simp_all [convTo]
  · intro r v l l' d hl h
    rw [convTo] at h ⊢
    exact convReg_mono hl h
  · intro v l l' d hl h
    rw [convTo] at h ⊢
    cases v <;> simp_all only [convStr]
    all_goals
      split at h
      · rename_i hn
        rw [if_pos (Level.le_trans hn hl)]
        exact h
      · cases h
  · intro v l l' d hl h
    rw [convTo] at h ⊢
    cases v <;> simp_all only [convBytes]
    all_goals
      split at h
      · rename_i hn
        rw [if_pos (Level.le_trans hn hl)]
        exact h
      · cases h
  · intro c v l l' d hl h
    rw [convTo] at h ⊢
    split at h
    · rename_i hc
      rw [if_pos (constEq_weaken _ hc)]
      · exact h
      · intro hh
        simp only [Bool.not_eq_true', decide_eq_false_iff_not] at hh ⊢
        exact fun hn => hh (Level.le_trans hn hl)
    · cases h
  · intro t ih v l l' d hl h
    rw [convTo] at h ⊢
    exact convSeq_mono ih hl h
  · intro t ih v l l' d hl h
    rw [convTo] at h ⊢
    exact convSeq_mono ih hl h
  · intro ts ih v l l' d hl h
    rw [convTo] at h ⊢
    exact convPos_mono ih hl h
  · intro ns ts ih v l l' d hl h
    have dict : ∀ ks vs, v = .dict ks vs → convTo e (.named ns ts) v l' = some d := by
      rintro ks vs rfl
      rw [convTo] at h ⊢
      split at h
      · rename_i hu
        rw [if_pos (Level.le_trans hu hl)]
        split at h
        · rename_i hk
          rw [if_pos hk]
          obtain ⟨ds, h3, h4⟩ := map_some h
          rw [convFields_mono (dictLevel_mono hl) ih h3]
          exact congrArg some h4
        · cases h
      · cases h
    have inst : ∀ ns' ts' ds, v = .inst (.named ns' ts') (.seq ds) → convTo e (.named ns ts) v l' = some d := by
      rintro ns' ts' ds rfl
      rw [convTo] at h ⊢
      cases hs : compChild (.inst (.named ns' ts') (.seq ds)) l with
      | none => rw [hs] at h; cases h
      | some s =>
        obtain ⟨s', h1, h2⟩ := compChild_mono hl hs
        rw [hs] at h
        rw [h1]
        simp only at h ⊢
        split at h
        · rename_i hk
          rw [if_pos hk]
          obtain ⟨ds', h3, h4⟩ := map_some h
          rw [convFields_mono h2 ih h3]
          exact congrArg some h4
        · cases h
    cases v with
    | dict ks vs => exact dict ks vs rfl
    | inst t' d' =>
      cases t' with
      | named ns' ts' =>
        cases d' with
        | seq ds => exact inst ns' ts' ds rfl
        | _ =>
          simp only [convTo] at h ⊢
          exact convPos_mono ih hl h
      | _ =>
        simp only [convTo] at h ⊢
        exact convPos_mono ih hl h
    | _ =>
      simp only [convTo] at h ⊢
      exact convPos_mono ih hl h
  · intro ts _ v l l' d hl h
    rw [convTo] at h ⊢
    obtain ⟨rest, hr⟩ := oneOfLevels_prefix hl
    rw [hr]
    exact findSome_prefix h

/-- A conversion that succeeds at a level gives the same result at every higher level. -/
theorem conversion_monotone {e : Env} {t : Ty} {v : Py} {l l' : Level} {d : Data} (h : conv e t v l = some d) (hl : l ≤ l') :
    conv e t v l' = some d :=
  copyOr_mono (fun d' => mono e t v l l' d' hl) h

/-- Two levels that both accept a value make the same of it. -/
theorem conversion_unambiguous {e : Env} {t : Ty} {v : Py} {l l' : Level} {d d' : Data} (h : conv e t v l = some d)
    (h' : conv e t v l' = some d') : d = d' := by
  rcases Nat.le_total l.toInt l'.toInt with hl | hl
  · exact Option.some.inj ((conversion_monotone h hl).symm.trans h')
  · exact (Option.some.inj ((conversion_monotone h' hl).symm.trans h)).symm

end Verif.Conv
