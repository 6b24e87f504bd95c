import Verif.Str.Model
import Mathlib.Tactic.NormNum
/-
Searching in strings (C22): model and proofs.
/repo/typed_python/StringType.cpp 450-616, _runtime.cpp 525-559, string_wrapper.py 515-519, 777-790.
-/
namespace Verif.Str

/-! ### model -/

/-- StringType.cpp:456-463, 510-517, 564-571, 1036-1043: an index relative to the end, not before the beginning. -/
def adjust (n : Nat) (i : Int) : Int := if i < 0 then (if i + n < 0 then 0 else i + n) else i

/-- StringType.cpp:490-496: compare `sub` with the code points from position `i`. -/
def matchAt (ps : List Nat) : List Nat → Nat → Except Err Bool
  | [], _ => .ok true
  | c :: sub, i =>
    match ps[i]? with
    | none => .error .oob
    | some p => if p ≠ c then .ok false else matchAt ps sub (i + 1)

/-- StringType.cpp:489-501: the loop of `find` with `n` rounds to go. -/
def findLoop (ps sub : List Nat) : Nat → Nat → Except Err Int
  | 0, _ => .ok (-1)
  | n + 1, i =>
    match matchAt ps sub i with
    | .error e => .error e
    | .ok true => .ok i
    | .ok false => findLoop ps sub n (i + 1)

/-- StringType.cpp:477-487: the loop of `find` for one byte. -/
def findByte (ps : List Nat) (c : Nat) : Nat → Nat → Except Err Int
  | 0, _ => .ok (-1)
  | n + 1, i =>
    match ps[i]? with
    | none => .error .oob
    | some p => if p = c then .ok i else findByte ps c n (i + 1)

/-- StringType.cpp:477, 530, 589: whether the loop for one byte is taken. -/
def oneByte (l sub : Str) : Bool := width l = 1 ∧ width sub = 1 ∧ (text sub).length = 1

/-- StringType.cpp:450-502 `find`. -/
def find (l sub : Str) (start stop : Int) : Except Err Int :=
  let n := (text l).length
  let m := (text sub).length
  if n = 0 then
    if m = 0 then .ok (if start > 0 then -1 else 0) else .ok (-1)
  else
    let start := adjust n start
    let stop := adjust n stop
    if stop < start ∨ start > n then .ok (-1)
    else if m = 0 then .ok (if start ≥ 0 then start else 0)
    else
      let stop := if stop > n then (n : Int) else stop
      let stop := stop - ((m : Int) - 1)
      if start < 0 ∨ stop < 0 ∨ start ≥ stop ∨ m > n ∨ start > (n : Int) - m then .ok (-1)
      else if oneByte l sub then findByte (text l) ((text sub).headD 0) (stop - start).toNat start.toNat
      else findLoop (text l) (text sub) (stop - start).toNat start.toNat

/-- StringType.cpp:542-555: the loop of `rfind`: `n` rounds to go, the next position is `start + n - 1`. -/
def rfindLoop (ps sub : List Nat) (start : Nat) : Nat → Except Err Int
  | 0 => .ok (-1)
  | n + 1 =>
    match matchAt ps sub (start + n) with
    | .error e => .error e
    | .ok true => .ok ((start + n : Nat) : Int)
    | .ok false => rfindLoop ps sub start n

/-- StringType.cpp:530-540: the loop of `rfind` for one byte. -/
def rfindByte (ps : List Nat) (c : Nat) (start : Nat) : Nat → Except Err Int
  | 0 => .ok (-1)
  | n + 1 =>
    match ps[start + n]? with
    | none => .error .oob
    | some p => if p = c then .ok ((start + n : Nat) : Int) else rfindByte ps c start n

/-- StringType.cpp:504-556 `rfind`. -/
def rfind (l sub : Str) (start stop : Int) : Except Err Int :=
  let n := (text l).length
  let m := (text sub).length
  if n = 0 then
    if m = 0 then .ok (if start > 0 then -1 else 0) else .ok (-1)
  else
    let start := adjust n start
    let stop := adjust n stop
    if stop < start ∨ start > n then .ok (-1)
    else
      let stop := if stop > n then (n : Int) else stop
      if m = 0 then .ok stop
      else
        let stop := stop - ((m : Int) - 1)
        if start < 0 ∨ stop < 0 ∨ start ≥ stop ∨ m > n ∨ start > (n : Int) - m then .ok (-1)
        else if oneByte l sub then rfindByte (text l) ((text sub).headD 0) start.toNat (stop - start).toNat
        else rfindLoop (text l) (text sub) start.toNat (stop - start).toNat

/-- StringType.cpp:601-613: the loop of `count` with `n` rounds to go at position `i`; after a match `skip` positions are
passed over. -/
def countLoop (ps sub : List Nat) : Nat → Nat → Nat → Nat → Except Err Int
  | 0, _, _, acc => .ok acc
  | n + 1, i, skip + 1, acc => countLoop ps sub n (i + 1) skip acc
  | n + 1, i, 0, acc =>
    match matchAt ps sub i with
    | .error e => .error e
    | .ok true => countLoop ps sub n (i + 1) (sub.length - 1) (acc + 1)
    | .ok false => countLoop ps sub n (i + 1) 0 acc

/-- StringType.cpp:593-598: the loop of `count` for one byte. -/
def countByte (ps : List Nat) (c : Nat) : Nat → Nat → Nat → Except Err Int
  | 0, _, acc => .ok acc
  | n + 1, i, acc =>
    match ps[i]? with
    | none => .error .oob
    | some p => countByte ps c n (i + 1) (if p = c then acc + 1 else acc)

/-- StringType.cpp:558-616 `count`. -/
def count (l sub : Str) (start stop : Int) : Except Err Int :=
  let n := (text l).length
  let m := (text sub).length
  if n = 0 then .ok 0
  else
    let start := adjust n start
    let stop := adjust n stop
    if stop < start ∨ start > n then .ok 0
    else
      let stop := if stop > n then (n : Int) else stop
      if m = 0 then
        if start > n then .ok 0 else .ok (if stop - start + 1 ≥ 0 then stop - start + 1 else 0)
      else
        let stop := stop - ((m : Int) - 1)
        if start < 0 ∨ stop < 0 ∨ start ≥ stop ∨ m > n ∨ start > (n : Int) - m then .ok 0
        else if oneByte l sub then countByte (text l) ((text sub).headD 0) (stop - start).toNat start.toNat 0
        else countLoop (text l) (text sub) (stop - start).toNat start.toNat 0 0

/-- _runtime.cpp:537-547 and 549-559: `index` and `rindex` from the result of `find` and `rfind`; `none` is ValueError. -/
def indexResult : Except Err Int → Except Err (Option Int)
  | .error e => .error e
  | .ok r => .ok (if r = -1 then none else some r)

/-- string_wrapper.py:515-519: the compiled `sub in l`; the default arguments are those of 778-779. -/
def contains (l sub : Str) : Except Err Bool :=
  match find l sub 0 (text l).length with
  | .error e => .error e
  | .ok r => .ok (r ≥ 0)

/-! ### proofs -/

/-- `sub` is at position `i` of `ps`. -/
def At (ps sub : List Nat) (i : Nat) : Prop := (ps.drop i).take sub.length = sub

instance (ps sub : List Nat) (i : Nat) : Decidable (At ps sub i) := by unfold At; infer_instance

theorem at_nil (ps : List Nat) (i : Nat) : At ps [] i := rfl

theorem at_cons (ps sub : List Nat) (c i : Nat) (h : i < ps.length) :
    At ps (c :: sub) i ↔ ps[i] = c ∧ At ps sub (i + 1) := by
  unfold At
  rw [List.drop_eq_getElem_cons h, List.length_cons, List.take_succ_cons, List.cons.injEq]

theorem matchAt_spec (ps : List Nat) : ∀ (sub : List Nat) (i : Nat), i + sub.length ≤ ps.length →
    matchAt ps sub i = .ok (decide (At ps sub i))
  | [], i, _ => by simp [matchAt, at_nil]
  | c :: sub, i, h => by
    have hi : i < ps.length := by simp at h; omega
    rw [matchAt, List.getElem?_eq_getElem hi]
    simp only
    by_cases hc : ps[i] = c
    · rw [if_neg (by simpa using hc), matchAt_spec ps sub (i + 1) (by simp at h; omega)]
      congr 1
      rw [decide_eq_decide, at_cons ps sub c i hi]
      simp [hc]
    · rw [if_pos hc]
      congr 1
      symm
      rw [decide_eq_false_iff_not, at_cons ps sub c i hi]
      simp [hc]

theorem findByte_eq (ps : List Nat) (c : Nat) : ∀ (n i : Nat), findByte ps c n i = findLoop ps [c] n i
  | 0, _ => rfl
  | n + 1, i => by
    rw [findByte, findLoop, matchAt]
    cases h : ps[i]? with
    | none => rfl
    | some p =>
      simp only [matchAt]
      by_cases hp : p = c
      · rw [if_pos hp, if_neg (by simpa using hp)]
      · rw [if_neg hp, if_pos hp]
        exact findByte_eq ps c n (i + 1)

theorem rfindByte_eq (ps : List Nat) (c start : Nat) : ∀ (n : Nat), rfindByte ps c start n = rfindLoop ps [c] start n
  | 0 => rfl
  | n + 1 => by
    rw [rfindByte, rfindLoop, matchAt]
    cases h : ps[start + n]? with
    | none => rfl
    | some p =>
      simp only [matchAt]
      by_cases hp : p = c
      · rw [if_pos hp, if_neg (by simpa using hp)]
      · rw [if_neg hp, if_pos hp]
        exact rfindByte_eq ps c start n

theorem countByte_eq (ps : List Nat) (c : Nat) : ∀ (n i acc : Nat), countByte ps c n i acc = countLoop ps [c] n i 0 acc
  | 0, _, _ => rfl
  | n + 1, i, acc => by
    rw [countByte, countLoop, matchAt]
    cases h : ps[i]? with
    | none => rfl
    | some p =>
      simp only [matchAt]
      by_cases hp : p = c
      · rw [if_pos hp, if_neg (by simpa using hp)]
        exact countByte_eq ps c n (i + 1) (acc + 1)
      · rw [if_neg hp, if_pos hp]
        exact countByte_eq ps c n (i + 1) acc

theorem findLoop_spec (ps sub : List Nat) : ∀ (n i : Nat), i + n + sub.length ≤ ps.length + 1 →
    ∃ r, findLoop ps sub n i = .ok r ∧
      ((∃ k : Nat, r = k ∧ i ≤ k ∧ k < i + n ∧ At ps sub k ∧ ∀ j, i ≤ j → j < k → ¬ At ps sub j) ∨
       (r = -1 ∧ ∀ j, i ≤ j → j < i + n → ¬ At ps sub j))
  | 0, i, _ => ⟨-1, rfl, Or.inr ⟨rfl, fun j h1 h2 => by omega⟩⟩
  | n + 1, i, h => by
    rw [findLoop, matchAt_spec ps sub i (by omega)]
    by_cases ha : At ps sub i
    · exact ⟨i, by simp [ha], Or.inl ⟨i, rfl, by omega, by omega, ha, fun j h1 h2 => by omega⟩⟩
    · obtain ⟨r, e, hr⟩ := findLoop_spec ps sub n (i + 1) (by omega)
      refine ⟨r, by simp [ha, e], ?_⟩
      rcases hr with ⟨k, h1, h2, h3, h4, h5⟩ | ⟨h1, h2⟩
      · refine Or.inl ⟨k, h1, by omega, by omega, h4, fun j a b => ?_⟩
        by_cases hj : j = i
        · rw [hj]; exact ha
        · exact h5 j (by omega) b
      · refine Or.inr ⟨h1, fun j a b => ?_⟩
        by_cases hj : j = i
        · rw [hj]; exact ha
        · exact h2 j (by omega) (by omega)

theorem rfindLoop_spec (ps sub : List Nat) (start : Nat) : ∀ (n : Nat), start + n + sub.length ≤ ps.length + 1 →
    ∃ r, rfindLoop ps sub start n = .ok r ∧
      ((∃ k : Nat, r = k ∧ start ≤ k ∧ k < start + n ∧ At ps sub k ∧ ∀ j, k < j → j < start + n → ¬ At ps sub j) ∨
       (r = -1 ∧ ∀ j, start ≤ j → j < start + n → ¬ At ps sub j))
  | 0, _ => ⟨-1, rfl, Or.inr ⟨rfl, fun j h1 h2 => by omega⟩⟩
  | n + 1, h => by
    rw [rfindLoop, matchAt_spec ps sub (start + n) (by omega)]
    by_cases ha : At ps sub (start + n)
    · exact ⟨((start + n : Nat) : Int), by simp [ha], Or.inl ⟨start + n, rfl, by omega, by omega, ha, fun j h1 h2 => by omega⟩⟩
    · obtain ⟨r, e, hr⟩ := rfindLoop_spec ps sub start n (by omega)
      refine ⟨r, by simp [ha, e], ?_⟩
      rcases hr with ⟨k, h1, h2, h3, h4, h5⟩ | ⟨h1, h2⟩
      · refine Or.inl ⟨k, h1, by omega, by omega, h4, fun j a b => ?_⟩
        by_cases hj : j = start + n
        · rw [hj]; exact ha
        · exact h5 j a (by omega)
      · refine Or.inr ⟨h1, fun j a b => ?_⟩
        by_cases hj : j = start + n
        · rw [hj]; exact ha
        · exact h2 j a (by omega)

theorem adjust_start (n : Nat) (i : Int) : adjust n i = (Spec.searchStart n i : Int) := by
  unfold adjust Spec.searchStart
  split
  · split <;> omega
  · omega

theorem adjust_stop (n : Nat) (j : Int) :
    (if adjust n j > n then (n : Int) else adjust n j) = (Spec.searchStop n j : Int) := by
  rw [adjust_start]
  unfold Spec.searchStop Spec.searchStart
  split <;> omega

theorem headD_single (sub : List Nat) (h : sub.length = 1) : [sub.headD 0] = sub := by
  match sub, h with
  | [c], _ => rfl

theorem oneByte_length {l sub : Str} (h : oneByte l sub = true) : (text sub).length = 1 := by
  unfold oneByte at h
  simp only [decide_eq_true_eq] at h
  exact h.2.2

theorem find_spec (l sub : Str) (start stop : Int) :
    ∃ r, find l sub start stop = .ok r ∧ Spec.IsFirst (Spec.OccursAt (text l) (text sub) start stop) r := by
  unfold find
  simp only
  by_cases hn : (text l).length = 0
  · rw [if_pos hn]
    have hl : text l = [] := List.length_eq_zero_iff.1 hn
    by_cases hm : (text sub).length = 0
    · rw [if_pos hm]
      have hs : text sub = [] := List.length_eq_zero_iff.1 hm
      refine ⟨_, rfl, ?_⟩
      rw [hl, hs]
      by_cases h0 : start > 0
      · rw [if_pos h0]
        refine Or.inr ⟨rfl, fun i hi => ?_⟩
        unfold Spec.OccursAt Spec.searchStart Spec.searchStop at hi
        rw [if_neg (by omega)] at hi
        simp at hi
        omega
      · rw [if_neg h0]
        refine Or.inl ⟨0, rfl, ⟨?_, by simp, rfl⟩, by omega⟩
        unfold Spec.searchStart
        split <;> simp <;> omega
    · rw [if_neg hm]
      refine ⟨_, rfl, Or.inr ⟨rfl, fun i hi => ?_⟩⟩
      have := hi.2.1
      unfold Spec.searchStop at this
      rw [hn] at this
      omega
  · rw [if_neg hn]
    have e1 := adjust_start (text l).length start
    have e2 := adjust_stop (text l).length stop
    have e3 := adjust_start (text l).length stop
    generalize hN : (text l).length = N at *
    generalize hM : (text sub).length = M at *
    rw [e1]
    have hhi : Spec.searchStop N stop ≤ N := by unfold Spec.searchStop; omega
    have hocc : ∀ i, Spec.OccursAt (text l) (text sub) start stop i ↔
        Spec.searchStart N start ≤ i ∧ i + M ≤ Spec.searchStop N stop ∧ At (text l) (text sub) i := by
      intro i
      unfold Spec.OccursAt At
      rw [hN, hM]
    by_cases h1 : adjust N stop < (Spec.searchStart N start : Int) ∨ (Spec.searchStart N start : Int) > N
    · rw [if_pos h1]
      refine ⟨_, rfl, Or.inr ⟨rfl, fun i hi => ?_⟩⟩
      rw [hocc] at hi
      split at e2 <;> omega
    · rw [if_neg h1]
      by_cases hm : M = 0
      · rw [if_pos hm, if_pos (by omega)]
        refine ⟨_, rfl, Or.inl ⟨_, rfl, ?_, ?_⟩⟩
        · rw [hocc]
          refine ⟨Nat.le_refl _, ?_, ?_⟩
          · rw [← Int.ofNat_le, ← e2]
            split <;> omega
          · rw [List.length_eq_zero_iff.1 (hM.trans hm)]
            exact at_nil _ _
        · intro j hj hi
          rw [hocc] at hi
          omega
      · rw [if_neg hm, e2]
        by_cases h2 : (Spec.searchStart N start : Int) < 0 ∨ (Spec.searchStop N stop : Int) - ((M : Int) - 1) < 0 ∨
            (Spec.searchStart N start : Int) ≥ (Spec.searchStop N stop : Int) - ((M : Int) - 1) ∨ M > N ∨
            (Spec.searchStart N start : Int) > (N : Int) - M
        · rw [if_pos h2]
          refine ⟨_, rfl, Or.inr ⟨rfl, fun i hi => ?_⟩⟩
          rw [hocc] at hi
          omega
        · rw [if_neg h2]
          have hb : (if oneByte l sub = true then findByte (text l) ((text sub).headD 0)
              ((Spec.searchStop N stop : Int) - ((M : Int) - 1) - (Spec.searchStart N start : Int)).toNat (Spec.searchStart N start : Int).toNat
              else findLoop (text l) (text sub) ((Spec.searchStop N stop : Int) - ((M : Int) - 1) - (Spec.searchStart N start : Int)).toNat
                (Spec.searchStart N start : Int).toNat) =
              findLoop (text l) (text sub) (Spec.searchStop N stop + 1 - M - Spec.searchStart N start) (Spec.searchStart N start) := by
            have : ((Spec.searchStop N stop : Int) - ((M : Int) - 1) - (Spec.searchStart N start : Int)).toNat =
              Spec.searchStop N stop + 1 - M - Spec.searchStart N start := by omega
            rw [this, Int.toNat_natCast]
            split
            · rename_i ho
              rw [findByte_eq, headD_single _ (oneByte_length ho)]
            · rfl
          rw [hb]
          obtain ⟨r, e, hr⟩ := findLoop_spec (text l) (text sub) (Spec.searchStop N stop + 1 - M - Spec.searchStart N start)
            (Spec.searchStart N start) (by omega)
          refine ⟨r, e, ?_⟩
          rcases hr with ⟨k, a, b, c, d, f⟩ | ⟨a, b⟩
          · refine Or.inl ⟨k, a, ?_, fun j hj hi => ?_⟩
            · rw [hocc]; exact ⟨b, by omega, d⟩
            · rw [hocc] at hi
              exact f j hi.1 hj hi.2.2
          · refine Or.inr ⟨a, fun i hi => ?_⟩
            rw [hocc] at hi
            exact b i hi.1 (by omega) hi.2.2

theorem rfind_spec (l sub : Str) (start stop : Int) :
    ∃ r, rfind l sub start stop = .ok r ∧ Spec.IsLast (Spec.OccursAt (text l) (text sub) start stop) r := by
  unfold rfind
  simp only
  by_cases hn : (text l).length = 0
  · rw [if_pos hn]
    have hl : text l = [] := List.length_eq_zero_iff.1 hn
    by_cases hm : (text sub).length = 0
    · rw [if_pos hm]
      have hs : text sub = [] := List.length_eq_zero_iff.1 hm
      refine ⟨_, rfl, ?_⟩
      rw [hl, hs]
      by_cases h0 : start > 0
      · rw [if_pos h0]
        refine Or.inr ⟨rfl, fun i hi => ?_⟩
        unfold Spec.OccursAt Spec.searchStart Spec.searchStop at hi
        rw [if_neg (by omega)] at hi
        simp at hi
        omega
      · rw [if_neg h0]
        refine Or.inl ⟨0, rfl, ⟨?_, by simp, rfl⟩, ?_⟩
        · unfold Spec.searchStart
          split <;> simp <;> omega
        · intro j hj hi
          have := hi.2.1
          unfold Spec.searchStop at this
          simp at this
          omega
    · rw [if_neg hm]
      refine ⟨_, rfl, Or.inr ⟨rfl, fun i hi => ?_⟩⟩
      have := hi.2.1
      unfold Spec.searchStop at this
      rw [hn] at this
      omega
  · rw [if_neg hn]
    have e1 := adjust_start (text l).length start
    have e2 := adjust_stop (text l).length stop
    have e3 := adjust_start (text l).length stop
    generalize hN : (text l).length = N at *
    generalize hM : (text sub).length = M at *
    rw [e1]
    have hhi : Spec.searchStop N stop ≤ N := by unfold Spec.searchStop; omega
    have hocc : ∀ i, Spec.OccursAt (text l) (text sub) start stop i ↔
        Spec.searchStart N start ≤ i ∧ i + M ≤ Spec.searchStop N stop ∧ At (text l) (text sub) i := by
      intro i
      unfold Spec.OccursAt At
      rw [hN, hM]
    by_cases h1 : adjust N stop < (Spec.searchStart N start : Int) ∨ (Spec.searchStart N start : Int) > N
    · rw [if_pos h1]
      refine ⟨_, rfl, Or.inr ⟨rfl, fun i hi => ?_⟩⟩
      rw [hocc] at hi
      split at e2 <;> omega
    · rw [if_neg h1, e2]
      by_cases hm : M = 0
      · rw [if_pos hm]
        refine ⟨_, rfl, Or.inl ⟨_, rfl, ?_, ?_⟩⟩
        · rw [hocc]
          refine ⟨?_, by omega, ?_⟩
          · rw [← Int.ofNat_le, ← e2]
            split <;> omega
          · rw [List.length_eq_zero_iff.1 (hM.trans hm)]
            exact at_nil _ _
        · intro j hj hi
          rw [hocc] at hi
          omega
      · rw [if_neg hm]
        by_cases h2 : (Spec.searchStart N start : Int) < 0 ∨ (Spec.searchStop N stop : Int) - ((M : Int) - 1) < 0 ∨
            (Spec.searchStart N start : Int) ≥ (Spec.searchStop N stop : Int) - ((M : Int) - 1) ∨ M > N ∨
            (Spec.searchStart N start : Int) > (N : Int) - M
        · rw [if_pos h2]
          refine ⟨_, rfl, Or.inr ⟨rfl, fun i hi => ?_⟩⟩
          rw [hocc] at hi
          omega
        · rw [if_neg h2]
          have hb : (if oneByte l sub = true then rfindByte (text l) ((text sub).headD 0) (Spec.searchStart N start : Int).toNat
              ((Spec.searchStop N stop : Int) - ((M : Int) - 1) - (Spec.searchStart N start : Int)).toNat
              else rfindLoop (text l) (text sub) (Spec.searchStart N start : Int).toNat
                ((Spec.searchStop N stop : Int) - ((M : Int) - 1) - (Spec.searchStart N start : Int)).toNat) =
              rfindLoop (text l) (text sub) (Spec.searchStart N start) (Spec.searchStop N stop + 1 - M - Spec.searchStart N start) := by
            have : ((Spec.searchStop N stop : Int) - ((M : Int) - 1) - (Spec.searchStart N start : Int)).toNat =
              Spec.searchStop N stop + 1 - M - Spec.searchStart N start := by omega
            rw [this, Int.toNat_natCast]
            split
            · rename_i ho
              rw [rfindByte_eq, headD_single _ (oneByte_length ho)]
            · rfl
          rw [hb]
          obtain ⟨r, e, hr⟩ := rfindLoop_spec (text l) (text sub) (Spec.searchStart N start)
            (Spec.searchStop N stop + 1 - M - Spec.searchStart N start) (by omega)
          refine ⟨r, e, ?_⟩
          rcases hr with ⟨k, a, b, c, d, f⟩ | ⟨a, b⟩
          · refine Or.inl ⟨k, a, ?_, fun j hj hi => ?_⟩
            · rw [hocc]; exact ⟨b, by omega, d⟩
            · rw [hocc] at hi
              exact f j hj (by omega) hi.2.2
          · refine Or.inr ⟨a, fun i hi => ?_⟩
            rw [hocc] at hi
            exact b i hi.1 (by omega) hi.2.2

theorem occurrences_short (sub : List Nat) (hs : sub ≠ []) : ∀ (w : List Nat) (skip : Nat), w.length < sub.length →
    Spec.occurrences sub w skip = 0
  | [], skip, _ => by simp [Spec.occurrences, hs]
  | c :: t, skip + 1, h => by
    rw [Spec.occurrences]
    exact occurrences_short sub hs t skip (by simp at h; omega)
  | c :: t, 0, h => by
    rw [Spec.occurrences, if_neg, occurrences_short sub hs t 0 (by simp at h; omega)]
    intro hp
    have := (List.isPrefixOf_iff_prefix.1 hp).length_le
    omega

theorem at_prefix (ps sub : List Nat) (hi i : Nat) (h : i + sub.length ≤ hi) :
    At ps sub i ↔ sub.isPrefixOf ((ps.take hi).drop i) = true := by
  rw [List.isPrefixOf_iff_prefix, List.prefix_iff_eq_take, List.drop_take, List.take_take, Nat.min_eq_left (by omega)]
  exact eq_comm

theorem countLoop_spec (ps sub : List Nat) (hs : sub ≠ []) (hi : Nat) (hhi : hi ≤ ps.length) :
    ∀ (n i skip acc : Nat), i + n + sub.length = hi + 1 →
      countLoop ps sub n i skip acc = .ok ((acc + Spec.occurrences sub ((ps.take hi).drop i) skip : Nat) : Int)
  | 0, i, skip, acc, h => by
    rw [countLoop, occurrences_short sub hs]
    · rfl
    · have := List.length_pos_iff.2 hs
      rw [List.length_drop, List.length_take]
      omega
  | n + 1, i, skip, acc, h => by
    have hm : 0 < sub.length := List.length_pos_iff.2 hs
    have hd : (ps.take hi).drop i = ps[i] :: (ps.take hi).drop (i + 1) := by
      rw [List.drop_eq_getElem_cons (by simp; omega)]
      simp
    cases skip with
    | succ skip =>
      rw [countLoop, countLoop_spec ps sub hs hi hhi n (i + 1) skip acc (by omega), hd, Spec.occurrences]
    | zero =>
      rw [countLoop, matchAt_spec ps sub i (by omega)]
      by_cases ha : At ps sub i
      · have hp := (at_prefix ps sub hi i (by omega)).1 ha
        simp only [ha, decide_true]
        rw [countLoop_spec ps sub hs hi hhi n (i + 1) _ (acc + 1) (by omega)]
        rw [hd] at hp
        rw [hd, Spec.occurrences, if_pos hp]
        congr 2
        omega
      · have hp : ¬ sub.isPrefixOf ((ps.take hi).drop i) = true := fun h' => ha ((at_prefix ps sub hi i (by omega)).2 h')
        simp only [ha, decide_false]
        rw [countLoop_spec ps sub hs hi hhi n (i + 1) 0 acc (by omega)]
        rw [hd] at hp
        rw [hd, Spec.occurrences, if_neg hp]

theorem occurrences_empty : ∀ (w : List Nat), Spec.occurrences [] w 0 = w.length + 1
  | [] => rfl
  | c :: t => by
    rw [Spec.occurrences, if_pos (by rfl)]
    exact congrArg (· + 1) (occurrences_empty t)

theorem count_spec (l sub : Str) (start stop : Int) (hne : text l ≠ [] ∨ text sub ≠ []) :
    count l sub start stop = .ok (Spec.count (text l) (text sub) start stop : Int) := by
  unfold count
  simp only
  by_cases hn : (text l).length = 0
  · rw [if_pos hn]
    have hl : text l = [] := List.length_eq_zero_iff.1 hn
    have hs : text sub ≠ [] := by
      rcases hne with h | h
      · exact absurd hl h
      · exact h
    rw [hl]
    unfold Spec.count
    split
    · simp [Spec.occurrences, hs]
    · rfl
  · rw [if_neg hn]
    have e1 := adjust_start (text l).length start
    have e2 := adjust_stop (text l).length stop
    have hhi : Spec.searchStop (text l).length stop ≤ (text l).length := by unfold Spec.searchStop; omega
    unfold Spec.count
    generalize hN : (text l).length = N at *
    generalize hM : (text sub).length = M at *
    rw [e1, e2]
    generalize Spec.searchStart N start = lo at *
    generalize Spec.searchStop N stop = hi at *
    by_cases h1 : adjust N stop < (lo : Int) ∨ (lo : Int) > N
    · rw [if_pos h1, if_neg]
      · rfl
      · split at e2 <;> omega
    · have hlo : lo ≤ hi := by split at e2 <;> omega
      rw [if_neg h1, if_pos hlo]
      by_cases hm : M = 0
      · rw [if_pos hm, if_neg (by omega), if_pos (by omega), List.length_eq_zero_iff.1 (hM.trans hm), occurrences_empty]
        congr 1
        rw [List.length_drop, List.length_take]
        omega
      · rw [if_neg hm]
        have hs : text sub ≠ [] := fun h => hm (by rw [← hM, h]; rfl)
        by_cases h2 : (lo : Int) < 0 ∨ (hi : Int) - ((M : Int) - 1) < 0 ∨ (lo : Int) ≥ (hi : Int) - ((M : Int) - 1) ∨ M > N ∨
            (lo : Int) > (N : Int) - M
        · rw [if_pos h2, occurrences_short _ hs]
          · rfl
          · rw [List.length_drop, List.length_take]
            omega
        · rw [if_neg h2]
          have : ((hi : Int) - ((M : Int) - 1) - (lo : Int)).toNat = hi + 1 - M - lo := by omega
          rw [this, Int.toNat_natCast]
          have hb : (if oneByte l sub = true then countByte (text l) ((text sub).headD 0) (hi + 1 - M - lo) lo 0
              else countLoop (text l) (text sub) (hi + 1 - M - lo) lo 0 0) =
              countLoop (text l) (text sub) (hi + 1 - M - lo) lo 0 0 := by
            split
            · rename_i ho
              rw [countByte_eq, headD_single _ (oneByte_length ho)]
            · rfl
          rw [hb, countLoop_spec (text l) (text sub) hs hi (by omega) _ _ _ _ (by omega), Nat.zero_add]

/-! ### C22 -/

theorem isFirst_unique {P : Nat → Prop} {r r' : Int} (h : Spec.IsFirst P r) (h' : Spec.IsFirst P r') : r = r' := by
  rcases h with ⟨i, a, b, c⟩ | ⟨a, b⟩ <;> rcases h' with ⟨j, a', b', c'⟩ | ⟨a', b'⟩
  · rcases Nat.lt_trichotomy i j with h | h | h
    · exact absurd b (c' i h)
    · rw [a, a', h]
    · exact absurd b' (c j h)
  · exact absurd b (b' i)
  · exact absurd b' (b j)
  · rw [a, a']

theorem isLast_unique {P : Nat → Prop} {r r' : Int} (h : Spec.IsLast P r) (h' : Spec.IsLast P r') : r = r' := by
  rcases h with ⟨i, a, b, c⟩ | ⟨a, b⟩ <;> rcases h' with ⟨j, a', b', c'⟩ | ⟨a', b'⟩
  · rcases Nat.lt_trichotomy i j with h | h | h
    · exact absurd b' (c j h)
    · rw [a, a', h]
    · exact absurd b (c' i h)
  · exact absurd b (b' i)
  · exact absurd b' (b j)
  · rw [a, a']

/-- C22: `l.find(sub, start, stop)` is the least position at which `sub` occurs inside `l[start:stop]`, or -1; no memory
outside the strings is read. For every pair of strings, whatever their widths, and all bounds. -/
theorem find_least (l sub : Str) (start stop r : Int) :
    find l sub start stop = .ok r ↔ Spec.IsFirst (Spec.OccursAt (text l) (text sub) start stop) r := by
  obtain ⟨r', e, h⟩ := find_spec l sub start stop
  rw [e, Except.ok.injEq]
  exact ⟨fun x => x ▸ h, fun x => isFirst_unique h x⟩

/-- C22: `l.rfind(sub, start, stop)` is the greatest such position, or -1. -/
theorem rfind_greatest (l sub : Str) (start stop r : Int) :
    rfind l sub start stop = .ok r ↔ Spec.IsLast (Spec.OccursAt (text l) (text sub) start stop) r := by
  obtain ⟨r', e, h⟩ := rfind_spec l sub start stop
  rw [e, Except.ok.injEq]
  exact ⟨fun x => x ▸ h, fun x => isLast_unique h x⟩

/-- "abcabc" with two bytes per code point, and "bc". -/
example : find (some ⟨2, [97, 98, 99, 97, 98, 99]⟩) (some ⟨1, [98, 99]⟩) 2 6 = .ok 4 ∧
    find (some ⟨2, [97, 98, 99, 97, 98, 99]⟩) (some ⟨1, [98, 99]⟩) (-5) (-3) = .ok 1 ∧
    find (some ⟨2, [97, 98, 99, 97, 98, 99]⟩) (some ⟨1, [98, 99]⟩) 2 5 = .ok (-1) ∧
    rfind (some ⟨2, [97, 98, 99, 97, 98, 99]⟩) (some ⟨1, [98, 99]⟩) 0 6 = .ok 4 := by decide

/-- C22: `index` and `rindex` raise ValueError if `sub` does not occur, and otherwise are `find` and `rfind`. -/
theorem index_raises_iff (l sub : Str) (start stop : Int) :
    (indexResult (find l sub start stop) = .ok none ↔ ∀ i, ¬ Spec.OccursAt (text l) (text sub) start stop i) ∧
    (indexResult (rfind l sub start stop) = .ok none ↔ ∀ i, ¬ Spec.OccursAt (text l) (text sub) start stop i) ∧
    (∀ r, indexResult (find l sub start stop) = .ok (some r) ↔ r ≠ -1 ∧ find l sub start stop = .ok r) ∧
    (∀ r, indexResult (rfind l sub start stop) = .ok (some r) ↔ r ≠ -1 ∧ rfind l sub start stop = .ok r) := by
  obtain ⟨r, e, h⟩ := find_spec l sub start stop
  obtain ⟨r', e', h'⟩ := rfind_spec l sub start stop
  have h1 : r = -1 ↔ ∀ i, ¬ Spec.OccursAt (text l) (text sub) start stop i := by
    rcases h with ⟨i, a, b, c⟩ | ⟨a, b⟩
    · exact ⟨fun x => by omega, fun x => absurd b (x i)⟩
    · exact ⟨fun _ => b, fun _ => a⟩
  have h2 : r' = -1 ↔ ∀ i, ¬ Spec.OccursAt (text l) (text sub) start stop i := by
    rcases h' with ⟨i, a, b, c⟩ | ⟨a, b⟩
    · exact ⟨fun x => by omega, fun x => absurd b (x i)⟩
    · exact ⟨fun _ => b, fun _ => a⟩
  rw [e, e', ← h1, indexResult, indexResult]
  refine ⟨?_, ?_, fun q => ?_, fun q => ?_⟩
  · by_cases hr : r = -1 <;> simp [hr]
  · rw [h1, ← h2]
    by_cases hr : r' = -1 <;> simp [hr]
  · by_cases hr : r = -1
    · simp [hr]; intro h3 h4; exact h3 h4.symm
    · simp [hr]; intro h4; exact h4 ▸ hr
  · by_cases hr : r' = -1
    · simp [hr]; intro h3 h4; exact h3 h4.symm
    · simp [hr]; intro h4; exact h4 ▸ hr

/-- C22: `sub in l` says whether `sub` occurs in `l`. -/
theorem contains_iff (l sub : Str) :
    contains l sub = .ok true ↔ ∃ a b, text l = a ++ text sub ++ b := by
  unfold contains
  obtain ⟨r, e, h⟩ := find_spec l sub 0 (text l).length
  rw [e]
  have hlo : Spec.searchStart (text l).length 0 = 0 := rfl
  have hhi : Spec.searchStop (text l).length ((text l).length : Int) = (text l).length := by
    unfold Spec.searchStop
    rw [if_neg (by omega)]
    simp
  have hex : (∃ i, Spec.OccursAt (text l) (text sub) 0 (text l).length i) ↔ ∃ a b, text l = a ++ text sub ++ b := by
    unfold Spec.OccursAt
    rw [hlo, hhi]
    constructor
    · rintro ⟨i, _, h2, h3⟩
      refine ⟨(text l).take i, (text l).drop (i + (text sub).length), ?_⟩
      conv_rhs => rw [← h3]
      rw [List.append_assoc, ← List.drop_drop, List.length_take, List.length_drop, Nat.min_eq_left (by omega),
        List.take_append_drop, List.take_append_drop]
    · rintro ⟨a, b, h⟩
      refine ⟨a.length, Nat.zero_le _, ?_, ?_⟩
      · rw [h]; simp
      · rw [h]; simp
  rw [← hex]
  simp only [Except.ok.injEq, decide_eq_true_eq]
  rcases h with ⟨i, a, b, c⟩ | ⟨a, b⟩
  · exact ⟨fun _ => ⟨i, b⟩, fun _ => by omega⟩
  · refine ⟨fun x => by omega, fun ⟨i, x⟩ => absurd x (b i)⟩

example : contains (some ⟨1, [97, 98, 99]⟩) (some ⟨1, [98, 99]⟩) = .ok true ∧
    contains (some ⟨1, [97, 98, 99]⟩) (some ⟨1, [99, 98]⟩) = .ok false ∧ contains none none = .ok true := by decide

/-- C22: `l.count(sub, start, stop)` is the number of occurrences without overlap, searching from the left. It is missing
that both strings may be empty: see `count_of_empty`. -/
theorem count_partial (l sub : Str) (start stop : Int) (hne : text l ≠ [] ∨ text sub ≠ []) :
    count l sub start stop = .ok (Spec.count (text l) (text sub) start stop : Int) :=
  count_spec l sub start stop hne

example : count (some ⟨1, [97, 97, 97, 97, 97]⟩) (some ⟨1, [97, 97]⟩) 0 5 = .ok 2 ∧
    Spec.count [97, 97, 97, 97, 97] [97, 97] 0 5 = 2 ∧ Spec.count [97, 97, 97] [] 1 3 = 3 := by decide

/-- The code violates C22: `"".count("")` is 0 where Python says 1. -/
theorem count_of_empty : count none none 0 0 = .ok 0 ∧ Spec.count [] [] 0 0 = 1 := by decide

end Verif.Str
