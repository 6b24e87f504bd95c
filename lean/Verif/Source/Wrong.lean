import Verif.Source.Cases
/-
C116, where it fails: programs for which another function's source is kept, or none.
-/
namespace Verif.Source.Wrong
open Verif.Ast (Alg)
open Verif.Source.Cases

variable {κ : Type} [DecidableEq κ] (py : Python κ)

theorem ne_inside {s t : Alg} (h : py.made t ∈ py.consts (py.made s)) : py.made t ≠ py.made s := by
  intro e
  have := py.deeper _ _ h
  rw [e] at this
  exact Nat.lt_irrefl _ this

/-! ### `d[(lambda: 1)()] = lambda: 2`

Python compiles the value first; the functions are found in the order they are written. -/

/-- The lambda in the target. -/
def inTarget : Alg := lam (num 1 2 15) 2 7
/-- The lambda that is the value. -/
def inValue : Alg := lam (num 2 2 33) 2 25
/-- `def f(): d[(lambda: 1)()] = lambda: 2`. -/
def assigns : Alg := fn [] [assign (sub (name "d" 2 4) (call inTarget [] 2 6) 2 4) inValue 2 4] 1 0

/-- Each of the two gets the source of the other, and nothing is reported. -/
theorem swapped (hr : py.regular assigns ∧ py.regular inTarget ∧ py.regular inValue) (hd : py.made inTarget ≠ py.made inValue) :
    ∃ m, cacheAst py.consts 4 (fun _ => .none) (py.made assigns) assigns = (m, true) ∧
      m (py.made inTarget) = some inValue ∧ m (py.made inValue) = some inTarget ∧ inTarget ≠ inValue := by
  have h0 : py.consts (py.made assigns) = [py.made inValue, py.made inTarget] := by
    rw [py.law assigns rfl hr.1]
    show firsts [] [py.made inValue, py.made inTarget] = _
    simp [firsts, hd]
  have h1 : py.consts (py.made inTarget) = [] := by rw [py.law inTarget rfl hr.2.1]; rfl
  have h2 : py.consts (py.made inValue) = [] := by rw [py.law inValue rfl hr.2.2]; rfl
  have n1 : py.made inTarget ≠ py.made assigns := ne_inside py (by simp [h0])
  have n2 : py.made inValue ≠ py.made assigns := ne_inside py (by simp [h0])
  have i0 : inside assigns = [inTarget, inValue] := rfl
  have i1 : inside inTarget = [] := rfl
  have i2 : inside inValue = [] := rfl
  refine ⟨((Memo.set (fun _ => .none) (py.made assigns) (presented assigns)).set (py.made inValue) (presented inTarget)).set (py.made inTarget) (presented inValue), ?_, ?_, ?_, ?_⟩
  · simp [cacheAst, cacheAll, h0, h1, h2, i0, i1, i2, Memo.set, n1, n2, hd]
  · simp only [Memo.set, if_true]; rfl
  · simp only [Memo.set, if_neg (Ne.symm hd), if_true]; rfl
  · simp [inTarget, inValue, lam, num, at']

/-- A compiler that knows this program. -/
def pyAssigns : Python (Int × Int) where
  made := pos
  consts c := if c = (1, 0) then [(2, 25), (2, 7)] else []
  regular a := a = assigns ∨ a = inTarget ∨ a = inValue
  law := by rintro a _ (rfl | rfl | rfl) <;> decide +kernel
  deep c := if c = (1, 0) then 1 else 0
  deeper := by
    intro c d h
    by_cases h1 : c = (1, 0)
    · subst h1; simp at h; rcases h with rfl | rfl <;> decide
    · simp [h1] at h

example : ∃ m, cacheAst pyAssigns.consts 4 (fun _ => .none) (1, 0) assigns = (m, true) ∧ m (2, 7) = some inValue ∧ m (2, 25) = some inTarget := by
  obtain ⟨m, h1, h2, h3, _⟩ := swapped pyAssigns ⟨.inl rfl, .inr (.inl rfl), .inr (.inr rfl)⟩ (by decide +kernel)
  exact ⟨m, h1, h2, h3⟩

/-! ### `[lambda: x for x in y if any(z for z in x)]`

Python compiles the conditions of a comprehension before its element. -/

/-- The element. -/
def element : Alg := lam (name "x" 1 9) 1 1
/-- What is asked of it. -/
def condition : Alg := genExp (name "z" 1 36) [loop (name "z" 1 42) (name "x" 1 47) []] 1 36
/-- The comprehension. -/
def filtered : Alg := listComp element [loop (name "x" 1 15) (name "y" 1 20) [call (name "any" 1 31) [condition] 1 31]] 1 0

theorem swapped_comprehension (hr : py.regular filtered ∧ py.regular element ∧ py.regular condition) (hd : py.made element ≠ py.made condition) :
    ∃ m, cacheAst py.consts 4 (fun _ => .none) (py.made filtered) filtered = (m, true) ∧
      m (py.made element) = some (presented condition) ∧ m (py.made condition) = some element ∧ presented condition ≠ element := by
  have h0 : py.consts (py.made filtered) = [py.made condition, py.made element] := by
    rw [py.law filtered rfl hr.1]
    show firsts [] [py.made condition, py.made element] = _
    simp [firsts, hd]
  have h1 : py.consts (py.made element) = [] := by rw [py.law element rfl hr.2.1]; rfl
  have h2 : py.consts (py.made condition) = [] := by rw [py.law condition rfl hr.2.2]; rfl
  have n1 : py.made element ≠ py.made filtered := ne_inside py (by simp [h0])
  have n2 : py.made condition ≠ py.made filtered := ne_inside py (by simp [h0])
  have i0 : inside filtered = [element, condition] := rfl
  have i1 : inside element = [] := rfl
  have i2 : inside condition = [] := rfl
  refine ⟨((Memo.set (fun _ => .none) (py.made filtered) (presented filtered)).set (py.made condition) (presented element)).set (py.made element) (presented condition), ?_, ?_, ?_, ?_⟩
  · simp [cacheAst, cacheAll, h0, h1, h2, i0, i1, i2, Memo.set, n1, n2, hd]
  · simp only [Memo.set, if_true]
  · simp only [Memo.set, if_neg (Ne.symm hd), if_true]; rfl
  · simp [presented, stripDecorators, replaceFirst, condition, element, genExp, lam]
    split <;> simp

/-! ### Equal code objects -/

/-- Where two functions directly inside a plain function give equal code objects, such as the two of
`sum(x for x in a) + sum(x for x in b)` on one line before Python 3.11, an assertion fails; but the function has been kept already, so that
the next time nothing fails, and nothing is kept for the functions inside it that was not kept before. -/
theorem repeated {s : Alg} {m : Memo κ} (hs : Fine py s) (hm : m (py.made s) = .none) (hd : ¬ ((inner s).map py.made).Nodup) (fuel : Nat) :
    ∃ m', cacheAst py.consts (fuel + 1) m (py.made s) s = (m', false) ∧ cacheAst py.consts (fuel + 1) m' (py.made s) s = (m', true) ∧
      m' (py.made s) = some (presented s) ∧ ∀ d ∈ py.consts (py.made s), m' d = m d := by
  have hl : (inside s).length ≠ (py.consts (py.made s)).length := by
    intro e
    rw [← inner_plain hs.scope hs.plain, hs.consts] at e
    have h := firsts_all ((inner s).map py.made) [] (by simpa using e.symm)
    apply hd
    rw [← h]
    have : ∀ (xs seen : List κ), (firsts seen xs).Nodup ∧ ∀ x ∈ firsts seen xs, x ∉ seen := by
      intro xs
      induction xs with
      | nil => intro seen; simp [firsts]
      | cons x xs ih =>
        intro seen
        simp only [firsts]
        split
        · exact ih seen
        · next hx =>
          have := ih (seen ++ [x])
          simp only [List.nodup_cons, List.mem_cons]
          refine ⟨⟨fun hc => ?_, this.1⟩, ?_⟩
          · exact this.2 x hc (by simp)
          · rintro y (rfl | hy)
            · exact hx
            · exact fun hc => this.2 y hy (by simp [hc])
    exact (this _ []).1
  refine ⟨m.set (py.made s) (presented s), ?_, ?_, ?_, ?_⟩
  · simp [cacheAst, hm, hl]
  · simp [cacheAst, Memo.set]
  · simp [Memo.set]
  · intro d h
    have hne : d ≠ py.made s := by
      intro e
      have := py.deeper _ _ h
      rw [e] at this
      exact Nat.lt_irrefl _ this
    simp [Memo.set, hne]

/-- `sum(x for x in a)`, at a column. -/
def sumOf (v : String) (c : Int) : Alg := genExp (name "x" 2 c) [loop (name "x" 2 (c + 6)) (name v 2 (c + 11)) []] 2 c
/-- `def f(): return sum(x for x in a) + sum(x for x in b)`. -/
def sums : Alg := fn [] [ret (add (call (name "sum" 2 11) [sumOf "a" 15] 2 11) (call (name "sum" 2 32) [sumOf "b" 36] 2 32) 2 11) 2 4] 1 0

/-- A compiler that knows this program, and whose code objects know only their lines. -/
def pySums : Python Int where
  made a := (pos a).1
  consts c := if c = 1 then [2] else []
  regular a := a = sums ∨ a = sumOf "a" 15 ∨ a = sumOf "b" 36
  law := by rintro a _ (rfl | rfl | rfl) <;> decide +kernel
  deep c := if c = 1 then 1 else 0
  deeper := by
    intro c d h
    by_cases h1 : c = 1
    · subst h1; simp at h; subst h; decide
    · simp [h1] at h

/-- The first time the source is refused, the second time it is given; that of the two generators is missing. -/
example : ∃ m, cacheAst pySums.consts 5 (fun _ => .none) 1 sums = (m, false) ∧ cacheAst pySums.consts 5 m 1 sums = (m, true) ∧
    m 1 = some sums ∧ m 2 = .none := by
  have hi : inner sums = [sumOf "a" 15, sumOf "b" 36] := rfl
  have leaf : ∀ {s t}, inner s = [] → Nested s t → t = s := by
    intro s t h hn; cases hn with
    | self => rfl
    | step hb _ => simp [h] at hb
  have hf : Fine pySums sums := by
    refine ⟨by decide +kernel, by decide +kernel, ?_⟩
    intro t h
    cases h with
    | self => exact .inl rfl
    | step hb hn =>
      simp only [hi, List.mem_cons, List.not_mem_nil, or_false] at hb
      rcases hb with rfl | rfl
      · exact .inr (.inl (leaf rfl hn))
      · exact .inr (.inr (leaf rfl hn))
  obtain ⟨m, h1, h2, h3, h4⟩ := repeated pySums (m := fun _ => .none) hf rfl (by rw [hi]; decide +kernel) 4
  exact ⟨m, h1, h2, h3, h4 2 (by decide +kernel)⟩

/-! ### Functions where none are looked for -/

/-- `[y for y in z]`. -/
def innerComp : Alg := listComp (name "y" 2 22) [loop (name "y" 2 28) (name "z" 2 33) []] 2 21
/-- `[x for x in [y for y in z]]`. -/
def outerComp : Alg := listComp (name "x" 2 10) [loop (name "x" 2 16) innerComp []] 2 9
/-- `def f(): return [x for x in [y for y in z]]`. -/
def twoComps : Alg := fn [] [ret outerComp 2 4] 1 0

/-- A comprehension over a comprehension: the source is refused. -/
theorem iterable_refused (hr : py.regular twoComps) (hd : py.made outerComp ≠ py.made innerComp) (fuel : Nat) :
    (cacheAst py.consts (fuel + 1) (fun _ => .none) (py.made twoComps) twoComps).2 = false := by
  have h0 : py.consts (py.made twoComps) = [py.made outerComp, py.made innerComp] := by
    rw [py.law twoComps rfl hr]
    show firsts [] [py.made outerComp, py.made innerComp] = _
    simp [firsts, Ne.symm hd]
  have i0 : inside twoComps = [outerComp] := rfl
  simp [cacheAst, h0, i0]

/-- `lambda: 1`. -/
def asDefault : Alg := lam (num 1 2 18) 2 10
/-- `def f(x=lambda: 1): return x`. -/
def withDefault : Alg := fn [asDefault] [ret (name "x" 3 15) 3 8] 2 4
/-- `def f(): def f(x=lambda: 1): return x`. -/
def hasDefault : Alg := fn [] [withDefault] 1 0

/-- A function whose default value is a function, inside a function: the source is refused. -/
theorem default_refused (hr : py.regular hasDefault) (hd : py.made asDefault ≠ py.made withDefault) (fuel : Nat) :
    (cacheAst py.consts (fuel + 1) (fun _ => .none) (py.made hasDefault) hasDefault).2 = false := by
  have h0 : py.consts (py.made hasDefault) = [py.made asDefault, py.made withDefault] := by
    rw [py.law hasDefault rfl hr]
    show firsts [] [py.made asDefault, py.made withDefault] = _
    simp [firsts, Ne.symm hd]
  have i0 : inside hasDefault = [withDefault] := rfl
  simp [cacheAst, h0, i0]

/-! ### Lambdas on a line -/

/-- `lambda x: (x + 1) * 2, lambda x: (x + 2) * 1`: the instructions refer to the constants by their places, and the places are not compared.
The second lambda gets the source of the first, without an error.  (The same with `lambda x: x.a.b, lambda x: x.b.a`.) -/
theorem picked_other : ∃ a b : Code Nat, a.consts = [1, 2] ∧ b.consts = [2, 1] ∧ a ≠ b ∧
    astFor ltNat true b [⟨true, 10, some a⟩, ⟨true, 20, some b⟩] = some 10 :=
  ⟨⟨[151, 0, 124, 0, 100, 1, 122, 0, 100, 2, 122, 5, 83, 0], [], ["x"], [], [], [1, 2]⟩, ⟨[151, 0, 124, 0, 100, 1, 122, 0, 100, 2, 122, 5, 83, 0], [], ["x"], [], [], [2, 1]⟩, by decide +kernel⟩

/-- In general: if an earlier lambda differs only in the order of its constants and names, it is never the function's own source that is
found. -/
theorem never_own {β γ : Type} [DecidableEq γ] {le : γ → γ → Bool} {c x : Code γ} {d : Def β γ} {b : β} {ds : List (Def β γ)}
    (hx : d.first = some x) (hk : codeKey le x = codeKey le c) (hne : d.node ≠ b) :
    pick le c (d :: ds) ≠ some b := by
  intro h
  unfold pick at h
  split at h
  · split at h
    · next cs hcs =>
      simp only [allCodes, hx] at hcs
      split at hcs
      · next c' cs' e1 h2 =>
        cases hcs; cases e1
        have hp : isPossible x c = true := key_possible hk
        have : possible le c [] ((d.node, x) :: cs') = d.node :: possible le c [codeKey le x] cs' := by
          simp [possible, hp]
        rw [this] at h
        split at h
        · next d' hd' =>
          cases h
          have := List.cons.inj hd'
          exact hne this.1
        · cases h
      · cases hcs
    · cases h
  · cases h

/-- A lambda with a default value on the line: the first constant is then not a code object, and neither is found. -/
theorem default_on_line {β γ : Type} [DecidableEq γ] {le : γ → γ → Bool} {c : Code γ} {ds : List (Def β γ)} (h : ∃ d ∈ ds, d.first = .none) :
    pick le c ds = .none := by
  have : allCodes ds = .none := by
    induction ds with
    | nil => obtain ⟨d, h, _⟩ := h; cases h
    | cons e ds ih =>
      obtain ⟨d, hm, hf⟩ := h
      simp only [allCodes]
      rcases List.mem_cons.mp hm with rfl | hm
      · rw [hf]
      · rw [ih ⟨d, hm, hf⟩]
        split
        · next h1 => cases h1
        · rfl
  simp [pick, this]

/-- `lambda x=1: x, lambda: 2`. -/
example : pick ltNat ⟨[1], [], [], [], [], [2]⟩ [⟨true, 10, .none⟩, ⟨true, 20, some ⟨[1], [], [], [], [], [2]⟩⟩] = Option.none (α := Nat) :=
  default_on_line ⟨_, .head _, rfl⟩

end Verif.Source.Wrong
