import Verif.Bytes.Methods
import Verif.Bytes.SplitJoin
import Verif.Bytes.Find
import Verif.Str.Affix
/-
C103: stripping, adding, repeating and padding bytes.
-/
namespace Verif.Bytes
open Verif.Str (times_single pad_none zfill_sign zfill_plain join_nil)
open Verif.Str.Spec (pad times)

theorem scanByte_dropWhile (p : Nat → Bool) : ∀ s : List Nat,
    s.drop (scanByte (fun c => !p c) s) = s.dropWhile p ∧ scanByte (fun c => !p c) s ≤ s.length
  | [] => ⟨rfl, Nat.le_refl _⟩
  | c :: t => by
    rw [scanByte]
    cases h : p c with
    | true =>
      have := scanByte_dropWhile p t
      simp only [Bool.not_true, Bool.false_eq_true, if_false]
      rw [List.drop_succ_cons, List.dropWhile_cons_of_pos h]
      exact ⟨this.1, by simp; exact this.2⟩
    | false =>
      simp only [Bool.not_false, if_true]
      rw [List.dropWhile_cons_of_neg (by simp [h])]
      exact ⟨rfl, Nat.zero_le _⟩

/-- Which bytes are dropped. -/
theorem matchchar_spec (values : Option B) (v : Nat) : matchchar values v = match values with
    | none => decide (Spec.White v)
    | some vs => decide (v ∈ text vs) := by
  cases values with
  | none =>
    rw [matchchar]
    have := isspace_white v
    by_cases h : Spec.White v
    · rw [this.2 h]; simp [h]
    · cases hb : isspace v with
      | true => exact absurd (this.1 hb) h
      | false => simp [h]
  | some vs =>
    cases vs with
    | none => simp [matchchar, text]
    | some vs =>
      change vs.any (v == ·) = @decide (v ∈ vs) _
      by_cases h : v ∈ vs
      · rw [decide_eq_true h, List.any_eq_true]
        exact ⟨v, h, by simp⟩
      · rw [decide_eq_false h, List.any_eq_false]
        intro y hy
        simp only [beq_iff_eq]
        rintro rfl
        exact h hy

/-- C103: `strip`, `lstrip` and `rstrip`: the bytes to be dropped are white space, or those of the argument. -/
theorem strip_spec (x : B) (values : Option B) (fromLeft fromRight : Bool) :
    let drop : Nat → Bool := fun v => match values with
      | none => decide (Spec.White v)
      | some vs => decide (v ∈ text vs)
    text (strip x values fromLeft fromRight) =
      (if fromRight then Str.Spec.rstrip drop else id) ((if fromLeft then Str.Spec.lstrip drop else id) (text x)) := by
  intro drop
  have hd : (fun c => !matchchar values c) = fun c => !drop c := by
    funext c
    rw [matchchar_spec]
  cases x with
  | none => cases fromLeft <;> cases fromRight <;> simp [strip, text, Str.Spec.lstrip, Str.Spec.rstrip]
  | some ps =>
    unfold strip
    simp only [hd]
    generalize hL : (if fromLeft = true then scanByte (fun c => !drop c) ps else 0) = L
    have hLl : L ≤ ps.length := by
      rw [← hL]
      split
      · exact (scanByte_dropWhile drop ps).2
      · omega
    have hLd : (if fromLeft = true then Str.Spec.lstrip drop else id) ps = ps.drop L := by
      rw [← hL]
      split
      · exact (scanByte_dropWhile drop ps).1.symm
      · rfl
    change _ = (if fromRight = true then Str.Spec.rstrip drop else id) ((if fromLeft = true then Str.Spec.lstrip drop else id) ps)
    rw [hLd]
    have key : ∀ R, L ≤ R → R ≤ ps.length →
        text (if L = R then none else if L = 0 ∧ R = ps.length then some ps else some ((ps.drop L).take (R - L))) =
          (ps.drop L).take (R - L) := by
      intro R h1 h2
      split
      · rename_i h; rw [h]; simp [text]
      · split
        · rename_i h; rw [h.1, h.2]; simp [text]
        · rfl
    cases fromRight with
    | false =>
      refine (key _ hLl (Nat.le_refl _)).trans ?_
      change _ = ps.drop L
      rw [List.take_of_length_le (by simp)]
    | true =>
      simp only [if_true]
      have h := scanByte_dropWhile drop (ps.drop L).reverse
      rw [List.length_reverse, List.length_drop] at h
      rw [key _ (by omega) (by omega)]
      unfold Str.Spec.rstrip
      rw [← h.1, List.drop_reverse, List.reverse_reverse, List.length_drop]
      congr 1
      omega

example : strip (some [32, 97, 9]) none true true = some [97] ∧ strip (some [97, 98, 97]) (some (some [97])) false true = some [97, 98] ∧
    strip (some [32]) none true true = none := by decide +kernel

/-- C103: `x + y` and `x * n`. -/
theorem concat_mult_spec (x y : B) (n : Int) : text (concat x y) = text x ++ text y ∧ text (mult x n) = times (text x) n := by
  constructor
  · cases x <;> cases y <;> simp [concat, text]
  · cases x with
    | none => simp [mult, text, times]
    | some ps =>
      unfold mult times
      simp only [text]
      split
      · rename_i h
        rw [show n.toNat = 0 by omega]
        rfl
      · rfl

example : concat (some [1]) (some [2]) = some [1, 2] ∧ mult (some [1, 2]) 2 = some [1, 2, 1, 2] ∧ mult (some [1]) (-1) = none := by
  decide +kernel

theorem mult_single (fill : B) (c : Nat) (hc : text fill = [c]) (n : Int) : text (mult fill n) = pad c n := by
  rw [(concat_mult_spec fill fill n).2, hc, times_single]

/-- C103: `ljust` and `rjust` with one byte to fill. -/
theorem just_spec (x : B) (width : Int) (fill : B) (c : Nat) (hc : text fill = [c]) :
    text (ljust x width fill) = Str.Spec.ljust (text x) width c ∧ text (rjust x width fill) = Str.Spec.rjust (text x) width c := by
  unfold ljust rjust Str.Spec.ljust Str.Spec.rjust
  by_cases h : width ≤ (text x).length
  · rw [if_pos h, if_pos h, pad_none _ _ (by omega)]
    simp
  · rw [if_neg h, if_neg h]
    rw [(concat_mult_spec _ _ 0).1, (concat_mult_spec _ _ 0).1, mult_single fill c hc]
    exact ⟨rfl, rfl⟩

example : ljust (some [97]) 3 (some [46]) = some [97, 46, 46] ∧ rjust (some [97]) 3 (some [46]) = some [46, 46, 97] := by
  decide +kernel

/-- C103: `center`. It is missing an odd number of bytes to fill with an odd width: see `center_differs`. -/
theorem center_partial (x : B) (width : Int) (fill : B) (c : Nat) (hc : text fill = [c])
    (h : width ≤ (text x).length ∨ width % 2 = 0 ∨ (width - (text x).length) % 2 = 0) :
    text (center x width fill) = Str.Spec.center (text x) width c := by
  unfold center Str.Spec.center
  by_cases hw : width ≤ (text x).length
  · rw [if_pos hw, if_pos hw]
  · rw [if_neg hw, if_neg hw]
    simp only
    rw [(concat_mult_spec _ _ 0).1, (concat_mult_spec _ _ 0).1, mult_single fill c hc, mult_single fill c hc,
      Int.fdiv_eq_ediv_of_nonneg _ (by omega), if_neg (by omega), Int.add_zero]

example : center (some [97]) 5 (some [46]) = some [46, 46, 97, 46, 46] := by decide +kernel

/-- The code violates C103: with an odd number of bytes to fill and an odd width, `center` puts the greater half on the other side
than Python. -/
theorem center_differs (x : B) (width : Int) (fill : B) (c : Nat) (hc : text fill = [c]) (hx : ∃ d ∈ text x, d ≠ c)
    (hw : (text x).length < width) (ho : width % 2 = 1) (hm : (width - (text x).length) % 2 = 1) :
    text (center x width fill) ≠ Str.Spec.center (text x) width c := by
  unfold center Str.Spec.center
  rw [if_neg (by omega), if_neg (by omega)]
  simp only
  rw [(concat_mult_spec _ _ 0).1, (concat_mult_spec _ _ 0).1, mult_single fill c hc, mult_single fill c hc,
      Int.fdiv_eq_ediv_of_nonneg _ (by omega), if_pos ⟨hm, ho⟩]
  generalize hL : (width - (text x).length) / 2 = L
  have hL0 : 0 ≤ L := by omega
  obtain ⟨l, rfl⟩ := Int.eq_ofNat_of_zero_le hL0
  unfold pad
  intro he
  rw [show ((l : Int) + 1).toNat = l + 1 by omega, Int.toNat_natCast, List.replicate_succ', List.append_assoc, List.append_assoc,
    List.append_assoc] at he
  have he := List.append_cancel_left he
  rw [show (width - (text x).length - (l : Int)).toNat = (width - (text x).length - ((l : Int) + 1)).toNat + 1 by omega,
    List.replicate_succ', ← List.append_assoc, List.singleton_append, ← List.cons_append] at he
  -- `text x ++ c… ++ [c] = c :: text x ++ c…` makes every byte of `x` the fill
  have hrot : ∀ (s : List Nat) (k : Nat), s ++ List.replicate k c ++ [c] = c :: s ++ List.replicate k c → ∀ d ∈ s, d = c := by
    intro s
    induction s with
    | nil => intro k _ d hd; simp at hd
    | cons a s ih =>
      intro k e d hd
      simp only [List.cons_append, List.cons.injEq] at e
      obtain ⟨rfl, e⟩ := e
      rcases List.mem_cons.1 hd with h | h
      · exact h
      · exact ih k (by simpa using e) d h
  obtain ⟨d, hd, hne⟩ := hx
  exact hne (hrot _ _ he d hd)

example : center (some [97, 98]) 5 (some [32]) = some [32, 97, 98, 32, 32] ∧ Str.Spec.center [97, 98] 5 32 = [32, 32, 97, 98, 32] := by
  decide +kernel

theorem piece (x : B) (a b : Nat) (hb : b ≤ (text x).length) : text (getslice x a b) = ((text x).take b).drop a := by
  rw [slice_spec, Str.slice_nat _ _ _ hb]

theorem flatten_zeros (w n : Int) : ((if w - n > 0 then [mult (some [48]) (w - n)] else []).map text).flatten = pad 48 (w - n) := by
  by_cases h : w - n > 0
  · rw [if_pos h, List.map_singleton, mult_single (some [48]) 48 rfl, List.flatten_singleton]
  · rw [if_neg h, pad_none _ _ (by omega)]
    rfl

/-- C103: `zfill`. -/
theorem zfill_spec (x : B) (width : Int) : ∃ r, zfill x width = .ok r ∧ text r = Str.Spec.zfill (text x) width := by
  have hz := flatten_zeros width (text x).length
  have hjoin : ∀ parts : List B, ∃ r, join none parts = .ok r ∧ text r = (parts.map text).flatten := by
    intro parts
    obtain ⟨r, e, h⟩ := join_spec none parts
    refine ⟨r, e, ?_⟩
    rw [h]
    exact join_nil _
  have happ : ∀ acc : List B, (if width - ((text x).length : Int) > 0 then
      acc ++ [mult (some [48]) (width - (text x).length)] else acc) =
      acc ++ (if width - ((text x).length : Int) > 0 then [mult (some [48]) (width - (text x).length)] else []) := by
    intro acc
    split <;> simp
  unfold zfill
  simp only [happ]
  by_cases hn : (text x).length ≠ 0
  · rw [if_pos hn]
    have h0 : 0 < (text x).length := by omega
    have e := item_nat h0
    rw [show ((0 : Nat) : Int) = 0 from rfl] at e
    rw [e]
    simp only
    by_cases hs : (text x)[0] = 43 ∨ (text x)[0] = 45
    · simp only [decide_eq_true hs, if_true]
      obtain ⟨r, e, h⟩ := hjoin (([getslice x 0 1] ++ if width - ((text x).length : Int) > 0 then
        [mult (some [48]) (width - (text x).length)] else []) ++ [getslice x 1 (text x).length])
      refine ⟨r, e, ?_⟩
      rw [h, zfill_sign _ _ h0 hs, List.map_append, List.map_append, List.flatten_append, List.flatten_append, hz]
      simp only [List.map_singleton, List.flatten_singleton]
      have h1 := piece x 0 1 (by omega)
      have h2 := piece x 1 (text x).length (Nat.le_refl _)
      rw [show ((0 : Nat) : Int) = 0 from rfl, show ((1 : Nat) : Int) = 1 from rfl] at h1
      rw [show ((1 : Nat) : Int) = 1 from rfl] at h2
      rw [h1, h2, List.take_length, List.drop_zero]
      congr 2
      have : ∀ (l : List Nat) (h : 0 < l.length), l.take 1 = [l[0]] := by
        intro l h
        cases l with
        | nil => simp at h
        | cons c t => simp
      exact this _ h0
    · simp only [decide_eq_false hs, Bool.false_eq_true, if_false]
      obtain ⟨r, e, h⟩ := hjoin (([] ++ if width - ((text x).length : Int) > 0 then
        [mult (some [48]) (width - (text x).length)] else []) ++ [x])
      refine ⟨r, e, ?_⟩
      rw [h, zfill_plain _ _ (fun _ => hs), List.nil_append, List.map_append, List.flatten_append, hz]
      simp
  · rw [if_neg hn]
    simp only [Bool.false_eq_true, if_false]
    obtain ⟨r, e, h⟩ := hjoin (([] ++ if width - ((text x).length : Int) > 0 then
        [mult (some [48]) (width - (text x).length)] else []) ++ [x])
    refine ⟨r, e, ?_⟩
    rw [h, zfill_plain _ _ (fun h0 => absurd h0 (by omega)), List.nil_append, List.map_append, List.flatten_append, hz]
    simp

example : zfill (some [45, 55]) 5 = .ok (some [45, 48, 48, 48, 55]) ∧ zfill none 2 = .ok (some [48, 48]) ∧
    zfill none 0 = .ok (some []) := by decide +kernel

theorem tabsLoop_spec (x : B) (size : Int) : ∀ (n i last col real : Nat) (acc : List B),
    i + n = (text x).length → last ≤ i → (0 < size → (col : Int) % size = (real : Int) % size) →
    ∃ ps, tabsLoop x size n i last col acc = .ok (acc ++ ps) ∧
      (ps.map text).flatten = ((text x).take i).drop last ++ Str.Spec.expandtabs size real ((text x).drop i)
  | 0, i, last, col, real, acc, hi, hl, _ => by
    refine ⟨_, rfl, ?_⟩
    rw [List.map_singleton, List.flatten_singleton, piece x last _ (Nat.le_refl _), show i = (text x).length by omega, List.drop_length]
    simp [Str.Spec.expandtabs]
  | n + 1, i, last, col, real, acc, hi, hl, hcol => by
    have hlt : i < (text x).length := by omega
    rw [tabsLoop, item_nat hlt]
    simp only
    rw [List.drop_eq_getElem_cons hlt]
    have hnil : ((text x).take (i + 1)).drop (i + 1) = [] := List.drop_eq_nil_of_le (by rw [List.length_take]; omega)
    by_cases htab : (text x)[i] = 9
    · rw [if_pos htab, Str.Spec.expandtabs, if_pos htab]
      by_cases hsz : size > 0
      · obtain ⟨sz, rfl⟩ : ∃ k : Nat, size = k := ⟨size.toNat, by omega⟩
        have hr := hcol hsz
        have hlt' := Nat.mod_lt real (show 0 < sz by omega)
        obtain ⟨ps, ep, hp2⟩ := tabsLoop_spec x sz n (i + 1) (i + 1) 0 (real + (sz - real % sz))
          (acc ++ [getslice x last i, mult (some [32]) ((sz : Int) - Int.fmod (col : Int) sz)]) (by omega) (Nat.le_refl _) (fun _ => by
            have : (real + (sz - real % sz)) % sz = 0 := by
              have h1 := Nat.div_add_mod real sz
              have h2 : real + (sz - real % sz) = sz * (real / sz + 1) := by
                rw [Nat.mul_add, Nat.mul_one]
                omega
              rw [h2]
              exact Nat.mul_mod_right _ _
            have h3 : ((real + (sz - real % sz) : Nat) : Int) % (sz : Int) = 0 := by
              exact_mod_cast this
            rw [h3]
            simp)
        rw [if_pos hsz]
        change ∃ ps, tabsLoop x sz n (i + 1) (i + 1) ((0 : Nat) : Int) _ = _ ∧ _
        rw [ep]
        refine ⟨[getslice x last i, mult (some [32]) ((sz : Int) - Int.fmod (col : Int) sz)] ++ ps, by rw [List.append_assoc], ?_⟩
        rw [if_neg (by omega), List.map_append, List.flatten_append, hp2, List.map_cons, List.map_singleton, piece x last i (by omega),
          mult_single (some [32]) 32 rfl, Int.fmod_eq_emod_of_nonneg _ (by omega), hr]
        have hn : ((sz : Int) - (real : Int) % sz).toNat = sz - real % sz := by omega
        unfold pad
        rw [hn, Int.toNat_natCast, hnil]
        simp
      · obtain ⟨ps, ep, hp2⟩ := tabsLoop_spec x size n (i + 1) (i + 1) 0 real
          (acc ++ [getslice x last i, mult (some [32]) 0]) (by omega) (Nat.le_refl _) (fun h => absurd h hsz)
        rw [if_neg hsz]
        change ∃ ps, tabsLoop x size n (i + 1) (i + 1) ((0 : Nat) : Int) _ = _ ∧ _
        rw [ep]
        refine ⟨[getslice x last i, mult (some [32]) 0] ++ ps, by rw [List.append_assoc], ?_⟩
        rw [if_pos (by omega), List.map_append, List.flatten_append, hp2, List.map_cons, List.map_singleton, piece x last i (by omega),
          hnil]
        simp [mult, text]
    · rw [if_neg htab, Str.Spec.expandtabs, if_neg htab]
      have hstep : ((text x).take (i + 1)).drop last = ((text x).take i).drop last ++ [(text x)[i]] := by
        rw [← List.take_append_getElem hlt, List.drop_append_of_le_length (by rw [List.length_take]; omega)]
      by_cases h : (text x)[i] = 10 ∨ (text x)[i] = 13
      · rw [if_pos h, if_pos h]
        obtain ⟨ps, ep, hp2⟩ := tabsLoop_spec x size n (i + 1) last 0 0 acc (by omega) (by omega) (fun _ => rfl)
        refine ⟨ps, ep, ?_⟩
        rw [hp2, hstep]
        simp
      · rw [if_neg h, if_neg h]
        obtain ⟨ps, ep, hp2⟩ := tabsLoop_spec x size n (i + 1) last (col + 1) (real + 1) acc (by omega) (by omega) (fun hsz => by
          push_cast
          rw [Int.add_emod, hcol hsz, ← Int.add_emod])
        refine ⟨ps, ep, ?_⟩
        rw [hp2, hstep]
        simp

/-- C103: `expandtabs`. -/
theorem expandtabs_spec (x : B) (size : Int) : ∃ r, expandtabs x size = .ok r ∧ text r = Str.Spec.expandtabs size 0 (text x) := by
  unfold expandtabs
  obtain ⟨ps, e, h2⟩ := tabsLoop_spec x size (text x).length 0 0 0 0 [] (by omega) (Nat.le_refl _) (fun _ => rfl)
  rw [show ((0 : Nat) : Int) = 0 from rfl] at e
  rw [e]
  obtain ⟨r, ej, ht⟩ := join_spec none ([] ++ ps)
  refine ⟨r, ej, ?_⟩
  rw [ht]
  change Str.Spec.join [] _ = _
  rw [join_nil, List.nil_append, h2]
  simp

example : expandtabs (some [97, 9, 98, 98, 9, 10, 9, 99]) 4 =
    .ok (some [97, 32, 32, 32, 98, 98, 32, 32, 10, 32, 32, 32, 32, 99]) := by decide +kernel

end Verif.Bytes
