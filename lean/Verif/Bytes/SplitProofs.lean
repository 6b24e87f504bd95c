import Verif.Bytes.Split
import Verif.Str.Split
/-
Splitting and joining bytes: proofs.
-/
namespace Verif.Bytes
open Verif.Str (remaining remaining_zero remaining_succ)
open Verif.Str.Spec

theorem stands_nil_of_scan (sep : List Nat) (hs : sep ≠ []) (i : Nat) : ¬ StandsAt [] sep i := by
  intro h
  have h1 := Str.stands_fits _ _ _ hs h
  have := List.length_pos_iff.2 hs
  rw [List.length_nil] at h1
  omega

theorem stands_zero (c : Nat) (t sep : List Nat) : StandsAt (c :: t) sep 0 ↔ (c :: t).take sep.length = sep := Iff.rfl

theorem stands_succ (c : Nat) (t sep : List Nat) (i : Nat) : StandsAt (c :: t) sep (i + 1) ↔ StandsAt t sep i := Iff.rfl

theorem scanSep_spec (sep : List Nat) (hs : sep ≠ []) : ∀ rest : List Nat,
    (scanSep sep rest + sep.length ≤ rest.length ∧ StandsAt rest sep (scanSep sep rest) ∧
      ∀ i < scanSep sep rest, ¬ StandsAt rest sep i) ∨
    (rest.length < scanSep sep rest + sep.length ∧ ∀ i, ¬ StandsAt rest sep i)
  | [] => by
    right
    refine ⟨?_, stands_nil_of_scan sep hs⟩
    have := List.length_pos_iff.2 hs
    simp [scanSep]
    omega
  | c :: t => by
    rw [scanSep]
    split
    · rename_i h
      rcases scanSep_spec sep hs t with ⟨a, b, d⟩ | ⟨a, b⟩
      · left
        refine ⟨by simp; omega, (stands_succ _ _ _ _).2 b, fun i hi => ?_⟩
        cases i with
        | zero => exact fun hc => h.2 ((stands_zero _ _ _).1 hc)
        | succ i => exact fun hc => d i (by omega) ((stands_succ _ _ _ _).1 hc)
      · right
        refine ⟨by simp; omega, fun i => ?_⟩
        cases i with
        | zero => exact fun hc => h.2 ((stands_zero _ _ _).1 hc)
        | succ i => exact fun hc => b i ((stands_succ _ _ _ _).1 hc)
    · rename_i h
      by_cases hl : sep.length ≤ (c :: t).length
      · left
        refine ⟨by omega, (stands_zero _ _ _).2 ?_, fun i hi => by omega⟩
        exact Classical.not_not.1 fun hc => h ⟨hl, hc⟩
      · right
        refine ⟨by omega, fun i hi => ?_⟩
        have := Str.stands_fits _ _ _ hs hi
        omega

theorem scanByte_sep (c : Nat) : ∀ rest : List Nat, scanByte (· == c) rest = scanSep [c] rest
  | [] => rfl
  | x :: t => by
    rw [scanByte, scanSep]
    by_cases h : x = c
    · rw [if_pos (by simpa using h), if_neg (by simp [h])]
    · rw [if_neg (by simpa using h), if_pos (by simp [h]), scanByte_sep c t]

theorem scan_sep (s : List Nat) (rest : List Nat) : scan (some s) rest = scanSep s rest := by
  unfold scan
  simp only
  split
  · rename_i h
    rw [scanByte_sep, Str.headD_single s h]
  · rfl

theorem scanByte_spec (hit : Nat → Bool) : ∀ rest : List Nat,
    scanByte hit rest ≤ rest.length ∧ (∀ c ∈ rest.take (scanByte hit rest), hit c = false) ∧
    (∀ x, rest[scanByte hit rest]? = some x → hit x = true)
  | [] => by simp [scanByte]
  | c :: t => by
    rw [scanByte]
    split
    · rename_i h
      exact ⟨by simp, by simp, fun x hx => by simp at hx; rw [← hx]; exact h⟩
    · rename_i h
      obtain ⟨a, b, d⟩ := scanByte_spec hit t
      refine ⟨by simp; omega, ?_, fun x hx => ?_⟩
      · intro x hx
        rw [List.take_succ_cons] at hx
        rcases List.mem_cons.1 hx with e | e
        · rw [e]; simpa using h
        · exact b x e
      · exact d x (by simpa using hx)

/-- What is left to be done with a separator. -/
theorem splitLoop_sep (s : List Nat) (hs : s ≠ []) (max : Int) : ∀ (fuel : Nat) (rest : List Nat) (count : Nat) (out : List B),
    rest.length < fuel → remaining max count ≠ some 0 →
    ∃ qs : List (List Nat), splitLoop (some s) max fuel rest count out = .ok (out ++ qs.map some) ∧
      Split s (remaining max count) rest qs
  | 0, _, _, _, h, _ => by omega
  | fuel + 1, rest, count, out, hf, hr => by
    rw [splitLoop]
    have hfin : ∀ (r : List Nat) (o : List B), remainder (some s) r o = o ++ [some r] := by
      intro r o
      unfold remainder
      rw [if_pos (Or.inl (by simp))]
    by_cases hn : rest = []
    · rw [if_pos hn, hfin]
      refine ⟨[rest], rfl, .uncut _ _ (Or.inr fun i => ?_)⟩
      rw [hn]
      exact stands_nil_of_scan s hs i
    · rw [if_neg hn]
      simp only [scan_sep, sepLen]
      rcases scanSep_spec s hs rest with ⟨a, b, d⟩ | ⟨a, b⟩
      · rw [if_neg (by omega), if_pos (Or.inl (by simp))]
        have hcut := at_cut (show Str.At rest s (scanSep s rest) from b)
        have hlen : (rest.take (scanSep s rest)).length = scanSep s rest := by rw [List.length_take]; omega
        have hspos := List.length_pos_iff.2 hs
        have hfirst : ∀ i < (rest.take (scanSep s rest)).length,
            ¬ StandsAt (rest.take (scanSep s rest) ++ s ++ rest.drop (scanSep s rest + s.length)) s i := by
          intro i hi
          rw [← hcut]
          exact d i (by omega)
        by_cases hm : max ≥ 0 ∧ (count : Int) + 1 ≥ max
        · rw [if_pos hm, hfin]
          refine ⟨[rest.take (scanSep s rest), rest.drop (scanSep s rest + s.length)], by simp, ?_⟩
          rw [show Split s (remaining max count) rest = Split s (remaining max count)
            (rest.take (scanSep s rest) ++ s ++ rest.drop (scanSep s rest + s.length)) by rw [← hcut]]
          refine .cut _ _ _ _ hr hfirst (.uncut _ _ (Or.inl ?_))
          rw [remaining_succ, remaining_zero]
          omega
        · rw [if_neg hm]
          have hr' : remaining max (count + 1) ≠ some 0 := by
            intro h
            rw [remaining_zero] at h
            omega
          obtain ⟨qs, e, hq⟩ := splitLoop_sep s hs max fuel (rest.drop (scanSep s rest + s.length)) (count + 1)
            (out ++ [some (rest.take (scanSep s rest))]) (by rw [List.length_drop]; omega) hr'
          refine ⟨rest.take (scanSep s rest) :: qs, ?_, ?_⟩
          · rw [Int.natCast_succ] at e
            rw [e]
            simp
          · rw [show Split s (remaining max count) rest = Split s (remaining max count)
              (rest.take (scanSep s rest) ++ s ++ rest.drop (scanSep s rest + s.length)) by rw [← hcut]]
            exact .cut _ _ _ _ hr hfirst (by rw [remaining_succ]; exact hq)
      · rw [if_pos (by omega), hfin]
        exact ⟨[rest], rfl, .uncut _ _ (Or.inr b)⟩

/-- No two adjacent bytes are white space. -/
def NoDouble (space : Nat → Bool) (s : List Nat) : Prop :=
  ∀ i c d, s[i]? = some c → s[i + 1]? = some d → ¬ (space c = true ∧ space d = true)

theorem noDouble_drop {space : Nat → Bool} {s : List Nat} (h : NoDouble space s) (k : Nat) : NoDouble space (s.drop k) := by
  intro i c d hc hd
  rw [List.getElem?_drop] at hc hd
  exact h (k + i) c d hc hd

theorem splitLoop_words (max : Int) : ∀ (fuel : Nat) (rest : List Nat) (count : Nat) (out : List B),
    rest.length < fuel → remaining max count ≠ some 0 → max < 0 ∨ NoDouble isspace rest →
    ∃ qs : List (List Nat), splitLoop none max fuel rest count out = .ok (out ++ qs.map some) ∧
      Words isspace (remaining max count) rest qs
  | 0, _, _, _, h, _, _ => by omega
  | fuel + 1, rest, count, out, hf, hr, hd => by
    rw [splitLoop]
    by_cases hn : rest = []
    · rw [if_pos hn]
      refine ⟨[], ?_, .blank _ _ (by simp [hn])⟩
      unfold remainder
      rw [if_neg (by simp [hn])]
      simp
    · rw [if_neg hn]
      simp only
      rw [show scan none rest = scanByte isspace rest from rfl, show sepLen none = 1 from rfl]
      obtain ⟨h1, h2, h3⟩ := scanByte_spec isspace rest
      by_cases hlast : (scanByte isspace rest) + 1 > rest.length
      · rw [if_pos hlast]
        have hall : ∀ c ∈ rest, isspace c = false := by
          intro c hc
          refine h2 c ?_
          rwa [List.take_of_length_le (by omega)]
        refine ⟨[rest], ?_, ?_⟩
        · unfold remainder
          rw [if_pos (Or.inr hn)]
          rfl
        · have := Words.word (space := isspace) (remaining max count) [] rest [] [] hr (by simp) hn hall (by simp)
            (.blank _ _ (by simp))
          simpa using this
      · rw [if_neg hlast]
        have hlt : (scanByte isspace rest) < rest.length := by omega
        have hx := h3 _ (List.getElem?_eq_getElem hlt)
        have hdrop := List.drop_eq_getElem_cons hlt
        by_cases h0 : (scanByte isspace rest) = 0
        · rw [if_neg (by simp [h0])]
          obtain ⟨qs, e, hq⟩ := splitLoop_words max fuel (rest.drop 1) count out (by rw [List.length_drop]; omega) hr
            (hd.imp_right fun h => noDouble_drop h 1)
          refine ⟨qs, e, ?_⟩
          cases rest with
          | nil => exact absurd rfl hn
          | cons c t =>
            rw [List.drop_one, List.tail_cons] at hq
            exact Str.words_space _ (h3 c (by rw [h0]; rfl)) hq
        · rw [if_pos (Or.inr h0)]
          have hw : rest.take (scanByte isspace rest) ≠ [] := by
            intro h
            have := congrArg List.length h
            rw [List.length_take, List.length_nil] at this
            omega
          have hb : ∀ x, (rest.drop (scanByte isspace rest)).head? = some x → isspace x = true := by
            intro x hxx
            rw [hdrop] at hxx
            simp only [List.head?_cons, Option.some.injEq] at hxx
            rw [← hxx]
            exact hx
          have hword : ∀ ps, Words isspace (remaining max (count + 1)) (rest.drop ((scanByte isspace rest) + 1)) ps →
              Words isspace (remaining max count) rest (rest.take (scanByte isspace rest) :: ps) := by
            intro ps hps
            have := Words.word (space := isspace) (remaining max count) [] (rest.take (scanByte isspace rest)) (rest.drop (scanByte isspace rest)) ps hr (by simp) hw h2 hb
              (by rw [remaining_succ, hdrop]; exact Str.words_space _ hx hps)
            simpa using this
          by_cases hmx : max ≥ 0 ∧ (count : Int) + 1 ≥ max
          · rw [if_pos hmx]
            have hz : remaining max (count + 1) = some 0 := by rw [remaining_zero]; omega
            have hnd : NoDouble isspace rest := hd.resolve_left (by omega)
            unfold remainder
            by_cases hr0 : rest.drop ((scanByte isspace rest) + 1) = []
            · rw [if_neg (by simp [hr0])]
              exact ⟨[rest.take (scanByte isspace rest)], rfl, hword [] (.blank _ _ (by simp [hr0]))⟩
            · rw [if_pos (Or.inr hr0)]
              refine ⟨[rest.take (scanByte isspace rest), rest.drop ((scanByte isspace rest) + 1)], by simp, hword _ ?_⟩
              rw [hz]
              have hlt2 : (scanByte isspace rest) + 1 < rest.length := by
                rw [List.drop_eq_nil_iff] at hr0
                omega
              rw [List.drop_eq_getElem_cons hlt2]
              have := hnd (scanByte isspace rest) _ _ (List.getElem?_eq_getElem hlt) (List.getElem?_eq_getElem hlt2)
              exact Words.uncut [] _ _ (by simp) (by
                cases hc : isspace (rest[(scanByte isspace rest) + 1]) with
                | false => rfl
                | true => exact absurd ⟨hx, hc⟩ this)
          · rw [if_neg hmx]
            have hr' : remaining max (count + 1) ≠ some 0 := by
              intro h
              rw [remaining_zero] at h
              omega
            obtain ⟨qs, e, hq⟩ := splitLoop_words max fuel (rest.drop ((scanByte isspace rest) + 1)) (count + 1) (out ++ [some (rest.take (scanByte isspace rest))])
              (by rw [List.length_drop]; omega) hr' (hd.imp_right fun h => noDouble_drop h _)
            refine ⟨rest.take (scanByte isspace rest) :: qs, ?_, hword _ hq⟩
            rw [Int.natCast_succ] at e
            rw [e]
            simp

/-! ### from the right -/

/-- Every piece in reverse order. -/
def mir (out : List B) : List B := out.map (Option.map List.reverse)

theorem mir_append (a b : List B) : mir (a ++ b) = mir a ++ mir b := List.map_append

theorem rspace_eq (c : Nat) : rspace c = isspace c := by
  unfold rspace isspace
  rw [decide_eq_decide]
  omega

theorem rscan_eq (sep : B) (rest : List Nat) : rscan sep rest = scan (sep.map List.reverse) rest := by
  unfold rscan scan
  cases sep with
  | none =>
    simp only [Option.map_none]
    congr 1
    exact funext rspace_eq
  | some s =>
    simp only [Option.map_some, List.length_reverse]
    by_cases h : s.length = 1
    · rw [if_pos h, if_pos h]
      match s, h with
      | [c], _ => rfl
    · rw [if_neg h, if_neg h]

theorem rremainder_eq (sep : B) (rest : List Nat) (out : List B) :
    rremainder sep rest (mir out) = mir (remainder (sep.map List.reverse) rest out) := by
  unfold rremainder remainder
  cases sep with
  | none =>
    by_cases h : rest = []
    · simp [h]
    · simp [h, mir]
  | some s => simp [mir]

theorem sepLen_reverse (sep : B) : sepLen (sep.map List.reverse) = sepLen sep := by
  cases sep <;> simp [sepLen]

theorem rsplitLoop_eq (sep : B) (max : Int) : ∀ (fuel : Nat) (rest : List Nat) (count : Int) (out : List B),
    rsplitLoop sep max fuel rest count (mir out) = (splitLoop (sep.map List.reverse) max fuel rest count out).map mir
  | 0, _, _, _ => rfl
  | fuel + 1, rest, count, out => by
    rw [rsplitLoop, splitLoop]
    have hn : (Option.map List.reverse sep ≠ none) = (sep ≠ none) := by cases sep <;> simp
    simp only [rscan_eq, sepLen_reverse, hn]
    have happ : mir out ++ [some (rest.take (scan (sep.map List.reverse) rest)).reverse] =
        mir (out ++ [some (rest.take (scan (sep.map List.reverse) rest))]) := by simp [mir]
    by_cases h1 : rest = []
    · rw [if_pos h1, if_pos h1, rremainder_eq]
      rfl
    · rw [if_neg h1, if_neg h1]
      by_cases h2 : scan (sep.map List.reverse) rest + sepLen sep > rest.length
      · rw [if_pos h2, if_pos h2, rremainder_eq]
        rfl
      · rw [if_neg h2, if_neg h2]
        by_cases h3 : sep ≠ none ∨ scan (sep.map List.reverse) rest ≠ 0
        · rw [if_pos h3, if_pos h3]
          by_cases h4 : max ≥ 0 ∧ count + 1 ≥ max
          · rw [if_pos h4, if_pos h4, happ, rremainder_eq]
            rfl
          · rw [if_neg h4, if_neg h4, happ]
            exact rsplitLoop_eq sep max fuel _ _ _
        · rw [if_neg h3, if_neg h3]
          exact rsplitLoop_eq sep max fuel _ _ _

theorem stands_reverse {t sub : List Nat} {i : Nat} (hs : sub ≠ []) (h : StandsAt t sub i) :
    StandsAt t.reverse sub.reverse (t.length - (i + sub.length)) := by
  have hf := Str.stands_fits _ _ _ hs h
  have hc := at_cut (show Str.At t sub i from h)
  have e : t.length - (i + sub.length) = (t.drop (i + sub.length)).reverse.length := by simp
  rw [e]
  conv => arg 1; rw [hc]
  unfold StandsAt
  simp

theorem split_reverse {sep : List Nat} (hs : sep ≠ []) {lim : Option Nat} {s : List Nat} {ps : List (List Nat)}
    (h : Split sep.reverse lim s ps) : RSplit sep lim s.reverse (ps.map List.reverse).reverse := by
  have hs' : sep.reverse ≠ [] := by simpa using hs
  induction h with
  | uncut lim s h =>
    refine .uncut _ _ (h.imp_right fun h i hi => ?_)
    have := stands_reverse hs hi
    rw [List.reverse_reverse] at this
    exact h _ this
  | cut lim a b ps h first rest ih =>
    have e : (a ++ sep.reverse ++ b).reverse = b.reverse ++ sep ++ a.reverse := by simp
    rw [e, List.map_cons, List.reverse_cons]
    refine .cut _ _ _ _ h (fun i hi hc => ?_) ih
    have hf := Str.stands_fits _ _ _ hs hc
    have := stands_reverse hs hc
    rw [← e, List.reverse_reverse] at this
    refine first _ ?_ this
    simp at hf hi ⊢
    omega

theorem words_reverse {space : Nat → Bool} {lim : Option Nat} {s : List Nat} {ps : List (List Nat)}
    (h : Words space lim s ps) : RWords space lim s.reverse (ps.map List.reverse).reverse := by
  induction h with
  | blank lim s h => exact .blank _ _ (by simpa using h)
  | uncut a c b ha hc =>
    have := RWords.uncut (space := space) a.reverse c b.reverse (by simpa using ha) hc
    simpa using this
  | word lim a w b ps h ha hw hw' hb rest ih =>
    have := RWords.word (space := space) lim a.reverse w.reverse b.reverse _ h (by simpa using ha) (by simpa using hw)
      (by simpa using hw') (by simpa using hb) ih
    simpa using this

theorem noDouble_reverse {space : Nat → Bool} {s : List Nat} (h : NoDouble space s) : NoDouble space s.reverse := by
  intro i c d hc hd
  have hi : i + 1 < s.length := by
    have := (List.getElem?_eq_some_iff.1 hd).1
    simpa using this
  rw [List.getElem?_reverse (by omega)] at hc
  rw [List.getElem?_reverse (by omega)] at hd
  intro ⟨h1, h2⟩
  refine h (s.length - 1 - (i + 1)) d c hd ?_ ⟨h2, h1⟩
  rw [show s.length - 1 - (i + 1) + 1 = s.length - 1 - i by omega]
  exact hc

end Verif.Bytes
