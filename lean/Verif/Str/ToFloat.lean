import Verif.Str.ToInt
import Verif.Str.FloatSpec
/-
C105: `float(s)` in compiled code.
/repo/typed_python/StringType.cpp 1814-1945, _runtime.cpp 2637-2648, string_wrapper.py 1060-1068, and the same machine for bytes in
BytesType.cpp 578-712.

Simplifications: whether a character is white space is a parameter (the table `uprops`); the result is the text `strtod` is given.
-/
namespace Verif.Str
open Spec (IsDigit Digits Decimal Sign IsE Exponent lowerLetter words)

/-! ### model -/

/-- StringType.cpp:1816-1818; `failed` leaves the loop. -/
inductive FState
  | leftSpace | sign | whole | underscore | decimal | mantissa | underscoreMantissa | exp | expsign | exponent | underscoreExponent
  | rightSpace | identifier | identifierRightSpace
  deriving DecidableEq, Repr

/-- StringType.cpp:1828-1916: the next state; `none` is `failed`. -/
def floatStep (space : Nat → Bool) (st : FState) (c : Nat) : Option FState :=
  if space c then
    if st = .underscore ∨ st = .underscoreExponent ∨ st = .underscoreMantissa ∨ st = .sign ∨ st = .exp ∨ st = .expsign then none
    else if st = .identifier ∨ st = .identifierRightSpace then some .identifierRightSpace
    else if st = .rightSpace ∨ st = .whole ∨ st = .decimal ∨ st = .mantissa ∨ st = .exponent then some .rightSpace
    else some st
  else if c = 43 ∨ c = 45 then
    if st = .leftSpace then some .sign
    else if st = .exp then some .expsign
    else none
  else if c < 128 ∧ c ≥ 48 ∧ c ≤ 57 then
    if st = .decimal then some .mantissa
    else if st = .exp then some .exponent
    else if st = .rightSpace ∨ st = .identifier ∨ st = .identifierRightSpace then none
    else if st = .underscoreMantissa then some .mantissa
    else if st = .underscoreExponent then some .exponent
    else some .whole
  else if c = 46 then
    if st = .leftSpace ∨ st = .sign ∨ st = .whole then some .decimal else none
  else if c = 101 ∨ c = 69 then
    if st = .whole ∨ st = .decimal ∨ st = .mantissa then some .exp else none
  else if c = 95 then
    if st = .whole then some .underscore
    else if st = .mantissa then some .underscoreMantissa
    else if st = .exponent then some .underscoreExponent
    else none
  else if c < 128 then
    if st = .leftSpace ∨ st = .sign ∨ st = .identifier then some .identifier else none
  else none

/-- StringType.cpp:1826, 1829, 1889: whether a character goes into the buffer. -/
def accumulates (space : Nat → Bool) (c : Nat) : Bool := !(space c || c == 95)

/-- StringType.cpp:1825-1920: the loop; the buffer takes 48 characters. -/
def floatLoop (space : Nat → Bool) : List Nat → FState → List Nat → Option (FState × List Nat)
  | [], st, buf => some (st, buf)
  | c :: t, st, buf =>
    match floatStep space st c with
    | none => none
    | some st' => floatLoop space t st' (if accumulates space c ∧ buf.length < 48 then buf ++ [c] else buf)

/-- StringType.cpp:1925: a sign at the beginning of the buffer. -/
def bufSign (buf : List Nat) : List Nat := if buf.head? = some 43 ∨ buf.head? = some 45 then buf.take 1 else []

/-- StringType.cpp:1924-1930: the C string behind the sign, in lower case. -/
def bufWord (buf : List Nat) : List Nat := ((buf.drop (bufSign buf).length).takeWhile (· ≠ 0)).map lowerLetter

/-- StringType.cpp:1815-1945 `to_float64`: the text `strtod` is given; `none` is ValueError (_runtime.cpp:2637-2648). -/
def toFloat (space : Nat → Bool) (s : List Nat) : Option (List Nat) :=
  match floatLoop space s .leftSpace [] with
  | none => none
  | some (st, buf) =>
    if st = .identifier ∨ st = .identifierRightSpace then
      if bufWord buf ∈ words then some (bufSign buf ++ bufWord buf) else none
    else if st = .whole ∨ st = .decimal ∨ st = .mantissa ∨ st = .exponent ∨ st = .rightSpace then some buf
    else none

/-! ### proofs: the buffer -/

/-- The states alone. -/
def states (space : Nat → Bool) : List Nat → FState → Option FState
  | [], st => some st
  | c :: t, st =>
    match floatStep space st c with
    | none => none
    | some st' => states space t st'

theorem states_append (space : Nat → Bool) : ∀ (a b : List Nat) (st : FState),
    states space (a ++ b) st = (states space a st).bind (states space b)
  | [], _, _ => rfl
  | c :: a, b, st => by
    rw [List.cons_append, states, states]
    cases floatStep space st c with
    | none => rfl
    | some st' => exact states_append space a b st'

theorem floatLoop_eq (space : Nat → Bool) : ∀ (s : List Nat) (st : FState) (buf : List Nat), buf.length ≤ 48 →
    floatLoop space s st buf = (states space s st).map fun st' => (st', (buf ++ s.filter (accumulates space)).take 48)
  | [], st, buf, h => by
    rw [floatLoop, states, List.filter_nil, List.append_nil, List.take_of_length_le h]
    rfl
  | c :: t, st, buf, h => by
    rw [floatLoop, states]
    cases floatStep space st c with
    | none => rfl
    | some st' =>
      simp only
      cases ha : accumulates space c with
      | false =>
        rw [if_neg (by simp), floatLoop_eq space t st' buf h, List.filter_cons_of_neg (by simp [ha])]
      | true =>
        rw [List.filter_cons_of_pos ha]
        by_cases hl : buf.length < 48
        · rw [if_pos ⟨rfl, hl⟩, floatLoop_eq space t st' _ (by rw [List.length_append, List.length_singleton]; omega)]
          simp
        · rw [if_neg (fun h' => hl h'.2), floatLoop_eq space t st' buf h]
          congr 1
          funext st''
          rw [List.take_append_of_le_length (by omega), List.take_append_of_le_length (by omega)]

theorem toFloat_eq (space : Nat → Bool) (s : List Nat) : toFloat space s =
    match states space s .leftSpace with
    | none => none
    | some st =>
      let buf := (s.filter (accumulates space)).take 48
      if st = .identifier ∨ st = .identifierRightSpace then
        if bufWord buf ∈ words then some (bufSign buf ++ bufWord buf) else none
      else if st = .whole ∨ st = .decimal ∨ st = .mantissa ∨ st = .exponent ∨ st = .rightSpace then some buf
      else none := by
  rw [toFloat, floatLoop_eq space s .leftSpace [] (by simp)]
  cases states space s .leftSpace <;> rfl

/-! ### proofs: literals are accepted -/

/-- Printable ASCII characters are no white space. -/
def Printable (space : Nat → Bool) : Prop := ∀ c, 33 ≤ c → c ≤ 126 → space c = false

theorem step_space {space : Nat → Bool} {st : FState} {c : Nat} (h : space c = true) :
    (st = .leftSpace → floatStep space st c = some .leftSpace) ∧
    (st = .whole ∨ st = .decimal ∨ st = .mantissa ∨ st = .exponent ∨ st = .rightSpace → floatStep space st c = some .rightSpace) ∧
    (st = .identifier ∨ st = .identifierRightSpace → floatStep space st c = some .identifierRightSpace) := by
  unfold floatStep
  rw [if_pos h]
  refine ⟨?_, ?_, ?_⟩
  · rintro rfl; rfl
  · rintro (rfl | rfl | rfl | rfl | rfl) <;> rfl
  · rintro (rfl | rfl) <;> rfl

theorem step_fdigit {space : Nat → Bool} (hp : Printable space) {c : Nat} (h : IsDigit c) (st : FState) :
    floatStep space st c =
      if st = .decimal then some .mantissa
      else if st = .exp then some .exponent
      else if st = .rightSpace ∨ st = .identifier ∨ st = .identifierRightSpace then none
      else if st = .underscoreMantissa then some .mantissa
      else if st = .underscoreExponent then some .exponent
      else some .whole := by
  unfold IsDigit at h
  rw [floatStep, if_neg (by rw [hp c (by omega) (by omega)]; simp), if_neg (by omega), if_pos ⟨by omega, by omega, by omega⟩]

theorem step_char {space : Nat → Bool} (hp : Printable space) {c : Nat} (st : FState) :
    (c = 43 ∨ c = 45 → floatStep space st c = if st = .leftSpace then some .sign else if st = .exp then some .expsign else none) ∧
    (c = 46 → floatStep space st c = if st = .leftSpace ∨ st = .sign ∨ st = .whole then some .decimal else none) ∧
    (IsE c → floatStep space st c = if st = .whole ∨ st = .decimal ∨ st = .mantissa then some .exp else none) ∧
    (c = 95 → floatStep space st c = if st = .whole then some .underscore
      else if st = .mantissa then some .underscoreMantissa
      else if st = .exponent then some .underscoreExponent else none) := by
  unfold IsE
  refine ⟨fun h => ?_, fun h => ?_, fun h => ?_, fun h => ?_⟩
  · rw [floatStep, if_neg (by rw [hp c (by omega) (by omega)]; simp), if_pos h]
  · rw [floatStep, if_neg (by rw [hp c (by omega) (by omega)]; simp), if_neg (by omega), if_neg (by omega), if_pos h]
  · rw [floatStep, if_neg (by rw [hp c (by omega) (by omega)]; simp), if_neg (by omega), if_neg (by omega), if_neg (by omega), if_pos h]
  · rw [floatStep, if_neg (by rw [hp c (by omega) (by omega)]; simp), if_neg (by omega), if_neg (by omega), if_neg (by omega),
      if_neg (by omega), if_pos h]

theorem states_spaces {space : Nat → Bool} : ∀ (a : List Nat) (st : FState), (∀ c ∈ a, space c = true) →
    (st = .leftSpace → states space a st = some .leftSpace) ∧
    (st = .whole ∨ st = .decimal ∨ st = .mantissa ∨ st = .exponent ∨ st = .rightSpace →
      ∃ st', states space a st = some st' ∧ (st' = .whole ∨ st' = .decimal ∨ st' = .mantissa ∨ st' = .exponent ∨ st' = .rightSpace)) ∧
    (st = .identifier ∨ st = .identifierRightSpace →
      ∃ st', states space a st = some st' ∧ (st' = .identifier ∨ st' = .identifierRightSpace))
  | [], st, _ => ⟨fun h => by rw [states, h], fun h => ⟨st, rfl, h⟩, fun h => ⟨st, rfl, h⟩⟩
  | c :: a, st, ha => by
    have h := step_space (st := st) (ha c (List.mem_cons_self ..))
    have ih := fun st' => states_spaces a st' (fun d hd => ha d (List.mem_cons_of_mem _ hd))
    refine ⟨fun e => ?_, fun e => ?_, fun e => ?_⟩
    · rw [states, h.1 e]; exact (ih _).1 rfl
    · rw [states, h.2.1 e]; exact (ih _).2.1 (by simp)
    · rw [states, h.2.2 e]; exact (ih _).2.2 (by simp)

theorem states_snoc (space : Nat → Bool) (a : List Nat) (c : Nat) (st : FState) :
    states space (a ++ [c]) st = (states space a st).bind (fun st' => floatStep space st' c) := by
  rw [states_append]
  congr 1
  funext st'
  rw [states]
  cases floatStep space st' c <;> rfl

theorem states_digits {space : Nat → Bool} (hp : Printable space) {w t : List Nat} (hw : Digits w t) :
    (∀ st, st = .leftSpace ∨ st = .sign ∨ st = .expsign → states space w st = some .whole) ∧
    (states space w .decimal = some .mantissa ∨ states space w .decimal = some .whole) ∧
    (states space w .exp = some .exponent ∨ states space w .exp = some .whole) := by
  induction hw with
  | one d h =>
    have e : ∀ st, states space [d] st = floatStep space st d := by
      intro st
      rw [states]
      cases floatStep space st d <;> rfl
    refine ⟨fun st hst => ?_, Or.inl ?_, Or.inl ?_⟩
    · rw [e, step_fdigit hp h]
      rcases hst with rfl | rfl | rfl <;> rfl
    · rw [e, step_fdigit hp h]; rfl
    · rw [e, step_fdigit hp h]; rfl
  | more w t d hw h ih =>
    obtain ⟨h1, h2, h3⟩ := ih
    refine ⟨fun st hst => ?_, ?_, ?_⟩
    · rw [states_snoc, h1 st hst]
      exact step_fdigit hp h _
    · refine Or.inr ?_
      rw [states_snoc]
      rcases h2 with h2 | h2 <;> (rw [h2]; exact step_fdigit hp h _)
    · refine Or.inr ?_
      rw [states_snoc]
      rcases h3 with h3 | h3 <;> (rw [h3]; exact step_fdigit hp h _)
  | under w t d hw h ih =>
    obtain ⟨h1, h2, h3⟩ := ih
    have e : ∀ st, states space (w ++ [95, d]) st = ((states space w st).bind (fun s => floatStep space s 95)).bind
        (fun s => floatStep space s d) := by
      intro st
      rw [show w ++ [95, d] = (w ++ [95]) ++ [d] by simp, states_snoc, states_snoc]
    have hu := fun st => (step_char hp (c := 95) st).2.2.2 rfl
    refine ⟨fun st hst => ?_, ?_, ?_⟩
    · rw [e, h1 st hst, Option.bind_some, hu]
      exact step_fdigit hp h _
    · rcases h2 with h2 | h2
      · left
        rw [e, h2, Option.bind_some, hu]
        exact step_fdigit hp h _
      · right
        rw [e, h2, Option.bind_some, hu]
        exact step_fdigit hp h _
    · rcases h3 with h3 | h3
      · left
        rw [e, h3, Option.bind_some, hu]
        exact step_fdigit hp h _
      · right
        rw [e, h3, Option.bind_some, hu]
        exact step_fdigit hp h _

theorem states_single (space : Nat → Bool) (c : Nat) (st : FState) : states space [c] st = floatStep space st c := by
  rw [states]
  cases floatStep space st c <;> rfl

theorem states_decimal {space : Nat → Bool} (hp : Printable space) {m m' : List Nat} (hm : Decimal m m') (st : FState)
    (hst : st = .leftSpace ∨ st = .sign) :
    ∃ st', states space m st = some st' ∧ (st' = .whole ∨ st' = .decimal ∨ st' = .mantissa) := by
  have hpt : ∀ st, st = .leftSpace ∨ st = .sign ∨ st = .whole → floatStep space st 46 = some .decimal := by
    intro st h
    rw [(step_char hp st).2.1 rfl, if_pos h]
  cases hm with
  | whole _ _ hw => exact ⟨_, (states_digits hp hw).1 st (by tauto), Or.inl rfl⟩
  | point w t hw =>
    refine ⟨.decimal, ?_, by simp⟩
    rw [states_snoc, (states_digits hp hw).1 st (by tauto), Option.bind_some, hpt _ (by simp)]
  | both w t v u hw hv =>
    rw [states_append, states_snoc, (states_digits hp hw).1 st (by tauto), Option.bind_some, hpt _ (by simp), Option.bind_some]
    rcases (states_digits hp hv).2.1 with h | h
    · exact ⟨_, h, by simp⟩
    · exact ⟨_, h, by simp⟩
  | fraction v u hv =>
    rw [states_append, states_single, hpt _ (by tauto), Option.bind_some]
    rcases (states_digits hp hv).2.1 with h | h
    · exact ⟨_, h, by simp⟩
    · exact ⟨_, h, by simp⟩

theorem states_exponent {space : Nat → Bool} (hp : Printable space) {x x' : List Nat} (hx : Exponent x x') (st : FState)
    (hst : st = .whole ∨ st = .decimal ∨ st = .mantissa) :
    ∃ st', states space x st = some st' ∧ (st' = .whole ∨ st' = .decimal ∨ st' = .mantissa ∨ st' = .exponent ∨ st' = .rightSpace) := by
  cases hx with
  | none => exact ⟨st, rfl, by tauto⟩
  | some e sg w t he hs hw =>
    rw [List.append_assoc, states_append, states_single, (step_char hp st).2.2.1 he, if_pos hst, Option.bind_some]
    rcases hs with rfl | rfl | rfl
    · rw [List.nil_append]
      rcases (states_digits hp hw).2.2 with h | h
      · exact ⟨_, h, by simp⟩
      · exact ⟨_, h, by simp⟩
    · rw [states_append, states_single, (step_char hp _).1 (by simp)]
      exact ⟨_, (states_digits hp hw).1 _ (by simp), by simp⟩
    · rw [states_append, states_single, (step_char hp _).1 (by simp)]
      exact ⟨_, (states_digits hp hw).1 _ (by simp), by simp⟩

theorem acc_digit {space : Nat → Bool} (hp : Printable space) {c : Nat} (h : IsDigit c) : accumulates space c = true := by
  unfold IsDigit at h
  rw [accumulates, hp c (by omega) (by omega)]
  simp
  omega

theorem filter_digits {space : Nat → Bool} (hp : Printable space) {w t : List Nat} (hw : Digits w t) :
    w.filter (accumulates space) = t := by
  have hu : accumulates space 95 = false := by simp [accumulates]
  induction hw with
  | one d h => simp [acc_digit hp h]
  | more w t d hw h ih => simp [ih, acc_digit hp h]
  | under w t d hw h ih => simp [ih, acc_digit hp h, hu]

theorem acc_other {space : Nat → Bool} (hp : Printable space) {c : Nat} (h1 : 33 ≤ c) (h2 : c ≤ 126) (h3 : c ≠ 95) :
    accumulates space c = true := by
  rw [accumulates, hp c h1 h2]
  simp [h3]

theorem filter_decimal {space : Nat → Bool} (hp : Printable space) {m m' : List Nat} (hm : Decimal m m') :
    m.filter (accumulates space) = m' := by
  have hd : accumulates space 46 = true := acc_other hp (by decide) (by decide) (by decide)
  cases hm with
  | whole _ _ hw => exact filter_digits hp hw
  | point w t hw => simp [filter_digits hp hw, hd]
  | both w t v u hw hv => simp [filter_digits hp hw, filter_digits hp hv, hd]
  | fraction v u hv => simp [filter_digits hp hv, hd]

theorem filter_sign {space : Nat → Bool} (hp : Printable space) {sg : List Nat} (hs : Sign sg) :
    sg.filter (accumulates space) = sg := by
  rcases hs with rfl | rfl | rfl
  · rfl
  · simp [acc_other hp (c := 43) (by decide) (by decide) (by decide)]
  · simp [acc_other hp (c := 45) (by decide) (by decide) (by decide)]

theorem filter_exponent {space : Nat → Bool} (hp : Printable space) {x x' : List Nat} (hx : Exponent x x') :
    x.filter (accumulates space) = x' := by
  cases hx with
  | none => rfl
  | some e sg w t he hs hw =>
    have : accumulates space e = true := by
      rcases he with rfl | rfl <;> exact acc_other hp (by decide) (by decide) (by decide)
    simp [filter_digits hp hw, filter_sign hp hs, this]

theorem filter_spaces {space : Nat → Bool} {a : List Nat} (ha : ∀ c ∈ a, space c = true) : a.filter (accumulates space) = [] := by
  rw [List.filter_eq_nil_iff]
  intro c hc
  simp [accumulates, ha c hc]

theorem states_sign {space : Nat → Bool} (hp : Printable space) {sg : List Nat} (hs : Sign sg) :
    ∃ st, states space sg .leftSpace = some st ∧ (st = .leftSpace ∨ st = .sign) := by
  rcases hs with rfl | rfl | rfl
  · exact ⟨_, rfl, by simp⟩
  · exact ⟨.sign, by rw [states_single, (step_char hp _).1 (by simp)]; rfl, by simp⟩
  · exact ⟨.sign, by rw [states_single, (step_char hp _).1 (by simp)]; rfl, by simp⟩

/-- The letters of "inf", "infinity" and "nan". -/
def WordLetter (c : Nat) : Prop := lowerLetter c ∈ [105, 110, 102, 116, 121, 97]

theorem wordLetter_bounds {c : Nat} (h : WordLetter c) : 65 ≤ c ∧ c ≤ 122 ∧ c ≠ 95 ∧ c ≠ 101 ∧ c ≠ 69 := by
  unfold WordLetter lowerLetter at h
  simp at h
  split at h <;> omega

theorem words_letters {w : List Nat} (h : w.map lowerLetter ∈ words) : w ≠ [] ∧ w.length ≤ 8 ∧ ∀ c ∈ w, WordLetter c := by
  have hl : ∀ v ∈ words, v ≠ [] ∧ v.length ≤ 8 ∧ ∀ c ∈ v, c ∈ [105, 110, 102, 116, 121, 97] := by decide
  obtain ⟨h1, h2, h3⟩ := hl _ h
  refine ⟨fun e => h1 (by rw [e]; rfl), by simpa using h2, fun c hc => h3 _ (List.mem_map.2 ⟨c, hc, rfl⟩)⟩

theorem step_letter {space : Nat → Bool} (hp : Printable space) {c : Nat} (h : WordLetter c) {st : FState}
    (hst : st = .leftSpace ∨ st = .sign ∨ st = .identifier) : floatStep space st c = some .identifier := by
  have hb := wordLetter_bounds h
  rw [floatStep, if_neg (by rw [hp c (by omega) (by omega)]; simp), if_neg (by omega), if_neg (by omega), if_neg (by omega),
    if_neg (by omega), if_neg (by omega), if_pos (by omega), if_pos hst]

theorem states_word {space : Nat → Bool} (hp : Printable space) : ∀ (w : List Nat), (∀ c ∈ w, WordLetter c) →
    states space w .identifier = some .identifier
  | [], _ => rfl
  | c :: w, h => by
    rw [states, step_letter hp (h c (List.mem_cons_self ..)) (by simp)]
    exact states_word hp w (fun d hd => h d (List.mem_cons_of_mem _ hd))

theorem takeWhile_all {p : Nat → Bool} : ∀ {l : List Nat}, (∀ c ∈ l, p c = true) → l.takeWhile p = l
  | [], _ => rfl
  | c :: l, h => by
    rw [List.takeWhile_cons, h c (List.mem_cons_self ..), if_pos rfl, takeWhile_all (fun d hd => h d (List.mem_cons_of_mem _ hd))]

/-- C105: every text that Python's `float()` accepts is accepted, and what it stands for is read, up to 48 characters. -/
theorem float_literal {space : Nat → Bool} (hp : Printable space) {s t : List Nat} (h : Spec.Float space s t) :
    toFloat space s = some (t.take 48) := by
  rw [toFloat_eq]
  cases h with
  | number a sg m m' x x' b ha hs hm hx hb =>
    obtain ⟨st1, e1, h1⟩ := states_sign hp hs
    obtain ⟨st2, e2, h2⟩ := states_decimal hp hm st1 h1
    obtain ⟨st3, e3, h3⟩ := states_exponent hp hx st2 h2
    obtain ⟨st4, e4, h4⟩ := (states_spaces b st3 hb).2.1 h3
    have e : states space (a ++ sg ++ m ++ x ++ b) .leftSpace = some st4 := by
      rw [states_append, states_append, states_append, states_append, (states_spaces a .leftSpace ha).1 rfl, Option.bind_some, e1,
        Option.bind_some, e2, Option.bind_some, e3, Option.bind_some, e4]
    rw [e]
    simp only
    rw [if_neg (by rcases h4 with rfl | rfl | rfl | rfl | rfl <;> simp), if_pos h4]
    simp only [List.filter_append, filter_spaces ha, filter_spaces hb, filter_sign hp hs, filter_decimal hp hm, filter_exponent hp hx,
      List.nil_append, List.append_nil]
  | word a sg w b ha hs hw hb =>
    obtain ⟨hne, hlen, hlet⟩ := words_letters hw
    obtain ⟨st1, e1, h1⟩ := states_sign hp hs
    have e2 : states space w st1 = some .identifier := by
      cases w with
      | nil => exact absurd rfl hne
      | cons c w =>
        rw [states, step_letter hp (hlet c (List.mem_cons_self ..)) (by tauto)]
        exact states_word hp w (fun d hd => hlet d (List.mem_cons_of_mem _ hd))
    obtain ⟨st4, e4, h4⟩ := (states_spaces b .identifier hb).2.2 (by simp)
    have e : states space (a ++ sg ++ w ++ b) .leftSpace = some st4 := by
      rw [states_append, states_append, states_append, (states_spaces a .leftSpace ha).1 rfl, Option.bind_some, e1,
        Option.bind_some, e2, Option.bind_some, e4]
    have hf : w.filter (accumulates space) = w := by
      rw [List.filter_eq_self]
      intro c hc
      have := wordLetter_bounds (hlet c hc)
      exact acc_other hp (by omega) (by omega) (by omega)
    have hsl : sg.length ≤ 1 := by rcases hs with rfl | rfl | rfl <;> simp
    have hbuf : ((a ++ sg ++ w ++ b).filter (accumulates space)).take 48 = sg ++ w := by
      simp only [List.filter_append, filter_spaces ha, filter_spaces hb, filter_sign hp hs, hf, List.nil_append, List.append_nil]
      exact List.take_of_length_le (by rw [List.length_append]; omega)
    rw [e]
    simp only
    rw [if_pos h4, hbuf]
    have hsign : bufSign (sg ++ w) = sg := by
      unfold bufSign
      rcases hs with rfl | rfl | rfl
      · rw [if_neg]
        cases w with
        | nil => exact absurd rfl hne
        | cons c w =>
          have := wordLetter_bounds (hlet c (List.mem_cons_self ..))
          simp
          omega
      · simp
      · simp
    have hword : bufWord (sg ++ w) = w.map lowerLetter := by
      unfold bufWord
      rw [hsign, List.drop_left, takeWhile_all]
      intro c hc
      have := wordLetter_bounds (hlet c hc)
      simp
      omega
    rw [hword, hsign, if_pos hw, List.take_of_length_le (by rw [List.length_append, List.length_map]; omega)]

/-! ### proofs: plain texts that are accepted are literals -/

/-- What may stand between the sign and the white space at the end: digits, -/
def IsI (b : List Nat) : Prop := ∃ t, Digits b t
/-- a point behind digits or nothing, -/
def IsP (b : List Nat) : Prop := ∃ w, (w = [] ∨ IsI w) ∧ b = w ++ [46]
/-- digits behind that, -/
def IsF (b : List Nat) : Prop := ∃ w v, (w = [] ∨ IsI w) ∧ IsI v ∧ b = w ++ 46 :: v
/-- one of these, an "e", a sign and digits. -/
def IsX (b : List Nat) : Prop := ∃ m e sg w, (IsI m ∨ IsP m ∨ IsF m) ∧ IsE e ∧ Sign sg ∧ IsI w ∧ b = m ++ e :: (sg ++ w)

/-- What has been read behind the sign in each state. -/
def Core (space : Nat → Bool) : FState → List Nat → Prop
  | .leftSpace, b => b = []
  | .sign, b => b = []
  | .whole, b => IsI b ∨ IsF b ∨ IsX b
  | .underscore, b => ∃ c, (IsI c ∨ IsF c ∨ IsX c) ∧ b = c ++ [95]
  | .decimal, b => IsP b
  | .mantissa, b => IsF b
  | .underscoreMantissa, b => ∃ c, IsF c ∧ b = c ++ [95]
  | .exp, b => ∃ m e, (IsI m ∨ IsP m ∨ IsF m) ∧ IsE e ∧ b = m ++ [e]
  | .expsign, b => ∃ m e g, (IsI m ∨ IsP m ∨ IsF m) ∧ IsE e ∧ (g = 43 ∨ g = 45) ∧ b = m ++ [e, g]
  | .exponent, b => IsX b
  | .underscoreExponent, b => ∃ c, IsX c ∧ b = c ++ [95]
  | .rightSpace, b => ∃ c d, (IsI c ∨ IsP c ∨ IsF c ∨ IsX c) ∧ (∀ x ∈ d, space x = true) ∧ b = c ++ d
  | .identifier, b => b ≠ [] ∧ ∀ x ∈ b, accumulates space x = true ∧ x ≠ 43 ∧ x ≠ 45
  | .identifierRightSpace, b => ∃ c d, (c ≠ [] ∧ ∀ x ∈ c, accumulates space x = true ∧ x ≠ 43 ∧ x ≠ 45) ∧
      (∀ x ∈ d, space x = true) ∧ b = c ++ d

/-- What has been read in each state. -/
def FReads (space : Nat → Bool) (st : FState) (p : List Nat) : Prop :=
  ∃ a sg b, p = a ++ sg ++ b ∧ (∀ c ∈ a, space c = true) ∧ Sign sg ∧ Core space st b ∧ (st = .leftSpace → sg = [])

/-- The part of `Plain` that prefixes have. -/
def Early (s : List Nat) : Prop :=
  (∀ a b, s = a ++ 46 :: b → ∀ c ∈ a, c ≠ 46 ∧ ¬ IsE c) ∧ (∀ a c b, IsE c → s = a ++ c :: b → ∀ d ∈ a, ¬ IsE d)

theorem early_prefix {p q : List Nat} (h : Early (p ++ q)) : Early p :=
  ⟨fun a b e => h.1 a (b ++ q) (by rw [e]; simp), fun a c b hc e => h.2 a c (b ++ q) hc (by rw [e]; simp)⟩

theorem isI_one {d : Nat} (h : IsDigit d) : IsI [d] := ⟨[d], .one d h⟩
theorem isI_more {b : List Nat} {d : Nat} (hb : IsI b) (h : IsDigit d) : IsI (b ++ [d]) :=
  hb.elim fun t ht => ⟨t ++ [d], .more b t d ht h⟩
theorem isI_under {b : List Nat} {d : Nat} (hb : IsI b) (h : IsDigit d) : IsI (b ++ [95] ++ [d]) :=
  hb.elim fun t ht => ⟨t ++ [d], by rw [List.append_assoc]; exact .under b t d ht h⟩
theorem isF_more {b : List Nat} {d : Nat} (hb : IsF b) (h : IsDigit d) : IsF (b ++ [d]) := by
  obtain ⟨w, v, hw, hv, rfl⟩ := hb
  exact ⟨w, v ++ [d], hw, isI_more hv h, by simp⟩
theorem isF_under {b : List Nat} {d : Nat} (hb : IsF b) (h : IsDigit d) : IsF (b ++ [95] ++ [d]) := by
  obtain ⟨w, v, hw, hv, rfl⟩ := hb
  exact ⟨w, v ++ [95] ++ [d], hw, isI_under hv h, by simp⟩
theorem isX_more {b : List Nat} {d : Nat} (hb : IsX b) (h : IsDigit d) : IsX (b ++ [d]) := by
  obtain ⟨m, e, sg, w, hm, he, hs, hw, rfl⟩ := hb
  exact ⟨m, e, sg, w ++ [d], hm, he, hs, isI_more hw h, by simp⟩
theorem isX_under {b : List Nat} {d : Nat} (hb : IsX b) (h : IsDigit d) : IsX (b ++ [95] ++ [d]) := by
  obtain ⟨m, e, sg, w, hm, he, hs, hw, rfl⟩ := hb
  exact ⟨m, e, sg, w ++ [95] ++ [d], hm, he, hs, isI_under hw h, by simp⟩

theorem core_step {space : Nat → Bool} {st st' : FState} {b q : List Nat} {c : Nat} (hc : Core space st b)
    (hs : floatStep space st c = some st') (he : Early (q ++ b ++ [c])) (hn1 : st ≠ .leftSpace ∨ ¬ (c = 43 ∨ c = 45))
    (hn2 : st ≠ .leftSpace ∨ space c = false) : Core space st' (b ++ [c]) := by
  unfold floatStep at hs
  by_cases h1 : space c = true
  · rw [if_pos h1] at hs
    cases st <;> simp at hs <;> subst hs
    · simp [h1] at hn2
    · exact ⟨b, [c], by rcases hc with hc | hc | hc <;> simp [hc], by simpa using h1, rfl⟩
    · exact ⟨b, [c], Or.inr (Or.inl hc), by simpa using h1, rfl⟩
    · exact ⟨b, [c], Or.inr (Or.inr (Or.inl hc)), by simpa using h1, rfl⟩
    · exact ⟨b, [c], Or.inr (Or.inr (Or.inr hc)), by simpa using h1, rfl⟩
    · obtain ⟨u, v, hu, hv, rfl⟩ := hc
      exact ⟨u, v ++ [c], hu, by intro x hx; rcases List.mem_append.1 hx with hx | hx; exact hv x hx; rw [List.mem_singleton.1 hx]; exact h1,
        by simp⟩
    · exact ⟨b, [c], hc, by simpa using h1, rfl⟩
    · obtain ⟨u, v, hu, hv, rfl⟩ := hc
      exact ⟨u, v ++ [c], hu, by intro x hx; rcases List.mem_append.1 hx with hx | hx; exact hv x hx; rw [List.mem_singleton.1 hx]; exact h1,
        by simp⟩
  rw [if_neg h1] at hs
  by_cases h2 : c = 43 ∨ c = 45
  · rw [if_pos h2] at hs
    cases st <;> simp at hs <;> subst hs
    · exact absurd h2 (by simpa using hn1)
    · obtain ⟨m, e, hm, he', rfl⟩ := hc
      exact ⟨m, e, c, hm, he', h2, by simp⟩
  rw [if_neg h2] at hs
  by_cases h3 : c < 128 ∧ c ≥ 48 ∧ c ≤ 57
  · rw [if_pos h3] at hs
    have hd : IsDigit c := ⟨h3.2.1, h3.2.2⟩
    cases st <;> simp at hs <;> subst hs
    · rw [show b = [] from hc]
      exact Or.inl (isI_one hd)
    · rw [show b = [] from hc]
      exact Or.inl (isI_one hd)
    · rcases hc with hc | hc | hc
      · exact Or.inl (isI_more hc hd)
      · exact Or.inr (Or.inl (isF_more hc hd))
      · exact Or.inr (Or.inr (isX_more hc hd))
    · obtain ⟨u, hu, rfl⟩ := hc
      rcases hu with hu | hu | hu
      · exact Or.inl (isI_under hu hd)
      · exact Or.inr (Or.inl (isF_under hu hd))
      · exact Or.inr (Or.inr (isX_under hu hd))
    · obtain ⟨w, hw, rfl⟩ := hc
      exact ⟨w, [c], hw, isI_one hd, by simp⟩
    · exact Or.inr (Or.inl (isF_more hc hd))
    · obtain ⟨u, hu, rfl⟩ := hc
      exact isF_under hu hd
    · obtain ⟨m, e, hm, he', rfl⟩ := hc
      exact ⟨m, e, [], [c], hm, he', Or.inl rfl, isI_one hd, by simp⟩
    · obtain ⟨m, e, g, hm, he', hg, rfl⟩ := hc
      refine Or.inr (Or.inr ⟨m, e, [g], [c], hm, he', ?_, isI_one hd, by simp⟩)
      rcases hg with rfl | rfl
      · exact Or.inr (Or.inl rfl)
      · exact Or.inr (Or.inr rfl)
    · exact Or.inr (Or.inr (isX_more hc hd))
    · obtain ⟨u, hu, rfl⟩ := hc
      exact isX_under hu hd
  rw [if_neg h3] at hs
  by_cases h4 : c = 46
  · rw [if_pos h4] at hs
    subst h4
    have hno := he.1 (q ++ b) [] rfl
    cases st <;> simp at hs <;> subst hs
    · rw [show b = [] from hc]
      exact ⟨[], Or.inl rfl, rfl⟩
    · rw [show b = [] from hc]
      exact ⟨[], Or.inl rfl, rfl⟩
    · rcases hc with hc | hc | hc
      · exact ⟨b, Or.inr hc, rfl⟩
      · obtain ⟨w, v, _, _, rfl⟩ := hc
        exact absurd rfl (hno 46 (by simp)).1
      · obtain ⟨m, e, sg, w, _, he', _, _, rfl⟩ := hc
        exact absurd he' (hno e (by simp)).2
  rw [if_neg h4] at hs
  by_cases h5 : c = 101 ∨ c = 69
  · rw [if_pos h5] at hs
    have hno := he.2 (q ++ b) c [] h5 rfl
    cases st <;> simp at hs <;> subst hs
    · refine ⟨b, c, ?_, h5, rfl⟩
      rcases hc with hc | hc | hc
      · exact Or.inl hc
      · exact Or.inr (Or.inr hc)
      · obtain ⟨m, e, sg, w, _, he', _, _, rfl⟩ := hc
        exact absurd he' (hno e (by simp))
    · exact ⟨b, c, Or.inr (Or.inl hc), h5, rfl⟩
    · exact ⟨b, c, Or.inr (Or.inr hc), h5, rfl⟩
  rw [if_neg h5] at hs
  by_cases h6 : c = 95
  · rw [if_pos h6] at hs
    subst h6
    cases st <;> simp at hs <;> subst hs
    · exact ⟨b, hc, rfl⟩
    · exact ⟨b, hc, rfl⟩
    · exact ⟨b, hc, rfl⟩
  rw [if_neg h6] at hs
  split at hs
  · have hacc : accumulates space c = true := by simp [accumulates, h1, h6]
    have hw : accumulates space c = true ∧ c ≠ 43 ∧ c ≠ 45 := ⟨hacc, fun h => h2 (Or.inl h), fun h => h2 (Or.inr h)⟩
    cases st <;> simp at hs <;> subst hs
    · rw [show b = [] from hc]
      exact ⟨by simp, by simpa using hw⟩
    · rw [show b = [] from hc]
      exact ⟨by simp, by simpa using hw⟩
    · refine ⟨by simp, fun x hx => ?_⟩
      rcases List.mem_append.1 hx with hx | hx
      · exact hc.2 x hx
      · rw [List.mem_singleton.1 hx]
        exact hw
  · simp at hs

theorem reads_states {space : Nat → Bool} : ∀ (n : Nat) (s : List Nat) (st : FState), s.length = n → Early s →
    states space s .leftSpace = some st → FReads space st s
  | 0, s, st, hn, _, h => by
    rw [List.length_eq_zero_iff.1 hn] at h ⊢
    cases h
    exact ⟨[], [], [], rfl, by simp, Or.inl rfl, rfl, fun _ => rfl⟩
  | n + 1, s, st, hn, he, h => by
    obtain ⟨p, c, rfl⟩ : ∃ p c, s = p ++ [c] := by
      rcases List.eq_nil_or_concat s with rfl | ⟨p, c, e⟩
      · simp at hn
      · exact ⟨p, c, by rw [e, List.concat_eq_append]⟩
    rw [states_snoc] at h
    cases hp : states space p .leftSpace with
    | none => rw [hp] at h; simp at h
    | some st0 =>
      rw [hp, Option.bind_some] at h
      obtain ⟨a, sg, b, e, ha, hs, hc, hl⟩ := reads_states n p st0 (by simpa using hn) (early_prefix he) hp
      by_cases hst : st0 = .leftSpace
      · subst hst
        have hb : b = [] := hc
        rw [hl rfl, hb] at e
        simp only [List.append_nil] at e
        subst e
        by_cases h1 : space c = true
        · rw [(step_space h1).1 rfl] at h
          cases h
          refine ⟨p ++ [c], [], [], by simp, ?_, Or.inl rfl, rfl, fun _ => rfl⟩
          intro x hx
          rcases List.mem_append.1 hx with hx | hx
          · exact ha x hx
          · rw [List.mem_singleton.1 hx]
            exact h1
        · by_cases h2 : c = 43 ∨ c = 45
          · have : st = .sign := by
              unfold floatStep at h
              rw [if_neg h1, if_pos h2] at h
              simpa using h.symm
            subst this
            refine ⟨p, [c], [], by simp, ha, ?_, rfl, fun h => by simp at h⟩
            rcases h2 with rfl | rfl
            · exact Or.inr (Or.inl rfl)
            · exact Or.inr (Or.inr rfl)
          · refine ⟨p, [], [c], by simp, ha, Or.inl rfl, ?_, fun _ => rfl⟩
            exact core_step (q := p) (b := []) (st := .leftSpace) rfl h (by simpa using he) (Or.inr h2) (Or.inr (by simpa using h1))
      · refine ⟨a, sg, b ++ [c], by rw [e]; simp, ha, hs, ?_, ?_⟩
        · exact core_step (q := a ++ sg) hc h (by rw [e] at he; exact he) (Or.inl hst) (Or.inl hst)
        · rintro rfl
          exfalso
          unfold floatStep at h
          revert h
          repeat' split
          all_goals simp_all

theorem takeWhile_noNul {l : List Nat} (h : 0 ∉ l) : l.takeWhile (· ≠ 0) = l :=
  takeWhile_all (fun c hc => by simp; rintro rfl; exact h hc)

/-- Digits with a point, or the point alone. -/
theorem decimal_or_point {m : List Nat} (h : IsI m ∨ IsP m ∨ IsF m) : (∃ m', Decimal m m') ∨ m = [46] := by
  rcases h with ⟨t, h⟩ | ⟨w, hw, rfl⟩ | ⟨w, v, hw, ⟨u, hv⟩, rfl⟩
  · exact Or.inl ⟨t, .whole m t h⟩
  · rcases hw with rfl | ⟨t, hw⟩
    · exact Or.inr rfl
    · exact Or.inl ⟨_, .point w t hw⟩
  · rcases hw with rfl | ⟨t, hw⟩
    · exact Or.inl ⟨_, .fraction v u hv⟩
    · exact Or.inl ⟨t ++ [46] ++ u, by rw [show w ++ 46 :: v = w ++ [46] ++ v by simp]; exact .both w t v u hw hv⟩

theorem point_has_digit {space : Nat → Bool} (hp : Printable space) {a sg x d : List Nat} (ha : ∀ c ∈ a, space c = true) (hs : Sign sg)
    (hx : x = [] ∨ ∃ e y, IsE e ∧ x = e :: y) (hd : ∀ c ∈ d, space c = true)
    (h : Spec.Plain (a ++ sg ++ [46] ++ x ++ d)) : False := by
  have nosp : ∀ c, space c = true → ¬ IsDigit c := by
    rintro c hc ⟨h1, h2⟩
    rw [hp c (by omega) (by omega)] at hc
    simp at hc
  rcases h.digit (a ++ sg) (x ++ d) (by simp) with ⟨c, hc, hdig⟩ | ⟨c, hc, hdig⟩
  · have hm := List.mem_of_getLast? hc
    rcases List.mem_append.1 hm with hm | hm
    · exact nosp c (ha c hm) hdig
    · unfold IsDigit at hdig
      rcases hs with rfl | rfl | rfl <;> simp at hm <;> omega
  · rcases hx with rfl | ⟨e, y, he, rfl⟩
    · exact nosp c (hd c (List.mem_of_mem_head? hc)) hdig
    · simp at hc
      subst hc
      unfold IsDigit at hdig
      rcases he with rfl | rfl <;> omega

theorem body_literal {space : Nat → Bool} (hp : Printable space) {a sg c d : List Nat} (ha : ∀ c ∈ a, space c = true) (hs : Sign sg)
    (hc : IsI c ∨ IsP c ∨ IsF c ∨ IsX c) (hd : ∀ x ∈ d, space x = true) (h : Spec.Plain (a ++ sg ++ c ++ d)) :
    ∃ t, Spec.Float space (a ++ sg ++ c ++ d) t := by
  have base : IsI c ∨ IsP c ∨ IsF c → ∃ t, Spec.Float space (a ++ sg ++ c ++ d) t := by
    intro hc
    rcases decimal_or_point hc with ⟨m', hm⟩ | rfl
    · exact ⟨_, by have := Spec.Float.number (space := space) a sg c m' [] [] d ha hs hm .none hd; simpa using this⟩
    · exact (point_has_digit hp (x := []) ha hs (Or.inl rfl) hd (by simpa using h)).elim
  rcases hc with hc | hc | hc | hc
  · exact base (Or.inl hc)
  · exact base (Or.inr (Or.inl hc))
  · exact base (Or.inr (Or.inr hc))
  · obtain ⟨m, e, g, w, hm, he, hg, ⟨t, hw⟩, rfl⟩ := hc
    rcases decimal_or_point hm with ⟨m', hm⟩ | rfl
    · have := Spec.Float.number (space := space) a sg m m' _ _ d ha hs hm (.some e g w t he hg hw) hd
      exact ⟨_, by simpa using this⟩
    · exact (point_has_digit hp (x := e :: (g ++ w)) ha hs (Or.inr ⟨e, _, he, rfl⟩) hd (by simpa using h)).elim

theorem word_literal {space : Nat → Bool} (hp : Printable space) {a sg c d : List Nat} (ha : ∀ c ∈ a, space c = true) (hs : Sign sg)
    (hc : c ≠ [] ∧ ∀ x ∈ c, accumulates space x = true ∧ x ≠ 43 ∧ x ≠ 45) (hd : ∀ x ∈ d, space x = true)
    (h0 : 0 ∉ a ++ sg ++ c ++ d) (hw : bufWord (((a ++ sg ++ c ++ d).filter (accumulates space)).take 48) ∈ words) :
    ∃ t, Spec.Float space (a ++ sg ++ c ++ d) t := by
  have hf : c.filter (accumulates space) = c := List.filter_eq_self.2 (fun x hx => (hc.2 x hx).1)
  simp only [List.filter_append, filter_spaces ha, filter_spaces hd, filter_sign hp hs, hf, List.nil_append, List.append_nil] at hw
  have hsl : sg.length ≤ 1 := by rcases hs with rfl | rfl | rfl <;> simp
  have hbuf : (sg ++ c).take 48 = sg ++ c.take (48 - sg.length) := by
    rw [List.take_append, List.take_of_length_le (by omega)]
  have hsign : bufSign (sg ++ c.take (48 - sg.length)) = sg := by
    unfold bufSign
    rcases hs with rfl | rfl | rfl
    · rw [if_neg]
      obtain ⟨x, y, e⟩ := List.exists_cons_of_ne_nil hc.1
      have := hc.2 x (by rw [e]; simp)
      rw [e]
      simp
      exact this.2
    · simp
    · simp
  rw [hbuf, bufWord, hsign, List.drop_left, takeWhile_noNul (fun h => h0 (by simp [List.mem_of_mem_take h]))] at hw
  have hlen := (words_letters hw).2.1
  rw [List.length_take] at hlen
  rw [List.take_of_length_le (by omega)] at hw
  exact ⟨_, .word a sg c d ha hs hw hd⟩

/-- C105: a plain text is accepted exactly if Python accepts it. -/
theorem float_plain_partial {space : Nat → Bool} (hp : Printable space) {s : List Nat} (h : Spec.Plain s) :
    (∃ t, toFloat space s = some t) ↔ ∃ t, Spec.Float space s t := by
  constructor
  · rintro ⟨t, ht⟩
    rw [toFloat_eq] at ht
    cases hst : states space s .leftSpace with
    | none => rw [hst] at ht; simp at ht
    | some st =>
      rw [hst] at ht
      simp only at ht
      obtain ⟨a, sg, b, rfl, ha, hs, hc, _⟩ := reads_states _ s st rfl ⟨h.point, h.exponent⟩ hst
      have simple : IsI b ∨ IsP b ∨ IsF b ∨ IsX b → ∃ t, Spec.Float space (a ++ sg ++ b) t := fun hb => by
        have := body_literal hp (d := []) ha hs hb (by simp) (by simpa using h)
        simpa using this
      cases st <;> simp at ht
      · exact simple (by rcases hc with hc | hc | hc <;> simp [hc])
      · exact simple (Or.inr (Or.inl hc))
      · exact simple (Or.inr (Or.inr (Or.inl hc)))
      · exact simple (Or.inr (Or.inr (Or.inr hc)))
      · obtain ⟨c, d, hc, hd, rfl⟩ := hc
        rw [← List.append_assoc]
        exact body_literal hp ha hs hc hd (by simpa using h)
      · have := word_literal hp (d := []) ha hs hc (by simp) (by simpa using h.noNul) (by simpa using ht.1)
        simpa using this
      · obtain ⟨c, d, hc, hd, rfl⟩ := hc
        rw [← List.append_assoc]
        exact word_literal hp ha hs hc hd (by simpa using h.noNul) (by simpa using ht.1)
  · rintro ⟨t, ht⟩
    exact ⟨_, float_literal hp ht⟩

/-- "-1.5" is plain and a literal. -/
example : Spec.Plain [45, 49, 46, 53] ∧ Spec.Float (· == 32) [45, 49, 46, 53] [45, 49, 46, 53] := by
  refine ⟨⟨?_, ?_, ?_, by decide⟩, ?_⟩
  · rintro a b e c hc
    rcases a with _ | ⟨x, _ | ⟨y, _ | ⟨z, _ | ⟨u, a⟩⟩⟩⟩ <;> simp at e <;> simp_all [IsE]
    omega
  · rintro a c b hc e
    rcases a with _ | ⟨x, _ | ⟨y, _ | ⟨z, _ | ⟨u, a⟩⟩⟩⟩ <;> simp at e <;> obtain ⟨h, rest⟩ := e <;> simp_all [IsE] <;>
      omega
  · rintro a b e
    rcases a with _ | ⟨x, _ | ⟨y, _ | ⟨z, _ | ⟨u, a⟩⟩⟩⟩ <;> simp at e <;> simp_all [IsDigit]
    omega
  · exact .number [] [45] _ _ [] [] [] (by simp) (Or.inr (Or.inr rfl))
      (.both [49] [49] [53] [53] (.one 49 (by decide)) (.one 53 (by decide))) .none (by simp)

/-- " 1_0.5e-3 " and "-Inf" are read; "1.5x", "1__0" and "e5" are not. -/
example : toFloat (· == 32) [32, 49, 95, 48, 46, 53, 101, 45, 51, 32] = some [49, 48, 46, 53, 101, 45, 51] ∧
    toFloat (· == 32) [45, 73, 110, 102] = some [45, 105, 110, 102] ∧ toFloat (· == 32) [49, 46, 53, 120] = none ∧
    toFloat (· == 32) [49, 95, 95, 48] = none ∧ toFloat (· == 32) [101, 53] = none := by decide +kernel

/-! ### where the code differs -/

theorem states_refuses {space : Nat → Bool} {c : Nat} (h : ∀ st, floatStep space st c = none) : ∀ (s : List Nat) (st : FState), c ∈ s →
    states space s st = none
  | d :: s, st, hm => by
    rw [states]
    by_cases hd : c = d
    · rw [← hd, h st]
    · cases floatStep space st d with
      | none => rfl
      | some st' => exact states_refuses h s st' ((List.mem_cons.1 hm).resolve_left hd)

/-- The code violates C105 for strings: a text with a character beyond ASCII that is no white space is refused; Python takes the
digits of all scripts. -/
theorem other_digits_refused {space : Nat → Bool} {s : List Nat} {c : Nat} (hc : c ∈ s) (h : 128 ≤ c) (hs : space c = false) :
    toFloat space s = none := by
  have hst : ∀ st, floatStep space st c = none := by
    intro st
    rw [floatStep, if_neg (by simp [hs]), if_neg (by omega), if_neg (by omega), if_neg (by omega), if_neg (by omega), if_neg (by omega),
      if_neg (by omega)]
  rw [toFloat_eq, states_refuses hst s _ hc]

theorem digits_bounds {w t : List Nat} (h : Digits w t) : ∀ c ∈ w, IsDigit c ∨ c = 95 := by
  induction h with
  | one d h => simpa using Or.inl h
  | more w t d hw h ih =>
    intro c hc
    rcases List.mem_append.1 hc with hc | hc
    · exact ih c hc
    · rw [List.mem_singleton.1 hc]; exact Or.inl h
  | under w t d hw h ih =>
    intro c hc
    rcases List.mem_append.1 hc with hc | hc
    · exact ih c hc
    · rcases List.mem_cons.1 hc with rfl | hc
      · exact Or.inr rfl
      · rw [List.mem_singleton.1 hc]; exact Or.inl h

theorem digits_exists {w t : List Nat} (h : Digits w t) : ∃ c ∈ w, IsDigit c := by
  cases h with
  | one d h => exact ⟨d, by simp, h⟩
  | more w t d hw h => exact ⟨d, by simp, h⟩
  | under w t d hw h => exact ⟨d, by simp, h⟩

theorem count_points {l : List Nat} (h : ∀ c ∈ l, c ≠ 46) : l.count 46 = 0 :=
  List.count_eq_zero.2 (fun hm => h 46 hm rfl)

/-- What every literal is like: one point at most, a character above "/", and no control characters but white space. -/
theorem literal_shape {space : Nat → Bool} (hp : Printable space) {s t : List Nat} (h : Spec.Float space s t) :
    s.count 46 ≤ 1 ∧ (∃ c ∈ s, 48 ≤ c) ∧ ∀ c ∈ s, space c = true ∨ 43 ≤ c := by
  have hsp : ∀ {a : List Nat}, (∀ c ∈ a, space c = true) → a.count 46 = 0 := by
    intro a ha
    refine count_points (fun c hc h => ?_)
    have := ha c hc
    rw [h, hp 46 (by decide) (by decide)] at this
    simp at this
  have hsg : ∀ {g : List Nat}, Sign g → g.count 46 = 0 ∧ ∀ c ∈ g, 43 ≤ c := by
    intro g hg
    rcases hg with rfl | rfl | rfl <;> decide
  have hdg : ∀ {w u : List Nat}, Digits w u → w.count 46 = 0 ∧ ∀ c ∈ w, 43 ≤ c := by
    intro w u hw
    have := digits_bounds hw
    unfold IsDigit at this
    exact ⟨count_points (fun c hc => by have := this c hc; omega), fun c hc => by have := this c hc; omega⟩
  cases h with
  | number a sg m m' x x' b ha hs hm hx hb =>
    have hm' : m.count 46 ≤ 1 ∧ (∃ c ∈ m, 48 ≤ c) ∧ ∀ c ∈ m, 43 ≤ c := by
      cases hm with
      | whole _ _ hw =>
        obtain ⟨c, hc, h48⟩ := digits_exists hw
        exact ⟨by rw [(hdg hw).1]; omega, ⟨c, hc, h48.1⟩, (hdg hw).2⟩
      | point w t hw =>
        obtain ⟨c, hc, h48⟩ := digits_exists hw
        refine ⟨by rw [List.count_append, (hdg hw).1]; decide, ⟨c, by simp [hc], h48.1⟩, fun d hd => ?_⟩
        rcases List.mem_append.1 hd with hd | hd
        · exact (hdg hw).2 d hd
        · rw [List.mem_singleton.1 hd]; decide
      | both w t v u hw hv =>
        obtain ⟨c, hc, h48⟩ := digits_exists hw
        refine ⟨by rw [List.count_append, List.count_append, (hdg hw).1, (hdg hv).1]; decide, ⟨c, by simp [hc], h48.1⟩, fun d hd => ?_⟩
        rcases List.mem_append.1 hd with hd | hd
        · rcases List.mem_append.1 hd with hd | hd
          · exact (hdg hw).2 d hd
          · rw [List.mem_singleton.1 hd]; decide
        · exact (hdg hv).2 d hd
      | fraction v u hv =>
        obtain ⟨c, hc, h48⟩ := digits_exists hv
        refine ⟨by rw [List.count_append, (hdg hv).1]; decide, ⟨c, by simp [hc], h48.1⟩, fun d hd => ?_⟩
        rcases List.mem_append.1 hd with hd | hd
        · rw [List.mem_singleton.1 hd]; decide
        · exact (hdg hv).2 d hd
    have hx' : x.count 46 = 0 ∧ ∀ c ∈ x, 43 ≤ c := by
      cases hx with
      | none => simp
      | some e g w t he hg hw =>
        refine ⟨?_, fun d hd => ?_⟩
        · rw [List.count_append, List.count_append, (hsg hg).1, (hdg hw).1]
          rcases he with rfl | rfl <;> decide
        · rcases List.mem_append.1 hd with hd | hd
          · rcases List.mem_append.1 hd with hd | hd
            · rw [List.mem_singleton.1 hd]
              rcases he with rfl | rfl <;> decide
            · exact (hsg hg).2 d hd
          · exact (hdg hw).2 d hd
    refine ⟨?_, ?_, ?_⟩
    · simp only [List.count_append, hsp ha, (hsg hs).1, hx'.1, hsp hb]
      omega
    · obtain ⟨c, hc, h48⟩ := hm'.2.1
      exact ⟨c, by simp [hc], h48⟩
    · intro c hc
      simp only [List.mem_append] at hc
      rcases hc with (((hc | hc) | hc) | hc) | hc
      · exact Or.inl (ha c hc)
      · exact Or.inr ((hsg hs).2 c hc)
      · exact Or.inr (hm'.2.2 c hc)
      · exact Or.inr (hx'.2 c hc)
      · exact Or.inl (hb c hc)
  | word a sg w b ha hs hw hb =>
    obtain ⟨hne, _, hlet⟩ := words_letters hw
    have hbd := fun c hc => wordLetter_bounds (hlet c hc)
    refine ⟨?_, ?_, ?_⟩
    · simp only [List.count_append, hsp ha, (hsg hs).1, hsp hb, count_points (fun c hc => by have := hbd c hc; omega)]
      omega
    · obtain ⟨c, y, e⟩ := List.exists_cons_of_ne_nil hne
      have := hbd c (by rw [e]; simp)
      exact ⟨c, by rw [e]; simp, by omega⟩
    · intro c hc
      simp only [List.mem_append] at hc
      rcases hc with ((hc | hc) | hc) | hc
      · exact Or.inl (ha c hc)
      · exact Or.inr ((hsg hs).2 c hc)
      · have := hbd c hc
        exact Or.inr (by omega)
      · exact Or.inl (hb c hc)

/-- The code violates C105: with two points, `float()` raises in Python; compiled code accepts every text where two digits stand between
the points, and gives `strtod` all of it, which reads the number before the second point. -/
theorem two_points_accepted {space : Nat → Bool} (hp : Printable space) {w t v u : List Nat} {d e : Nat} (hw : Digits w t)
    (hd : IsDigit d) (he : IsDigit e) (hv : Digits v u) :
    toFloat space (w ++ [46, d, e, 46] ++ v) = some ((t ++ [46, d, e, 46] ++ u).take 48) ∧
    ¬ ∃ r, Spec.Float space (w ++ [46, d, e, 46] ++ v) r := by
  constructor
  · rw [toFloat_eq]
    have hpt : ∀ st, st = .leftSpace ∨ st = .sign ∨ st = .whole → floatStep space st 46 = some .decimal := by
      intro st h
      rw [(step_char hp st).2.1 rfl, if_pos h]
    have e1 : states space (w ++ [46, d, e, 46]) .leftSpace = some .decimal := by
      rw [states_append, (states_digits hp hw).1 .leftSpace (by simp), Option.bind_some, states, hpt _ (by simp)]
      simp only
      rw [states, step_fdigit hp hd]
      simp only [reduceCtorEq, if_true]
      rw [states, step_fdigit hp he]
      simp only [reduceCtorEq, if_false, or_self]
      rw [states, hpt _ (by simp)]
      rfl
    have hbuf : (w ++ [46, d, e, 46] ++ v).filter (accumulates space) = t ++ [46, d, e, 46] ++ u := by
      have h46 : accumulates space 46 = true := acc_other hp (by decide) (by decide) (by decide)
      simp [filter_digits hp hw, filter_digits hp hv, acc_digit hp hd, acc_digit hp he, h46]
    rw [states_append, e1, Option.bind_some, hbuf]
    rcases (states_digits hp hv).2.1 with h | h <;> rw [h] <;> simp
  · rintro ⟨r, h⟩
    have := (literal_shape hp h).1
    simp only [List.count_append] at this
    have h2 : 2 ≤ List.count 46 [46, d, e, 46] := by
      simp only [List.count_cons]
      simp
      omega
    omega

/-- "10.20.30" is accepted. -/
example {space : Nat → Bool} (hp : Printable space) :
    toFloat space [49, 48, 46, 50, 48, 46, 51, 48] = some [49, 48, 46, 50, 48, 46, 51, 48] :=
  (two_points_accepted hp (w := [49, 48]) (t := [49, 48]) (v := [51, 48]) (u := [51, 48]) (d := 50) (e := 48)
    (.more [49] [49] 48 (.one 49 (by decide)) (by decide)) (by decide) (by decide)
    (.more [51] [51] 48 (.one 51 (by decide)) (by decide))).1

/-- The code violates C105: a point without digits is accepted, alone and before an exponent. -/
theorem bare_point_accepted {space : Nat → Bool} (hp : Printable space) :
    toFloat space [46] = some [46] ∧ ¬ ∃ t, Spec.Float space [46] t := by
  constructor
  · rw [toFloat_eq, states_single, (step_char hp _).2.1 rfl]
    have h46 : accumulates space 46 = true := acc_other hp (by decide) (by decide) (by decide)
    simp [h46]
  · rintro ⟨t, h⟩
    obtain ⟨c, hc, h48⟩ := (literal_shape hp h).2.1
    simp at hc
    omega

theorem floatLoop_congr {f g : Nat → Bool} : ∀ {s : List Nat} {st : FState} {buf : List Nat}, (∀ c ∈ s, f c = g c) →
    floatLoop f s st buf = floatLoop g s st buf
  | [], _, _, _ => rfl
  | c :: t, st, buf, h => by
    have hc := h c (List.mem_cons_self ..)
    have hs : floatStep f st c = floatStep g st c := by rw [floatStep, floatStep, hc]
    have ha : accumulates f c = accumulates g c := by rw [accumulates, accumulates, hc]
    rw [floatLoop, floatLoop, hs, ha]
    cases floatStep g st c with
    | none => rfl
    | some st' => exact floatLoop_congr (fun d hd => h d (List.mem_cons_of_mem _ hd))

/-- The code violates C105: what follows a NUL is ignored, if "inf" or "nan" stand before it. -/
theorem nul_accepted {space : Nat → Bool} (hp : Printable space) (h0 : space 0 = false) :
    toFloat space [105, 110, 102, 0, 120] = some [105, 110, 102] ∧ ¬ ∃ t, Spec.Float space [105, 110, 102, 0, 120] t := by
  constructor
  · have hl : ∀ c ∈ [105, 110, 102, 0, 120], space c = false := by
      intro c hc
      simp at hc
      rcases hc with rfl | rfl | rfl | rfl | rfl
      · exact hp _ (by decide) (by decide)
      · exact hp _ (by decide) (by decide)
      · exact hp _ (by decide) (by decide)
      · exact h0
      · exact hp _ (by decide) (by decide)
    have e : toFloat space [105, 110, 102, 0, 120] = toFloat (fun _ => false) [105, 110, 102, 0, 120] := by
      rw [toFloat, floatLoop_congr (fun c hc => hl c hc)]
      rfl
    rw [e]
    decide +kernel
  · rintro ⟨t, h⟩
    rcases (literal_shape hp h).2.2 0 (by simp) with h | h
    · rw [h0] at h; simp at h
    · omega

/-- The code violates C105: of a literal of more than 48 characters only 48 are read; a whole number loses the digits behind. -/
theorem long_literal_cut {space : Nat → Bool} (hp : Printable space) {s t : List Nat} (h : Spec.Float space s t) (hl : 48 < t.length) :
    toFloat space s = some (t.take 48) ∧ toFloat space s ≠ some t := by
  refine ⟨float_literal hp h, ?_⟩
  rw [float_literal hp h]
  intro e
  have := congrArg List.length (Option.some.inj e)
  rw [List.length_take] at this
  omega

theorem zeros_digits : ∀ n, Digits (49 :: List.replicate n 48) (49 :: List.replicate n 48)
  | 0 => .one 49 (by decide)
  | n + 1 => by
    rw [List.replicate_succ', ← List.cons_append]
    exact .more _ _ 48 (zeros_digits n) (by decide)

/-- `float("1" + "0" * n)` is the same for all `n` from 47 on. -/
example {space : Nat → Bool} (hp : Printable space) (n : Nat) (h : 47 ≤ n) :
    toFloat space (49 :: List.replicate n 48) = some (49 :: List.replicate 47 48) := by
  have hf := Spec.Float.number (space := space) [] [] _ _ [] [] [] (by simp) (Or.inl rfl) (.whole _ _ (zeros_digits n)) .none (by simp)
  simp only [List.nil_append, List.append_nil] at hf
  rw [float_literal hp hf, List.take_succ_cons, List.take_replicate, Nat.min_eq_left h]

end Verif.Str
