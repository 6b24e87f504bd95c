import Verif.Typed.DamagedType
import Verif.Typed.DamagedErr
/-
C111: whatever bytes are read, the result is a value of the type or an exception; where that is so and where it is not.
-/
namespace Verif.Typed

open Verif.Wire (Bytes Reg InRange readRegister readVarint readHeader readVarintObject readBytes)

/-- The default values: they are made without reading, are of their types, and nothing that was there changes. -/
structure DefaultsOk (env : Nat → Ty) (R : Ty) (Q : Ty → Prop) (dflt : Ty → St → Except Err (Val × St)) : Prop where
  quiet : ∀ {t st v st1}, dflt t st = .ok (v, st1) → st1.bytes = st.bytes ∧ st1.cache = st.cache ∧ st.heap.length ≤ st1.heap.length
  typed : ∀ {t st v st1}, Q t → ObjectsOk env (fun _ => R) st.heap → dflt t st = .ok (v, st1) →
    IsA env (fun _ => R) st1.heap.length t v ∧ ObjectsOk env (fun _ => R) st1.heap

theorem DefaultsOk.defaults {env : Nat → Ty} {R : Ty} {Q : Ty → Prop} {dflt : Ty → St → Except Err (Val × St)} (h : DefaultsOk env R Q dflt) :
    Defaults env R Q dflt := by
  intro t st v st1 hq hJ hd
  obtain ⟨h1, h2, h3⟩ := h.quiet hd
  obtain ⟨h4, h5⟩ := h.typed hq hJ.objects hd
  exact ⟨⟨by rw [h1]; exact hJ.bytes, fun i a hi => lt_of_lt_of_le (hJ.cache i a (by rw [← h2]; exact hi)) h3, h5⟩, h3, h4⟩

/-- C111, for the types that are `Sturdy`: whatever the bytes are, if something is read it is a value of the type, every object that was
made contains what its type says, and what is left is an end of the stream.  Missing: the other types, of which `mixed_lists` to
`twice_in_a_set` show that the claim is false. -/
theorem read_is_typed_partial {env : Nat → Ty} {R : Ty} {Q : Ty → Prop} (hQ : Sturdy env R Q) {dflt : Ty → St → Except Err (Val × St)}
    (hd : DefaultsOk env R Q dflt) (depth : Nat) (t : Ty) (ht : Q t) (bytes : Bytes) (hb : ∀ b ∈ bytes, b < 256) (v : Val) (st : St)
    (h : deserialize env dflt depth t bytes = .ok (v, st)) :
    IsA env (fun _ => R) st.heap.length t v ∧ ObjectsOk env (fun _ => R) st.heap ∧ st.bytes <:+ bytes := by
  simp only [deserialize] at h
  split at h
  · cases h
  · rename_i w bs h1
    have hs := (readHeader_left h1).1
    have hJ : J env R ⟨bs, [], []⟩ :=
      ⟨fun b hm => hb b (hs.mem hm), fun i a hi => by simp at hi, ⟨fun a vs e ha => by simp at ha, fun a vs k w ha => by simp at ha⟩⟩
    obtain ⟨h2, -, h3⟩ := deser_reads hQ hd.defaults depth t w _ v st ht hJ h
    exact ⟨h3, h2.objects, (deser_left env (fun _ _ _ _ h => (hd.quiet h).1) depth _ _ _ _ _ h).trans hs⟩

/-! ### Reading ends -/

theorem deserIntsLoop_no_fuel : ∀ (k n : Nat) (bs : Bytes), bs.length < k → deserIntsLoop k n bs ≠ .error .fuel := by
  intro k
  induction k with
  | zero => intro n bs h; omega
  | succ k ih =>
    intro n bs hk h
    cases n with
    | zero => simp [deserIntsLoop] at h
    | succ n =>
      simp only [deserIntsLoop] at h
      split at h
      · rename_i h1
        cases h
        exact Wire.readHeader_no_fuel _ h1
      · rename_i h1
        split at h
        · rename_i h2
          cases h
          exact Wire.readVarint_no_fuel _ h2
        · rename_i h2
          split at h
          · cases h
          · split at h
            · rename_i h3
              cases h
              exact Wire.readBytes_no_fuel _ _ h3
            · rename_i bs3 h3
              split at h
              · cases h
              · split at h
                · rename_i h4
                  cases h
                  have a := (readHeader_left h1).2
                  have b := (readVarint_left h2).length_le
                  have c := (readBytes_left h3).length_le
                  exact ih _ _ (by omega) h4
                · cases h

theorem decode_no_hang (w2 : Nat) : ∀ (n : Nat) (bs : Bytes) (w w' : Nat), Str.widthRequired bs n w = .ok w' → Str.decode w2 bs n ≠ .error .hang := by
  intro n
  induction n with
  | zero => intro bs w w' _ h; rw [Str.decode.eq_def] at h; simp at h
  | succ n ih =>
    intro bs w w' h1 h2
    rw [Str.decode.eq_def] at h2
    simp only at h2
    cases bs with
    | nil => simp [Str.decodePoint] at h2
    | cons b t =>
      have key : ∀ (p : Nat) (u : Bytes), (∃ w, Str.widthRequired u n w = .ok w') → Str.consOk p (Str.decode w2 u n) = .error .hang → False := by
        intro p u ⟨w, hw⟩ hc
        simp only [Str.consOk] at hc
        split at hc
        · rename_i h3
          cases hc
          exact ih u w w' hw h3
        · cases hc
      simp only [Str.widthRequired] at h1
      simp only [Str.decodePoint] at h2
      split at h1
      · rename_i c1
        rw [if_pos c1] at h2
        exact key _ _ ⟨_, h1⟩ h2
      · rename_i c1
        rw [if_neg c1] at h2
        split at h1
        · rename_i c2
          rw [if_pos c2] at h2
          cases t with
          | nil => simp at h2
          | cons b1 t => exact key _ t ⟨_, by simpa using h1⟩ h2
        · rename_i c2
          rw [if_neg c2] at h2
          split at h1
          · rename_i c3
            rw [if_pos c3] at h2
            match t with
            | [] => simp at h2
            | [_] => simp at h2
            | b1 :: b2 :: t => exact key _ t ⟨_, by simpa using h1⟩ h2
          · rename_i c3
            rw [if_neg c3] at h2
            split at h1
            · rename_i c4
              rw [if_pos c4] at h2
              match t with
              | [] => simp at h2
              | [_] => simp at h2
              | [_, _] => simp at h2
              | b1 :: b2 :: b3 :: t => exact key _ t ⟨_, by simpa using h1⟩ h2
            · cases h1

theorem countPoints_err : ∀ (bs : Bytes) (skip : Nat) (e : Str.Err), Str.countPoints bs skip = .error e → e = .corrupt := by
  intro bs
  induction bs with
  | nil => intro skip e h; simp [Str.countPoints] at h
  | cons b t ih =>
    intro skip e h
    cases skip with
    | succ skip =>
      simp only [Str.countPoints] at h
      exact ih _ _ h
    | zero =>
      simp only [Str.countPoints] at h
      split at h
      · cases h
        rfl
      · split at h
        · rename_i h1
          cases h
          exact ih _ _ h1
        · cases h

theorem widthRequired_err : ∀ (n : Nat) (bs : Bytes) (w : Nat) (e : Str.Err), Str.widthRequired bs n w = .error e → e = .corrupt ∨ e = .oob := by
  intro n
  induction n with
  | zero => intro bs w e h; rw [Str.widthRequired.eq_def] at h; simp at h
  | succ n ih =>
    intro bs w e h
    cases bs with
    | nil =>
      simp only [Str.widthRequired] at h
      cases h
      exact .inr rfl
    | cons b t =>
      simp only [Str.widthRequired] at h
      split at h
      · exact ih _ _ _ h
      · split at h
        · exact ih _ _ _ h
        · split at h
          · exact ih _ _ _ h
          · split at h
            · exact ih _ _ _ h
            · cases h
              exact .inl rfl

theorem decode_err (w : Nat) : ∀ (n : Nat) (bs : Bytes) (e : Str.Err), Str.decode w bs n = .error e → e = .hang ∨ e = .oob := by
  intro n
  induction n with
  | zero => intro bs e h; rw [Str.decode.eq_def] at h; simp at h
  | succ n ih =>
    intro bs e h
    rw [Str.decode.eq_def] at h
    simp only at h
    split at h
    · rename_i h1
      cases h
      cases bs with
      | nil =>
        simp only [Str.decodePoint] at h1
        cases h1
        exact .inr rfl
      | cons b t =>
        simp only [Str.decodePoint] at h1
        repeat' split at h1
        all_goals cases h1
        all_goals simp
    · simp only [Str.consOk] at h
      split at h
      · rename_i h1
        cases h
        exact ih _ _ h1
      · cases h

theorem strDeserialize_err {w : Nat} {bs : Bytes} {e : Str.Err} (h : Str.deserialize w bs = .error e) :
    e = .corrupt ∨ e = .oob ∨ e = .wire .badWire ∨ e = .wire .outOfData ∨ ∃ e', readVarint bs = .error e' ∧ e = .wire e' := by
  have key : ∀ n bs, Str.deserializeData n bs = .error e → e = .corrupt ∨ e = .oob ∨ e = .wire .outOfData := by
    intro n bs h
    simp only [Str.deserializeData] at h
    split at h
    · rename_i h1
      cases h
      simp only [readBytes] at h1
      split at h1
      · cases h1
        exact .inr (.inr rfl)
      · cases h1
    · split at h
      · rename_i h1
        cases h
        exact .inl (countPoints_err _ _ _ h1)
      · split at h
        · rename_i h1
          cases h
          simp only [Str.createFromUtf8] at h1
          split at h1
          · cases h1
          · split at h1
            · rename_i h2
              cases h1
              rcases widthRequired_err _ _ _ _ h2 with rfl | rfl <;> simp
            · rename_i h2
              split at h1
              · cases h1
              · split at h1
                · rename_i h3
                  cases h1
                  rcases decode_err _ _ _ _ h3 with rfl | rfl
                  · exact absurd h3 (decode_no_hang _ _ _ _ _ h2)
                  · simp
                · cases h1
        · cases h
  simp only [Str.deserialize] at h
  split at h
  · cases h
    simp
  · split at h
    · rename_i h1
      cases h
      exact .inr (.inr (.inr (.inr ⟨_, h1, rfl⟩)))
    · rcases key _ _ h with h | h | h <;> simp [h]

/-- Reading goes on for ever, or deeper than the depth that was given. -/
def Endless (e : Err) : Prop := e = .fuel ∨ e = .wire .fuel ∨ e = .str .hang ∨ e = .str (.wire .fuel)

/-- C111: reading ends, whatever the bytes are, and whatever the type: if the depth is twice the number of bytes and the names of types do not
stand for names, then it is no obstacle. -/
theorem reading_ends (env : Nat → Ty) (henv : ∀ m n, env m ≠ .named n) (dflt : Ty → St → Except Err (Val × St)) (hq : Quiet dflt)
    (hd : ∀ t st e, dflt t st = .error e → ¬ Endless e) (depth : Nat) (t : Ty) (bytes : Bytes) (hdepth : 2 * bytes.length + 2 ≤ depth) (e : Err)
    (h : deserialize env dflt depth t bytes = .error e) : ¬ Endless e := by
  have hT : Tame env dflt (fun e => ¬ Endless e) (fun _ => True) (fun _ => True) := by
    have hv : ∀ {bs : Bytes} {e : Wire.Err}, readVarint bs = .error e → e ≠ .fuel := by
      intro bs e h h'
      subst h'
      exact Wire.readVarint_no_fuel bs h
    refine ⟨fun _ _ => trivial, ?_, ?_, ?_, ?_, fun _ h => hd _ _ _ h, ?_, ?_, fun _ _ _ => trivial, fun _ _ _ => trivial, fun _ _ _ => trivial,
      fun _ => ⟨trivial, fun _ => ?_⟩, fun _ => ⟨trivial, fun _ => ?_⟩, fun _ => ⟨trivial, trivial, ?_⟩, fun _ => ⟨trivial, trivial, ?_⟩,
      fun _ => ⟨trivial, ?_⟩, fun _ => ⟨trivial, henv _⟩⟩
    · intro bs e _ h
      have := hv h
      simp [Endless, this]
    · simp [Endless]
    · simp [Endless]
    · simp [Endless]
    · intro w bs e _ _ h
      rcases strDeserialize_err h with rfl | rfl | rfl | rfl | ⟨e', h', rfl⟩
      · simp [Endless]
      · simp [Endless]
      · simp [Endless]
      · simp [Endless]
      · have := hv h'
        simp [Endless, this]
    · intro ct bs e _ _ h
      have : e ≠ .fuel := by
        rintro rfl
        exact deserIntsLoop_no_fuel _ _ _ (by omega) h
      simp [Endless, this]
    · simp [Endless]
    · simp [Endless]
    · simp [Endless]
    · simp [Endless]
    · simp [Endless]
  simp only [deserialize] at h
  split at h
  · rename_i h1
    cases h
    exact readHeader_err hT trivial h1
  · rename_i h1
    have := (readHeader_left h1).2
    exact deser_err hT hq depth t _ _ e trivial trivial (.inl (by simp only; omega)) h

/-! ### Reading does not leave its memory -/

theorem readVarintLoop_undefined : ∀ (j : Nat) (bs : Bytes) (acc : Nat), j ≤ 10 → Wire.readVarintLoop bs acc (7 * (10 - j)) = .error .undefined →
    ∃ run after, bs = run ++ after ∧ run.length = j ∧ ∀ b ∈ run, ¬ b < 128 := by
  intro j
  induction j with
  | zero => intro bs acc _ _; exact ⟨[], bs, rfl, rfl, by simp⟩
  | succ j ih =>
    intro bs acc hj h
    cases bs with
    | nil => simp [Wire.readVarintLoop] at h
    | cons b bs =>
      simp only [Wire.readVarintLoop] at h
      rw [if_neg (by omega)] at h
      split at h
      · cases h
      · rename_i hb
        rw [show 7 * (10 - (j + 1)) + 7 = 7 * (10 - j) by omega] at h
        obtain ⟨run, after, h1, h2, h3⟩ := ih bs _ (by omega) h
        refine ⟨b :: run, after, by rw [h1]; rfl, by simp [h2], fun x hx => ?_⟩
        rw [List.mem_cons] at hx
        rcases hx with rfl | hx
        · exact hb
        · exact h3 x hx

/-- The number that starts the stream is too long, or can be read, or the stream is too short. -/
theorem short_number {bs : Bytes} (hb : ShortNumbers bs) : readVarint bs ≠ .error .undefined := by
  intro h
  obtain ⟨run, after, h1, h2, h3⟩ := readVarintLoop_undefined 10 bs 0 (by omega) h
  obtain ⟨b, h4, h5⟩ := hb [] run after h1 h2
  exact h3 b h4 h5

/-- An access outside allocated memory, a division by zero, a shift by more than 64 bits. -/
def Undefined (e : Err) : Prop := e = .undefined ∨ e = .wire .undefined ∨ e = .str .oob ∨ e = .str (.wire .undefined)

/-- C111, for the types that are `Calm`: whatever the bytes are, as long as no number in them is too long, reading does nothing that C++ does not
define.  Missing: the other types and too long numbers, for which `undefined_reads` shows that the claim is false. -/
theorem nothing_undefined_partial {env : Nat → Ty} {C : Ty → Prop} (hC : Calm env C) {dflt : Ty → St → Except Err (Val × St)} (hq : Quiet dflt)
    (hd : ∀ t st e, C t → dflt t st = .error e → ¬ Undefined e) (depth : Nat) (t : Ty) (ht : C t) (bytes : Bytes) (hb : ShortNumbers bytes)
    (hdepth : 2 * bytes.length + 2 ≤ depth) (e : Err) (h : deserialize env dflt depth t bytes = .error e) : ¬ Undefined e := by
  have hT : Tame env dflt (fun e => ¬ Undefined e) ShortNumbers C := by
    refine ⟨?_, ?_, by simp [Undefined], by simp [Undefined], by simp [Undefined], fun h h' => hd _ _ _ h h', fun h => absurd h hC.str,
      fun h => ?_, hC.tuple, hC.oneOf, hC.alt, fun h => ⟨(hC.tupleOf h).1, fun h' => absurd h' (hC.tupleOf h).2⟩,
      fun h => ⟨(hC.listOf h).1, fun h' => absurd h' (hC.listOf h).2⟩, fun h => absurd h hC.constDict, fun h => absurd h hC.dict,
      fun h => absurd h hC.set, hC.named⟩
    · intro bs bs' h1 ⟨d, hd⟩ before run after h2 h3
      exact h1 (d ++ before) run after (by rw [← hd, h2]; simp) h3
    · intro bs e hK h h'
      have : e ≠ .undefined := by
        rintro rfl
        exact short_number hK h
      simp [Undefined, this] at h'
    · rcases h with h | h
      · exact absurd h hC.ints.1
      · exact absurd h hC.ints.2
  simp only [deserialize] at h
  split at h
  · rename_i h1
    cases h
    exact readHeader_err hT hb h1
  · rename_i h1
    obtain ⟨h2, h3⟩ := readHeader_left h1
    exact deser_err hT hq depth t _ _ e ht (hT.suffix hb h2) (.inl (by simp only; omega)) h

/-! ### Where it is not so -/

/-- No names. -/
def noEnv : Nat → Ty := fun _ => .unit

/-- No default values are needed. -/
def noDflt : Ty → St → Except Err (Val × St) := fun _ _ => .error .corrupt

/-- A list of integers can come back as a list of texts as well: DeserializationBuffer.hpp 339-349 `lookupCachedPointer` does not know the type
of what it returns. -/
theorem mixed_lists : ∃ (bytes : Bytes) (v : Val) (st : St), (∀ b ∈ bytes, b < 256) ∧
    deserialize noEnv noDflt 30 (.tuple [.listOf (.reg (.int 4)), .listOf .str]) bytes = .ok (v, st) ∧ st.heap = [[.reg 5]] ∧
    ∀ heapTy n, ¬ IsA noEnv heapTy n (.tuple [.listOf (.reg (.int 4)), .listOf .str]) v := by
  refine ⟨[6, 6, 1, 0, 1, 1, 1, 10, 7, 14, 1, 0, 7, 7], .seq [.ref 0, .ref 0], ⟨[], [some 0], [[.reg 5]]⟩, by decide, by decide +kernel, rfl, ?_⟩
  intro heapTy n h
  cases h with
  | tuple hl h =>
    have h0 := h 0 _ _ rfl rfl
    have h1 := h 1 _ _ rfl rfl
    cases h0 with
    | ref _ _ a =>
      cases h1 with
      | ref _ _ b =>
        rw [a] at b
        cases b

/-- A boolean that is neither true nor false, and a choice that is none of those there are, are read from the memory of a list:
TupleOrListOfType.hpp 541-561. -/
theorem raw_memory : (∃ (bytes : Bytes) (st : St), deserialize noEnv noDflt 30 (.listOf (.reg .bool)) bytes = .ok (.ref 0, st) ∧
      st.heap = [[.reg 7]] ∧ ∀ heapTy n, ¬ IsA noEnv heapTy n (.reg .bool) (.reg 7)) ∧
    ∃ (bytes : Bytes) (st : St) (v : Val), deserialize noEnv noDflt 30 (.listOf (.oneOf [.unit, .reg .bool])) bytes = .ok (.ref 0, st) ∧
      st.heap = [[v]] ∧ ∀ heapTy n, ¬ IsA noEnv heapTy n (.oneOf [.unit, .reg .bool]) v := by
  refine ⟨⟨[6, 1, 0, 20, 1, 7, 7], ⟨[], [some 0], [[.reg 7]]⟩, by decide +kernel, rfl, ?_⟩,
    ⟨[6, 1, 0, 20, 2, 200, 1, 7], ⟨[], [some 0], [[.tag 200 .unit]]⟩, .tag 200 .unit, by decide +kernel, rfl, ?_⟩⟩
  · intro heapTy n h
    cases h with
    | reg h => simp [InRange] at h
  · intro heapTy n h
    cases h with
    | oneOf h _ => simp at h

/-- The keys of a constant dictionary are not sorted after reading, although looking one up needs that: ConstDictType.hpp 246-274. -/
theorem unsorted_keys : ∃ (bytes : Bytes) (st : St), deserialize noEnv noDflt 30 (.constDict (.reg (.int 8)) .unit) bytes =
    .ok (.seq [.reg 3, .unit, .reg 2, .unit], st) :=
  ⟨[6, 1, 2, 1, 6, 0, 1, 4, 0, 7], ⟨[], [], []⟩, by decide +kernel⟩

/-- A set can contain an element twice after reading: SetType.hpp 185-234. -/
theorem twice_in_a_set : ∃ (bytes : Bytes) (st : St), deserialize noEnv noDflt 30 (.set (.reg (.int 8))) bytes = .ok (.ref 0, st) ∧
    st.heap = [[.reg 1, .reg 1]] :=
  ⟨[6, 1, 0, 1, 2, 1, 2, 1, 2, 7], ⟨[], [some 0], [[.reg 1, .reg 1]]⟩, by decide +kernel, rfl⟩

/-- Bytes for which reading does what C++ does not define: a number of eleven bytes, whatever the type; a text that ends within a character;
more items of a dictionary than were announced; more integers in a block than were announced; values without a size as raw memory. -/
theorem undefined_reads :
    (∀ t, deserialize noEnv noDflt 30 t (List.replicate 10 128 ++ [0]) = .error (.wire .undefined)) ∧
    deserialize noEnv noDflt 30 .str [4, 1, 195] = .error (.str .oob) ∧
    deserialize noEnv noDflt 30 (.constDict (.reg (.int 8)) .unit) [6, 1, 0, 1, 6, 0, 7] = .error .undefined ∧
    deserialize noEnv noDflt 30 (.dict (.reg (.int 8)) .unit) [6, 1, 0, 1, 0, 1, 6, 0, 7] = .error .undefined ∧
    deserialize noEnv noDflt 30 (.set (.reg (.int 8))) [6, 1, 0, 1, 0, 1, 6, 7] = .error .undefined ∧
    deserialize noEnv noDflt 30 (.listOf (.reg (.int 8))) [6, 1, 0, 12, 1, 20, 2, 5, 6, 7] = .error (.wire .undefined) ∧
    deserialize noEnv noDflt 30 (.listOf .unit) [6, 1, 0, 20, 1, 7, 7] = .error .undefined := by
  refine ⟨fun t => ?_, by decide +kernel, by decide +kernel, by decide +kernel, by decide +kernel, by decide +kernel, by decide +kernel⟩
  have : readHeader (List.replicate 10 128 ++ [0]) = .error .undefined := by decide +kernel
  simp only [deserialize, this]

/-! ### Cases that meet the hypotheses -/

/-- A tree: a value, and a list of trees. -/
def treeEnv : Nat → Ty := fun _ => .tuple [.oneOf [.unit, .reg .bool, .str, .bytes], .listOf (.named 0), .tupleOf (.reg (.float 8))]

/-- The types a tree is made of. -/
def TreeTy (t : Ty) : Prop :=
  t ∈ [.named 0, .tuple [.oneOf [.unit, .reg .bool, .str, .bytes], .listOf (.named 0), .tupleOf (.reg (.float 8))],
    .oneOf [.unit, .reg .bool, .str, .bytes], .unit, .reg .bool, .str, .bytes, .listOf (.named 0), .tupleOf (.reg (.float 8)), .reg (.float 8)]

theorem tree_sturdy : Sturdy treeEnv (.listOf (.named 0)) TreeTy := by
  constructor
  case reg => intro r h; simp [TreeTy] at h; rcases h with rfl | rfl <;> rfl
  case tuple => intro ts h; simp [TreeTy] at h; subst h; simp [TreeTy]
  case oneOf => intro ts h; simp [TreeTy] at h; subst h; simp [TreeTy]
  case alt => intro ts h; simp [TreeTy] at h
  case tupleOf => intro t h; simp [TreeTy] at h; subst h; simp [TreeTy, anyBytes]
  case listOf => intro t h; simp [TreeTy] at h; subst h; simp [TreeTy, podSize]
  case constDict => intro k w h; simp [TreeTy] at h
  case dict => intro k w h; simp [TreeTy] at h
  case set => intro k h; simp [TreeTy] at h
  case named => intro m _; simp [TreeTy, treeEnv]

theorem no_defaults (env : Nat → Ty) (R : Ty) (Q : Ty → Prop) : DefaultsOk env R Q noDflt :=
  ⟨fun h => by simp [noDflt] at h, fun _ _ h => by simp [noDflt] at h⟩

/-- Every stream that is read as a tree is one. -/
example (bytes : Bytes) (hb : ∀ b ∈ bytes, b < 256) (v : Val) (st : St) (h : deserialize treeEnv noDflt 99 (.named 0) bytes = .ok (v, st)) :
    IsA treeEnv (fun _ => .listOf (.named 0)) st.heap.length (.named 0) v :=
  (read_is_typed_partial tree_sturdy (no_defaults _ _ _) 99 (.named 0) (by simp [TreeTy]) bytes hb v st h).1

/-- Some are: this one has itself as a branch. -/
example : deserialize treeEnv noDflt 99 (.named 0)
    [6, 5, 9, 1, 14, 1, 0, 1, 1, 6, 5, 0, 14, 1, 0, 7, 16, 7, 7, 16, 7] =
      .ok (.seq [.tag 1 (.reg 1), .ref 0, .seq []], ⟨[], [some 0], [[.seq [.tag 0 .unit, .ref 0, .seq []]]]⟩) := by decide +kernel

/-- And some are not. -/
example : deserialize treeEnv noDflt 99 (.named 0) [6, 5, 9, 1, 14, 1, 0, 1, 2, 7, 7] = .error .corrupt := by decide +kernel

example (bytes : Bytes) (e : Err) (h : deserialize treeEnv noDflt (2 * bytes.length + 2) (.named 0) bytes = .error e) : ¬ Endless e :=
  reading_ends treeEnv (fun _ _ h => by simp [treeEnv] at h) noDflt (fun _ _ _ _ h => by simp [noDflt] at h)
    (fun _ _ _ h => by simp only [noDflt] at h; cases h; simp [Endless]) _ _ bytes (le_refl _) e h

/-- A pair of bytes and a list of numbers. -/
def pairTy : Ty := .tuple [.bytes, .listOf (.reg (.int 4))]

theorem pair_calm : Calm noEnv (fun t => t ∈ [pairTy, .bytes, .listOf (.reg (.int 4)), .reg (.int 4)]) := by
  constructor
  case str => simp [pairTy]
  case ints => simp [pairTy]
  case tuple => intro ts h; simp [pairTy] at h; subst h; simp
  case oneOf => intro ts h; simp [pairTy] at h
  case alt => intro ts h; simp [pairTy] at h
  case tupleOf => intro t h; simp [pairTy] at h
  case listOf => intro t h; simp [pairTy] at h; subst h; simp [podSize, regSize]
  case constDict => intro k w h; simp [pairTy] at h
  case dict => intro k w h; simp [pairTy] at h
  case set => intro k h; simp [pairTy] at h
  case named => intro m h; simp [pairTy] at h

example (bytes : Bytes) (hb : ShortNumbers bytes) (e : Err) (h : deserialize noEnv noDflt (2 * bytes.length + 2) pairTy bytes = .error e) :
    ¬ Undefined e :=
  nothing_undefined_partial pair_calm (fun _ _ _ _ h => by simp [noDflt] at h)
    (fun _ _ _ _ h => by simp only [noDflt] at h; cases h; simp [Undefined]) _ _ (by simp) bytes hb (le_refl _) e h

end Verif.Typed
