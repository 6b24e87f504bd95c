import Verif.Sha.Props
import Verif.Sha.ValueSpec
import Mathlib.Data.List.Induction
/-
C71: `sha_hash` tells values apart.
-/
namespace Verif.Sha

attribute [local irreducible] sha1

theorem Collision.mono {a b a' b' : List (List Byte)} (h : Collision a b) (ha : ∀ x ∈ a, x ∈ a')
    (hb : ∀ x ∈ b, x ∈ b') : Collision a' b' := by
  obtain ⟨x, hx, y, hy, h⟩ := h
  exact ⟨x, ha x hx, y, hb y hy, h⟩

theorem Hits.mono {a a' : List (List Byte)} {d : List Byte} (h : Hits a d) (ha : ∀ x ∈ a, x ∈ a') :
    Hits a' d := by
  obtain ⟨x, hx, h⟩ := h
  exact ⟨x, ha x hx, h⟩

theorem same_message {a b : List (List Byte)} {x y : List Byte} (hx : x ∈ a) (hy : y ∈ b)
    (h : sha1 x = sha1 y) : x = y ∨ Collision a b := by
  by_cases e : x = y
  · exact .inl e
  · exact .inr ⟨x, hx, y, hy, e, h⟩

theorem pyHash_tuple_eq (vs : List Val) : pyHash (.tuple vs) = pyHashItems vs (fromInteger vs.length) := rfl
theorem pyHash_bool (b : Bool) : pyHash (.bool b) = fromInteger (if b then 1 else 0) := rfl
theorem pyHash_int (i : Int) : pyHash (.int i) = fromInteger i := rfl
theorem pyHash_float (b : BitVec 64) : pyHash (.float b) = .ok (fromFloat b) := rfl
theorem pyHash_str (u : List Byte) : pyHash (.str u) = .ok (fromString u) := rfl
theorem pyHash_bytes (b : List Byte) : pyHash (.bytes b) = .ok (fromString (reprBytes b)) := rfl
theorem pyHash_none : pyHash .none = .ok (fromString []) := rfl
theorem pyHash_other (s : List Byte) : pyHash (.other s) = .ok (fromString (reprBytes s)) := rfl
theorem pyHashItems_nil (h0 : Except PyErr Logged) : pyHashItems [] h0 = h0 := rfl
theorem pyHashItems_cons (h0 : Except PyErr Logged) (i : Val) (items : List Val) :
    pyHashItems (i :: items) h0 = pyHashItems items (addItem h0 (pyHash i)) := rfl

/-! ### Tuples -/

/-- The loop over the digests of the items. -/
def addAll (h0 : Logged) (hs : List Logged) : Logged :=
  hs.foldl (fun h0 h => ((pyAdd h0.1 h.1).1, h0.2 ++ h.2 ++ (pyAdd h0.1 h.1).2)) h0

theorem items_eq (h0 : Except PyErr Logged) (vs : List Val) (r : Logged) (h : pyHashItems vs h0 = .ok r) :
    ∃ a hs, h0 = .ok a ∧ vs.map pyHash = hs.map .ok ∧ r = addAll a hs := by
  induction vs generalizing h0 with
  | nil =>
    rw [pyHashItems_nil] at h
    exact ⟨r, [], h, rfl, rfl⟩
  | cons v vs ih =>
    rw [pyHashItems_cons] at h
    obtain ⟨a, hs, h1, h2, h3⟩ := ih _ h
    unfold addItem at h1
    split at h1
    · cases h1
    · cases h1
    · next x y e =>
      exact ⟨x, y :: hs, rfl, by simp [e, h2], by rw [h3, ← Except.ok.inj h1]; rfl⟩

theorem addAll_snoc (h0 : Logged) (hs : List Logged) (x : Logged) :
    addAll h0 (hs ++ [x]) = ((pyAdd (addAll h0 hs).1 x.1).1,
      (addAll h0 hs).2 ++ x.2 ++ (pyAdd (addAll h0 hs).1 x.1).2) := by
  simp [addAll]

theorem addAll_log (h0 : Logged) (hs : List Logged) :
    (∀ m ∈ h0.2, m ∈ (addAll h0 hs).2) ∧ ∀ x ∈ hs, ∀ m ∈ x.2, m ∈ (addAll h0 hs).2 := by
  induction hs generalizing h0 with
  | nil => exact ⟨fun m hm => hm, by simp⟩
  | cons x hs ih =>
    have h := ih ((pyAdd h0.1 x.1).1, h0.2 ++ x.2 ++ (pyAdd h0.1 x.1).2)
    rw [show addAll h0 (x :: hs) = addAll ((pyAdd h0.1 x.1).1, h0.2 ++ x.2 ++ (pyAdd h0.1 x.1).2) hs from rfl]
    refine ⟨fun m hm => h.1 m (by simp [hm]), fun y hy m hm => ?_⟩
    rcases List.mem_cons.mp hy with e | hy
    · subst e; exact h.1 m (by simp [hm])
    · exact h.2 y hy m hm

/-- A digest that was computed: a digest of a logged message, or poison where SHA-1 hit poison. -/
def Computed (r : Logged) : Prop := (∃ m ∈ r.2, r.1 = sha1 m) ∨ Hits r.2 poison

theorem addAll_computed (h0 : Logged) (hs : List Logged) (h : Computed h0) (hh : ∀ x ∈ hs, Computed x) :
    Computed (addAll h0 hs) := by
  induction hs generalizing h0 with
  | nil => exact h
  | cons x hs ih =>
    refine ih _ ?_ (fun y hy => hh y (by simp [hy]))
    have hx := hh x (by simp)
    dsimp only
    unfold pyAdd
    split
    · next hp =>
      refine .inr ?_
      rcases hp with hp | hp
      · rcases h with ⟨m, hm, e⟩ | h
        · exact ⟨m, by simp [hm], by rw [← e, hp]⟩
        · exact h.mono (fun y hy => by simp [hy])
      · rcases hx with ⟨m, hm, e⟩ | h
        · exact ⟨m, by simp [hm], by rw [← e, hp]⟩
        · exact h.mono (fun y hy => by simp [hy])
    · exact .inl ⟨h0.1 ++ x.1, by simp, rfl⟩

/-- The result of the loop, when nothing hits poison: a message of the log, and what it is made of. -/
theorem addAll_inj (n n' : Nat) (hn : n < 2 ^ 64) (hn' : n' < 2 ^ 64) (hs hs' : List Logged)
    (hh : ∀ x ∈ hs, Computed x ∧ x.1.length = 20) (hh' : ∀ x ∈ hs', Computed x ∧ x.1.length = 20)
    (e : (addAll (fromString (bytes64 n)) hs).1 = (addAll (fromString (bytes64 n')) hs').1) :
    (n = n' ∧ hs.map (·.1) = hs'.map (·.1)) ∨
    Collision (addAll (fromString (bytes64 n)) hs).2 (addAll (fromString (bytes64 n')) hs').2 ∨
    Hits (addAll (fromString (bytes64 n)) hs).2 poison ∨ Hits (addAll (fromString (bytes64 n')) hs').2 poison := by
  have base : ∀ n, Computed (fromString (bytes64 n)) := fun n => .inl ⟨bytes64 n, by simp [fromString], rfl⟩
  have len : ∀ (n : Nat) (hs : List Logged), (addAll (fromString (bytes64 n)) hs).1.length = 20 := by
    intro n hs
    have hl : (fromString (bytes64 n)).1.length = 20 := sha1_length _
    generalize fromString (bytes64 n) = h0 at hl
    induction hs generalizing h0 with
    | nil => exact hl
    | cons x hs ih =>
      refine ih _ ?_
      dsimp only
      unfold pyAdd
      split
      · rfl
      · exact sha1_length _
  -- the last step of a loop, unless poison was hit
  have last : ∀ (n : Nat) (hs : List Logged) (x : Logged), (∀ y ∈ hs ++ [x], Computed y ∧ y.1.length = 20) →
      Hits (addAll (fromString (bytes64 n)) (hs ++ [x])).2 poison ∨
      ((addAll (fromString (bytes64 n)) (hs ++ [x])).1 = sha1 ((addAll (fromString (bytes64 n)) hs).1 ++ x.1) ∧
        (addAll (fromString (bytes64 n)) hs).1 ++ x.1 ∈ (addAll (fromString (bytes64 n)) (hs ++ [x])).2) := by
    intro n hs x hc
    have h1 := addAll_computed _ hs (base n) (fun y hy => (hc y (by simp [hy])).1)
    have h2 := (hc x (by simp)).1
    rw [addAll_snoc]
    generalize addAll (fromString (bytes64 n)) hs = a at h1 ⊢
    unfold pyAdd
    split
    · next hp =>
      refine .inl ?_
      rcases hp with hp | hp
      · rcases h1 with ⟨m, hm, e⟩ | h
        · exact ⟨m, by simp [hm], by rw [← e, hp]⟩
        · exact h.mono (fun y hy => by simp [hy])
      · rcases h2 with ⟨m, hm, e⟩ | h
        · exact ⟨m, by simp [hm], by rw [← e, hp]⟩
        · exact h.mono (fun y hy => by simp [hy])
    · exact .inr ⟨rfl, by simp⟩
  induction hs using List.reverseRecOn generalizing hs' with
  | nil =>
    induction hs' using List.reverseRecOn with
    | nil =>
      rcases same_message (a := [bytes64 n]) (b := [bytes64 n']) (by simp) (by simp) e with h | h
      · exact .inl ⟨bytes64_inj hn hn' h, rfl⟩
      · exact .inr (.inl h)
    | append_singleton hs' x' _ =>
      rcases last n' hs' x' hh' with h | ⟨h1, h2⟩
      · exact .inr (.inr (.inr h))
      · rw [h1] at e
        rcases same_message (a := [bytes64 n]) (by simp) h2 e with h | h
        · have := congrArg List.length h
          rw [bytes64_length, List.length_append, len] at this
          omega
        · exact .inr (.inl h)
  | append_singleton hs x ih =>
    rcases last n hs x hh with h | ⟨h1, h2⟩
    · exact .inr (.inr (.inl h))
    rw [h1] at e
    induction hs' using List.reverseRecOn with
    | nil =>
      rcases same_message (b := [bytes64 n']) h2 (by simp) e with h | h
      · have := congrArg List.length h
        rw [bytes64_length, List.length_append, len] at this
        omega
      · exact .inr (.inl h)
    | append_singleton hs' x' _ =>
      rcases last n' hs' x' hh' with h | ⟨h3, h4⟩
      · exact .inr (.inr (.inr h))
      rw [h3] at e
      rcases same_message h2 h4 e with h | h
      · obtain ⟨ha, hx⟩ := List.append_inj h (by rw [len, len])
        have m1 : ∀ m ∈ (addAll (fromString (bytes64 n)) hs).2, m ∈ (addAll (fromString (bytes64 n)) (hs ++ [x])).2 := by
          intro m hm; rw [addAll_snoc]; simp [hm]
        have m2 : ∀ m ∈ (addAll (fromString (bytes64 n')) hs').2, m ∈ (addAll (fromString (bytes64 n')) (hs' ++ [x'])).2 := by
          intro m hm; rw [addAll_snoc]; simp [hm]
        rcases ih hs' (fun y hy => hh y (by simp [hy])) (fun y hy => hh' y (by simp [hy])) ha with h | h | h | h
        · exact .inl ⟨h.1, by simp [h.2, hx]⟩
        · exact .inr (.inl (h.mono m1 m2))
        · exact .inr (.inr (.inl (h.mono m1)))
        · exact .inr (.inr (.inr (h.mono m2)))
      · exact .inr (.inl h)

theorem fromInteger_ok {i : Int} {r : Logged} (h : fromInteger i = .ok r) :
    fitsLong i ∧ r = fromString (be64 (BitVec.ofInt 64 i)) := by
  unfold fromInteger at h
  split at h
  · next hf => cases h; exact ⟨hf, rfl⟩
  · cases h

theorem be64_nat (n : Nat) (h : (n : Int) < 2 ^ 63) : be64 (BitVec.ofInt 64 n) = bytes64 n := by
  unfold be64
  congr 1
  simp
  omega

theorem fromString_computed (s : List Byte) : Computed (fromString s) ∧ (fromString s).1.length = 20 :=
  ⟨.inl ⟨s, by simp [fromString], rfl⟩, sha1_length s⟩

theorem pyHash_tuple {vs : List Val} {r : Logged} (h : pyHash (.tuple vs) = .ok r) :
    (vs.length : Int) < 2 ^ 63 ∧ ∃ hs, vs.map pyHash = hs.map .ok ∧
      r = addAll (fromString (bytes64 vs.length)) hs := by
  rw [pyHash_tuple_eq] at h
  obtain ⟨a, hs, h0, h1, h2⟩ := items_eq _ _ _ h
  obtain ⟨hf, e⟩ := fromInteger_ok h0
  refine ⟨hf.2, hs, h1, ?_⟩
  rw [h2, e, be64_nat _ hf.2]

theorem pyHash_computed (t : Ty) (v : Val) (ht : Has t v) (r : Logged) (h : pyHash v = .ok r) :
    Computed r ∧ r.1.length = 20 := by
  induction t generalizing v r with
  | none => cases ht; rw [pyHash_none] at h; cases h; exact fromString_computed _
  | bool =>
    obtain ⟨b, rfl⟩ := ht; rw [pyHash_bool] at h
    obtain ⟨_, rfl⟩ := fromInteger_ok h
    exact fromString_computed _
  | int =>
    obtain ⟨b, rfl⟩ := ht; rw [pyHash_int] at h
    obtain ⟨_, rfl⟩ := fromInteger_ok h
    exact fromString_computed _
  | float => obtain ⟨b, rfl⟩ := ht; rw [pyHash_float] at h; cases h; exact fromString_computed _
  | str => obtain ⟨b, rfl⟩ := ht; rw [pyHash_str] at h; cases h; exact fromString_computed _
  | bytes => obtain ⟨b, rfl⟩ := ht; rw [pyHash_bytes] at h; cases h; exact fromString_computed _
  | other => obtain ⟨b, rfl⟩ := ht; rw [pyHash_other] at h; cases h; exact fromString_computed _
  | tupleOf t ih =>
    obtain ⟨vs, rfl, hvs⟩ := ht
    obtain ⟨_, hs, h1, rfl⟩ := pyHash_tuple h
    have hall : ∀ x ∈ hs, Computed x ∧ x.1.length = 20 := by
      intro x hx
      have : (Except.ok x : Except PyErr Logged) ∈ vs.map pyHash := by
        rw [h1]; exact List.mem_map_of_mem hx
      obtain ⟨v, hv, e⟩ := List.mem_map.mp this
      exact ih v (hvs v hv) x e
    refine ⟨addAll_computed _ _ (fromString_computed _).1 (fun x hx => (hall x hx).1), ?_⟩
    rcases List.eq_nil_or_concat hs with e | ⟨hs', x, e⟩
    · subst e; exact sha1_length _
    · rw [e, List.concat_eq_append, addAll_snoc]
      dsimp only
      unfold pyAdd
      split
      · rfl
      · exact sha1_length _

/-- Two values of the same type with the same `sha_hash` are equal, unless the hashing came upon a
collision of SHA-1 or upon a message whose SHA-1 is the poison value.
Missing: values of different types, where the claim is false (`int_float_same_hash`,
`empty_tuple_zero_same_hash`, `none_empty_string_same_hash`, `bytes_string_same_hash`), dicts, and values
with a `__sha_hash__` method. -/
theorem same_hash_same_value_partial (t : Ty) (v w : Val) (hv : Has t v) (hw : Has t w) (d : List Byte)
    (a b : List (List Byte)) (h1 : pyHash v = .ok (d, a)) (h2 : pyHash w = .ok (d, b)) :
    v = w ∨ Collision a b ∨ Hits a poison ∨ Hits b poison := by
  have str : ∀ x y : List Byte, fromString x = (d, a) → fromString y = (d, b) → x = y ∨ Collision a b := by
    intro x y e1 e2
    obtain ⟨e1, ea⟩ := Prod.mk.inj e1
    obtain ⟨e2, eb⟩ := Prod.mk.inj e2
    exact same_message (by simp [← ea]) (by simp [← eb]) (by rw [e1, e2])
  induction t generalizing v w d a b with
  | none => cases hv; cases hw; exact .inl rfl
  | bool =>
    obtain ⟨x, rfl⟩ := hv
    obtain ⟨y, rfl⟩ := hw
    rw [pyHash_bool] at h1 h2
    obtain ⟨f1, e1⟩ := fromInteger_ok h1
    obtain ⟨f2, e2⟩ := fromInteger_ok h2
    rcases str _ _ e1.symm e2.symm with e | e
    · have := ofInt_inj f1 f2 (be64_inj e)
      cases x <;> cases y <;> simp at this <;> exact .inl rfl
    · exact .inr (.inl e)
  | int =>
    obtain ⟨x, rfl⟩ := hv
    obtain ⟨y, rfl⟩ := hw
    rw [pyHash_int] at h1 h2
    obtain ⟨f1, e1⟩ := fromInteger_ok h1
    obtain ⟨f2, e2⟩ := fromInteger_ok h2
    rcases str _ _ e1.symm e2.symm with e | e
    · rw [ofInt_inj f1 f2 (be64_inj e)]; exact .inl rfl
    · exact .inr (.inl e)
  | float =>
    obtain ⟨x, rfl⟩ := hv
    obtain ⟨y, rfl⟩ := hw
    rw [pyHash_float] at h1 h2
    rcases str _ _ (Except.ok.inj h1) (Except.ok.inj h2) with e | e
    · rw [be64_inj e]; exact .inl rfl
    · exact .inr (.inl e)
  | str =>
    obtain ⟨x, rfl⟩ := hv
    obtain ⟨y, rfl⟩ := hw
    rw [pyHash_str] at h1 h2
    rcases str _ _ (Except.ok.inj h1) (Except.ok.inj h2) with e | e
    · rw [e]; exact .inl rfl
    · exact .inr (.inl e)
  | bytes =>
    obtain ⟨x, rfl⟩ := hv
    obtain ⟨y, rfl⟩ := hw
    rw [pyHash_bytes] at h1 h2
    rcases str _ _ (Except.ok.inj h1) (Except.ok.inj h2) with e | e
    · rw [reprBytes_inj e]; exact .inl rfl
    · exact .inr (.inl e)
  | other =>
    obtain ⟨x, rfl⟩ := hv
    obtain ⟨y, rfl⟩ := hw
    rw [pyHash_other] at h1 h2
    rcases str _ _ (Except.ok.inj h1) (Except.ok.inj h2) with e | e
    · rw [reprBytes_inj e]; exact .inl rfl
    · exact .inr (.inl e)
  | tupleOf t ih =>
    obtain ⟨vs, rfl, hvs⟩ := hv
    obtain ⟨ws, rfl, hws⟩ := hw
    obtain ⟨n1, hs, m1, e1⟩ := pyHash_tuple h1
    obtain ⟨n2, hs', m2, e2⟩ := pyHash_tuple h2
    have all : ∀ (vs : List Val) (hs : List Logged), (∀ x ∈ vs, Has t x) → vs.map pyHash = hs.map .ok →
        ∀ x ∈ hs, Computed x ∧ x.1.length = 20 := by
      intro vs hs hvs h1 x hx
      have : (Except.ok x : Except PyErr Logged) ∈ vs.map pyHash := by
        rw [h1]; exact List.mem_map_of_mem hx
      obtain ⟨v, hv, e⟩ := List.mem_map.mp this
      exact pyHash_computed t v (hvs v hv) x e
    have key := addAll_inj vs.length ws.length (by omega) (by omega) hs hs' (all vs hs hvs m1)
      (all ws hs' hws m2) (by rw [← e1, ← e2])
    rw [← e1, ← e2] at key
    rcases key with ⟨hlen, key⟩ | key | key | key
    · have l1 : ∀ x ∈ hs, ∀ m ∈ x.2, m ∈ a := by
        intro x hx m hm
        have := (addAll_log (fromString (bytes64 vs.length)) hs).2 x hx m hm
        rwa [← e1] at this
      have l2 : ∀ x ∈ hs', ∀ m ∈ x.2, m ∈ b := by
        intro x hx m hm
        have := (addAll_log (fromString (bytes64 ws.length)) hs').2 x hx m hm
        rwa [← e2] at this
      have items : vs = ws ∨ Collision a b ∨ Hits a poison ∨ Hits b poison := by
        clear h1 h2 n1 n2 e1 e2 str all hlen
        induction vs generalizing ws hs hs' with
        | nil =>
          have : hs = [] := by simpa using m1.symm
          subst this
          have : hs' = [] := by simpa using key.symm
          subst this
          have : ws = [] := by simpa using m2
          exact .inl this.symm
        | cons v vs ihv =>
          cases hs with
          | nil => simp at m1
          | cons x hs =>
          cases hs' with
          | nil => simp at key
          | cons y hs' =>
          cases ws with
          | nil => simp at m2
          | cons w ws =>
            simp only [List.map_cons, List.cons.injEq] at m1 m2 key
            have hx : pyHash v = .ok (x.1, x.2) := m1.1
            have hy : pyHash w = .ok (x.1, y.2) := by rw [m2.1, key.1]
            have s : ∀ p q : List Byte, fromString p = (x.1, x.2) → fromString q = (x.1, y.2) →
                p = q ∨ Collision x.2 y.2 := by
              intro p q e1 e2
              obtain ⟨e1, ea⟩ := Prod.mk.inj e1
              obtain ⟨e2, eb⟩ := Prod.mk.inj e2
              exact same_message (by simp [← ea]) (by simp [← eb]) (by rw [e1, e2])
            rcases ih v w (hvs v (by simp)) (hws w (by simp)) x.1 x.2 y.2 hx hy s with e | e | e | e
            · rcases ihv (fun z hz => hvs z (by simp [hz])) ws (fun z hz => hws z (by simp [hz])) hs m1.2 hs' m2.2
                key.2 (fun z hz => l1 z (by simp [hz])) (fun z hz => l2 z (by simp [hz])) with e' | e'
              · rw [e, e']; exact .inl rfl
              · exact .inr e'
            · exact .inr (.inl (e.mono (l1 x (by simp)) (l2 y (by simp))))
            · exact .inr (.inr (.inl (e.mono (l1 x (by simp)))))
            · exact .inr (.inr (.inr (e.mono (l2 y (by simp)))))
      rcases items with e | e
      · rw [e]; exact .inl rfl
      · exact .inr e
    · exact .inr (.inl key)
    · exact .inr (.inr (.inl key))
    · exact .inr (.inr (.inr key))

/-- A tuple of tuples of numbers can be hashed. -/
example : Has (.tupleOf (.tupleOf .int)) (.tuple [.tuple [.int 1, .int (-2)], .tuple []]) ∧
    ∃ r, pyHash (.tuple [.tuple [.int 1, .int (-2)], .tuple []]) = .ok r := by
  refine ⟨⟨_, rfl, ?_⟩, _, rfl⟩
  intro x hx
  simp only [List.mem_cons, List.not_mem_nil, or_false] at hx
  rcases hx with rfl | rfl
  · refine ⟨_, rfl, ?_⟩
    intro y hy
    simp only [List.mem_cons, List.not_mem_nil, or_false] at hy
    rcases hy with rfl | rfl
    · exact ⟨_, rfl⟩
    · exact ⟨_, rfl⟩
  · exact ⟨_, rfl, by simp⟩

/-! ### Different types -/

/-- Every float has the hash of an integer: the one with the same bits. -/
theorem int_float_same_hash (bits : BitVec 64) : pyHash (.float bits) = pyHash (.int bits.toInt) := by
  rw [pyHash_float, pyHash_int, fromInteger, if_pos ⟨BitVec.le_toInt bits, BitVec.toInt_lt (x := bits)⟩,
    BitVec.ofInt_toInt]
  rfl

/-- `sha_hash(())` is `sha_hash(0)`. -/
theorem empty_tuple_zero_same_hash : pyHash (.tuple []) = pyHash (.int 0) := rfl

/-- `sha_hash(None)` is `sha_hash("")`. -/
theorem none_empty_string_same_hash : pyHash .none = pyHash (.str []) := rfl

/-- Every bytes object has the hash of a string: its `repr`. -/
theorem bytes_string_same_hash (b : List Byte) : pyHash (.bytes b) = pyHash (.str (reprBytes b)) := rfl

/-- Every value of another type has the hash of its serialization. -/
theorem other_bytes_same_hash (s : List Byte) : pyHash (.other s) = pyHash (.bytes s) := rfl

/-- Integers that do not fit in 64 bits have no hash. -/
theorem big_int_no_hash (i : Int) (h : i < -2 ^ 63 ∨ 2 ^ 63 ≤ i) : pyHash (.int i) = .error .structError := by
  rw [pyHash_int, fromInteger, if_neg (by omega)]

/-- Nor has a tuple with one. -/
example : pyHash (.tuple [.int 1, .int (2 ^ 63)]) = .error .structError := rfl

end Verif.Sha
