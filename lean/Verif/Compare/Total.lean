import Verif.Compare.Order
/-
The order of values is total, and values that are equal in it are the same value and have the same hash.
-/
namespace Verif.Compare
open Verif.Conv (Reg)

/-! ### Antisymmetry -/

theorem textOrder_swap : ∀ a b, (textOrder a b).swap = textOrder b a
  | [], [] => rfl
  | [], _ :: _ => rfl
  | _ :: _, [] => rfl
  | x :: xs, y :: ys => by rw [textOrder, textOrder, Ordering.swap_then, textOrder_swap xs ys, Nat.compare_swap]

theorem orderAll_swap_of {as : List Data} (ih : ∀ d ∈ as, ∀ b, (order d b).swap = order b d) :
    ∀ bs, (orderAll as bs).swap = orderAll bs as := by
  induction as with
  | nil => intro bs; cases bs <;> simp [orderAll]
  | cons a as iha =>
    intro bs
    cases bs with
    | nil => simp [orderAll]
    | cons b bs =>
      rw [orderAll, orderAll, Ordering.swap_then, ih a (by simp), iha (fun d hd => ih d (by simp [hd]))]

theorem order_swap : ∀ a b, (order a b).swap = order b a := by
  intro a
  induction a using Data.ind with
  | none => intro b; cases b <;> simp [order]
  | num r n => intro b; cases b <;> simp [order, Int.compare_swap]
  | flt s x => intro b; cases b <;> simp [order, Int.compare_swap]
  | str p => intro b; cases b <;> simp [order, textOrder_swap]
  | bytes p => intro b; cases b <;> simp [order, textOrder_swap]
  | tupleOf l ds ih => intro b; cases b <;> simp [order, orderAll_swap_of ih]
  | tuple ds ih => intro b; cases b <;> simp [order, orderAll_swap_of ih]
  | oneOf i d ih => intro b; cases b <;> simp [order, Ordering.swap_then, ih, Nat.compare_swap]
  | alt i d ih => intro b; cases b <;> simp [order, Ordering.swap_then, ih, Nat.compare_swap]

/-! ### Transitivity -/

/-- What transitivity says of three things, in a form that survives lexicographic combination. -/
def Chain (ab bc ac : Ordering) : Prop :=
  (ab = .lt → bc = .lt → ac = .lt) ∧ (ab = .eq → ac = bc) ∧ (bc = .eq → ac = ab)

theorem chain_then {ab bc ac ab' bc' ac' : Ordering} (h : Chain ab bc ac) (h' : ab = .eq → bc = .eq → Chain ab' bc' ac') :
    Chain (ab.then ab') (bc.then bc') (ac.then ac') := by
  obtain ⟨h1, h2, h3⟩ := h
  cases ab <;> cases bc <;> simp_all [Chain, Ordering.then]

theorem chain_int (a b c : Int) : Chain (compare a b) (compare b c) (compare a c) := by
  refine ⟨fun h h' => ?_, fun h => ?_, fun h => ?_⟩
  · rw [Int.compare_eq_lt] at *; omega
  · rw [Int.compare_eq_eq] at h; rw [h]
  · rw [Int.compare_eq_eq] at h; rw [h]

theorem chain_nat (a b c : Nat) : Chain (compare a b) (compare b c) (compare a c) := by
  refine ⟨fun h h' => ?_, fun h => ?_, fun h => ?_⟩
  · rw [Nat.compare_eq_lt] at *; omega
  · rw [Nat.compare_eq_eq] at h; rw [h]
  · rw [Nat.compare_eq_eq] at h; rw [h]

theorem chain_text : ∀ a b c, Chain (textOrder a b) (textOrder b c) (textOrder a c)
  | [], [], [] => by simp [Chain, textOrder]
  | [], [], _ :: _ => by simp [Chain, textOrder]
  | [], _ :: _, [] => by simp [Chain, textOrder]
  | [], _ :: _, _ :: _ => by simp [Chain, textOrder]
  | _ :: _, [], [] => by simp [Chain, textOrder]
  | _ :: _, [], _ :: _ => by simp [Chain, textOrder]
  | _ :: _, _ :: _, [] => by simp [Chain, textOrder]
  | x :: xs, y :: ys, z :: zs => by
    rw [textOrder, textOrder, textOrder]
    exact chain_then (chain_nat x y z) fun _ _ => chain_text xs ys zs

theorem chain_lists : ∀ as bs cs : List Data,
    (∀ k : Nat, ∀ a b c, as[k]? = some a → bs[k]? = some b → cs[k]? = some c → Chain (order a b) (order b c) (order a c)) →
    Chain (orderAll as bs) (orderAll bs cs) (orderAll as cs)
  | [], [], [], _ => by simp [Chain, orderAll]
  | [], [], _ :: _, _ => by simp [Chain, orderAll]
  | [], _ :: _, [], _ => by simp [Chain, orderAll]
  | [], _ :: _, _ :: _, _ => by simp [Chain, orderAll]
  | _ :: _, [], [], _ => by simp [Chain, orderAll]
  | _ :: _, [], _ :: _, _ => by simp [Chain, orderAll]
  | _ :: _, _ :: _, [], _ => by simp [Chain, orderAll]
  | a :: as, b :: bs, c :: cs, h => by
    rw [orderAll, orderAll, orderAll]
    refine chain_then (h 0 a b c rfl rfl rfl) fun _ _ => chain_lists as bs cs fun k x y z h1 h2 h3 => ?_
    exact h (k + 1) x y z (by simpa using h1) (by simpa using h2) (by simpa using h3)

theorem order_chain (E : Nat → List Ty) : ∀ a b c t, has E a t = true → has E b t = true → has E c t = true →
    Chain (order a b) (order b c) (order a c) := by
  intro a
  induction a using Data.ind with
  | none =>
    intro b c t ha hb hc
    cases like E ha hb; cases like E ha hc
    simp [Chain, order]
  | num r n =>
    intro b c t ha hb hc
    cases like E ha hb; cases like E ha hc
    exact chain_int _ _ _
  | flt s x =>
    intro b c t ha hb hc
    cases like E ha hb; cases like E ha hc
    exact chain_int _ _ _
  | str p =>
    intro b c t ha hb hc
    cases like E ha hb; cases like E ha hc
    exact chain_text _ _ _
  | bytes p =>
    intro b c t ha hb hc
    cases like E ha hb; cases like E ha hc
    exact chain_text _ _ _
  | tupleOf l ds ih =>
    intro b c t ha hb hc
    cases t with
    | tupleOf l' t =>
      cases b <;> first | (simp [has] at hb; done) | skip
      cases c <;> first | (simp [has] at hc; done) | skip
      simp only [has, Bool.and_eq_true] at ha hb hc
      simp only [order]
      refine chain_lists _ _ _ fun k x y z h1 h2 h3 => ?_
      exact ih x (List.mem_of_getElem? h1) y z t ((hasEach_iff E t _).1 ha.2 _ (List.mem_of_getElem? h1))
        ((hasEach_iff E t _).1 hb.2 _ (List.mem_of_getElem? h2)) ((hasEach_iff E t _).1 hc.2 _ (List.mem_of_getElem? h3))
    | _ => simp [has] at ha
  | tuple ds ih =>
    intro b c t ha hb hc
    cases t with
    | tuple ts =>
      cases b <;> first | (simp [has] at hb; done) | skip
      cases c <;> first | (simp [has] at hc; done) | skip
      simp only [has] at ha hb hc
      simp only [order]
      refine chain_lists _ _ _ fun k x y z h1 h2 h3 => ?_
      obtain ⟨t, ht, h4⟩ := (hasAll_get E _ ts ha).2 k x h1
      obtain ⟨t', ht', h5⟩ := (hasAll_get E _ ts hb).2 k y h2
      obtain ⟨t'', ht'', h6⟩ := (hasAll_get E _ ts hc).2 k z h3
      rw [ht] at ht' ht''
      cases ht'; cases ht''
      exact ih x (List.mem_of_getElem? h1) y z t h4 h5 h6
    | _ => simp [has] at ha
  | oneOf i d ih =>
    intro b c t ha hb hc
    cases t with
    | oneOf ts =>
      cases b <;> first | (simp [has] at hb; done) | skip
      cases c <;> first | (simp [has] at hc; done) | skip
      simp only [order]
      refine chain_then (chain_nat _ _ _) fun h1 h2 => ?_
      rw [Nat.compare_eq_eq] at h1 h2
      subst h1; subst h2
      simp only [has] at ha hb hc
      cases h : ts[i]? with
      | none => simp [h] at ha
      | some t =>
        simp only [h] at ha hb hc
        exact ih _ _ t ha hb hc
    | _ => simp [has] at ha
  | alt i d ih =>
    intro b c t ha hb hc
    cases t with
    | alt n =>
      cases b <;> first | (simp [has] at hb; done) | skip
      cases c <;> first | (simp [has] at hc; done) | skip
      simp only [order]
      refine chain_then (chain_nat _ _ _) fun h1 h2 => ?_
      rw [Nat.compare_eq_eq] at h1 h2
      subst h1; subst h2
      simp only [has] at ha hb hc
      cases h : (E n)[i]? with
      | none => simp [h] at ha
      | some t =>
        simp only [h] at ha hb hc
        exact ih _ _ t ha hb hc
    | _ => simp [has] at ha

/-! ### Equal values are the same value -/

theorem textOrder_eq : ∀ a b, textOrder a b = .eq ↔ a = b
  | [], [] => by simp [textOrder]
  | [], _ :: _ => by simp [textOrder]
  | _ :: _, [] => by simp [textOrder]
  | x :: xs, y :: ys => by
    rw [textOrder, Ordering.then_eq_eq, textOrder_eq xs ys, Nat.compare_eq_eq, List.cons.injEq]

theorem fkey_eq {a b : Nat} (ha : a < 2 ^ 64) (hb : b < 2 ^ 64) :
    fkey a = fkey b ↔ (if a = 2 ^ 63 then 0 else a) = (if b = 2 ^ 63 then 0 else b) := by
  simp only [fkey]
  split <;> split <;> split <;> split <;> omega

theorem orderAll_eq : ∀ as bs : List Data,
    (∀ k : Nat, ∀ a b, as[k]? = some a → bs[k]? = some b → (order a b = .eq ↔ plain a = plain b)) →
    (orderAll as bs = .eq ↔ plains as = plains bs)
  | [], [], _ => by simp [orderAll, plains]
  | [], _ :: _, _ => by simp [orderAll, plains]
  | _ :: _, [], _ => by simp [orderAll, plains]
  | a :: as, b :: bs, h => by
    rw [orderAll, Ordering.then_eq_eq, plains, plains, List.cons.injEq, h 0 a b rfl rfl,
      orderAll_eq as bs fun k x y h1 h2 => h (k + 1) x y (by simpa using h1) (by simpa using h2)]

theorem order_eq (E : Nat → List Ty) : ∀ a b t, has E a t = true → has E b t = true → (order a b = .eq ↔ plain a = plain b) := by
  intro a
  induction a using Data.ind with
  | none => intro b t ha hb; cases like E ha hb; simp [order]
  | num r n => intro b t ha hb; cases like E ha hb; simp [order, plain]
  | flt s x =>
    intro b t ha hb
    cases like E ha hb with
    | flt _ _ y h1 h2 => rw [order, Int.compare_eq_eq, fkey_eq h1 h2, plain, plain]; simp
  | str p => intro b t ha hb; cases like E ha hb; simp [order, plain, textOrder_eq]
  | bytes p => intro b t ha hb; cases like E ha hb; simp [order, plain, textOrder_eq]
  | tupleOf l ds ih =>
    intro b t ha hb
    cases like E ha hb with
    | tupleOf _ _ bs t h1 h2 =>
      rw [order, plain, plain, orderAll_eq _ _ fun k x y h3 h4 => ?_]
      · simp
      · obtain ⟨t, h5, h6⟩ := pairs_each h1 h2 k x y h3 h4
        exact ih x (List.mem_of_getElem? h3) y t h5 h6
  | tuple ds ih =>
    intro b t ha hb
    cases like E ha hb with
    | tuple _ bs ts h1 h2 =>
      rw [order, plain, plain, orderAll_eq _ _ fun k x y h3 h4 => ?_]
      · simp
      · obtain ⟨t, h5, h6⟩ := pairs_all h1 h2 k x y h3 h4
        exact ih x (List.mem_of_getElem? h3) y t h5 h6
  | oneOf i d ih =>
    intro b t ha hb
    cases like E ha hb with
    | oneOf _ j _ b ts t u h1 h2 h3 h4 =>
      rw [order, Ordering.then_eq_eq, Nat.compare_eq_eq, plain, plain, Data.oneOf.injEq]
      refine and_congr_right fun hij => ?_
      subst hij
      rw [h1] at h2; cases h2
      exact ih b t h3 h4
  | alt i d ih =>
    intro b t ha hb
    cases like E ha hb with
    | alt _ j _ b ts t u h1 h2 h3 h4 =>
      rw [order, Ordering.then_eq_eq, Nat.compare_eq_eq, plain, plain, Data.alt.injEq]
      refine and_congr_right fun hij => ?_
      subst hij
      rw [h1] at h2; cases h2
      exact ih b t h3 h4

/-! ### The same value has one hash -/

theorem hashFlt_plain (b : Nat) : hashFlt (if b = 2 ^ 63 then 0 else b) = hashFlt b := by
  split
  · rename_i h; subst h; decide +kernel
  · rfl

theorem hashAll_plains (H : TextHash) : ∀ (ds : List Data), (∀ d ∈ ds, hash H (plain d) = hash H d) →
    ∀ s, hashAll H s (plains ds) = hashAll H s ds
  | [], _, s => by simp [plains]
  | d :: ds, h, s => by
    rw [plains, hashAll, hashAll, h d (by simp), hashAll_plains H ds fun e he => h e (by simp [he])]

theorem plains_isEmpty : ∀ ds, (plains ds).isEmpty = ds.isEmpty
  | [] => rfl
  | _ :: _ => rfl

theorem hash_plain (H : TextHash) : ∀ d, hash H (plain d) = hash H d := by
  intro d
  induction d using Data.ind with
  | none => rfl
  | num r n => rfl
  | flt s b => simp only [plain, hash, hashFlt_plain]
  | str p => rfl
  | bytes p => rfl
  | tupleOf l ds ih => simp only [plain, hash, plains_isEmpty, hashAll_plains H ds ih]
  | tuple ds ih => simp only [plain, hash, hashAll_plains H ds ih]
  | oneOf i d ih => simp only [plain, hash, ih]
  | alt i d ih => simp only [plain, hash, ih]

end Verif.Compare
