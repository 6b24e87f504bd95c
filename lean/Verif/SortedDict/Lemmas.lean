import Verif.SortedDict.Spec
import Mathlib.Data.List.Pairwise
namespace Verif.SortedDict
open Spec
variable {K V : Type}

/-- In-order contents. -/
def T.toList : T K V → List (K × V)
  | .nil => []
  | .node l k v _ r => l.toList ++ (k, v) :: r.toList

/-- Number of nodes. -/
def T.size : T K V → Nat
  | .nil => 0
  | .node l _ _ _ r => l.size + r.size + 1

theorem T.size_eq (t : T K V) : t.size = t.toList.length := by
  induction t with
  | nil => rfl
  | node l k v c r ihl ihr => simp [T.size, T.toList, ihl, ihr]; omega

/-- The shape invariant: stored counts are exact and a node with one missing child has at most two nodes on the
other side. -/
def Good : T K V → Prop
  | .nil => True
  | .node l _ _ c r => Good l ∧ Good r ∧ c = (l.size + r.size + 1 : Nat) ∧
      (l.size = 0 → r.size ≤ 2) ∧ (r.size = 0 → l.size ≤ 2)

theorem Good.cnt {t : T K V} (h : Good t) : t.cnt = t.size := by
  cases t with
  | nil => rfl
  | node => exact h.2.2.1

theorem size_pos_of_node {l : T K V} {k v c r} : 0 < (T.node l k v c r).size := by simp [T.size]

/-! ### Orders -/
section
variable {lt : K → K → Bool}

theorem sw_irrefl (sw : StrictWeak lt) (a : K) : lt a a = false := by
  by_contra h
  have h : lt a a = true := by simpa using h
  have := sw.asymm _ _ h
  simp_all

theorem sw_trans (sw : StrictWeak lt) {a b c : K} (h1 : lt a b = true) (h2 : lt b c = true) : lt a c = true := by
  by_contra h
  have h : lt a c = false := by simpa using h
  have h3 := sw.asymm _ _ h2
  have := sw.ntrans _ _ _ h h3
  simp_all

theorem sw_lt_of_lt_of_nlt (sw : StrictWeak lt) {a b c : K} (h1 : lt a b = true) (h2 : lt c b = false) :
    lt a c = true := by
  by_contra h
  have h : lt a c = false := by simpa using h
  have := sw.ntrans _ _ _ h h2
  simp_all

theorem sw_lt_of_nlt_of_lt (sw : StrictWeak lt) {a b c : K} (h1 : lt b a = false) (h2 : lt b c = true) :
    lt a c = true := by
  by_contra h
  have h : lt a c = false := by simpa using h
  have := sw.ntrans _ _ _ h1 h
  simp_all

/-! ### Sorted insertion on lists -/

variable (lt) in
/-- Insertion into a sorted list (used only in proofs). -/
def ins (k : K) (v : V) : List (K × V) → List (K × V)
  | [] => [(k, v)]
  | (a, x) :: r => if lt k a then (k, v) :: (a, x) :: r else if lt a k then (a, x) :: ins k v r else (a, v) :: r

theorem ins_lt {k : K} {v : V} {a x} {L R : List (K × V)} (h : lt k a = true) :
    ins lt k v (L ++ (a, x) :: R) = ins lt k v L ++ (a, x) :: R := by
  induction L with
  | nil => simp [ins, h]
  | cons e L ih =>
    obtain ⟨b, y⟩ := e
    simp only [List.cons_append, ins, ih]
    split
    · simp
    · split <;> simp

theorem asc_append {L R : List (K × V)} {a x} :
    Ascending lt (L ++ (a, x) :: R) ↔ Ascending lt L ∧ Ascending lt R ∧ (∀ e ∈ L, lt e.1 a = true) ∧
      (∀ e ∈ R, lt a e.1 = true) ∧ (∀ e ∈ L, ∀ e' ∈ R, lt e.1 e'.1 = true) := by
  unfold Ascending
  rw [List.pairwise_append, List.pairwise_cons]
  constructor
  · rintro ⟨h1, ⟨h2, h3⟩, h4⟩
    exact ⟨h1, h3, fun e he => h4 e he (a, x) (by simp), h2, fun e he e' he' => h4 e he e' (by simp [he'])⟩
  · rintro ⟨h1, h2, h3, h4, h5⟩
    refine ⟨h1, ⟨h4, h2⟩, ?_⟩
    intro e he e' he'
    rcases List.mem_cons.mp he' with rfl | h
    · exact h3 e he
    · exact h5 e he e' h

theorem ins_gt_all (sw : StrictWeak lt) {k : K} {v : V} {L R : List (K × V)} (h : ∀ e ∈ L, lt e.1 k = true) :
    ins lt k v (L ++ R) = L ++ ins lt k v R := by
  induction L with
  | nil => rfl
  | cons e L ih =>
    obtain ⟨b, y⟩ := e
    have h1 := h (b, y) (by simp)
    simp only at h1
    simp only [List.cons_append, ins, h1, sw.asymm _ _ h1, if_true]
    rw [ih (fun e he => h e (by simp [he]))]
    simp

theorem ins_gt (sw : StrictWeak lt) {k : K} {v : V} {a x} {L R : List (K × V)} (h : lt a k = true)
    (hs : Ascending lt (L ++ (a, x) :: R)) :
    ins lt k v (L ++ (a, x) :: R) = L ++ (a, x) :: ins lt k v R := by
  obtain ⟨-, -, h3, -, -⟩ := asc_append.mp hs
  rw [ins_gt_all sw (fun e he => sw_trans sw (h3 e he) h)]
  simp [ins, h, sw.asymm _ _ h]

theorem ins_eq (sw : StrictWeak lt) {k : K} {v : V} {a x} {L R : List (K × V)} (h : lt a k = false)
    (h' : lt k a = false) (hs : Ascending lt (L ++ (a, x) :: R)) :
    ins lt k v (L ++ (a, x) :: R) = L ++ (a, v) :: R := by
  obtain ⟨-, -, h3, -, -⟩ := asc_append.mp hs
  rw [ins_gt_all sw (fun e he => sw_lt_of_lt_of_nlt sw (h3 e he) h')]
  simp [ins, h, h']

theorem ins_min {k : K} {v : V} {L : List (K × V)} (h : ∀ e ∈ L, lt k e.1 = true) :
    ins lt k v L = (k, v) :: L := by
  cases L with
  | nil => rfl
  | cons e L => obtain ⟨b, y⟩ := e; have := h (b, y) (by simp); simp only at this; simp [ins, this]

theorem ins_max (sw : StrictWeak lt) {k : K} {v : V} {L : List (K × V)} (h : ∀ e ∈ L, lt e.1 k = true) :
    ins lt k v L = L ++ [(k, v)] := by
  have := ins_gt_all (v := v) (R := []) sw h
  simpa [ins] using this

theorem mem_ins {k : K} {v : V} {L : List (K × V)} {e} (h : e ∈ ins lt k v L) :
    e.1 = k ∨ ∃ e' ∈ L, e'.1 = e.1 := by
  induction L with
  | nil => simp [ins] at h; left; rw [h]
  | cons a L ih =>
    obtain ⟨b, y⟩ := a
    simp only [ins] at h
    split at h
    · rcases List.mem_cons.mp h with rfl | h
      · left; rfl
      · right; exact ⟨e, h, rfl⟩
    · split at h
      · rcases List.mem_cons.mp h with rfl | h
        · right; exact ⟨(b, y), by simp, rfl⟩
        · rcases ih h with h | ⟨e', h1, h2⟩
          · left; exact h
          · right; exact ⟨e', by simp [h1], h2⟩
      · rcases List.mem_cons.mp h with rfl | h
        · right; exact ⟨(b, y), by simp, rfl⟩
        · right; exact ⟨e, by simp [h], rfl⟩

theorem asc_ins (sw : StrictWeak lt) {k : K} {v : V} {L : List (K × V)} (h : Ascending lt L) :
    Ascending lt (ins lt k v L) := by
  induction L with
  | nil => simp [ins, Ascending]
  | cons a L ih =>
    obtain ⟨b, y⟩ := a
    obtain ⟨h1, h2⟩ := List.pairwise_cons.mp h
    simp only [ins]
    split
    · rename_i hk
      refine List.pairwise_cons.mpr ⟨?_, h⟩
      intro e he
      rcases List.mem_cons.mp he with rfl | he
      · exact hk
      · exact sw_trans sw hk (h1 e he)
    · rename_i hk
      split
      · rename_i hb
        refine List.pairwise_cons.mpr ⟨?_, ih h2⟩
        intro e he
        rcases mem_ins he with he | ⟨e', h3, h4⟩
        · rw [he]; exact hb
        · rw [← h4]; exact h1 e' h3
      · exact List.pairwise_cons.mpr ⟨h1, h2⟩

/-! ### Shapes of small trees -/

theorem shape0 {t : T K V} (h : t.size = 0) : t = .nil := by
  cases t with
  | nil => rfl
  | node => simp [T.size] at h

theorem shape1 {t : T K V} (g : Good t) (h : t.size = 1) : ∃ k v, t = .node .nil k v 1 .nil := by
  cases t with
  | nil => simp [T.size] at h
  | node l k v c r =>
    simp only [T.size] at h
    have hl := shape0 (t := l) (by omega)
    have hr := shape0 (t := r) (by omega)
    subst hl hr
    have hc := g.2.2.1
    simp [T.size] at hc
    subst hc
    exact ⟨k, v, rfl⟩

theorem shape2 {t : T K V} (g : Good t) (h : t.size = 2) :
    (∃ k v a x, t = .node (.node .nil a x 1 .nil) k v 2 .nil) ∨
    (∃ k v a x, t = .node .nil k v 2 (.node .nil a x 1 .nil)) := by
  cases t with
  | nil => simp [T.size] at h
  | node l k v c r =>
    have hc := g.2.2.1
    simp only [T.size] at h
    rcases (show l.size = 0 ∧ r.size = 1 ∨ l.size = 1 ∧ r.size = 0 by omega) with ⟨h1, h2⟩ | ⟨h1, h2⟩
    · right
      rw [h1, h2] at hc
      have hl := shape0 h1
      obtain ⟨a, x, rfl⟩ := shape1 g.2.1 h2
      subst hl
      subst hc
      exact ⟨k, v, a, x, rfl⟩
    · left
      rw [h1, h2] at hc
      have hl := shape0 h2
      obtain ⟨a, x, rfl⟩ := shape1 g.1 h1
      subst hl
      subst hc
      exact ⟨k, v, a, x, rfl⟩

theorem shape3 {t : T K V} (g : Good t) (h : t.size = 3) :
    (∃ k v a x b y, t = .node (.node .nil a x 1 .nil) k v 3 (.node .nil b y 1 .nil)) ∨
    (∃ k v a x b y, t = .node (.node (.node .nil b y 1 .nil) a x 2 .nil) k v 3 .nil) ∨
    (∃ k v a x b y, t = .node (.node .nil a x 2 (.node .nil b y 1 .nil)) k v 3 .nil) ∨
    (∃ k v a x b y, t = .node .nil k v 3 (.node (.node .nil b y 1 .nil) a x 2 .nil)) ∨
    (∃ k v a x b y, t = .node .nil k v 3 (.node .nil a x 2 (.node .nil b y 1 .nil))) := by
  cases t with
  | nil => simp [T.size] at h
  | node l k v c r =>
    have hc := g.2.2.1
    simp only [T.size] at h
    rcases (show l.size = 1 ∧ r.size = 1 ∨ l.size = 2 ∧ r.size = 0 ∨ l.size = 0 ∧ r.size = 2 by omega)
      with ⟨h1, h2⟩ | ⟨h1, h2⟩ | ⟨h1, h2⟩
    · left
      rw [h1, h2] at hc
      obtain ⟨a, x, rfl⟩ := shape1 g.1 h1
      obtain ⟨b, y, rfl⟩ := shape1 g.2.1 h2
      subst hc
      exact ⟨k, v, a, x, b, y, rfl⟩
    · right
      rw [h1, h2] at hc
      have hl := shape0 h2
      subst hl hc
      rcases shape2 g.1 h1 with ⟨a, x, b, y, rfl⟩ | ⟨a, x, b, y, rfl⟩
      · left; exact ⟨k, v, a, x, b, y, rfl⟩
      · right; left; exact ⟨k, v, a, x, b, y, rfl⟩
    · right; right; right
      rw [h1, h2] at hc
      have hl := shape0 h1
      subst hl hc
      rcases shape2 g.2.1 h2 with ⟨a, x, b, y, rfl⟩ | ⟨a, x, b, y, rfl⟩
      · left; exact ⟨k, v, a, x, b, y, rfl⟩
      · right; exact ⟨k, v, a, x, b, y, rfl⟩

/-- Inserting a largest key into a tree of three. -/
theorem set_max3 (sw : StrictWeak lt) {t : T K V} (g : Good t) (h : t.size = 3) {m : K} {w : V}
    (hs : Ascending lt t.toList) (hm : ∀ e ∈ t.toList, lt e.1 m = true) (f : Nat) :
    ∃ t', setF lt (f + 5) t m w = .ok (t', true) ∧ Good t' ∧ t'.toList = t.toList ++ [(m, w)] := by
  rcases shape3 g h with ⟨k, v, a, x, b, y, rfl⟩ | ⟨k, v, a, x, b, y, rfl⟩ | ⟨k, v, a, x, b, y, rfl⟩ |
    ⟨k, v, a, x, b, y, rfl⟩ | ⟨k, v, a, x, b, y, rfl⟩
  all_goals
    simp only [T.toList, Ascending, List.nil_append, List.cons_append, List.mem_cons, List.not_mem_nil, or_false,
      List.pairwise_cons, forall_eq_or_imp, forall_eq, List.Pairwise.nil, and_true, List.mem_singleton,
      false_or, IsEmpty.forall_iff, implies_true] at hs hm
    obtain ⟨⟨s1, s2⟩, s3⟩ := hs
    obtain ⟨m1, m2, m3⟩ := hm
    have s1' := sw.asymm _ _ s1
    have s2' := sw.asymm _ _ s2
    have s3' := sw.asymm _ _ s3
    have m1' := sw.asymm _ _ m1
    have m2' := sw.asymm _ _ m2
    have m3' := sw.asymm _ _ m3
    simp [setF, rebalWith, bind, Except.bind, leaf, T.cnt, T.toList, Good, T.size, *]

/-- Inserting a smallest key into a tree of three. -/
theorem set_min3 (sw : StrictWeak lt) {t : T K V} (g : Good t) (h : t.size = 3) {m : K} {w : V}
    (hs : Ascending lt t.toList) (hm : ∀ e ∈ t.toList, lt m e.1 = true) (f : Nat) :
    ∃ t', setF lt (f + 5) t m w = .ok (t', true) ∧ Good t' ∧ t'.toList = (m, w) :: t.toList := by
  rcases shape3 g h with ⟨k, v, a, x, b, y, rfl⟩ | ⟨k, v, a, x, b, y, rfl⟩ | ⟨k, v, a, x, b, y, rfl⟩ |
    ⟨k, v, a, x, b, y, rfl⟩ | ⟨k, v, a, x, b, y, rfl⟩
  all_goals
    simp only [T.toList, Ascending, List.nil_append, List.cons_append, List.mem_cons, List.not_mem_nil, or_false,
      List.pairwise_cons, forall_eq_or_imp, forall_eq, List.Pairwise.nil, and_true, List.mem_singleton,
      false_or, IsEmpty.forall_iff, implies_true] at hs hm
    obtain ⟨⟨s1, s2⟩, s3⟩ := hs
    obtain ⟨m1, m2, m3⟩ := hm
    have s1' := sw.asymm _ _ s1
    have s2' := sw.asymm _ _ s2
    have s3' := sw.asymm _ _ s3
    have m1' := sw.asymm _ _ m1
    have m2' := sw.asymm _ _ m2
    have m3' := sw.asymm _ _ m3
    simp [setF, rebalWith, bind, Except.bind, leaf, T.cnt, T.toList, Good, T.size, *]

/-- Rebalancing keeps the contents and restores the shape invariant, provided the nested `set` does its job. -/
theorem rebal_spec {set : T K V → K → V → Except Err (T K V × Bool)} {l r : T K V} {k : K} {v : V} {c : Int}
    (gl : Good l) (gr : Good r) (hc : c = (l.size + r.size + 1 : Nat))
    (hR : l.size = 0 → 3 ≤ r.size → ∃ t' b, set r k v = .ok (t', b) ∧ Good t' ∧ t'.toList = (k, v) :: r.toList)
    (hL : r.size = 0 → 3 ≤ l.size → ∃ t' b, set l k v = .ok (t', b) ∧ Good t' ∧ t'.toList = l.toList ++ [(k, v)]) :
    ∃ t', rebalWith set (.node l k v c r) = .ok t' ∧ Good t' ∧ t'.toList = l.toList ++ (k, v) :: r.toList := by
  have cl := gl.cnt
  have cr := gr.cnt
  cases l with
  | nil =>
    cases r with
    | nil =>
      refine ⟨.node .nil k v c .nil, ?_, ?_, rfl⟩
      · simp [T.size] at hc; subst hc; rfl
      · exact ⟨trivial, trivial, hc, by simp [T.size], by simp [T.size]⟩
    | node rl rk rv rc rr =>
      by_cases h : rc ≤ 2
      · refine ⟨.node .nil k v c (.node rl rk rv rc rr), ?_, ?_, rfl⟩
        · simp [rebalWith, h]
        · refine ⟨trivial, gr, hc, ?_, ?_⟩
          · intro _
            simp only [T.cnt] at cr
            omega
          · intro h'; simp [T.size] at h'
      · have h3 : 3 ≤ (T.node rl rk rv rc rr).size := by simp only [T.cnt] at cr; omega
        obtain ⟨t', b, h1, h2, h4⟩ := hR rfl h3
        refine ⟨t', ?_, h2, by rw [h4]; rfl⟩
        simp [rebalWith, h, h1, bind, Except.bind]
  | node ll lk lv lc lr =>
    cases r with
    | nil =>
      by_cases h : lc ≤ 2
      · refine ⟨.node (.node ll lk lv lc lr) k v c .nil, ?_, ?_, rfl⟩
        · simp [rebalWith, h]
        · refine ⟨gl, trivial, hc, ?_, ?_⟩
          · intro h'; simp [T.size] at h'
          · intro _
            simp only [T.cnt] at cl
            omega
      · have h3 : 3 ≤ (T.node ll lk lv lc lr).size := by simp only [T.cnt] at cl; omega
        obtain ⟨t', b, h1, h2, h4⟩ := hL rfl h3
        refine ⟨t', ?_, h2, by rw [h4]; rfl⟩
        simp [rebalWith, h, h1, bind, Except.bind]
    | node rl rk rv rc rr =>
      have gll := gl.1
      have glr := gl.2.1
      have grl := gr.1
      have grr := gr.2.1
      simp only [T.cnt] at cl cr
      have e1 := gll.cnt
      have e2 := glr.cnt
      have e3 := grl.cnt
      have e4 := grr.cnt
      simp only [rebalWith]
      split
      · rename_i h
        have hlr : lr.size ≠ 0 := by
          intro h0
          have := gl.2.2.2.2 h0
          omega
        refine ⟨_, rfl, ⟨gll, ⟨glr, gr, ?_, ?_, ?_⟩, ?_, ?_, ?_⟩, ?_⟩
        · simp only [T.size] at *; omega
        · intro h'; omega
        · intro h'; simp [T.size] at h'
        · simp only [T.cnt, T.size] at *; omega
        · intro h'; omega
        · intro h'; simp [T.size] at h'
        · simp [T.toList]
      · split
        · rename_i h
          have hrl : rl.size ≠ 0 := by
            intro h0
            have := gr.2.2.2.1 h0
            omega
          refine ⟨_, rfl, ⟨⟨gl, grl, ?_, ?_, ?_⟩, grr, ?_, ?_, ?_⟩, ?_⟩
          · simp only [T.size] at *; omega
          · intro h'; simp [T.size] at h'
          · intro h'; omega
          · simp only [T.cnt, T.size] at *; omega
          · intro h'; simp [T.size] at h'
          · intro h'; omega
          · simp [T.toList]
        · refine ⟨_, rfl, ⟨gl, gr, hc, ?_, ?_⟩, rfl⟩
          · intro h'; simp [T.size] at h'
          · intro h'; simp [T.size] at h'

theorem length_of_toList {t t' : T K V} (h : t'.toList.length = t.toList.length + 1) : t'.size = t.size + 1 := by
  rw [t'.size_eq, t.size_eq, h]

/-- `set` finishes, keeps the invariant and inserts. -/
theorem set_ok (sw : StrictWeak lt) (k : K) (v : V) (t : T K V) : ∀ (f : Nat), t.size + 5 ≤ f → t ≠ .nil → Good t →
    Ascending lt t.toList → ∃ t' b, setF lt f t k v = .ok (t', b) ∧ Good t' ∧ t'.toList = ins lt k v t.toList ∧
      t'.size = t.size + (if b then 1 else 0) := by
  induction t with
  | nil => intro f _ h; exact absurd rfl h
  | node l k' v' c r ihl ihr =>
    intro f hf _ g hs
    obtain ⟨f, rfl⟩ : ∃ f', f = f' + 1 := ⟨f - 1, by omega⟩
    obtain ⟨gl, gr, hc, nl, nr⟩ := g
    have hs' := hs
    obtain ⟨sl, sr, a1, a2, a3⟩ := asc_append.mp hs
    simp only [T.size] at hf
    by_cases hk : lt k k' = true
    · -- left
      simp only [T.toList, ins_lt hk]
      cases l with
      | nil =>
        refine ⟨_, true, by simp only [setF, hk, if_true]; rfl, ?_, ?_, ?_⟩
        · refine ⟨by simp [leaf, Good, T.size], gr, ?_, ?_, ?_⟩
          · simp only [leaf, T.size] at *; omega
          · simp [leaf, T.size]
          · simp [leaf, T.size]
        · simp [T.toList, leaf, ins]
        · simp [T.size, leaf]; omega
      | node la lb lc ld le =>
        obtain ⟨l', b, h1, h2, h3, h4⟩ := ihl f (by omega) (by simp) gl sl
        simp only [setF, hk, if_true]
        rw [h1]
        simp only [bind, Except.bind]
        cases b with
        | false =>
          refine ⟨_, false, rfl, ?_, ?_, ?_⟩
          · simp only [Bool.false_eq_true, if_false] at h4
            refine ⟨h2, gr, by omega, by omega, by omega⟩
          · simp [T.toList, h3]
          · simp only [Bool.false_eq_true, if_false, T.size] at *; omega
        | true =>
          simp only [if_true] at h4
          obtain ⟨t', r1, r2, r3⟩ := rebal_spec (set := setF lt f) (l := l') (r := r) (k := k') (v := v') (c := c + 1)
            h2 gr (by omega) (by
              intro h0; rw [h4] at h0; omega) (by
              intro h0 h5
              have := nr h0
              have e : l'.size = 3 := by omega
              obtain ⟨f', rfl⟩ : ∃ f', f = f' + 5 := ⟨f - 5, by omega⟩
              obtain ⟨t', q1, q2, q3⟩ := set_max3 sw h2 e (m := k') (w := v') (by rw [h3]; exact asc_ins sw sl) (by
                intro e he
                rw [h3] at he
                rcases mem_ins he with h | ⟨e', h6, h7⟩
                · rw [h]; exact hk
                · rw [← h7]; exact a1 e' h6) f'
              exact ⟨t', true, q1, q2, q3⟩)
          refine ⟨t', true, ?_, r2, ?_, ?_⟩
          · simp only [if_true]; rw [r1]
          · rw [r3, h3]
          · rw [t'.size_eq, r3, ← T.toList.eq_2 l' k' v' c r, ← T.size_eq]
            simp only [T.size, if_true] at *; omega
    · have hk0 : lt k k' = false := by simpa using hk
      by_cases hk2 : lt k' k = true
      · -- right
        simp only [T.toList, ins_gt sw hk2 hs']
        cases r with
        | nil =>
          refine ⟨_, true, by simp only [setF, hk0, hk2, if_true, Bool.false_eq_true, if_false]; rfl, ?_, ?_, ?_⟩
          · refine ⟨gl, by simp [leaf, Good, T.size], ?_, ?_, ?_⟩
            · simp only [leaf, T.size] at *; omega
            · simp [leaf, T.size]
            · simp [leaf, T.size]
          · simp [T.toList, leaf, ins]
          · simp [T.size, leaf]
        | node la lb lc ld le =>
          obtain ⟨r', b, h1, h2, h3, h4⟩ := ihr f (by omega) (by simp) gr sr
          simp only [setF, hk0, hk2, if_true, Bool.false_eq_true, if_false]
          rw [h1]
          simp only [bind, Except.bind]
          cases b with
          | false =>
            refine ⟨_, false, rfl, ?_, ?_, ?_⟩
            · simp only [Bool.false_eq_true, if_false] at h4
              refine ⟨gl, h2, by omega, by omega, by omega⟩
            · simp [T.toList, h3]
            · simp only [Bool.false_eq_true, if_false, T.size] at *; omega
          | true =>
            simp only [if_true] at h4
            obtain ⟨t', r1, r2, r3⟩ := rebal_spec (set := setF lt f) (l := l) (r := r') (k := k') (v := v') (c := c + 1)
              gl h2 (by omega) (by
                intro h0 h5
                have := nl h0
                have e : r'.size = 3 := by omega
                obtain ⟨f', rfl⟩ : ∃ f', f = f' + 5 := ⟨f - 5, by omega⟩
                obtain ⟨t', q1, q2, q3⟩ := set_min3 sw h2 e (m := k') (w := v') (by rw [h3]; exact asc_ins sw sr) (by
                  intro e he
                  rw [h3] at he
                  rcases mem_ins he with h | ⟨e', h6, h7⟩
                  · rw [h]; exact hk2
                  · rw [← h7]; exact a2 e' h6) f'
                exact ⟨t', true, q1, q2, q3⟩) (by
                intro h0; rw [h4] at h0; omega)
            refine ⟨t', true, ?_, r2, ?_, ?_⟩
            · simp only [if_true]; rw [r1]
            · rw [r3, h3]
            · rw [t'.size_eq, r3, ← T.toList.eq_2 l k' v' c r', ← T.size_eq]
              simp only [T.size, if_true] at *; omega
      · have hk2' : lt k' k = false := by simpa using hk2
        refine ⟨.node l k' v c r, false, ?_, ⟨gl, gr, hc, nl, nr⟩, ?_, ?_⟩
        · simp only [setF, hk0, hk2', if_true, Bool.false_eq_true, if_false]
        · simp only [T.toList]
          rw [ins_eq sw hk2' hk0 hs']
        · simp [T.size]

/-! ### Lookup -/

theorem lookup_append_right (sw : StrictWeak lt) {L R : List (K × V)} {k : K}
    (h : ∀ e ∈ L, lt e.1 k = true) : lookup lt (L ++ R) k = lookup lt R k := by
  unfold lookup
  rw [List.find?_append]
  have : L.find? (fun e => same lt e.1 k) = none := by
    rw [List.find?_eq_none]
    intro e he
    simp [same, h e he]
  rw [this]; rfl

theorem lookup_none_of_lt {R : List (K × V)} {k : K} (h : ∀ e ∈ R, lt k e.1 = true) : lookup lt R k = none := by
  unfold lookup
  rw [Option.map_eq_none_iff, List.find?_eq_none]
  intro e he
  simp [same, h e he]

theorem lookup_append_left {L R : List (K × V)} {k : K}
    (h : ∀ e ∈ R, lt k e.1 = true) : lookup lt (L ++ R) k = lookup lt L k := by
  have := lookup_none_of_lt h
  unfold lookup at *
  rw [Option.map_eq_none_iff] at this
  rw [List.find?_append, this, Option.or_none]

theorem get_spec (sw : StrictWeak lt) (k : K) (t : T K V) (hs : Ascending lt t.toList) :
    t.get lt k = (match lookup lt t.toList k with | some v => .ok v | none => .error .keyError) ∧
    t.contains lt k = (lookup lt t.toList k).isSome := by
  induction t with
  | nil => exact ⟨rfl, rfl⟩
  | node l k' v c r ihl ihr =>
    obtain ⟨sl, sr, a1, a2, a3⟩ := asc_append.mp hs
    simp only [T.get, T.contains, T.toList]
    by_cases hk : lt k k' = true
    · rw [lookup_append_left (by
        intro e he
        rcases List.mem_cons.mp he with rfl | h
        · exact hk
        · exact sw_trans sw hk (a2 e h))]
      simp only [hk, if_true]
      exact ihl sl
    · have hk0 : lt k k' = false := by simpa using hk
      by_cases hk2 : lt k' k = true
      · have e : lookup lt (l.toList ++ (k', v) :: r.toList) k = lookup lt r.toList k := by
          have : l.toList ++ (k', v) :: r.toList = (l.toList ++ [(k', v)]) ++ r.toList := by simp
          rw [this, lookup_append_right sw]
          intro e he
          rcases List.mem_append.mp he with h | h
          · exact sw_trans sw (a1 e h) hk2
          · simp only [List.mem_singleton] at h; subst h; exact hk2
        rw [e]
        simp only [hk0, hk2, if_true, Bool.false_eq_true, if_false]
        exact ihr sr
      · have hk2' : lt k' k = false := by simpa using hk2
        rw [lookup_append_right sw (fun e he => sw_lt_of_lt_of_nlt sw (a1 e he) hk0)]
        have : lookup lt ((k', v) :: r.toList) k = some v := by
          simp [lookup, List.find?, same, hk0, hk2']
        rw [this]
        simp [hk0, hk2']

/-! ### first and last -/

theorem first_spec (t : T K V) (h : t ≠ .nil) : ∃ e L, t.toList = e :: L ∧ t.first = .ok e.1 := by
  induction t with
  | nil => exact absurd rfl h
  | node l k v c r ihl _ =>
    cases l with
    | nil => exact ⟨(k, v), r.toList, rfl, rfl⟩
    | node a b x d e =>
      obtain ⟨e', L, h1, h2⟩ := ihl (by simp)
      refine ⟨e', L ++ (k, v) :: r.toList, ?_, ?_⟩
      · rw [T.toList.eq_2 _ k v c r, h1]; rfl
      · simpa [T.first] using h2

theorem last_spec (t : T K V) (h : t ≠ .nil) : ∃ e L, t.toList = L ++ [e] ∧ t.last = .ok e.1 := by
  induction t with
  | nil => exact absurd rfl h
  | node l k v c r _ ihr =>
    cases r with
    | nil => exact ⟨(k, v), l.toList, rfl, rfl⟩
    | node a b x d e =>
      obtain ⟨e', L, h1, h2⟩ := ihr (by simp)
      refine ⟨e', l.toList ++ (k, v) :: L, ?_, ?_⟩
      · rw [T.toList.eq_2 _ k v c _, h1]; simp
      · simpa [T.last] using h2

/-! ### Removal -/

theorem erase_append (L R : List (K × V)) (k : K) : erase lt (L ++ R) k = erase lt L k ++ erase lt R k := by
  simp [erase]

theorem erase_of_lt {L : List (K × V)} {k : K} (h : ∀ e ∈ L, lt e.1 k = true) : erase lt L k = L := by
  unfold erase
  rw [List.filter_eq_self]
  intro e he
  simp [same, h e he]

theorem erase_of_gt {L : List (K × V)} {k : K} (h : ∀ e ∈ L, lt k e.1 = true) : erase lt L k = L := by
  unfold erase
  rw [List.filter_eq_self]
  intro e he
  simp [same, h e he]

theorem erase_cons_same {L : List (K × V)} {k k' : K} {v : V} (h1 : lt k k' = false) (h2 : lt k' k = false) :
    erase lt ((k', v) :: L) k = erase lt L k := by
  simp [erase, same, h1, h2]

theorem erase_cons_lt {L : List (K × V)} {k k' : K} {v : V} (h1 : lt k k' = true) :
    erase lt ((k', v) :: L) k = (k', v) :: erase lt L k := by
  simp [erase, same, h1]

theorem erase_cons_gt {L : List (K × V)} {k k' : K} {v : V} (h1 : lt k' k = true) :
    erase lt ((k', v) :: L) k = (k', v) :: erase lt L k := by
  simp [erase, same, h1]

theorem asc_erase {L : List (K × V)} {k : K} (h : Ascending lt L) : Ascending lt (erase lt L k) :=
  List.Pairwise.filter _ h

end
end Verif.SortedDict
