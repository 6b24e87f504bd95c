import Verif.Common
import Verif.Mro.Model
import Verif.Mro.Merge
/-
C73: the order in which a class looks for its methods is Python's, and a class statement fails only
when Python's does.
-/
namespace Verif.Mro

/-- The set kept beside a chain holds what follows its head, and no class is in the chain twice. -/
structure Chain.Good (c : Chain) : Prop where
  nodup : c.items.Nodup
  tail : ∀ x, x ∈ c.tail ↔ x ∈ c.items.tail

theorem mkChain_good {l : List Nat} (h : l.Nodup) : (mkChain l).Good := by
  refine ⟨h, ?_⟩
  intro x
  unfold mkChain
  cases l <;> simp

theorem mem_setErase {x y : Nat} {s : List Nat} : x ∈ setErase y s ↔ x ∈ s ∧ x ≠ y := by
  unfold setErase
  rw [List.mem_filter]
  simp

theorem popChain_items (hc : Nat) (c : Chain) : (popChain hc c).items = dropHead hc c.items := by
  obtain ⟨items, tail⟩ := c
  cases items with
  | nil => rfl
  | cons h t =>
    rw [dropHead_cons]
    unfold popChain
    by_cases e : h = hc
    · simp only [e, if_true]
      cases t <;> rfl
    · simp only [e, if_false]

theorem popChain_good {hc : Nat} {c : Chain} (hg : c.Good) : (popChain hc c).Good := by
  obtain ⟨items, tail⟩ := c
  obtain ⟨hn, ht⟩ := hg
  cases items with
  | nil => exact ⟨hn, ht⟩
  | cons h t =>
    unfold popChain
    by_cases e : h = hc
    · simp only [e, if_true]
      simp only at hn ht
      rw [List.nodup_cons] at hn
      cases t with
      | nil =>
        refine ⟨List.nodup_nil, ?_⟩
        intro x
        simp only [List.tail_nil]
        rw [mem_setErase, ht]
        simp
      | cons y u =>
        refine ⟨hn.2, ?_⟩
        intro x
        simp only [List.tail_cons]
        rw [mem_setErase, mem_setErase, ht]
        simp only [List.tail_cons, List.mem_cons]
        have hy := (List.nodup_cons.mp hn.2).1
        constructor
        · rintro ⟨⟨h1, _⟩, h3⟩
          rcases h1 with h1 | h1
          · exact absurd h1 h3
          · exact h1
        · intro hx
          refine ⟨⟨Or.inr hx, ?_⟩, ?_⟩
          · intro e'
            apply hn.1
            rw [e, ← e']
            exact List.mem_cons_of_mem _ hx
          · intro e'; rw [e'] at hx; exact hy hx
    · simp only [e, if_false]
      exact ⟨hn, ht⟩

theorem isValid_iff {cs : List Chain} (hg : ∀ c ∈ cs, c.Good) (h : Nat) :
    isValid cs h = true ↔ GoodHead h (cs.map Chain.items) := by
  unfold isValid GoodHead
  rw [List.all_eq_true]
  simp only [List.mem_map, forall_exists_index, and_imp, forall_apply_eq_imp_iff₂]
  constructor
  · intro H c hc hm
    have := H c hc
    have hm' := ((hg c hc).tail h).mpr hm
    simp [hm'] at this
  · intro H c hc
    have h1 := H c hc
    have h2 : h ∉ c.tail := fun hh => h1 (((hg c hc).tail h).mp hh)
    simp [h2]

/-- What `pickLoop` finds. -/
theorem pickLoop_spec {all : List Chain} (hg : ∀ c ∈ all, c.Good) :
    ∀ (cs : List Chain) (b : Bool),
      (∃ pre h t post, cs.map Chain.items = pre ++ (h :: t) :: post ∧
        (∀ x u, x :: u ∈ pre → ¬ GoodHead x (all.map Chain.items)) ∧
        GoodHead h (all.map Chain.items) ∧ pickLoop all b cs = .ok (some h)) ∨
      ((∀ x u, x :: u ∈ cs.map Chain.items → ¬ GoodHead x (all.map Chain.items)) ∧
        ((b = true ∨ ∃ l ∈ cs.map Chain.items, l ≠ []) →
          pickLoop all b cs = .error .noLinearization) ∧
        ((b = false ∧ ∀ l ∈ cs.map Chain.items, l = []) → pickLoop all b cs = .ok none)) := by
  intro cs
  induction cs with
  | nil =>
    intro b
    right
    refine ⟨by simp, ?_, ?_⟩
    · rintro (h | ⟨l, h, _⟩)
      · unfold pickLoop; rw [h]; rfl
      · cases h
    · rintro ⟨h, _⟩
      unfold pickLoop; rw [h]; rfl
  | cons c rest ih =>
    intro b
    obtain ⟨items, tail⟩ := c
    cases items with
    | nil =>
      have hstep : pickLoop all b (⟨[], tail⟩ :: rest) = pickLoop all b rest := rfl
      rw [hstep]
      rcases ih b with ⟨pre, h, t, post, h1, h2, h3, h4⟩ | ⟨h1, h2, h3⟩
      · left
        refine ⟨[] :: pre, h, t, post, by simp [h1], ?_, h3, h4⟩
        intro x u hx
        rcases List.mem_cons.mp hx with e | e
        · cases e
        · exact h2 x u e
      · right
        refine ⟨?_, ?_, ?_⟩
        · intro x u hx
          rcases List.mem_cons.mp hx with e | e
          · cases e
          · exact h1 x u e
        · rintro (h | ⟨l, hl, hne⟩)
          · exact h2 (Or.inl h)
          · rcases List.mem_cons.mp hl with e | e
            · exact absurd e hne
            · exact h2 (Or.inr ⟨l, e, hne⟩)
        · rintro ⟨h, hall⟩
          exact h3 ⟨h, fun l hl => hall l (List.mem_cons_of_mem _ hl)⟩
    | cons h t =>
      have hstep : pickLoop all b (⟨h :: t, tail⟩ :: rest) =
          if isValid all h then .ok (some h) else pickLoop all true rest := rfl
      rw [hstep]
      by_cases hv : isValid all h = true
      · left
        refine ⟨[], h, t, rest.map Chain.items, rfl, by simp, (isValid_iff hg h).mp hv, ?_⟩
        rw [if_pos hv]
      · have hbad : ¬ GoodHead h (all.map Chain.items) := fun hh => hv ((isValid_iff hg h).mpr hh)
        rw [if_neg hv]
        rcases ih true with ⟨pre, h', t', post, h1, h2, h3, h4⟩ | ⟨h1, h2, _⟩
        · left
          refine ⟨(h :: t) :: pre, h', t', post, by simp [h1], ?_, h3, h4⟩
          intro x u hx
          rcases List.mem_cons.mp hx with e | e
          · cases e; exact hbad
          · exact h2 x u e
        · right
          refine ⟨?_, fun _ => h2 (Or.inl rfl), ?_⟩
          · intro x u hx
            rcases List.mem_cons.mp hx with e | e
            · cases e; exact hbad
            · exact h1 x u e
          · rintro ⟨_, hall⟩
            have := hall (h :: t) (by simp)
            cases this

theorem map_popChain_items (hc : Nat) (cs : List Chain) :
    (cs.map (popChain hc)).map Chain.items = (cs.map Chain.items).map (dropHead hc) := by
  rw [List.map_map, List.map_map]
  apply List.map_congr_left
  intro c _
  exact popChain_items hc c

theorem mroLoop_succ (n : Nat) (cs : List Chain) (mro : List Nat) :
    mroLoop (n + 1) cs mro = match pickCls cs with
    | .error e => some (.error e)
    | .ok none => some (.ok mro)
    | .ok (some hc) => mroLoop n (cs.map (popChain hc)) (mro ++ [hc]) := rfl

/-- The loop computes the merge, or fails because there is none. -/
theorem mroLoop_spec : ∀ (fuel : Nat) (cs : List Chain) (mro : List Nat),
    (∀ c ∈ cs, c.Good) → ((cs.map Chain.items).map List.length).sum < fuel →
    (∃ out, Merge (cs.map Chain.items) out ∧ mroLoop fuel cs mro = some (.ok (mro ++ out))) ∨
    ((¬ ∃ out, Merge (cs.map Chain.items) out) ∧
      mroLoop fuel cs mro = some (.error .noLinearization)) := by
  intro fuel
  induction fuel with
  | zero => intro cs mro _ h; omega
  | succ n ih =>
    intro cs mro hg hf
    rcases pickLoop_spec hg cs false with ⟨pre, h, t, post, h1, h2, h3, h4⟩ | ⟨h1, h2, h3⟩
    · have hpick : pickCls cs = .ok (some h) := h4
      have hstep : mroLoop (n + 1) cs mro = mroLoop n (cs.map (popChain h)) (mro ++ [h]) := by
        rw [mroLoop_succ, hpick]
      rw [hstep]
      have hmem : h :: t ∈ cs.map Chain.items := by rw [h1]; simp
      have hg' : ∀ c ∈ cs.map (popChain h), c.Good := by
        intro c hc
        obtain ⟨c', hc', rfl⟩ := List.mem_map.mp hc
        exact popChain_good (hg c' hc')
      have hlt := sum_dropHead_lt hmem
      rw [← map_popChain_items] at hlt
      rcases ih (cs.map (popChain h)) (mro ++ [h]) hg' (by omega) with ⟨out, ho, he⟩ | ⟨hno, he⟩
      · left
        rw [map_popChain_items] at ho
        exact ⟨h :: out, Merge.take h1 h2 h3 ho, by rw [he]; simp⟩
      · right
        refine ⟨?_, he⟩
        rintro ⟨out, ho⟩
        cases ho with
        | done hd =>
          have := hd _ hmem
          cases this
        | @take _ pre' h' t' post' out' e' n' hg'' hm' =>
          have hh : h = h' :=
            first_unique (P := fun x => GoodHead x (cs.map Chain.items)) (h1.symm.trans e')
              h2 h3 n' hg''
          subst hh
          exact hno ⟨out', by rw [map_popChain_items]; exact hm'⟩
    · by_cases hall : ∀ l ∈ cs.map Chain.items, l = []
      · left
        have hpick : pickCls cs = .ok none := h3 ⟨rfl, hall⟩
        refine ⟨[], Merge.done hall, ?_⟩
        rw [mroLoop_succ, hpick]; simp
      · right
        have hex : ∃ l ∈ cs.map Chain.items, l ≠ [] := by
          apply Classical.byContradiction
          intro hno
          apply hall
          intro l hl
          apply Classical.byContradiction
          intro hne
          exact hno ⟨l, hl, hne⟩
        have hpick : pickCls cs = .error .noLinearization := h2 (Or.inr hex)
        refine ⟨?_, by rw [mroLoop_succ, hpick]⟩
        rintro ⟨out, ho⟩
        cases ho with
        | done hd => exact hall hd
        | @take _ pre' h' t' post' out' e' n' hg'' hm' =>
          exact h1 h' t' (by rw [e']; simp) hg''

theorem chains_items (ls : List (List Nat)) : (ls.map mkChain).map Chain.items = ls := by
  rw [List.map_map]
  have : (Chain.items ∘ mkChain) = id := rfl
  rw [this, List.map_id]

/-- `computeMro` for chains without repetitions. -/
theorem computeMro_spec {mroOf : Nat → List Nat} {this : Nat} {bases : List Nat}
    (hn : ∀ l ∈ chains mroOf bases, l.Nodup) :
    (∃ out, Merge (chains mroOf bases) out ∧
      computeMro mroOf this bases = some (.ok (this :: out))) ∨
    ((¬ ∃ out, Merge (chains mroOf bases) out) ∧
      computeMro mroOf this bases = some (.error .noLinearization)) := by
  have hg : ∀ c ∈ (chains mroOf bases).map mkChain, c.Good := by
    intro c hc
    obtain ⟨l, hl, rfl⟩ := List.mem_map.mp hc
    exact mkChain_good (hn l hl)
  have hsum : (((chains mroOf bases).map mkChain).map (fun c => c.items.length)).sum
      = ((((chains mroOf bases).map mkChain).map Chain.items).map List.length).sum := by
    rw [List.map_map (f := Chain.items)]; rfl
  have := mroLoop_spec
    ((((chains mroOf bases).map mkChain).map (fun c => c.items.length)).sum + 1)
    ((chains mroOf bases).map mkChain) [this] hg (by rw [hsum]; omega)
  rw [chains_items] at this
  exact this

/-- The classes made by class statements none of which repeats a base: each class has the bases of its
statement, made before it, and the order C3 gives it. -/
structure World.Ok (w : World) : Prop where
  before : ∀ c < w.length, ∀ b ∈ w.basesOf c, b < c
  distinct : ∀ c < w.length, (w.basesOf c).Nodup
  order : ∀ c < w.length, ∃ out, Merge (chains w.mroOf (w.basesOf c)) out ∧ w.mroOf c = c :: out
  nodup : ∀ c < w.length, (w.mroOf c).Nodup

theorem mroOf_append {w : World} {k : Cls} {c : Nat} (hc : c < w.length) :
    World.mroOf (w ++ [k]) c = w.mroOf c := by
  unfold World.mroOf
  rw [List.getElem?_append_left hc]

theorem basesOf_append {w : World} {k : Cls} {c : Nat} (hc : c < w.length) :
    World.basesOf (w ++ [k]) c = w.basesOf c := by
  unfold World.basesOf
  rw [List.getElem?_append_left hc]

theorem mroOf_new {w : World} {k : Cls} : World.mroOf (w ++ [k]) w.length = k.mro := by
  unfold World.mroOf; simp

theorem basesOf_new {w : World} {k : Cls} : World.basesOf (w ++ [k]) w.length = k.bases := by
  unfold World.basesOf; simp

theorem chains_congr {f g : Nat → List Nat} {bases : List Nat} (h : ∀ b ∈ bases, f b = g b) :
    chains f bases = chains g bases := by
  unfold chains
  rw [List.map_congr_left h]

theorem World.Ok.chains_nodup {w : World} (hw : w.Ok) {bases : List Nat}
    (hb : ∀ b ∈ bases, b < w.length) (hn : bases.Nodup) :
    ∀ l ∈ chains w.mroOf bases, l.Nodup := by
  intro l hl
  unfold chains at hl
  rcases List.mem_append.mp hl with h | h
  · obtain ⟨b, hb', rfl⟩ := List.mem_map.mp h
    exact hw.nodup b (hb b hb')
  · rw [List.mem_singleton] at h; rw [h]; exact hn

theorem declare_eq {w : World} {bases : List Nat} (hb : ∀ b ∈ bases, b < w.length) :
    declare w bases = match computeMro w.mroOf w.length bases with
      | some (.ok mro) => (w ++ [⟨bases, mro⟩], none)
      | some (.error e) => (w, some e)
      | none => (w, none) := by
  have h : bases.all (fun b => decide (b < w.length)) = true := by
    rw [List.all_eq_true]
    intro b h
    exact decide_eq_true (hb b h)
  unfold declare
  rw [if_pos h]
  rcases computeMro w.mroOf w.length bases with _ | (_ | _) <;> rfl

theorem nodup_this {w : World} (hw : w.Ok) {bases : List Nat} (hb : ∀ b ∈ bases, b < w.length)
    {out : List Nat} (hm : Merge (chains w.mroOf bases) out) : (w.length :: out).Nodup := by
  have hlin := hm.linearizes
  refine List.nodup_cons.mpr ⟨?_, hlin.nodup⟩
  -- every class in the order of a class of `w` is in `w`
  have key : ∀ c < w.length, ∀ d ∈ w.mroOf c, d < w.length := by
    intro c
    induction c using Nat.strongRecOn with
    | _ c ih =>
      intro hc d hd
      obtain ⟨o, ho, e⟩ := hw.order c hc
      rw [e] at hd
      rcases List.mem_cons.mp hd with h | h
      · rw [h]; exact hc
      · obtain ⟨l, hl, hdl⟩ := (ho.linearizes.mem d).mp h
        unfold chains at hl
        rcases List.mem_append.mp hl with h' | h'
        · obtain ⟨b, hb', rfl⟩ := List.mem_map.mp h'
          have hlt := hw.before c hc b hb'
          exact ih b hlt (by omega) d hdl
        · rw [List.mem_singleton] at h'
          rw [h'] at hdl
          have := hw.before c hc d hdl
          omega
  intro hmem
  obtain ⟨l, hl, hdl⟩ := (hlin.mem _).mp hmem
  unfold chains at hl
  rcases List.mem_append.mp hl with h' | h'
  · obtain ⟨b, hb', rfl⟩ := List.mem_map.mp h'
    have := key b (hb b hb') _ hdl
    omega
  · rw [List.mem_singleton] at h'
    rw [h'] at hdl
    have := hb _ hdl
    omega

theorem World.Ok.declare {w : World} (hw : w.Ok) {bases : List Nat} (hn : bases.Nodup) :
    (declare w bases).1.Ok := by
  by_cases hb : ∀ b ∈ bases, b < w.length
  · rw [declare_eq hb]
    rcases computeMro_spec (this := w.length) (hw.chains_nodup hb hn) with ⟨out, ho, e⟩ | ⟨_, e⟩
    · rw [e]
      simp only
      have hnd := nodup_this hw hb ho
      have split : ∀ c < (w ++ [(⟨bases, w.length :: out⟩ : Cls)]).length,
          c < w.length ∨ c = w.length := by
        intro c hc
        rw [List.length_append, List.length_singleton] at hc
        omega
      refine ⟨?_, ?_, ?_, ?_⟩
      · intro c hc b hb'
        rcases split c hc with h | h
        · rw [basesOf_append h] at hb'; exact hw.before c h b hb'
        · subst h; rw [basesOf_new] at hb'; exact hb b hb'
      · intro c hc
        rcases split c hc with h | h
        · rw [basesOf_append h]; exact hw.distinct c h
        · subst h; rw [basesOf_new]; exact hn
      · intro c hc
        rcases split c hc with h | h
        · obtain ⟨o, ho', e'⟩ := hw.order c h
          refine ⟨o, ?_, ?_⟩
          · rw [basesOf_append h]
            rw [chains_congr (g := w.mroOf)]
            · exact ho'
            · intro b hb'
              have := hw.before c h b hb'
              exact mroOf_append (by omega)
          · rw [mroOf_append h]; exact e'
        · subst h
          refine ⟨out, ?_, by rw [mroOf_new]⟩
          rw [basesOf_new, chains_congr (g := w.mroOf)]
          · exact ho
          · intro b hb'
            exact mroOf_append (hb b hb')
      · intro c hc
        rcases split c hc with h | h
        · rw [mroOf_append h]; exact hw.nodup c h
        · subst h; rw [mroOf_new]; exact hnd
    · rw [e]; exact hw
  · unfold Mro.declare
    rw [if_neg]
    · exact hw
    · rw [List.all_eq_true]
      intro H
      exact hb (fun b h => of_decide_eq_true (H b h))

theorem foldl_ok : ∀ (decls : List (List Nat)) (w : World), w.Ok → (∀ b ∈ decls, b.Nodup) →
    (decls.foldl (fun w b => (declare w b).1) w).Ok := by
  intro decls
  induction decls with
  | nil => intro w hw _; exact hw
  | cons b rest ih =>
    intro w hw hn
    exact ih _ (hw.declare (hn b (by simp))) (fun x hx => hn x (List.mem_cons_of_mem _ hx))

theorem run_ok {decls : List (List Nat)} (hn : ∀ b ∈ decls, b.Nodup) : (run decls).Ok := by
  refine foldl_ok decls [] ⟨?_, ?_, ?_, ?_⟩ hn <;> (intro c hc; simp at hc)

/-- C73 `mro_is_c3_partial`.

After any class statements none of which names a base twice, a further class statement with distinct
bases succeeds exactly if C3, the algorithm of Python, orders the class; then the method resolution
order is the class followed by that order, and the earlier classes keep theirs.

Missing: class statements that name a base twice; see `repeated_base_refuted`. -/
theorem mro_is_c3_partial {decls : List (List Nat)} (hn : ∀ b ∈ decls, b.Nodup)
    (bases : List Nat) (hb : ∀ b ∈ bases, b < (run decls).length) (hd : bases.Nodup) :
    let w := run decls
    let r := declare w bases
    ((∃ out, Merge (bases.map w.mroOf ++ [bases]) out ∧ r.2 = none ∧
        r.1.length = w.length + 1 ∧ r.1.mroOf w.length = w.length :: out) ∨
      ((¬ ∃ out, Merge (bases.map w.mroOf ++ [bases]) out) ∧ r.2 = some .noLinearization ∧
        r.1 = w)) ∧
    ∀ c < w.length, r.1.mroOf c = w.mroOf c := by
  have hw := run_ok hn
  simp only
  rw [declare_eq hb]
  rcases computeMro_spec (this := (run decls).length) (hw.chains_nodup hb hd) with
    ⟨out, ho, e⟩ | ⟨hno, e⟩
  · rw [e]
    refine ⟨Or.inl ⟨out, ho, rfl, by simp, mroOf_new⟩, ?_⟩
    intro c hc
    exact mroOf_append hc
  · rw [e]
    exact ⟨Or.inr ⟨hno, rfl, rfl⟩, fun _ _ => rfl⟩

/-- Its hypotheses hold of a diamond: the class 3 with the bases 1 and 2 over 0. -/
example : (∀ b ∈ [[], [0], [0]], b.Nodup) ∧ (∀ b ∈ [1, 2], b < (run [[], [0], [0]]).length) ∧
    (declare (run [[], [0], [0]]) [1, 2]).1.mroOf 3 = [3, 1, 2, 0] := by decide +kernel

/-- C73 `mro_keeps_orders`.

In every such hierarchy, the order of a class begins with the class; it holds no class twice; it keeps
the order of the bases in the class statement; and it keeps the order of each of its bases. -/
theorem mro_keeps_orders {decls : List (List Nat)} (hn : ∀ b ∈ decls, b.Nodup) (c : Nat)
    (hc : c < (run decls).length) :
    let w := run decls
    (w.mroOf c).head? = some c ∧ (w.mroOf c).Nodup ∧ (w.basesOf c).Sublist (w.mroOf c) ∧
    ∀ b ∈ w.basesOf c, (w.mroOf b).Sublist (w.mroOf c) := by
  have hw := run_ok hn
  simp only
  obtain ⟨out, ho, e⟩ := hw.order c hc
  have hlin := ho.linearizes
  refine ⟨by rw [e]; rfl, hw.nodup c hc, ?_, ?_⟩
  · rw [e]
    exact (hlin.keeps _ (by unfold chains; simp)).cons c
  · intro b hb
    rw [e]
    have hm : (run decls).mroOf b ∈ chains (run decls).mroOf ((run decls).basesOf c) :=
      List.mem_append.mpr (Or.inl (List.mem_map.mpr ⟨b, hb, rfl⟩))
    exact (hlin.keeps _ hm).cons c

/-- C73 `class_fails_only_without_order`.

If the class statement fails, no order of the classes keeps both the order of the bases and the orders
of each of them. -/
theorem class_fails_only_without_order {decls : List (List Nat)} (hn : ∀ b ∈ decls, b.Nodup)
    (bases : List Nat) (hb : ∀ b ∈ bases, b < (run decls).length) (hd : bases.Nodup)
    (hf : (declare (run decls) bases).2 ≠ none) (L : List Nat) :
    ¬ Linearizes (bases.map (run decls).mroOf ++ [bases]) L := by
  intro hL
  have hw := run_ok hn
  obtain ⟨out, ho⟩ := hL.merge
  rcases computeMro_spec (this := (run decls).length) (hw.chains_nodup hb hd) with
    ⟨out, ho, e⟩ | ⟨hno, e⟩
  · rw [declare_eq hb, e] at hf
    exact hf rfl
  · exact hno ⟨out, ho⟩

/-- Its hypotheses hold of `class Z(X, Y)` with `class X(A, B)` and `class Y(B, A)`. -/
example : (∀ b ∈ [[], [], [0, 1], [1, 0]], b.Nodup) ∧
    (∀ b ∈ [2, 3], b < (run [[], [], [0, 1], [1, 0]]).length) ∧
    (declare (run [[], [], [0, 1], [1, 0]]) [2, 3]).2 = some .noLinearization := by decide +kernel

theorem head_mem {w : World} (hw : w.Ok) {c : Nat} (hc : c < w.length) : c ∈ w.mroOf c := by
  obtain ⟨out, _, e⟩ := hw.order c hc
  rw [e]; simp

theorem mem_mro_iff {w : World} (hw : w.Ok) {c d : Nat} (hc : c < w.length) :
    d ∈ w.mroOf c ↔ d = c ∨ ∃ b ∈ w.basesOf c, d ∈ w.mroOf b := by
  obtain ⟨out, ho, e⟩ := hw.order c hc
  rw [e, List.mem_cons, ho.linearizes.mem]
  apply or_congr Iff.rfl
  unfold chains
  constructor
  · rintro ⟨l, hl, hd⟩
    rcases List.mem_append.mp hl with h | h
    · obtain ⟨b, hb, rfl⟩ := List.mem_map.mp h
      exact ⟨b, hb, hd⟩
    · rw [List.mem_singleton] at h
      rw [h] at hd
      have := hw.before c hc d hd
      exact ⟨d, hd, head_mem hw (by omega)⟩
  · rintro ⟨b, hb, hd⟩
    exact ⟨w.mroOf b, by simp only [List.mem_append, List.mem_map]; exact Or.inl ⟨b, hb, rfl⟩, hd⟩

/-- C73 `issubclass_iff`.

`issubclass(c, d)` holds exactly if `d` is reached from `c` by going from classes to their bases. -/
theorem issubclass_iff {decls : List (List Nat)} (hn : ∀ b ∈ decls, b.Nodup) (c d : Nat)
    (hc : c < (run decls).length) :
    (run decls).isSub c d = true ↔ Sub (run decls).basesOf c d := by
  have hw := run_ok hn
  unfold World.isSub
  rw [List.contains_iff_mem]
  constructor
  · induction c using Nat.strongRecOn with
    | _ c ih =>
      intro h
      rcases (mem_mro_iff hw hc).mp h with e | ⟨b, hb, hd⟩
      · rw [e]; exact Sub.refl _
      · have := hw.before c hc b hb
        exact Sub.step hb (ih b this (by omega) hd)
  · intro h
    induction h with
    | refl a => exact head_mem hw hc
    | @step a b d hb _ ih =>
      have := hw.before a hc b hb
      exact (mem_mro_iff hw hc).mpr (Or.inr ⟨b, hb, ih (by omega)⟩)

example : (run [[], [0], [0], [1, 2]]).isSub 3 0 = true ∧
    (run [[], [0], [0], [1, 2]]).isSub 1 2 = false := by decide +kernel

/-- C73 `mro_monotone`.

If `d` is a superclass of `c`, the order of `d` is kept in the order of `c`: what comes first for
instances of `d` comes first for instances of all its subclasses. -/
theorem mro_monotone {decls : List (List Nat)} (hn : ∀ b ∈ decls, b.Nodup) (c d : Nat)
    (hc : c < (run decls).length) (hs : Sub (run decls).basesOf c d) :
    ((run decls).mroOf d).Sublist ((run decls).mroOf c) := by
  have hw := run_ok hn
  induction hs with
  | refl a => exact List.Sublist.refl _
  | @step a b d hb _ ih =>
    have := hw.before a hc b hb
    exact (ih (by omega)).trans ((mro_keeps_orders hn a hc).2.2.2 b hb)

example : Sub (run [[], [0], [0], [1, 2]]).basesOf 3 0 ∧
    (run [[], [0], [0], [1, 2]]).mroOf 3 = [3, 1, 2, 0] :=
  ⟨Sub.step (b := 1) (by decide +kernel) (Sub.step (b := 0) (by decide +kernel) (Sub.refl 0)),
    by decide +kernel⟩

/-- C73 `repeated_base_refuted`.

`class C(A, B, B)` is a class here, for all classes `A` and `B` without bases, and `B` is in its order
twice.  Python rejects it, and no order lists the bases as the statement does. -/
theorem repeated_base_refuted (w : World) (a b : Nat) (ha : a < w.length) (hb : b < w.length)
    (hne : a ≠ b) (hma : w.mroOf a = [a]) (hmb : w.mroOf b = [b]) :
    (declare w [a, b, b]).2 = none ∧
    (declare w [a, b, b]).1.mroOf w.length = [w.length, a, b, b] ∧
    ∀ L, ¬ Linearizes ([a, b, b].map w.mroOf ++ [[a, b, b]]) L := by
  have hne' : b ≠ a := fun h => hne h.symm
  have hc : computeMro w.mroOf w.length [a, b, b] = some (.ok [w.length, a, b, b]) := by
    simp [computeMro, chains, hma, hmb, mkChain, mroLoop, pickCls, pickLoop, isValid, popChain,
      setErase, hne, hne']
  have hall : ∀ x ∈ [a, b, b], x < w.length := by
    intro x hx
    simp only [List.mem_cons, List.not_mem_nil, or_false] at hx
    rcases hx with rfl | rfl | rfl <;> assumption
  rw [declare_eq hall, hc]
  refine ⟨rfl, mroOf_new, ?_⟩
  intro L hL
  have h1 := hL.keeps [a, b, b] (by simp)
  have h2 := h1.nodup hL.nodup
  simp at h2

example : (run [[], [], [0, 1, 1]]).mroOf 2 = [2, 0, 1, 1] := by decide +kernel

end Verif.Mro
