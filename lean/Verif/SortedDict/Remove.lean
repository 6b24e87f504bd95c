import Verif.SortedDict.Lemmas
namespace Verif.SortedDict
open Spec
variable {K V : Type} {lt : K → K → Bool}

/-- `rebalance` called outside `set`. -/
theorem rebal_ok (sw : StrictWeak lt) {l r : T K V} {k : K} {v : V} {c : Int} {f : Nat}
    (gl : Good l) (gr : Good r) (hc : c = (l.size + r.size + 1 : Nat)) (hf : l.size + r.size + 5 ≤ f)
    (hs : Ascending lt (l.toList ++ (k, v) :: r.toList)) :
    ∃ t', rebalWith (setF lt f) (.node l k v c r) = .ok t' ∧ Good t' ∧ t'.toList = l.toList ++ (k, v) :: r.toList ∧
      t'.size = l.size + r.size + 1 := by
  obtain ⟨sl, sr, a1, a2, a3⟩ := asc_append.mp hs
  obtain ⟨t', h1, h2, h3⟩ := rebal_spec (set := setF lt f) (k := k) (v := v) gl gr hc (by
      intro h0 h3
      obtain ⟨t', b, q1, q2, q3, q4⟩ := set_ok sw k v r f (by omega) (by rintro rfl; simp [T.size] at h3) gr sr
      exact ⟨t', b, q1, q2, by rw [q3, ins_min a2]⟩) (by
      intro h0 h3
      obtain ⟨t', b, q1, q2, q3, q4⟩ := set_ok sw k v l f (by omega) (by rintro rfl; simp [T.size] at h3) gl sl
      exact ⟨t', b, q1, q2, by rw [q3, ins_max sw a1]⟩)
  refine ⟨t', h1, h2, h3, ?_⟩
  rw [t'.size_eq, h3, ← T.toList.eq_2 l k v c r, ← T.size_eq]; rfl

theorem lookup_mem_self (sw : StrictWeak lt) {L R : List (K × V)} {e : K × V} (h : Ascending lt (L ++ e :: R)) :
    lookup lt (L ++ e :: R) e.1 = some e.2 := by
  obtain ⟨a, x⟩ := e
  obtain ⟨-, -, a1, a2, -⟩ := asc_append.mp h
  rw [lookup_append_right sw a1]
  simp [lookup, List.find?, same, sw_irrefl sw]

theorem erase_mem_self (sw : StrictWeak lt) {L R : List (K × V)} {e : K × V} (h : Ascending lt (L ++ e :: R)) :
    erase lt (L ++ e :: R) e.1 = L ++ R := by
  obtain ⟨a, x⟩ := e
  obtain ⟨-, -, a1, a2, -⟩ := asc_append.mp h
  rw [erase_append, erase_of_lt a1, erase_cons_same (sw_irrefl sw a) (sw_irrefl sw a), erase_of_gt a2]

theorem removeF_lt {fuel : Nat} {l r : T K V} {k k' : K} {v : V} {c : Int} (h : lt k k' = true) :
    removeF lt fuel (.node l k' v c r) k = (do
      let (l', e) ← removeF lt fuel l k
      let t ← rebalWith (setF lt fuel) (.node (if e then .nil else l') k' v (c - 1) r)
      .ok (t, false)) := by
  rw [removeF.eq_def]; simp only [h, if_true]

theorem removeF_gt {fuel : Nat} {l r : T K V} {k k' : K} {v : V} {c : Int} (h : lt k k' = false)
    (h' : lt k' k = true) :
    removeF lt fuel (.node l k' v c r) k = (do
      let (r', e) ← removeF lt fuel r k
      let t ← rebalWith (setF lt fuel) (.node l k' v (c - 1) (if e then .nil else r'))
      .ok (t, false)) := by
  rw [removeF.eq_def]; simp only [h, h', if_true, Bool.false_eq_true, if_false]

/-- What a successful removal produces. -/
def Removed (lt : K → K → Bool) (t : T K V) (k : K) (out : Except Err (T K V × Bool)) : Prop :=
  ∃ t' e, out = .ok (t', e) ∧ Good (if e then .nil else t') ∧
    (if e then T.nil else t').toList = erase lt t.toList k ∧ (if e then T.nil else t').size + 1 = t.size

theorem remove_ok (sw : StrictWeak lt) (t : T K V) : ∀ (k : K) (f : Nat), t.size + 5 ≤ f → Good t →
    Ascending lt t.toList →
    (lookup lt t.toList k = none → removeF lt f t k = .error .keyError) ∧
    (∀ v, lookup lt t.toList k = some v → Removed lt t k (removeF lt f t k)) := by
  induction t with
  | nil =>
    intro k f _ _ _
    exact ⟨fun _ => rfl, fun v h => by simp [lookup, T.toList] at h⟩
  | node l k' v' c r ihl ihr =>
    intro k f hf g hs
    obtain ⟨gl, gr, hc, nl, nr⟩ := g
    have hs' := hs
    obtain ⟨sl, sr, a1, a2, a3⟩ := asc_append.mp hs
    simp only [T.size] at hf
    by_cases hk : lt k k' = true
    · have hgt : ∀ e ∈ (k', v') :: r.toList, lt k e.1 = true := by
        intro e he
        rcases List.mem_cons.mp he with rfl | h
        · exact hk
        · exact sw_trans sw hk (a2 e h)
      have el : lookup lt (T.node l k' v' c r).toList k = lookup lt l.toList k := lookup_append_left hgt
      have ee : erase lt (T.node l k' v' c r).toList k = erase lt l.toList k ++ (k', v') :: r.toList := by
        rw [T.toList, erase_append, erase_of_gt hgt]
      obtain ⟨i1, i2⟩ := ihl k f (by omega) gl sl
      rw [el]
      constructor
      · intro h
        rw [removeF_lt hk, i1 h]; rfl
      · intro v h
        obtain ⟨l', e, h1, h2, h3, h4⟩ := i2 v h
        obtain ⟨t', q1, q2, q3, q4⟩ := rebal_ok sw (l := if e then .nil else l') (r := r) (k := k') (v := v')
          (c := c - 1) (f := f) h2 gr (by omega) (by omega)
          (by rw [h3, ← ee]; exact asc_erase hs)
        refine ⟨t', false, ?_, ?_⟩
        · rw [removeF_lt hk, h1]
          simp only [bind, Except.bind, q1]
        · simp only [Bool.false_eq_true, if_false]
          refine ⟨q2, by rw [q3, h3, ee], by simp only [T.size]; omega⟩
    · have hk0 : lt k k' = false := by simpa using hk
      by_cases hk2 : lt k' k = true
      · have hlt : ∀ e ∈ l.toList ++ [(k', v')], lt e.1 k = true := by
          intro e he
          rcases List.mem_append.mp he with h | h
          · exact sw_trans sw (a1 e h) hk2
          · simp only [List.mem_singleton] at h; subst h; exact hk2
        have e0 : (T.node l k' v' c r).toList = (l.toList ++ [(k', v')]) ++ r.toList := by simp [T.toList]
        have el : lookup lt (T.node l k' v' c r).toList k = lookup lt r.toList k := by
          rw [e0]; exact lookup_append_right sw hlt
        have ee : erase lt (T.node l k' v' c r).toList k = l.toList ++ (k', v') :: erase lt r.toList k := by
          rw [e0, erase_append, erase_of_lt hlt]; simp
        obtain ⟨i1, i2⟩ := ihr k f (by omega) gr sr
        rw [el]
        constructor
        · intro h
          rw [removeF_gt hk0 hk2, i1 h]; rfl
        · intro v h
          obtain ⟨r', e, h1, h2, h3, h4⟩ := i2 v h
          obtain ⟨t', q1, q2, q3, q4⟩ := rebal_ok sw (l := l) (r := if e then .nil else r') (k := k') (v := v')
            (c := c - 1) (f := f) gl h2 (by omega) (by omega)
            (by rw [h3, ← ee]; exact asc_erase hs)
          refine ⟨t', false, ?_, ?_⟩
          · rw [removeF_gt hk0 hk2, h1]
            simp only [bind, Except.bind, q1]
          · simp only [Bool.false_eq_true, if_false]
            refine ⟨q2, by rw [q3, h3, ee], by simp only [T.size]; omega⟩
      · have hk2' : lt k' k = false := by simpa using hk2
        have hlt : ∀ e ∈ l.toList, lt e.1 k = true := fun e he => sw_lt_of_lt_of_nlt sw (a1 e he) hk0
        have hgt : ∀ e ∈ r.toList, lt k e.1 = true := fun e he => sw_lt_of_nlt_of_lt sw hk2' (a2 e he)
        have el : lookup lt (T.node l k' v' c r).toList k = some v' := by
          rw [T.toList, lookup_append_right sw hlt]
          simp [lookup, List.find?, same, hk0, hk2']
        have ee : erase lt (T.node l k' v' c r).toList k = l.toList ++ r.toList := by
          rw [T.toList, erase_append, erase_of_lt hlt, erase_cons_same hk0 hk2', erase_of_gt hgt]
        rw [el]
        refine ⟨fun h => by simp at h, ?_⟩
        rintro v -
        unfold Removed
        rw [ee]
        cases l with
        | nil =>
          cases r with
          | nil =>
            simp only [T.size] at hc
            refine ⟨.node .nil k' v' c .nil, true, ?_, trivial, rfl, rfl⟩
            have : c = 1 := by omega
            rw [removeF.eq_def]
            simp [hk0, hk2', this]
            try rfl
          | node ra rb rx rd re =>
            refine ⟨.node ra rb rx rd re, false, ?_, gr, rfl, ?_⟩
            · have : c ≠ 1 := by simp only [T.size] at hc; omega
              rw [removeF.eq_def]
              simp [hk0, hk2', this]
              try rfl
            · simp [T.size]
        | node la lb lx ld le =>
          cases r with
          | nil =>
            refine ⟨.node la lb lx ld le, false, ?_, gl, ?_, ?_⟩
            · have : c ≠ 1 := by simp only [T.size] at hc; omega
              rw [removeF.eq_def]
              simp [hk0, hk2', this]
              try rfl
            · simp [T.toList]
            · simp [T.size]
          | node ra rb rx rd re =>
            have hc1 : c ≠ 1 := by simp only [T.size] at hc; omega
            generalize hl : T.node la lb lx ld le = l at *
            generalize hr : T.node ra rb rx rd re = r at *
            have ln : l ≠ .nil := by rw [← hl]; simp
            have rn : r ≠ .nil := by rw [← hr]; simp
            have lcs := gl.cnt
            have rcs := gr.cnt
            have lc : l.cnt = ld := by rw [← hl]; rfl
            have rc : r.cnt = rd := by rw [← hr]; rfl
            by_cases hcmp : rd < ld
            · obtain ⟨⟨kk, kv⟩, L, t1, t2⟩ := last_spec l ln
              have sl2 := sl
              rw [t1] at sl2
              have g1 := (get_spec sw kk l sl).1
              have lk : lookup lt l.toList kk = some kv := by rw [t1]; exact lookup_mem_self sw sl2
              have er : erase lt l.toList kk = L := by
                rw [t1]; have := erase_mem_self sw sl2; simpa using this
              rw [lk] at g1
              obtain ⟨l', e, h1, h2, h3, h4⟩ := (ihl kk f (by omega) gl sl).2 kv lk
              rw [er] at h3
              have sorted' : Ascending lt (L ++ (kk, kv) :: r.toList) := by
                have e1 : l.toList ++ (k', v') :: r.toList = L ++ ((kk, kv) :: (k', v') :: r.toList) := by
                  rw [t1]; simp
                have hs3 : Ascending lt (L ++ ((kk, kv) :: (k', v') :: r.toList)) := by rw [← e1]; exact hs
                refine List.Pairwise.sublist ?_ hs3
                apply List.Sublist.append (List.Sublist.refl _)
                exact List.Sublist.cons₂ _ (List.sublist_cons_self _ _)
              obtain ⟨t', q1, q2, q3, q4⟩ := rebal_ok sw (l := if e then .nil else l') (r := r) (k := kk) (v := kv)
                (c := c - 1) (f := f) h2 gr (by omega) (by omega) (by rw [h3]; exact sorted')
              refine ⟨t', false, ?_, q2, ?_, ?_⟩
              · rw [← hl, ← hr] at *
                rw [removeF.eq_def]
                simp only [hk0, hk2', hc1, if_false, Bool.false_eq_true, hcmp, if_true]
                rw [t2]
                simp only [bind, Except.bind] at h1 ⊢
                rw [g1]
                simp only
                rw [h1]
                simp only
                rw [q1]
              · simp only [Bool.false_eq_true, if_false]
                rw [q3, h3, t1]; simp
              · simp only [Bool.false_eq_true, if_false, T.size]; omega
            · obtain ⟨⟨kk, kv⟩, L, t1, t2⟩ := first_spec r rn
              have sr2 := sr
              rw [t1] at sr2
              have g1 := (get_spec sw kk r sr).1
              have lk : lookup lt r.toList kk = some kv := by
                rw [t1]; exact lookup_mem_self (L := []) sw sr2
              have er : erase lt r.toList kk = L := by
                rw [t1]; have := erase_mem_self (L := []) sw sr2; simpa using this
              rw [lk] at g1
              obtain ⟨r', e, h1, h2, h3, h4⟩ := (ihr kk f (by omega) gr sr).2 kv lk
              rw [er] at h3
              have sorted' : Ascending lt (l.toList ++ (kk, kv) :: L) := by
                have hs3 : Ascending lt (l.toList ++ ((k', v') :: (kk, kv) :: L)) := by rw [← t1]; exact hs
                refine List.Pairwise.sublist ?_ hs3
                apply List.Sublist.append (List.Sublist.refl _)
                exact List.sublist_cons_self _ _
              obtain ⟨t', q1, q2, q3, q4⟩ := rebal_ok sw (l := l) (r := if e then .nil else r') (k := kk) (v := kv)
                (c := c - 1) (f := f) gl h2 (by omega) (by omega) (by rw [h3]; exact sorted')
              refine ⟨t', false, ?_, q2, ?_, ?_⟩
              · rw [← hl, ← hr] at *
                rw [removeF.eq_def]
                simp only [hk0, hk2', hc1, if_false, Bool.false_eq_true, hcmp]
                rw [t2]
                simp only [bind, Except.bind] at h1 ⊢
                rw [g1]
                simp only
                rw [h1]
                simp only
                rw [q1]
              · simp only [Bool.false_eq_true, if_false]
                rw [q3, h3, t1]
              · simp only [Bool.false_eq_true, if_false, T.size]; omega

end Verif.SortedDict
