import Verif.TypeGroup.Examples
import Verif.TypeGroup.Ideal
/-
C91 and C92: concrete cases, and where types that have nothing to do with each other are taken for
equivalent.
-/
namespace Verif.TypeGroup

open HashOps

section general

variable {O H : Type} [LinearOrder O] [LinearOrder H] [HashOps H] {W : World O H}

/-- Types that the runtime takes for equivalent are the same, or look the same to any depth, or have a
poisoned hash. -/
theorem typesEquivalent_partial (hi : Ideal H) {s : Sys O H} (hs : Reachable W s) {x y : O} {g g' : Grp O H}
    (hx : s.reg x = some g) (hy : s.reg y = some g') (h : typesEquivalent W s.reg x y) :
    x = y ∨ shaHash W s.reg x = poison ∨ ∀ depth, view W depth x = view W depth y := by
  rcases h with h | ⟨_, h⟩
  · exact .inl h
  · by_cases hp : shaHash W s.reg x = poison
    · exact .inr (.inl hp)
    · exact .inr (.inr fun d => same_hash_same_view hi hs hs hx hy h hp d)

/-- Any two types of the same category whose groups could not be ordered are taken for equivalent. -/
theorem poisoned_types_equivalent {s : Sys O H} (hs : Reachable W s) {x y : O} {g g' : Grp O H}
    (hx : s.reg x = some g) (hy : s.reg y = some g') (h : g.hash = poison) (h' : g'.hash = poison)
    (hc : (W.type x).map Prod.fst = (W.type y).map Prod.fst) : typesEquivalent W s.reg x y := by
  have hr := (reachable_inv hs).reg
  refine .inr ⟨hc, ?_⟩
  rw [shaHash_of (hr.nonconst x g hx) hx, shaHash_of (hr.nonconst y g' hy) hy, h, h', add_poison, poison_add,
    poison_add]

/-- Names or the lack of others settle the order of a group. -/
theorem computeRoot_stable {reg : Reg O H} {S : List O}
    (h : (∃ t, S = [t]) ∨ ∃ t k, having W.tpName S k = [t]) : ∃ t, computeRoot W reg S = .ok (t, false) := by
  unfold computeRoot
  cases h1 : single (byKey W.tpName S).reverse with
  | some t => exact ⟨t, rfl⟩
  | none =>
    rcases h with ⟨t, rfl⟩ | ⟨t, k, hk⟩
    · cases h2 : single (byKey W.pyName [t]).reverse with
      | some t => exact ⟨t, rfl⟩
      | none => exact ⟨t, rfl⟩
    · exact absurd (by rw [hk]; rfl) (single_byKey_reverse_none h1 k)

/-- A group is poisoned only when it has several objects and none of them is the only one with its name, or
when something that it sees is poisoned for that reason. -/
theorem poison_reason (hi : Ideal H) (hsha : ∀ s : String, (sha s : H) ≠ poison)
    (hraw : ∀ a b : Nat, (raw2 a b : H) ≠ poison) {s : Sys O H} (hs : Reachable W s) :
    ∀ {x : O} {g : Grp O H}, s.reg x = some g →
    (∀ y, Sees W x y → W.const y ≠ some poison ∧ (∀ h, Rec.hash h ∈ W.walk y → h ≠ poison) ∧
      ((∀ z, Together W y z → z = y) ∨ ∃ z n, Together W y z ∧ W.tpName z = some n ∧
        ∀ z', Together W y z' → W.tpName z' = some n → z' = z)) → g.hash ≠ poison := by
  have hz : (zero : H) ≠ poison := by
    intro h
    exact hi.add_zero_ne poison poison (by rw [poison_add, h])
  have hfold : ∀ (cs : List H) (a : H), a ≠ poison → (∀ c ∈ cs, c ≠ poison) → cs.foldl add a ≠ poison := by
    intro cs
    induction cs with
    | nil => exact fun a h _ => h
    | cons c cs ih =>
      intro a ha hc
      exact ih _ (hi.add_ne_poison _ _ ha (hc c (by simp))) fun d hd => hc d (by simp [hd])
  induction hs with
  | init => intro x g h; cases h
  | @next s0 s1 hs0 hn ih =>
    intro x g hx hok
    obtain ⟨hi1, hkeep, hnew⟩ := next_inv (reachable_inv hs0) hn
    rcases hnew x g hx with h0 | hout
    · exact ih h0 hok
    · have hr1 := hi1.reg
      obtain ⟨S, hg, hS, hb⟩ := hr1.built x g hx
      have htog : ∀ z, z ∈ S ↔ Together W x z := fun z => (hS z).trans (hr1.scc x g hx z)
      have hstable : ∃ t, computeRoot W s1.reg (S.insertionSort (· ≤ ·)) = .ok (t, false) := by
        apply computeRoot_stable
        have hp := List.perm_insertionSort (· ≤ ·) S
        rcases (hok x .refl).2.2 with h1 | ⟨z, n, hz1, hz2, hz3⟩
        · left
          have hxS : x ∈ S := (htog x).2 ⟨.refl, .refl⟩
          have : S.Perm [x] := by
            refine (List.perm_ext_iff_of_nodup hg.nodup (by simp)).2 fun z => ?_
            rw [htog, List.mem_singleton]
            exact ⟨h1 z, fun h => by subst h; exact ⟨.refl, .refl⟩⟩
          exact ⟨x, List.perm_singleton.1 (hp.trans this)⟩
        · right
          refine ⟨z, n, ?_⟩
          refine List.perm_singleton.1 ((having_perm hp n).trans ?_)
          refine (List.perm_ext_iff_of_nodup (hg.nodup.filter _) (by simp)).2 fun w => ?_
          simp only [having, List.mem_filter, List.mem_singleton, decide_eq_true_eq, htog]
          exact ⟨fun h => hz3 w h.1 h.2, fun h => by subst h; exact ⟨hz1, hz2⟩⟩
      obtain ⟨t, ht⟩ := hstable
      unfold build at hb
      rw [ht] at hb
      simp only at hb
      split at hb
      · cases hb
      simp only [computeHash, Bool.false_eq_true, if_false] at hb
      cases hh : groupHash W s1.reg (visit W S (S.length + 1) [] t) (visit W S (S.length + 1) [] t) zero with
      | error e => rw [hh] at hb; cases hb
      | ok h =>
        rw [hh] at hb
        simp only [Except.ok.injEq] at hb
        subst hb
        obtain ⟨ts, e1, e2⟩ := groupHash_list hh
        show h ≠ poison
        rw [← e1]
        refine hfold ts zero hz fun c hc => ?_
        obtain ⟨i, hi', rfl⟩ := List.getElem_of_mem hc
        have hi'' : i < (visit W S (S.length + 1) [] t).length := by rw [e2.length_eq]; exact hi'
        have e3 := (List.forall₂_iff_get.1 e2).2 i hi'' hi'
        simp only [List.get_eq_getElem] at e3
        have hom := List.getElem_mem hi''
        generalize (visit W S (S.length + 1) [] t)[i] = o at e3 hom
        have hxo : Sees W x o := ((hr1.scc x _ hx o).1 hom).1
        unfold topoHash at e3
        cases hw : walkCodes W s1.reg (visit W S (S.length + 1) [] t) (W.walk o) with
        | error e => rw [hw] at e3; cases e3
        | ok cs =>
          rw [hw] at e3
          simp only [Except.map, Except.ok.injEq] at e3
          rw [← e3]
          have hcode : ∀ y ∈ W.succs o, ∀ c, topoCode W s1.reg (visit W S (S.length + 1) [] t) y = .ok c →
              c ≠ poison := by
            intro y hy c hc
            have hxy := hxo.step hy
            rcases topoCode_cases hc with ⟨k, h1, e⟩ | ⟨_, _, e⟩ | ⟨h1, hno, a, ha, e⟩
            · rw [e]
              refine hi.add_ne_poison _ _ (hi.raw1_ne_poison _) fun hk => ?_
              rw [hk] at h1
              exact (hok y hxy).1 h1
            · rw [e]; exact hraw _ _
            · rw [e]
              have ha0 : s0.reg y = some a := by
                rcases hout o hom y hy with h | h
                · exact absurd h hno
                · rcases asg_iff.1 h with ⟨b, hb⟩ | hc
                  · have := hkeep y b hb
                    rw [ha] at this
                    rw [hb, this]
                  · simp [IsConst, h1] at hc
              have := ih ha0 fun w hw => hok w (hxy.trans hw)
              exact hi.add_ne_poison _ _ (hi.add_ne_poison _ _ (hi.raw1_ne_poison _) this)
                (hi.raw1_ne_poison _)
          refine hfold cs _ ?_ ?_
          · rw [topoStart_parts]
            refine hfold _ _ hz ?_
            unfold startParts
            cases W.type o with
            | none => simpa using hi.raw1_ne_poison 2
            | some q =>
              simp only
              split
              · intro c hc
                simp only [List.mem_cons, List.not_mem_nil, or_false] at hc
                rcases hc with rfl | rfl
                · exact hraw _ _
                · exact hsha _
              · simpa using hraw _ _
          · have hrs : ∀ (rs : List (Rec O H)), (∀ r ∈ rs, r ∈ W.walk o) → ∀ cs,
                walkCodes W s1.reg (visit W S (S.length + 1) [] t) rs = .ok cs → ∀ c ∈ cs, c ≠ poison := by
              intro rs
              induction rs with
              | nil =>
                intro _ cs h
                simp only [walkCodes, Except.ok.injEq] at h
                subst h; simp
              | cons r rs ih2 =>
                intro hr cs h c hc
                obtain ⟨a, b, h1, h2, rfl⟩ := walkCodes_cons h
                rcases List.mem_append.1 hc with hc | hc
                · cases hre : r.isErr with
                  | true =>
                    cases r with
                    | err e =>
                      simp only [recCodes, Except.ok.injEq] at h1
                      subst h1; simp at hc
                    | _ => cases hre
                  | false =>
                    have hrw := hr r (by simp)
                    rcases recCodes_cases h1 hre with ⟨k, rfl, e⟩ | ⟨k, rfl, e⟩ | ⟨y, d, rfl, hd, e⟩ | ⟨n, y, d, rfl, hd, e⟩
                    · subst e
                      simp only [List.mem_singleton] at hc
                      rw [hc]
                      exact hi.add_ne_poison _ _ (hi.raw1_ne_poison _) ((hok o hxo).2.1 k hrw)
                    · subst e
                      simp only [List.mem_singleton] at hc
                      rw [hc]
                      exact hi.add_ne_poison _ _ (hi.raw1_ne_poison _) (hsha _)
                    · subst e
                      simp only [List.mem_singleton] at hc
                      rw [hc]
                      exact hcode y (mem_succs hrw rfl) d hd
                    · subst e
                      simp only [List.mem_cons, List.not_mem_nil, or_false] at hc
                      rcases hc with rfl | rfl
                      · exact hi.add_ne_poison _ _ (hi.raw1_ne_poison _) (hsha _)
                      · exact hcode y (mem_succs hrw rfl) _ hd
                · exact ih2 (fun r' h' => hr r' (by simp [h'])) b h2 c hc
            exact hrs (W.walk o) (fun r h => h) cs hw

end general

/-! ### The same types at other addresses, after other calls -/

/-- The world of `exWorld` in another process: the object at `o` is at `14 - o`. -/
def exWorld2 : World Nat Text where
  walk o := if 11 ≤ o ∧ o ≤ 14 then (exWorld.walk (14 - o)).map (Rec.rename (14 - ·)) else []
  const o := if o = 14 then some (sha "zero") else none
  type o := exWorld.type (14 - o)
  tpName o := exWorld.tpName (14 - o)
  pyName _ := none
  kindName o := exWorld.kindName (14 - o)
  const_leaf o h := by
    by_cases h0 : o = 14
    · subst h0; rfl
    · simp [h0] at h

theorem ex_looksLike : LooksLike exWorld exWorld2 (· ≤ 3) (14 - ·) where
  closed x hx y hy := by
    have : ∀ x : Fin 4, ∀ y ∈ exWorld.succs x.val, y ≤ 3 := by decide +kernel
    exact this ⟨x, by omega⟩ y hy
  inj x y hx hy h := by
    have h : 14 - x = 14 - y := h
    omega
  walk x hx := by
    have : ∀ x : Fin 4, exWorld2.walk (14 - x.val) = (exWorld.walk x.val).map (Rec.rename (14 - ·)) := by
      decide +kernel
    exact this ⟨x, by omega⟩
  const x hx := by
    have : ∀ x : Fin 4, exWorld2.const (14 - x.val) = exWorld.const x.val := by decide +kernel
    exact this ⟨x, by omega⟩
  type x hx := by
    have : ∀ x : Fin 4, exWorld2.type (14 - x.val) = exWorld.type x.val := by decide +kernel
    exact this ⟨x, by omega⟩
  tpName x hx := by
    have : ∀ x : Fin 4, exWorld2.tpName (14 - x.val) = exWorld.tpName x.val := by decide +kernel
    exact this ⟨x, by omega⟩
  pyName x hx := rfl
  kindName x hx := by
    have : ∀ x : Fin 4, exWorld2.kindName (14 - x.val) = exWorld.kindName x.val := by decide +kernel
    exact this ⟨x, by omega⟩

/-- In the second process the group of the two classes is computed by a call on `A`, and then a call is made
on the tuple type. -/
def exReg2a : Reg Nat Text := (ensure exWorld2 20 (fun _ => none) 12).toOption.getD (fun _ => none)
def exReg2 : Reg Nat Text := (ensure exWorld2 20 exReg2a 11).toOption.getD (fun _ => none)

theorem of_isSome {α : Type} {d : α} {x : Except Err α} (h : x.toOption.isSome = true) :
    x = .ok (x.toOption.getD d) := by
  cases x with
  | ok a => rfl
  | error e => cases h

theorem ex2_reachable : Reachable exWorld2 ⟨exReg2, [], [11, 12], []⟩ :=
  ensure_reachable (ensure_reachable .init (of_isSome (d := fun _ => none) (x := ensure exWorld2 20 _ 12)
    (by decide +kernel))) (of_isSome (d := fun _ => none) (x := ensure exWorld2 20 exReg2a 11) (by decide +kernel))

/-- The tuple type has the same identity hash in both processes. -/
example : shaHash exWorld2 exReg2 11 = shaHash exWorld exReg 3 :=
  identityHash_looksLike ex_looksLike ex_reachable ex2_reachable (x := 3) (by decide) (r := 3) (r' := 11)
    (by simp) .refl (by simp) .refl

/-! ### Two tuple types with the same contents -/

/-- Two types at 3 and 4 that mention the same class. -/
def exWorld3 : World Nat Text where
  walk o := match o with
    | 1 => [.str "C", .topo 1]
    | 3 => [.topo 1, .err "x"]
    | 4 => [.topo 1]
    | 5 => [.topo 3, .topo 4]
    | _ => []
  const _ := none
  type o := match o with | 1 => some (7, "C") | 3 => some (9, "T") | 4 => some (9, "U") | _ => none
  tpName o := if o = 1 then some "C" else none
  pyName _ := none
  kindName _ := ""
  const_leaf o h := by simp at h

def exReg3 : Reg Nat Text := (ensure exWorld3 20 (fun _ => none) 5).toOption.getD (fun _ => none)

theorem ex3_reachable : Reachable exWorld3 ⟨exReg3, [], [5], []⟩ :=
  ensure_reachable .init (of_isSome (d := fun _ => none) (x := ensure exWorld3 20 _ 5) (by decide +kernel))

/-- The hypotheses of `same_hash_same_view` are met by two different objects. -/
example : (exReg3 3).isSome ∧ (exReg3 4).isSome ∧ shaHash exWorld3 exReg3 3 = shaHash exWorld3 exReg3 4 ∧
    shaHash exWorld3 exReg3 3 ≠ poison ∧ shaHash exWorld3 exReg3 5 ≠ shaHash exWorld3 exReg3 4 := by
  decide +kernel

theorem ex3_sees {x y : Nat} (hx : x = 1 ∨ x = 4) (h : Sees exWorld3 x y) : y = 1 ∨ y = 4 := by
  induction h with
  | refl => exact hx
  | step _ hc ih =>
    rcases ih with rfl | rfl
    · left; symm; simpa [World.succs, exWorld3, Rec.target] using hc
    · left; simpa [World.succs, exWorld3, Rec.target] using hc

/-- The hypotheses of `poison_reason` are met. -/
example : ∀ y, Sees exWorld3 4 y → exWorld3.const y ≠ some poison ∧
    (∀ h, Rec.hash h ∈ exWorld3.walk y → h ≠ poison) ∧
    ((∀ z, Together exWorld3 y z → z = y) ∨ ∃ z n, Together exWorld3 y z ∧ exWorld3.tpName z = some n ∧
        ∀ z', Together exWorld3 y z' → exWorld3.tpName z' = some n → z' = z) := by
  intro y hy
  have h4 : ¬ Sees exWorld3 1 4 := by
    intro h
    have : ∀ y, Sees exWorld3 1 y → y = 1 := by
      intro y h
      induction h with
      | refl => rfl
      | step _ hc ih => subst ih; symm; simpa [World.succs, exWorld3, Rec.target] using hc
    simpa using this 4 h
  rcases ex3_sees (.inr rfl) hy with rfl | rfl
  · refine ⟨by simp [exWorld3], by simp [exWorld3], .inr ⟨1, "C", ⟨.refl, .refl⟩, rfl, fun z' _ h => ?_⟩⟩
    by_contra hne
    simp [exWorld3, hne] at h
  · refine ⟨by simp [exWorld3], by simp [exWorld3], .inl fun z hz => ?_⟩
    rcases ex3_sees (.inr rfl) hz.1 with rfl | rfl
    · exact absurd hz.2 h4
    · rfl

example : (∀ s : String, (sha s : Text) ≠ poison) ∧ ∀ a b : Nat, (raw2 a b : Text) ≠ poison := by
  constructor
  · intro s
    show ¬ (if s = "" then [2, 0, 0] else 3 :: s.toList.map Char.toNat) = [5]
    split <;> simp
  · intro a b
    show ¬ [2, a, b] = [5]
    simp

/-! ### Groups that cannot be ordered -/

/-- Two pairs of alternatives with the same name that refer to each other: `X` at 1 and 2, with a field "a",
and `Y` at 3 and 4, with a field "b". -/
def twins : World Nat Text where
  walk o := match o with
    | 1 => [.str "a", .topo 2]
    | 2 => [.str "a", .topo 1]
    | 3 => [.str "b", .topo 4]
    | 4 => [.str "b", .topo 3]
    | 5 => [.topo 1, .topo 3]
    | _ => []
  const _ := none
  type o := match o with | 1 | 2 => some (7, "X") | 3 | 4 => some (7, "Y") | _ => none
  tpName o := match o with | 1 | 2 => some "X" | 3 | 4 => some "Y" | _ => none
  pyName _ := none
  kindName o := match o with | 1 | 2 => "X" | 3 | 4 => "Y" | _ => "T"
  const_leaf o h := by simp at h

def twinsReg : Reg Nat Text := (ensure twins 40 (fun _ => none) 5).toOption.getD (fun _ => none)

theorem twins_reachable : Reachable twins ⟨twinsReg, [], [5], []⟩ :=
  ensure_reachable .init (of_isSome (d := fun _ => none) (x := ensure twins 40 _ 5) (by decide +kernel))

/-- Unrelated types with different names and different contents are taken for equivalent. -/
theorem unrelated_types_equivalent :
    ∃ (W : World Nat Text) (s : Sys Nat Text) (x y : Nat), Reachable W s ∧ (s.reg x).isSome ∧ (s.reg y).isSome ∧
      typesEquivalent W s.reg x y ∧ W.type x ≠ W.type y ∧ ∃ depth, view W depth x ≠ view W depth y := by
  refine ⟨twins, _, 1, 3, twins_reachable, by decide +kernel, by decide +kernel, .inr ?_, by decide +kernel, 1, ?_⟩
  · decide +kernel
  · intro h
    rw [view_succ rfl, view_succ rfl] at h
    simp [twins, recView] at h

end Verif.TypeGroup
