import Verif.Ast.Whole
/-
Programs without their places.
-/
namespace Verif.Ast

theorem comment_field {v : Version} {c : String} {k : Class} (h : (grammar v).lookup c = some k) :
    ∀ f ∈ k.fields, f.1 = "type_comment" → f.2 = .stringOpt := by
  have h1 : ∀ v, (grammar v).all (fun e => e.2.fields.all fun f => f.1 != "type_comment" || f.2 == .stringOpt) = true := by
    intro v; cases v <;> decide +kernel
  intro f hf hn
  have := List.all_eq_true.mp (List.all_eq_true.mp (h1 v) (c, k) (lookup_mem h)) f hf
  simpa [hn] using this

theorem ellipsis_old {v : Version} {k : Class} (h : (grammar v).lookup "Ellipsis" = some k) : v = .v37 ∧ k = ⟨.expr, true, []⟩ := by
  cases v with
  | v37 =>
    rw [show (grammar .v37).lookup "Ellipsis" = some ⟨.expr, true, []⟩ from by decide +kernel] at h
    exact ⟨rfl, (Option.some.inj h).symm⟩
  | _ => exact absurd h (by rw [show List.lookup _ (grammar _) = .none from by decide +kernel]; simp)

mutual
theorem clean_wf (v : Version) (keep : Bool) : ∀ (p : Py) (f : Field), p.wf v f = true → (p.clean keep).wf v f = true
  | .node c fs pos, f, h => by
    simp only [Py.wf] at h
    split at h
    case h_2 => simp at h
    rename_i k hk
    simp only [Bool.and_eq_true] at h
    obtain ⟨⟨h1, h2⟩, h3⟩ := h
    simp only [Py.clean]
    by_cases hc : c = "Ellipsis"
    · subst hc
      obtain ⟨rfl, rfl⟩ := ellipsis_old hk
      have hk' : (grammar .v37).lookup "Constant" = some ⟨.expr, true, [("value", .const)]⟩ := by decide +kernel
      simp only [if_true, Py.wf, hk']
      simpa [Py.wfFields, Py.wf] using h1
    · simp only [if_neg hc, Py.wf, hk, h1, Bool.true_and, Bool.and_eq_true]
      refine ⟨?_, clean_wfFields v keep fs k.fields (comment_field hk) h3⟩
      cases keep <;> simpa using h2
  | .list xs, f, h => by
    cases f <;> simp only [Py.wf, Bool.false_eq_true] at h <;> simp only [Py.clean, Py.wf] <;> exact clean_wfAll v keep xs _ h
  | .none, f, h => h
  | .int n, f, h => h
  | .str s, f, h => h
  | .const c, f, h => h
termination_by structural p => p
theorem clean_wfAll (v : Version) (keep : Bool) : ∀ (xs : List Py) (f : Field), Py.wfAll v xs f = true → Py.wfAll v (Py.cleanAll keep xs) f = true
  | [], f, h => rfl
  | x :: xs, f, h => by
    simp only [Py.wfAll, Bool.and_eq_true] at h
    simp only [Py.cleanAll, Py.wfAll, Bool.and_eq_true]
    exact ⟨clean_wf v keep x f h.1, clean_wfAll v keep xs f h.2⟩
termination_by structural xs => xs
theorem clean_wfFields (v : Version) (keep : Bool) : ∀ (fs : List (String × Py)) (F : List (String × Field)),
    (∀ f ∈ F, f.1 = "type_comment" → f.2 = .stringOpt) → Py.wfFields v fs F = true → Py.wfFields v (Py.cleanFields keep fs) F = true
  | [], [], _, h => rfl
  | [], _ :: _, _, h => by simp [Py.wfFields] at h
  | (_, _) :: _, [], _, h => by simp [Py.wfFields] at h
  | (n, p) :: fs, (m, f) :: F, hF, h => by
    simp only [Py.wfFields, Bool.and_eq_true, beq_iff_eq] at h
    obtain ⟨⟨rfl, h1⟩, h2⟩ := h
    simp only [Py.cleanFields, Py.wfFields, Bool.and_eq_true, beq_iff_eq, true_and]
    refine ⟨?_, clean_wfFields v keep fs F (fun f hf => hF f (List.mem_cons_of_mem _ hf)) h2⟩
    by_cases hn : n = "type_comment"
    · rw [if_pos hn]
      have : f = .stringOpt := hF (n, f) (by simp) hn
      subst this
      rfl
    · rw [if_neg hn]
      exact clean_wf v keep p f h1
termination_by structural fs => fs
end

theorem clean_lookup {keep : Bool} {n : String} (hn : n ≠ "type_comment") : ∀ {fs : List (String × Py)},
    (Py.cleanFields keep fs).lookup n = (fs.lookup n).map (Py.clean keep)
  | [] => rfl
  | (m, p) :: fs => by
    simp only [Py.cleanFields, List.lookup_cons]
    cases h : n == m
    · exact clean_lookup hn
    · have : m ≠ "type_comment" := fun e => hn ((eq_of_beq h).trans e)
      simp [this]

theorem clean_isNode {keep : Bool} {c : String} (hc : c ≠ "Ellipsis" ∧ c ≠ "Constant") {p : Py} : (p.clean keep).isNode c = p.isNode c := by
  cases p with
  | node d fs pos =>
    simp only [Py.clean]
    by_cases h : d = "Ellipsis"
    · subst h
      have h1 : ("Ellipsis" == c) = false := beq_eq_false_iff_ne.mpr fun e => hc.1 e.symm
      have h2 : ("Constant" == c) = false := beq_eq_false_iff_ne.mpr fun e => hc.2 e.symm
      simp [Py.isNode, h1, h2]
    · simp [h, Py.isNode]
  | _ => rfl

theorem all_slices {keep : Bool} : ∀ (xs : List Py), (∀ x ∈ xs, x.isNode "Slice" = true) → ∀ x ∈ Py.cleanAll keep xs, x.isNode "Slice" = true
  | [], _, x, hx => by simp [Py.cleanAll] at hx
  | y :: ys, h, x, hx => by
    simp only [Py.cleanAll, List.mem_cons] at hx
    rcases hx with rfl | hx
    · rw [clean_isNode (by decide)]
      exact h y (by simp)
    · exact all_slices ys (fun z hz => h z (List.mem_cons_of_mem _ hz)) x hx

theorem clean_plainNode {keep : Bool} {c : String} {fs : List (String × Py)} (h : plainNode c fs = true) : plainNode c (Py.cleanFields keep fs) = true := by
  unfold plainNode at h ⊢
  split
  · simp_all
  rename_i h1
  rw [if_neg h1] at h
  split
  · rename_i h2
    rw [if_pos h2] at h
    rw [clean_lookup (by decide)]
    split at h
    · rename_i s hs
      simp [hs, Py.clean]
    · simp at h
  rename_i h2
  rw [if_neg h2] at h
  split
  · rename_i h3
    rw [if_pos h3] at h
    rw [clean_lookup (by decide)]
    split
    · rename_i n hn
      cases hl : fs.lookup "n" with
      | none => simp [hl] at hn
      | some p =>
        simp only [hl, Option.map_some, Option.some.injEq] at hn
        cases p <;> simp only [Py.clean] at hn
        case const x =>
          rw [hl] at h
          cases hn
          exact h
        case node c fs pos => split at hn <;> cases hn
        all_goals cases hn
    · rfl
  rename_i h3
  rw [if_neg h3] at h
  split
  · rename_i h4
    rw [if_pos h4] at h
    rw [clean_lookup (by decide)]
    cases hl : fs.lookup "value" with
    | none => simp
    | some p =>
      rw [hl] at h
      simp only [Option.map_some]
      rw [clean_isNode (by decide)]
      exact h
  rename_i h4
  rw [if_neg h4] at h
  split
  · rename_i h5
    rw [if_pos h5] at h
    rw [clean_lookup (by decide)]
    cases hl : fs.lookup "dims" with
    | none => simp
    | some p =>
      rw [hl] at h
      simp only [Option.map_some]
      cases p with
      | list xs =>
        simp only [Py.clean]
        simp only at h
        refine List.all_eq_true.mpr fun x hx => ?_
        exact all_slices xs (List.all_eq_true.mp h) x hx
      | node c fs pos => simp only [Py.clean]; split <;> rename_i e <;> first | rfl | (split at e <;> cases e)
      | _ => rfl
  · rfl

mutual
theorem clean_plain (keep : Bool) : ∀ (p : Py), p.plain = true → (p.clean keep).plain = true
  | .node c fs pos, h => by
    simp only [Py.plain, Bool.and_eq_true] at h
    obtain ⟨⟨h1, h2⟩, h3⟩ := h
    simp only [Py.clean]
    by_cases hc : c = "Ellipsis"
    · rw [if_pos hc]; decide +kernel
    · rw [if_neg hc]
      simp only [Py.plain, Bool.and_eq_true]
      refine ⟨⟨clean_plainNode h1, ?_⟩, clean_plainFields keep fs h3⟩
      cases keep
      · cases pos
        · rfl
        · show (small 0 && small 0) = true
          decide +kernel
      · exact h2
  | .list xs, h => by simp only [Py.plain] at h; simp only [Py.clean, Py.plain]; exact clean_plainAll keep xs h
  | .none, h => h
  | .int n, h => h
  | .str s, h => h
  | .const c, h => h
termination_by structural p => p
theorem clean_plainAll (keep : Bool) : ∀ (xs : List Py), Py.plainAll xs = true → Py.plainAll (Py.cleanAll keep xs) = true
  | [], h => rfl
  | x :: xs, h => by
    simp only [Py.plainAll, Bool.and_eq_true] at h
    simp only [Py.cleanAll, Py.plainAll, Bool.and_eq_true]
    exact ⟨clean_plain keep x h.1, clean_plainAll keep xs h.2⟩
termination_by structural xs => xs
theorem clean_plainFields (keep : Bool) : ∀ (fs : List (String × Py)), Py.plainFields fs = true → Py.plainFields (Py.cleanFields keep fs) = true
  | [], h => rfl
  | (n, p) :: fs, h => by
    simp only [Py.plainFields, Bool.and_eq_true] at h
    simp only [Py.cleanFields, Py.plainFields, Bool.and_eq_true]
    refine ⟨?_, clean_plainFields keep fs h.2⟩
    split
    · rfl
    · exact clean_plain keep p h.1
termination_by structural fs => fs
end

mutual
theorem clean_clean (keep : Bool) : ∀ (p : Py), (p.clean true).clean keep = p.clean keep
  | .node c fs pos => by
    simp only [Py.clean]
    by_cases hc : c = "Ellipsis"
    · simp only [if_pos hc, Py.clean, Py.cleanFields, String.reduceEq, if_false]
      cases keep <;> rfl
    · simp only [if_neg hc, Py.clean, if_true]
      rw [clean_cleanFields keep fs]
  | .list xs => by simp only [Py.clean]; rw [clean_cleanAll keep xs]
  | .none => rfl
  | .int n => rfl
  | .str s => rfl
  | .const c => rfl
termination_by structural p => p
theorem clean_cleanAll (keep : Bool) : ∀ (xs : List Py), Py.cleanAll keep (Py.cleanAll true xs) = Py.cleanAll keep xs
  | [] => rfl
  | x :: xs => by simp only [Py.cleanAll]; rw [clean_clean keep x, clean_cleanAll keep xs]
termination_by structural xs => xs
theorem clean_cleanFields (keep : Bool) : ∀ (fs : List (String × Py)), Py.cleanFields keep (Py.cleanFields true fs) = Py.cleanFields keep fs
  | [] => rfl
  | (n, p) :: fs => by
    simp only [Py.cleanFields]
    rw [clean_cleanFields keep fs]
    by_cases hn : n = "type_comment"
    · simp [hn]
    · simp only [if_neg hn]
      rw [clean_clean keep p]
termination_by structural fs => fs
end

mutual
/-- Without places, the typed tree is that of the program without its places. -/
theorem convert_clean (v : Version) (file file' : String) : ∀ (p : Py) (f : Field), p.wf v f = true →
    convert v file false (p.clean false) = convert v file' false p
  | .node c fs pos, f, h => by
    simp only [Py.wf] at h
    split at h
    case h_2 => simp at h
    rename_i k hk
    simp only [Bool.and_eq_true] at h
    obtain ⟨⟨h1, h2⟩, h3⟩ := h
    simp only [Py.clean]
    by_cases hc : c = "Ellipsis"
    · subst hc
      obtain ⟨rfl, rfl⟩ := ellipsis_old hk
      cases fs with
      | cons x fs => simp [Py.wfFields] at h3
      | nil =>
        have e1 : converters.lookup "Ellipsis" = some .ellipsis := by decide +kernel
        have e2 : converters.lookup "Constant" = some (.alt "Expr" "Constant") := by decide +kernel
        have e3 : construct .v37 "Expr" "Constant" [("value", .const .ellipsis), ("line_number", .int 0), ("col_offset", .int 0), ("filename", .str "")] =
            construct .v37 "Expr" "Constant" [("value", .const .ellipsis)] := by
          have : membersOf .v37 "Expr" "Constant" = some [("value", .obj), ("line_number", .int), ("col_offset", .int), ("filename", .str)] := by decide +kernel
          have w0 : wrap 0 = 0 := by decide +kernel
          simp [construct, this, fill, fits, initial, List.lookup_cons, w0]
        simp only [if_true, convert, e1, e2, convertFields, String.reduceEq, if_false, Maker.run, lineArgs, Bool.false_eq_true, List.nil_append,
          List.cons_append, List.isEmpty_cons, List.isEmpty_nil, e3]
        cases construct .v37 "Expr" "Constant" [("value", .const .ellipsis)] <;> rfl
    · have e := convert_cleanFields v file file' fs k.fields h3
      simp only [if_neg hc, convert, e, lineArgs, Bool.false_eq_true, if_false]
  | .list xs, f, h => by
    simp only [Py.clean, convert]
    cases f <;> simp only [Py.wf, Bool.false_eq_true] at h <;> rw [convert_cleanAll v file file' xs _ h]
  | .none, f, h => by simp [Py.clean, convert]
  | .int n, f, h => by simp [Py.clean, convert]
  | .str s, f, h => by simp [Py.clean, convert]
  | .const c, f, h => by simp [Py.clean, convert]
termination_by structural p => p
theorem convert_cleanAll (v : Version) (file file' : String) : ∀ (xs : List Py) (f : Field), Py.wfAll v xs f = true →
    convertAll v file false (Py.cleanAll false xs) = convertAll v file' false xs
  | [], f, h => rfl
  | x :: xs, f, h => by
    simp only [Py.wfAll, Bool.and_eq_true] at h
    simp only [Py.cleanAll, convertAll]
    rw [convert_clean v file file' x f h.1, convert_cleanAll v file file' xs f h.2]
termination_by structural xs => xs
theorem convert_cleanFields (v : Version) (file file' : String) : ∀ (fs : List (String × Py)) (F : List (String × Field)), Py.wfFields v fs F = true →
    convertFields v file false (Py.cleanFields false fs) = convertFields v file' false fs
  | [], _, h => rfl
  | (_, _) :: _, [], h => by simp [Py.wfFields] at h
  | (n, p) :: fs, (m, f) :: F, h => by
    simp only [Py.wfFields, Bool.and_eq_true] at h
    simp only [Py.cleanFields, convertFields]
    rw [convert_cleanFields v file file' fs F h.2]
    by_cases hn : n = "type_comment"
    · simp [hn]
    · simp only [if_neg hn]
      rw [convert_clean v file file' p f h.1.2]
termination_by structural fs => fs
end

end Verif.Ast
