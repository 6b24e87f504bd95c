import Verif.Source.Spec
/-
C116, first part: for plain programs Python compiles the functions inside a function in the order in which `inside` gives them.
-/
namespace Verif.Source
open Verif.Ast (Alg)

theorem lookup_codes (ms : List (String × Alg)) (n : String) :
    (((codesFields ms).lookup n).getD []).flatten = codes (member ms n) := by
  induction ms with
  | nil => simp [codesFields, member, codes]
  | cons m ms ih =>
    obtain ⟨k, x⟩ := m
    cases x <;> simp only [codesFields, member, List.lookup_cons] at ih ⊢ <;> cases hk : (n == k) <;> simp_all [codes, member]

theorem codesFields_flat (ms : List (String × Alg)) : (codesFields ms).map (fun r => r.2.flatten) = ms.map (fun m => codes m.2) := by
  induction ms with
  | nil => rfl
  | cons m ms ih => obtain ⟨k, x⟩ := m; cases x <;> simp_all [codesFields, codes]

theorem member_quiet {ms : List (String × Alg)} {ns : List String} {n : String} (h : quietIn ms ns = true) (hn : n ∈ ns) :
    quiet (member ms n) = true := by
  induction ms with
  | nil => simp [member, quiet]
  | cons m ms ih =>
    obtain ⟨k, x⟩ := m
    simp only [quietIn, List.all_cons, Bool.and_eq_true] at h
    simp only [member, List.lookup_cons]
    cases hk : (n == k)
    · exact ih h.2
    · have := eq_of_beq hk
      subst this
      have h1 := h.1
      simp only [List.contains_iff_mem, Bool.or_eq_true, Bool.not_eq_true', List.contains_eq_mem, decide_eq_false_iff_not] at h1
      rcases h1 with h1 | h1
      · exact absurd hn h1
      · simpa using h1

theorem member_fields {p : Alg → Bool} (hp : p .none = true) {ms : List (String × Alg)} (h : ∀ m ∈ ms, p m.2 = true) (n : String) :
    p (member ms n) = true := by
  induction ms with
  | nil => simpa [member]
  | cons m ms ih =>
    obtain ⟨k, x⟩ := m
    simp only [member, List.lookup_cons]
    cases hk : (n == k)
    · exact ih fun m hm => h m (.tail _ hm)
    · exact h _ (.head _)

theorem quietFields_iff (ms : List (String × Alg)) : quietFields ms = true ↔ ∀ m ∈ ms, quiet m.2 = true := by
  induction ms with
  | nil => simp [quietFields]
  | cons m ms ih => obtain ⟨k, x⟩ := m; simp [quietFields, ih]
theorem plainFields_iff (ms : List (String × Alg)) : plainFields ms = true ↔ ∀ m ∈ ms, plain m.2 = true := by
  induction ms with
  | nil => simp [plainFields]
  | cons m ms ih => obtain ⟨k, x⟩ := m; simp [plainFields, ih]
theorem plainAll_iff (xs : List Alg) : plainAll xs = true ↔ ∀ x ∈ xs, plain x = true := by
  induction xs with
  | nil => simp [plainAll]
  | cons x xs ih => simp [plainAll, ih]

theorem interleave_nil : ∀ {ks vs : List (List Alg)}, (∀ k ∈ ks, k = []) → (interleave ks vs).flatten = vs.flatten
  | [], [], _ => rfl
  | [], v :: vs, _ => rfl
  | k :: ks, [], h => by
    have : (k :: ks).flatten = [] := List.flatten_eq_nil_iff.mpr h
    simpa [interleave] using this
  | k :: ks, v :: vs, h => by
    have h1 := h k (.head _)
    simp [interleave, h1, interleave_nil (ks := ks) (vs := vs) fun x hx => h x (.tail _ hx)]
theorem interleave_nil' : ∀ {ks vs : List (List Alg)}, (∀ v ∈ vs, v = []) → (interleave ks vs).flatten = ks.flatten
  | [], [], _ => rfl
  | [], v :: vs, h => by
    have : (v :: vs).flatten = [] := List.flatten_eq_nil_iff.mpr h
    simpa [interleave] using this
  | k :: ks, [], _ => rfl
  | k :: ks, v :: vs, h => by
    have h1 := h v (.head _)
    simp [interleave, h1, interleave_nil' (ks := ks) (vs := vs) fun x hx => h x (.tail _ hx)]

/-- Where there is nothing to arrange nothing comes out, but the node itself if it is one of those. -/
theorem arrange_nil {a : Alg} {t c : String} {rs : List (String × List (List Alg))} (h : ∀ r ∈ rs, ∀ x ∈ r.2, x = []) (ha : scope (.alt t c ms) = false) :
    arrange a t c rs = [] := by
  have hl : ∀ n, ∀ x ∈ (rs.lookup n).getD [], x = [] := by
    intro n
    induction rs with
    | nil => simp
    | cons r rs ih =>
      obtain ⟨k, y⟩ := r
      simp only [List.lookup_cons]
      cases n == k
      · exact ih fun r hr => h r (.tail _ hr)
      · exact h _ (.head _)
  have hg : ∀ n, ((rs.lookup n).getD []).flatten = [] := fun n => List.flatten_eq_nil_iff.mpr (hl n)
  have hall : (rs.map fun r => r.2.flatten).flatten = [] := by
    rw [List.flatten_eq_nil_iff]
    intro l hl
    obtain ⟨r, hr, rfl⟩ := List.mem_map.mp hl
    exact List.flatten_eq_nil_iff.mpr (h r hr)
  have hi : (interleave ((rs.lookup "keys").getD []) ((rs.lookup "values").getD [])).flatten = [] := by
    rw [interleave_nil (hl "keys"), hg]
  simp only [scope, Bool.or_eq_false_iff, Bool.and_eq_false_iff, beq_eq_false_iff_ne] at ha
  simp only [arrange, hg, hall, hi, List.append_nil, List.nil_append]
  split
  · next e => simp_all
  · split
    · next e => simp_all
    · split
      · next e => simp_all
      · split
        · next e => simp_all
        · simp

mutual
theorem codes_quiet : ∀ (a : Alg), quiet a = true → codes a = []
  | .alt t c ms, h => by
    simp only [quiet, Bool.and_eq_true, Bool.not_eq_true'] at h
    simp only [codes]
    exact arrange_nil (codesFields_quiet ms h.2) h.1
  | .tuple xs, h => by
    simp only [quiet] at h
    simp only [codes]
    exact List.flatten_eq_nil_iff.mpr (codesAll_quiet xs h)
  | .none, _ => rfl
  | .int _, _ => rfl
  | .str _, _ => rfl
  | .const _, _ => rfl
termination_by structural a => a
theorem codesAll_quiet : ∀ (xs : List Alg), quietAll xs = true → ∀ x ∈ codesAll xs, x = []
  | [], _ => by simp [codesAll]
  | x :: xs, h => by
    simp only [quietAll, Bool.and_eq_true] at h
    simp only [codesAll, List.mem_cons]
    rintro y (rfl | hy)
    · exact codes_quiet x h.1
    · exact codesAll_quiet xs h.2 y hy
termination_by structural xs => xs
theorem codesFields_quiet : ∀ (ms : List (String × Alg)), quietFields ms = true → ∀ r ∈ codesFields ms, ∀ x ∈ r.2, x = []
  | [], _ => by simp [codesFields]
  | (n, x) :: ms, h => by
    simp only [quietFields, Bool.and_eq_true] at h
    have ih := codesFields_quiet ms h.2
    have hx := codes_quiet x h.1
    intro r hr y hy
    cases x <;> simp only [codesFields, List.mem_cons] at hr <;> (rcases hr with rfl | hr; swap; exact ih r hr y hy)
    all_goals first
      | (simp only [List.mem_singleton] at hy; rw [hy]; exact hx)
      | (simp only [codes] at hx; exact List.flatten_eq_nil_iff.mp hx y hy)
termination_by structural ms => ms
end

mutual
theorem extract_quiet : ∀ (a : Alg), quiet a = true → extract a = []
  | .alt t c ms, h => by
    simp only [quiet, Bool.and_eq_true, Bool.not_eq_true'] at h
    simp only [extract, h.1]
    simp [extractFields_quiet ms h.2]
  | .tuple xs, h => by
    simp only [quiet] at h
    simp only [extract]
    exact extractAll_quiet xs h
  | .none, _ => rfl
  | .int _, _ => rfl
  | .str _, _ => rfl
  | .const _, _ => rfl
termination_by structural a => a
theorem extractAll_quiet : ∀ (xs : List Alg), quietAll xs = true → extractAll xs = []
  | [], _ => rfl
  | x :: xs, h => by
    simp only [quietAll, Bool.and_eq_true] at h
    simp [extractAll, extract_quiet x h.1, extractAll_quiet xs h.2]
termination_by structural xs => xs
theorem extractFields_quiet : ∀ (ms : List (String × Alg)), quietFields ms = true → extractFields ms = []
  | [], _ => rfl
  | (n, x) :: ms, h => by
    simp only [quietFields, Bool.and_eq_true] at h
    simp [extractFields, extract_quiet x h.1, extractFields_quiet ms h.2]
termination_by structural ms => ms
end

theorem member_placed {t c : String} {ms : List (String × Alg)} (h : placed t c ms = true) {n : String} (hn : n ≠ "generators") :
    bare (member ms n) = true := by
  induction ms with
  | nil => simp [member, bare]
  | cons m ms ih =>
    obtain ⟨k, x⟩ := m
    simp only [placed, List.all_cons, Bool.and_eq_true] at h
    simp only [member, List.lookup_cons]
    cases hk : (n == k)
    · exact ih h.2
    · have := eq_of_beq hk
      subst this
      have h1 := h.1
      simpa [hn] using h1

/-- A loop of a comprehension? -/
def isLoop : Alg → Bool
  | .alt t _ _ => t == "Comprehension"
  | _ => false

theorem bare_loop {a : Alg} (h : bare a = true) : isLoop a = false := by
  cases a <;> simp_all [bare, isLoop]

theorem bare_tuple {xs : List Alg} (h : bare (.tuple xs) = true) : ∀ x ∈ xs, bare x = true := by
  intro x hx
  have := List.all_eq_true.mp h x hx
  cases x <;> simp_all [bare]

theorem lookup_raw {ms : List (String × Alg)} {n : String} {xs : List Alg} (h : member ms n = .tuple xs) :
    ((codesFields ms).lookup n).getD [] = codesAll xs := by
  induction ms with
  | nil => simp [member] at h
  | cons m ms ih =>
    obtain ⟨k, x⟩ := m
    simp only [member, List.lookup_cons] at h ih
    cases x <;> simp only [codesFields, List.lookup_cons] <;> cases hk : (n == k) <;> simp_all

theorem gen_shape {first : Bool} {g : Alg} (h : plainGen first g = true) : ∃ a b ifs x,
    g = .alt "Comprehension" "Item" [("target", a), ("iter", b), ("ifs", .tuple ifs), ("is_async", .const x)] ∧ quiet a = true ∧ (first = true → quiet b = true) := by
  unfold plainGen at h
  split at h
  · simp only [Bool.and_eq_true, beq_iff_eq, Bool.or_eq_true, Bool.not_eq_true'] at h
    obtain ⟨⟨⟨⟨⟨⟨⟨rfl, rfl⟩, rfl⟩, rfl⟩, rfl⟩, rfl⟩, h1⟩, h2⟩ := h
    exact ⟨_, _, _, _, rfl, h1, fun e => h2.resolve_left (by simp [e])⟩
  · cases h

theorem first_iter {ms : List (String × Alg)} (h : plainGens (member ms "generators") = true) :
    (((codesFields ms).lookup "generators").getD []).headD [] = [] := by
  unfold plainGens at h
  split at h
  · next g gs e =>
    simp only [Bool.and_eq_true] at h
    obtain ⟨a, b, ifs, x, rfl, _, hb⟩ := gen_shape h.1
    rw [lookup_raw e]
    simp [codesAll, codes, arrange, lookup_codes, member, List.lookup_cons, codes_quiet b (hb rfl)]
  · cases h

theorem arrange_assign {a : Alg} {ms : List (String × Alg)} (hn : (match ms with
    | [(n1, a), (n2, b), (_, .int _), (_, .int _), (_, .str _)] => n1 == "targets" && n2 == "value" && (quiet a || quiet b)
    | _ => false) = true) : arrange a "Statement" "Assign" (codesFields ms) = (ms.map fun m => codes m.2).flatten := by
  split at hn
  · next x y _ _ _ _ _ _ =>
    simp only [Bool.and_eq_true, beq_iff_eq, Bool.or_eq_true] at hn
    obtain ⟨⟨rfl, rfl⟩, q⟩ := hn
    simp [arrange, lookup_codes, member, List.lookup_cons]
    rcases q with q | q <;> simp [codes_quiet _ q, codes]
  · cases hn

theorem arrange_ann {a : Alg} {ms : List (String × Alg)} (hn : (match ms with
    | [(n1, a), (n2, b), (n3, .int _), (n4, d), (_, .int _), (_, .int _), (_, .str _)] => n1 == "target" && n2 == "annotation" && n3 == "simple" && n4 == "value" && quiet b && (quiet a || quiet d)
    | _ => false) = true) : arrange a "Statement" "AnnAssign" (codesFields ms) = (ms.map fun m => codes m.2).flatten := by
  split at hn
  · simp only [Bool.and_eq_true, beq_iff_eq, Bool.or_eq_true] at hn
    obtain ⟨⟨⟨⟨⟨rfl, rfl⟩, rfl⟩, rfl⟩, q0⟩, q⟩ := hn
    simp [arrange, lookup_codes, member, List.lookup_cons]
    rcases q with q | q <;> simp [codes_quiet _ q, codes_quiet _ q0, codes]
  · cases hn

theorem arrange_for {a : Alg} {t c : String} {ms : List (String × Alg)} (e : t = "Statement" ∧ (c = "For" ∨ c = "AsyncFor")) (hn : (match ms with
    | [(n1, a), (n2, b), (n3, _), (n4, _), (_, .int _), (_, .int _), (_, .str _)] => n1 == "target" && n2 == "iter" && n3 == "body" && n4 == "orelse" && (quiet a || quiet b)
    | _ => false) = true) : arrange a t c (codesFields ms) = (ms.map fun m => codes m.2).flatten := by
  split at hn
  · simp only [Bool.and_eq_true, beq_iff_eq, Bool.or_eq_true] at hn
    obtain ⟨⟨⟨⟨rfl, rfl⟩, rfl⟩, rfl⟩, q⟩ := hn
    obtain ⟨rfl, rfl | rfl⟩ := e <;> simp [arrange, lookup_codes, member, List.lookup_cons] <;>
      rcases q with q | q <;> simp [codes_quiet _ q, codes]
  · cases hn

theorem arrange_dict {a : Alg} {ms : List (String × Alg)} (hn : (match ms with
    | [(n1, .tuple ks), (n2, .tuple vs), (_, .int _), (_, .int _), (_, .str _)] => n1 == "keys" && n2 == "values" && (quietAll ks || quietAll vs)
    | _ => false) = true) : arrange a "Expr" "Dict" (codesFields ms) = (ms.map fun m => codes m.2).flatten := by
  split at hn
  · simp only [Bool.and_eq_true, beq_iff_eq, Bool.or_eq_true] at hn
    obtain ⟨⟨rfl, rfl⟩, q⟩ := hn
    simp [arrange, codesFields, List.lookup_cons, codes]
    rcases q with q | q
    · have q := codesAll_quiet _ q
      rw [interleave_nil q, List.flatten_eq_nil_iff.mpr q]; rfl
    · have q := codesAll_quiet _ q
      rw [interleave_nil' q, List.flatten_eq_nil_iff.mpr q]; simp
  · cases hn

mutual
/-- In a plain tree Python compiles what is found, in that order. -/
theorem codes_plain : ∀ (a : Alg), plain a = true → bare a = true → codes a = extract a
  | .alt t c ms, h, hb => by
    simp only [plain, Bool.and_eq_true] at h
    obtain ⟨⟨hn, hp⟩, hf⟩ := h
    have hm := fun n => lookup_codes ms n
    have ht : t ≠ "Comprehension" := by simpa [bare] using hb
    simp only [codes, extract]
    unfold plainNode at hn
    by_cases e1 : t = "Statement" ∧ (c = "FunctionDef" ∨ c = "AsyncFunctionDef")
    · rw [if_pos e1] at hn
      have q := fun n hx => codes_quiet _ (member_quiet (n := n) hn hx)
      obtain ⟨rfl, rfl | rfl⟩ := e1 <;> simp [arrange, hm, q, scope]
    rw [if_neg e1] at hn
    by_cases e2 : t = "Statement" ∧ c = "ClassDef"
    · rw [if_pos e2] at hn
      have q := fun n hx => codes_quiet _ (member_quiet (n := n) hn hx)
      obtain ⟨rfl, rfl⟩ := e2
      simp [arrange, hm, q, scope]
    rw [if_neg e2] at hn
    by_cases e3 : t = "Expr" ∧ c = "Lambda"
    · rw [if_pos e3] at hn
      have q := fun n hx => codes_quiet _ (member_quiet (n := n) hn hx)
      obtain ⟨rfl, rfl⟩ := e3
      simp [arrange, hm, q, scope]
    rw [if_neg e3] at hn
    by_cases e4 : t = "Expr" ∧ (c = "ListComp" ∨ c = "SetComp" ∨ c = "GeneratorExp")
    · rw [if_pos e4] at hn
      simp only [Bool.and_eq_true] at hn
      have q := first_iter hn.1
      rw [List.headD_eq_head?_getD] at q
      obtain ⟨rfl, rfl | rfl | rfl⟩ := e4 <;> simp [arrange, q, scope]
    rw [if_neg e4] at hn
    by_cases e5 : t = "Expr" ∧ c = "DictComp"
    · rw [if_pos e5] at hn
      simp only [Bool.and_eq_true] at hn
      have q := first_iter hn.1.1
      rw [List.headD_eq_head?_getD] at q
      obtain ⟨rfl, rfl⟩ := e5
      simp [arrange, q, scope]
    rw [if_neg e5] at hn
    have hs : scope (.alt t c ms) = false := by
      rw [Bool.eq_false_iff]
      simp only [scope, ne_eq, Bool.or_eq_true, Bool.and_eq_true, beq_iff_eq]
      rintro (⟨r1, (r2 | r2) | r2⟩ | ⟨r1, (((r2 | r2) | r2) | r2) | r2⟩) <;> simp_all
    have hbare : ∀ m ∈ ms, bare m.2 = true := by
      intro m hx
      have := List.all_eq_true.mp hp m hx
      have hc : comp t c = false := by
        rw [Bool.eq_false_iff]
        simp only [comp, ne_eq, Bool.and_eq_true, Bool.or_eq_true, beq_iff_eq]
        rintro ⟨r1, ((r2 | r2) | r2) | r2⟩ <;> simp_all
      simpa [hc] using this
    have ih := codesFields_plain ms hf hbare
    rw [if_neg (by simp [hs])]
    by_cases e6 : t = "Statement" ∧ c = "Assign"
    · rw [if_pos e6] at hn
      obtain ⟨rfl, rfl⟩ := e6
      rw [arrange_assign hn, ih]; rfl
    rw [if_neg e6] at hn
    by_cases e7 : t = "Statement" ∧ c = "AnnAssign"
    · rw [if_pos e7] at hn
      obtain ⟨rfl, rfl⟩ := e7
      rw [arrange_ann hn, ih]; rfl
    rw [if_neg e7] at hn
    by_cases e8 : t = "Statement" ∧ (c = "For" ∨ c = "AsyncFor")
    · rw [if_pos e8] at hn
      rw [arrange_for e8 hn, ih]
      obtain ⟨rfl, rfl | rfl⟩ := e8 <;> rfl
    rw [if_neg e8] at hn
    by_cases e9 : t = "Expr" ∧ c = "Dict"
    · rw [if_pos e9] at hn
      obtain ⟨rfl, rfl⟩ := e9
      rw [arrange_dict hn, ih]; rfl
    rw [if_neg e9] at hn
    have hd : t ≠ "Arguments" → arrange (.alt t c ms) t c (codesFields ms) = extractFields ms := by
      intro ha
      have e45 : ¬ (t = "Expr" ∧ (c = "ListComp" ∨ c = "SetComp" ∨ c = "DictComp" ∨ c = "GeneratorExp")) := by
        rintro ⟨r1, r2 | r2 | r2 | r2⟩ <;> simp_all
      simp only [arrange]
      rw [if_neg e1, if_neg e2, if_neg e3, if_neg e45, if_neg ht, if_neg ha, if_neg e6, if_neg e7, if_neg e8, if_neg e9, codesFields_flat, ih]
    by_cases e10 : t = "Statement" ∧ c = "Try"
    · rw [hd (by simp [e10.1]), if_neg (by simp [e10.2])]
    rw [if_neg e10] at hn
    by_cases e11 : c = "Constant" ∨ t = "Arguments"
    · rw [if_pos e11] at hn
      rw [arrange_nil (codesFields_quiet ms hn) hs, extractFields_quiet ms hn]
      simp
    · rw [hd (fun x => e11 (.inr x)), if_neg (fun x => e11 (.inl x))]
  | .tuple xs, h, hb => by
    simp only [plain] at h
    simp only [codes, extract]
    exact codesAll_plain xs h (bare_tuple hb)
  | .none, _, _ => rfl
  | .int _, _, _ => rfl
  | .str _, _, _ => rfl
  | .const _, _, _ => rfl
termination_by structural a => a
theorem codesAll_plain : ∀ (xs : List Alg), plainAll xs = true → (∀ x ∈ xs, bare x = true) → (codesAll xs).flatten = extractAll xs
  | [], _, _ => rfl
  | x :: xs, h, hb => by
    simp only [plainAll, Bool.and_eq_true] at h
    simp [codesAll, extractAll, codes_plain x h.1 (hb x (.head _)), codesAll_plain xs h.2 fun y hy => hb y (.tail _ hy)]
termination_by structural xs => xs
theorem codesFields_plain : ∀ (ms : List (String × Alg)), plainFields ms = true → (∀ m ∈ ms, bare m.2 = true) →
    (ms.map fun m => codes m.2).flatten = extractFields ms
  | [], _, _ => rfl
  | (n, x) :: ms, h, hb => by
    simp only [plainFields, Bool.and_eq_true] at h
    simp [extractFields, codes_plain x h.1 (hb _ (.head _)), codesFields_plain ms h.2 fun y hy => hb y (.tail _ hy)]
termination_by structural ms => ms
end

mutual
/-- What is found is a function, and as plain as the tree. -/
theorem extract_mem : ∀ (a : Alg), plain a = true → ∀ b ∈ extract a, scope b = true ∧ plain b = true
  | .alt t c ms, h, b, hb => by
    have h' := h
    simp only [plain, Bool.and_eq_true] at h
    simp only [extract] at hb
    split at hb
    · next e =>
      rw [List.mem_singleton.mp hb]
      exact ⟨e, h'⟩
    · split at hb
      · cases hb
      · exact extractFields_mem ms h.2 b hb
  | .tuple xs, h, b, hb => by
    simp only [plain] at h
    simp only [extract] at hb
    exact extractAll_mem xs h b hb
  | .none, _, _, hb => by simp [extract] at hb
  | .int _, _, _, hb => by simp [extract] at hb
  | .str _, _, _, hb => by simp [extract] at hb
  | .const _, _, _, hb => by simp [extract] at hb
termination_by structural a => a
theorem extractAll_mem : ∀ (xs : List Alg), plainAll xs = true → ∀ b ∈ extractAll xs, scope b = true ∧ plain b = true
  | [], _, _, hb => by simp [extractAll] at hb
  | x :: xs, h, b, hb => by
    simp only [plainAll, Bool.and_eq_true] at h
    simp only [extractAll, List.mem_append] at hb
    rcases hb with hb | hb
    · exact extract_mem x h.1 b hb
    · exact extractAll_mem xs h.2 b hb
termination_by structural xs => xs
theorem extractFields_mem : ∀ (ms : List (String × Alg)), plainFields ms = true → ∀ b ∈ extractFields ms, scope b = true ∧ plain b = true
  | [], _, _, hb => by simp [extractFields] at hb
  | (n, x) :: ms, h, b, hb => by
    simp only [plainFields, Bool.and_eq_true] at h
    simp only [extractFields, List.mem_append] at hb
    rcases hb with hb | hb
    · exact extract_mem x h.1 b hb
    · exact extractFields_mem ms h.2 b hb
termination_by structural ms => ms
end

theorem member_plain {ms : List (String × Alg)} (h : plainFields ms = true) (n : String) : plain (member ms n) = true :=
  member_fields (p := plain) rfl ((plainFields_iff ms).mp h) n

theorem gen_codes {first : Bool} {g : Alg} (h : plainGen first g = true) (hp : plain g = true) : genCodes first g = extract g := by
  obtain ⟨a, b, ifs, x, rfl, ha, hb⟩ := gen_shape h
  simp only [plain, plainFields, placed, comp, List.all_cons, Bool.and_eq_true] at hp
  have h2 : codes b = extract b := codes_plain b hp.2.2.1 (by simpa using hp.1.2.2.1)
  have h3 : codes (.tuple ifs) = extract (.tuple ifs) := codes_plain (.tuple ifs) (by simpa [plain] using hp.2.2.2.1) (by simpa using hp.1.2.2.2.1)
  simp only [genCodes, member, List.lookup_cons, extract, extractFields, codes_quiet a ha, extract_quiet a ha]
  simp only [scope, extract] at h3 ⊢
  cases first
  · simp [h2, h3, codes_quiet a ha]
  · simp [h3, codes_quiet a ha, extract_quiet b (hb rfl)]

theorem gens_codes {a : Alg} (h : plainGens a = true) (hp : plain a = true) : gensCodes a = extract a := by
  unfold plainGens at h
  split at h
  · next g gs =>
    simp only [Bool.and_eq_true] at h
    simp only [plain, plainAll, Bool.and_eq_true] at hp
    simp only [gensCodes, extract, extractAll, gen_codes h.1 hp.1]
    congr 1
    have h2 := h.2
    have hp2 := hp.2
    clear h hp
    induction gs with
    | nil => rfl
    | cons g gs ih =>
      simp only [List.all_cons, Bool.and_eq_true] at h2
      simp only [plainAll, Bool.and_eq_true] at hp2
      simp [extractAll, gen_codes h2.1 hp2.1, ih h2.2 hp2.2]
  · cases h

theorem inner_plain {a : Alg} (hs : scope a = true) (hp : plain a = true) : inner a = inside a := by
  cases a with
  | alt t c ms =>
    simp only [plain, Bool.and_eq_true] at hp
    obtain ⟨⟨hn, hpl⟩, hf⟩ := hp
    have hc : ∀ n, n ≠ "generators" → codes (member ms n) = extract (member ms n) :=
      fun n hx => codes_plain _ (member_plain hf n) (member_placed hpl hx)
    simp only [inner, inside]
    by_cases hb : hasBody t c = true
    · rw [if_pos hb, if_pos hb]
      exact hc _ (by decide)
    · rw [if_neg hb, if_neg hb]
      simp only [scope, hasBody, Bool.or_eq_true, Bool.and_eq_true, beq_iff_eq] at hs hb
      have he : t = "Expr" ∧ (c = "ListComp" ∨ c = "SetComp" ∨ c = "GeneratorExp" ∨ c = "DictComp") := by
        rcases hs with hs | ⟨rfl, (((h | h) | h) | h) | h⟩
        · exact absurd (.inl hs) hb
        · exact absurd (.inr ⟨rfl, h⟩) hb
        all_goals simp [h]
      obtain ⟨rfl, hc'⟩ := he
      by_cases hd : c = "DictComp"
      · subst hd
        simp [plainNode] at hn
        obtain ⟨⟨hg, h1⟩, _⟩ := hn
        simp only [if_true]
        rw [gens_codes hg (member_plain hf _), hc "key" (by decide), hc "value" (by decide)]
        rcases h1 with ⟨h1, h2⟩ | h1
        · simp [extract_quiet _ h1, extract_quiet _ h2]
        · simp [extract_quiet _ h1]
      · have h3 : c = "ListComp" ∨ c = "SetComp" ∨ c = "GeneratorExp" := by
          rcases hc' with h | h | h | h
          · exact .inl h
          · exact .inr (.inl h)
          · exact .inr (.inr h)
          · exact absurd h hd
        rw [if_neg hd, if_neg hd, if_pos h3]
        have hn' : plainGens (member ms "generators") = true ∧ (quiet (member ms "elt") = true ∨ quiet (member ms "generators") = true) := by
          rcases h3 with rfl | rfl | rfl <;> simpa [plainNode] using hn
        rw [gens_codes hn'.1 (member_plain hf _), hc "elt" (by decide)]
        rcases hn'.2 with h1 | h1 <;> simp [extract_quiet _ h1]
  | _ => simp [scope] at hs

theorem inner_mem {a : Alg} (hs : scope a = true) (hp : plain a = true) : ∀ b ∈ inner a, scope b = true ∧ plain b = true := by
  rw [inner_plain hs hp]
  cases a with
  | alt t c ms =>
    simp only [plain, Bool.and_eq_true] at hp
    have hm := fun n => extract_mem _ (member_plain hp.2 n)
    intro b hb
    simp only [inside] at hb
    split at hb
    · exact hm _ b hb
    · split at hb
      · simp only [List.mem_append] at hb
        rcases hb with (hb | hb) | hb <;> exact hm _ b hb
      · split at hb
        · simp only [List.mem_append] at hb
          rcases hb with hb | hb <;> exact hm _ b hb
        · exact hm _ b hb
  | _ => simp [scope] at hs

end Verif.Source
