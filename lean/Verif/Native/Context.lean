import Verif.Native.Balance
/-
How the compiler builds native expressions: `ExpressionConversionContext`
(typed_python/compiler/expression_conversion_context.py) and what the conversion of statements puts
around its results (typed_python/compiler/function_conversion_context.py).
-/
namespace Verif.Native

/-- What is done to a context, in order. Simplification: all expressions that only compute something
are calls of a function `a` that may throw or not; the destruction of a temporary is one call `d`. -/
inductive Steps where
  | done
  /-- `pushEffect` (expression_conversion_context.py:391-404). -/
  | effect (a : Nat) (canThrow : Bool) (rest : Steps)
  /-- `push` of a value that has to be destroyed (expression_conversion_context.py:511-558). -/
  | temp (a : Nat) (canThrow : Bool) (d : Nat) (rest : Steps)
  /-- `allocateUninitializedSlot` (expression_conversion_context.py:473-496): from now on there is
  one more slot. -/
  | slot (d : Nat) (rest : Steps)
  /-- `markUninitializedSlotInitialized` for the slot with this number
  (expression_conversion_context.py:498-504). -/
  | mark (i : Nat) (rest : Steps)
  /-- `subcontext` (expression_conversion_context.py:560-582), and `pushEffect` of its result. -/
  | sub (body rest : Steps)
  /-- `ifelse` (expression_conversion_context.py:694-742); a `switch` (lines 645-692) is several. -/
  | ifelse (c : Nat) (yes no rest : Steps)
  /-- `whileLoop` and `loop` (expression_conversion_context.py:584-643). -/
  | while (c : Nat) (body rest : Steps)
  /-- `pushTerminal` of a `Throw`. -/
  | throw (rest : Steps)
  /-- `pushTerminal` of a `Return`. -/
  | ret (name : Option Name) (rest : Steps)
  /-- `finalize` with `exceptionsTakeFrom` (expression_conversion_context.py:759-772). -/
  | traced (body : Steps) (tb : Nat) (rest : Steps)
  /-- `withReturnTargetName` (native_ast.py:524-528) around something converted in a context of its
  own. -/
  | block (name : Name) (body rest : Steps)
  /-- `TryCatch` of things converted in contexts of their own
  (function_conversion_context.py:1814-1846). -/
  | tryCatch (body handler rest : Steps)
  /-- `Finally` with `Teardown.Always` (function_conversion_context.py:483-484, 1763-1770). -/
  | cleanup (body : Steps) (d : Nat) (rest : Steps)

/-- What a context holds: `intermediates`, as one expression, and `teardowns`; and the next number
for a stack variable (`allocateStackVarname`, function_conversion_context.py:695-697). -/
structure Built where
  e : E
  tds : Tds
  next : Nat

/-- `finalize` (expression_conversion_context.py:744-757). -/
def Built.close (b : Built) : E :=
  match b.tds with
  | .nil => b.e
  | .always .. => .finally b.e b.tds none
  | .byTag .. => .finally b.e b.tds none

/-- The call that destroys a temporary. -/
def destroy (d : Nat) : E := .act d true

/-- The contents of the context. `env` are the tags of the slots allocated so far. -/
def build (env : List Tag) : Nat → Steps → Built
  | n, .done => ⟨.skip, .nil, n⟩
  | n, .effect a ct rest =>
      let r := build env n rest
      ⟨.seq (.act a ct) r.e, r.tds, r.next⟩
  | n, .temp a ct d rest =>
      let r := build env (n + 1) rest
      ⟨.seq (.seq (.act a ct) (.activates n)) r.e, .byTag n (destroy d) r.tds, r.next⟩
  | n, .slot d rest =>
      let r := build (env ++ [n]) (n + 1) rest
      ⟨r.e, .byTag n (destroy d) r.tds, r.next⟩
  | n, .mark i rest =>
      let r := build env n rest
      match env[i]? with
      | some t => ⟨.seq (.activates t) r.e, r.tds, r.next⟩
      | none => r
  | n, .sub body rest =>
      let b := build env n body
      let r := build env b.next rest
      ⟨.seq b.close r.e, r.tds, r.next⟩
  | n, .ifelse c yes no rest =>
      let y := build env n yes
      let f := build env y.next no
      let r := build env f.next rest
      ⟨.seq (.branch c y.close f.close) r.e, r.tds, r.next⟩
  | n, .while c body rest =>
      let b := build env n body
      let r := build env b.next rest
      ⟨.seq (.loop .skip c b.close .skip) r.e, r.tds, r.next⟩
  | n, .throw rest =>
      let r := build env n rest
      ⟨.seq .throw r.e, r.tds, r.next⟩
  | n, .ret name rest =>
      let r := build env n rest
      ⟨.seq (.ret name) r.e, r.tds, r.next⟩
  | n, .traced body tb rest =>
      let b := build env n body
      let r := build env b.next rest
      ⟨.seq (.propagate b.close (.seq (.act tb false) .throw)) r.e, r.tds, r.next⟩
  | n, .block name body rest =>
      let b := build env n body
      let r := build env b.next rest
      ⟨.seq (.finally b.close .nil (some name)) r.e, r.tds, r.next⟩
  | n, .tryCatch body handler rest =>
      let b := build env n body
      let h := build env b.next handler
      let r := build env h.next rest
      ⟨.seq (.tryCatch b.close h.close) r.e, r.tds, r.next⟩
  | n, .cleanup body d rest =>
      let b := build env n body
      let r := build env b.next rest
      ⟨.seq (.finally b.close (.always (destroy d) .nil) none) r.e, r.tds, r.next⟩

/-- The body of a function. -/
def Steps.function (s : Steps) : E := (build [] 0 s).close

/-! ### What the compiler has to keep to -/

/-- The slots that are marked initialized in here. -/
def Steps.marks : Steps → List Nat
  | .done => []
  | .effect _ _ r | .temp _ _ _ r | .slot _ r | .throw r | .ret _ r => r.marks
  | .mark i r => i :: r.marks
  | .sub b r | .while _ b r | .traced b _ r | .block _ b r | .cleanup b _ r => b.marks ++ r.marks
  | .ifelse _ y n r => y.marks ++ (n.marks ++ r.marks)
  | .tryCatch b h r => b.marks ++ (h.marks ++ r.marks)

/-- Slots are marked after they are allocated, at most once on every path, and not inside a loop, a
`try` or a named block within the context that allocated them. There are `k` slots already. -/
def Steps.Marked : Nat → Steps → Prop
  | _, .done => True
  | k, .effect _ _ r | k, .temp _ _ _ r | k, .throw r | k, .ret _ r => r.Marked k
  | k, .slot _ r => r.Marked (k + 1)
  | k, .mark i r => i < k ∧ i ∉ r.marks ∧ r.Marked k
  | k, .sub b r | k, .traced b _ r | k, .cleanup b _ r =>
      b.Marked k ∧ r.Marked k ∧ ∀ i ∈ b.marks, i < k → i ∉ r.marks
  | k, .ifelse _ y n r =>
      y.Marked k ∧ n.Marked k ∧ r.Marked k ∧ ∀ i ∈ y.marks ++ n.marks, i < k → i ∉ r.marks
  | k, .while _ b r | k, .block _ b r => b.Marked k ∧ r.Marked k ∧ ∀ i ∈ b.marks, k ≤ i
  | k, .tryCatch b h r =>
      b.Marked k ∧ h.Marked k ∧ r.Marked k ∧ ∀ i ∈ b.marks ++ h.marks, k ≤ i

/-- Jumps have a target. -/
def Steps.Jumps : List Name → Steps → Prop
  | _, .done => True
  | ns, .effect _ _ r | ns, .temp _ _ _ r | ns, .slot _ r | ns, .mark _ r | ns, .throw r => r.Jumps ns
  | ns, .ret name r => (∀ nm, name = some nm → nm ∈ ns) ∧ r.Jumps ns
  | ns, .sub b r | ns, .while _ b r | ns, .traced b _ r | ns, .cleanup b _ r => b.Jumps ns ∧ r.Jumps ns
  | ns, .block nm b r => b.Jumps (nm :: ns) ∧ r.Jumps ns
  | ns, .ifelse _ y n r => y.Jumps ns ∧ n.Jumps ns ∧ r.Jumps ns
  | ns, .tryCatch b h r => b.Jumps ns ∧ h.Jumps ns ∧ r.Jumps ns

/-- May control reach the end? -/
def Steps.falls : Steps → Bool
  | .done => true
  | .effect _ _ r | .temp _ _ _ r | .slot _ r | .mark _ r | .while _ _ r | .block _ _ r
  | .tryCatch _ _ r => r.falls
  | .throw _ | .ret _ _ => false
  | .sub b r | .traced b _ r | .cleanup b _ r => b.falls && r.falls
  | .ifelse _ y n r => (y.falls || n.falls) && r.falls

/-- The calls that destroy something. -/
def Steps.destroys : Steps → List Nat
  | .done => []
  | .effect _ _ r | .mark _ r | .throw r | .ret _ r => r.destroys
  | .temp _ _ d r | .slot d r => d :: r.destroys
  | .sub b r | .while _ b r | .traced b _ r | .block _ b r => b.destroys ++ r.destroys
  | .cleanup b d r => d :: (b.destroys ++ r.destroys)
  | .ifelse _ y n r => y.destroys ++ (n.destroys ++ r.destroys)
  | .tryCatch b h r => b.destroys ++ (h.destroys ++ r.destroys)

/-- What the conversion of a function produces: it does not end without returning
(`assert not controlFlowReturns`, function_conversion_context.py:470-471). -/
def Steps.Ok (s : Steps) : Prop := s.Marked 0 ∧ s.Jumps [] ∧ s.falls = false

/-! ### That gives well formed expressions -/

/-- What is known of what was built. -/
structure Built.Good (b : Built) (env : List Tag) (n : Nat) (names : List Name) (marks : List Nat) :
    Prop where
  le : n ≤ b.next
  nodup : (b.tds.tags ++ b.e.decl).Nodup
  tdecl : b.tds.decl = []
  tacts : b.tds.acts = []
  range : ∀ t : Nat, t ∈ b.tds.tags ++ b.e.decl → n ≤ t ∧ t < b.next
  acts : ∀ t ∈ b.e.acts, t ∈ b.tds.tags ∨ ∃ i ∈ marks, env[i]? = some t
  wf : b.e.Wf names
  twf : b.tds.Wf names

/-- What is known after closing. -/
structure GoodE (e : E) (env : List Tag) (n m : Nat) (names : List Name) (marks : List Nat) : Prop where
  nodup : e.decl.Nodup
  range : ∀ t : Nat, t ∈ e.decl → n ≤ t ∧ t < m
  acts : ∀ t ∈ e.acts, ∃ i ∈ marks, env[i]? = some t
  wf : e.Wf names

theorem Built.Good.close {b : Built} {env n names marks} (h : b.Good env n names marks) :
    GoodE b.close env n b.next names marks := by
  have hfin : GoodE (.finally b.e b.tds none) env n b.next names marks := by
    refine ⟨?_, ?_, ?_, ?_⟩
    · rw [E.decl, h.tdecl, List.append_nil]; exact h.nodup
    · rw [E.decl, h.tdecl, List.append_nil]; exact h.range
    · intro t ht
      rw [E.acts, h.tacts, List.append_nil, List.mem_filter] at ht
      rcases h.acts t ht.1 with h' | h'
      · simp [h'] at ht
      · exact h'
    · exact ⟨h.wf, h.twf, fun h' => absurd rfl h'⟩
  unfold Built.close
  split
  · rename_i ht
    refine ⟨?_, ?_, ?_, h.wf⟩
    · have := h.nodup; rwa [ht] at this
    · have := h.range; rwa [ht] at this
    · intro t hta
      rcases h.acts t hta with h' | h'
      · rw [ht] at h'; simp [Tds.tags] at h'
      · exact h'
  · exact hfin
  · exact hfin

/-- One more intermediate in front. -/
theorem Built.Good.cons {r : Built} {e : E} {env : List Tag} {n m : Nat} {names : List Name}
    {marks marks' : List Nat} (hr : r.Good env m names marks') (he : GoodE e env n m names marks)
    (hnm : n ≤ m) (henv : env.Nodup) (hlt : ∀ t : Nat, t ∈ env → t < n)
    (hd : ∀ i ∈ marks, i < env.length → i ∉ marks') :
    Built.Good ⟨.seq e r.e, r.tds, r.next⟩ env n names (marks ++ marks') := by
  have hle := hr.le
  refine ⟨Nat.le_trans hnm hle, ?_, hr.tdecl, hr.tacts, ?_, ?_, ⟨he.wf, hr.wf, ?_⟩, hr.twf⟩
  · have h1 := hr.nodup
    simp only [E.decl]
    rw [List.nodup_append] at h1 ⊢
    refine ⟨h1.1, ?_, ?_⟩
    · rw [List.nodup_append]
      refine ⟨he.nodup, h1.2.1, fun a ha b hb hab => ?_⟩
      subst hab
      have := he.range a ha
      have := hr.range a (List.mem_append_right _ hb)
      omega
    · intro a ha b hb hab
      rcases List.mem_append.mp hb with hb | hb
      · subst hab
        have := he.range a hb
        have := hr.range a (List.mem_append_left _ ha)
        omega
      · exact h1.2.2 a ha b hb hab
  · intro t ht
    simp only [E.decl, List.mem_append] at ht
    rcases ht with ht | ht | ht
    · have := hr.range t (List.mem_append_left _ ht); simp only; omega
    · have := he.range t ht; simp only; omega
    · have := hr.range t (List.mem_append_right _ ht); simp only; omega
  · intro t ht
    simp only [E.acts, List.mem_append] at ht
    rcases ht with ht | ht
    · obtain ⟨i, hi, h⟩ := he.acts t ht
      exact .inr ⟨i, List.mem_append_left _ hi, h⟩
    · rcases hr.acts t ht with h | ⟨i, hi, h⟩
      · exact .inl h
      · exact .inr ⟨i, List.mem_append_right _ hi, h⟩
  · intro t ht ht'
    obtain ⟨i, hi, h⟩ := he.acts t ht
    have hil : i < env.length := (List.getElem?_eq_some_iff.mp h).1
    rcases hr.acts t ht' with h' | ⟨j, hj, h'⟩
    · have := hlt t (List.mem_of_getElem? h)
      have := hr.range t (List.mem_append_left _ h')
      omega
    · have : i = j := (List.getElem?_inj hil henv).mp (h.trans h'.symm)
      subst this
      exact hd i hi hil hj

/-- Nothing is marked in here. -/
theorem GoodE.none {e : E} {env n m names marks} (h : GoodE e env n m names marks)
    (hm : ∀ i ∈ marks, env.length ≤ i) : e.acts = [] := by
  rw [List.eq_nil_iff_forall_not_mem]
  intro t ht
  obtain ⟨i, hi, h'⟩ := h.acts t ht
  have := (List.getElem?_eq_some_iff.mp h').1
  have := hm i hi
  omega

theorem GoodE.mono {e : E} {env n m n' m' names marks marks'} (h : GoodE e env n m names marks)
    (hn : n' ≤ n) (hm : m ≤ m') (hs : ∀ i ∈ marks, i ∈ marks') : GoodE e env n' m' names marks' :=
  ⟨h.nodup, fun t ht => by have := h.range t ht; omega,
    fun t ht => (h.acts t ht).imp fun i hi => ⟨hs i hi.1, hi.2⟩, h.wf⟩

/-- Two expressions, one after the other was built. -/
theorem GoodE.two {a b : E} {env n m k names marks marks'} (ha : GoodE a env n m names marks)
    (hb : GoodE b env m k names marks') (hnm : n ≤ m) (hmk : m ≤ k) :
    (a.decl ++ b.decl).Nodup ∧ (∀ t : Nat, t ∈ a.decl ++ b.decl → n ≤ t ∧ t < k) ∧
      ∀ t ∈ a.acts ++ b.acts, ∃ i ∈ marks ++ marks', env[i]? = some t := by
  refine ⟨?_, ?_, ?_⟩
  · rw [List.nodup_append]
    refine ⟨ha.nodup, hb.nodup, fun x hx y hy hxy => ?_⟩
    subst hxy
    have := ha.range x hx
    have := hb.range x hy
    omega
  · intro t ht
    rcases List.mem_append.mp ht with ht | ht
    · have := ha.range t ht; omega
    · have := hb.range t ht; omega
  · intro t ht
    rcases List.mem_append.mp ht with ht | ht
    · obtain ⟨i, hi, h⟩ := ha.acts t ht; exact ⟨i, List.mem_append_left _ hi, h⟩
    · obtain ⟨i, hi, h⟩ := hb.acts t ht; exact ⟨i, List.mem_append_right _ hi, h⟩

/-- Something that declares and activates nothing. -/
theorem GoodE.plain {e : E} {env n names} (hd : e.decl = []) (ha : e.acts = []) (hw : e.Wf names) :
    GoodE e env n n names [] :=
  ⟨by rw [hd]; exact .nil, by rw [hd]; simp, by rw [ha]; simp, hw⟩

theorem lt_of_le' {env : List Tag} {n m : Nat} (h : ∀ t : Nat, t ∈ env → t < n) (hnm : n ≤ m) :
    ∀ t : Nat, t ∈ env → t < m := fun t ht => Nat.lt_of_lt_of_le (h t ht) hnm

theorem build_good : ∀ (s : Steps) (env : List Tag) (n : Nat) (names : List Name),
    s.Marked env.length → s.Jumps names → env.Nodup → (∀ t : Nat, t ∈ env → t < n) →
    (build env n s).Good env n names s.marks
  | .done, env, n, names, _, _, _, _ => by
      rw [build]
      exact ⟨Nat.le_refl _, .nil, rfl, rfl, by simp [Tds.tags, E.decl], by simp [E.acts], trivial, trivial⟩
  | .effect a ct r, env, n, names, hm, hj, he, hl => by
      rw [build]
      exact (build_good r env n names hm hj he hl).cons (e := .act a ct) (GoodE.plain rfl rfl trivial)
        (Nat.le_refl _) he hl (by simp)
  | .throw r, env, n, names, hm, hj, he, hl => by
      rw [build]
      exact (build_good r env n names hm hj he hl).cons (e := .throw) (GoodE.plain rfl rfl trivial)
        (Nat.le_refl _) he hl (by simp)
  | .ret nm r, env, n, names, hm, hj, he, hl => by
      rw [build]
      refine (build_good r env n names hm hj.2 he hl).cons (GoodE.plain rfl rfl ?_) (Nat.le_refl _) he hl
        (by simp)
      cases nm with
      | none => trivial
      | some nm => exact hj.1 nm rfl
  | .temp a ct d r, env, n, names, hm, hj, he, hl => by
      have h := build_good r env (n + 1) names hm hj he (lt_of_le' hl (Nat.le_succ n))
      have hle := h.le
      rw [build]
      have hnr : n ∉ (build env (n + 1) r).tds.tags ++ (build env (n + 1) r).e.decl := fun h' => by
        have := h.range n h'; omega
      refine ⟨by simp only; omega, ?_, ?_, ?_, ?_, ?_, ?_, ⟨trivial, rfl, rfl, h.twf⟩⟩
      · simp only [Tds.tags, E.decl, List.nil_append, List.cons_append]
        exact List.nodup_cons.mpr ⟨hnr, h.nodup⟩
      · simp [Tds.decl, destroy, E.decl, h.tdecl]
      · simp [Tds.acts, destroy, E.acts, h.tacts]
      · intro t ht
        simp only [Tds.tags, E.decl, List.nil_append, List.cons_append, List.mem_cons] at ht
        rcases ht with ht | ht
        · simp only; omega
        · have := h.range t ht; simp only; omega
      · intro t ht
        simp only [E.acts, List.nil_append, List.cons_append, List.mem_cons] at ht
        rcases ht with ht | ht
        · exact .inl (by simp [Tds.tags, ht])
        · rcases h.acts t ht with h' | h'
          · exact .inl (List.mem_cons_of_mem _ h')
          · exact .inr h'
      · refine ⟨⟨trivial, trivial, by simp [E.acts]⟩, h.wf, fun t ht ht' => ?_⟩
        simp only [E.acts, List.nil_append, List.mem_singleton] at ht
        subst ht
        rcases h.acts t ht' with h' | ⟨i, _, h'⟩
        · exact hnr (List.mem_append_left _ h')
        · have := hl t (List.mem_of_getElem? h'); omega
  | .slot d r, env, n, names, hm, hj, he, hl => by
      have h := build_good r (env ++ [n]) (n + 1) names (by rw [List.length_append]; exact hm) hj
        (List.nodup_append.mpr ⟨he, by simp, fun a ha b hb hab => by
          subst hab; have := hl a ha; rw [List.mem_singleton.mp hb] at this
          exact Nat.lt_irrefl _ this⟩)
        (fun t ht => by
          rcases List.mem_append.mp ht with ht | ht
          · have := hl t ht; omega
          · simp only [List.mem_singleton] at ht; omega)
      have hle := h.le
      rw [build]
      have hnr : n ∉ (build (env ++ [n]) (n + 1) r).tds.tags ++ (build (env ++ [n]) (n + 1) r).e.decl :=
        fun h' => by have := h.range n h'; omega
      refine ⟨by simp only; omega, ?_, ?_, ?_, ?_, ?_, h.wf, ⟨trivial, rfl, rfl, h.twf⟩⟩
      · simp only [Tds.tags, List.cons_append]
        exact List.nodup_cons.mpr ⟨hnr, h.nodup⟩
      · simp [Tds.decl, destroy, E.decl, h.tdecl]
      · simp [Tds.acts, destroy, E.acts, h.tacts]
      · intro t ht
        simp only [Tds.tags, List.cons_append, List.mem_cons] at ht
        rcases ht with ht | ht
        · simp only; omega
        · have := h.range t ht; simp only; omega
      · intro t ht
        rcases h.acts t ht with h' | ⟨i, hi, h'⟩
        · exact .inl (List.mem_cons_of_mem _ h')
        · by_cases hil : i < env.length
          · rw [List.getElem?_append_left hil] at h'
            exact .inr ⟨i, hi, h'⟩
          · rw [List.getElem?_append_right (by omega)] at h'
            have := List.mem_of_getElem? h'
            simp only [List.mem_singleton] at this
            exact .inl (by simp [Tds.tags, this])
  | .mark i r, env, n, names, hm, hj, he, hl => by
      have h := build_good r env n names hm.2.2 hj he hl
      rw [build]
      have hi : env[i]? = some (env[i]'hm.1) := List.getElem?_eq_getElem hm.1
      rw [hi]
      refine h.cons (marks := [i]) ⟨.nil, by simp [E.decl], ?_, trivial⟩ (Nat.le_refl _) he hl ?_
      · intro t ht
        simp only [E.acts, List.mem_singleton] at ht
        exact ⟨i, by simp, by rw [hi, ht]⟩
      · intro j hj _
        simp only [List.mem_singleton] at hj
        subst hj; exact hm.2.1
  | .sub b r, env, n, names, hm, hj, he, hl => by
      have hb := build_good b env n names hm.1 hj.1 he hl
      have hr := build_good r env (build env n b).next names hm.2.1 hj.2 he (lt_of_le' hl hb.le)
      rw [build]
      exact hr.cons hb.close hb.le he hl hm.2.2
  | .traced b tb r, env, n, names, hm, hj, he, hl => by
      have hb := build_good b env n names hm.1 hj.1 he hl
      have hr := build_good r env (build env n b).next names hm.2.1 hj.2 he (lt_of_le' hl hb.le)
      have hc := hb.close
      rw [build]
      refine hr.cons (marks := b.marks) ⟨?_, ?_, ?_, ?_⟩ hb.le he hl hm.2.2
      · simpa [E.decl] using hc.nodup
      · simpa [E.decl] using hc.range
      · simpa [E.acts] using hc.acts
      · exact ⟨hc.wf, ⟨trivial, trivial, by simp [E.acts]⟩, rfl, rfl⟩
  | .cleanup b d r, env, n, names, hm, hj, he, hl => by
      have hb := build_good b env n names hm.1 hj.1 he hl
      have hr := build_good r env (build env n b).next names hm.2.1 hj.2 he (lt_of_le' hl hb.le)
      have hc := hb.close
      rw [build]
      refine hr.cons (marks := b.marks) ⟨?_, ?_, ?_, ?_⟩ hb.le he hl hm.2.2
      · simpa [E.decl, Tds.tags, Tds.decl, destroy] using hc.nodup
      · simpa [E.decl, Tds.tags, Tds.decl, destroy] using hc.range
      · simpa [E.acts, Tds.tags, Tds.acts, destroy] using hc.acts
      · exact ⟨hc.wf, ⟨trivial, rfl, rfl, trivial⟩, fun h => absurd rfl h⟩
  | .block nm b r, env, n, names, hm, hj, he, hl => by
      have hb := build_good b env n (nm :: names) hm.1 hj.1 he hl
      have hr := build_good r env (build env n b).next names hm.2.1 hj.2 he (lt_of_le' hl hb.le)
      have hc := hb.close
      have hn := hc.none hm.2.2
      rw [build]
      refine hr.cons (marks := b.marks) ⟨?_, ?_, ?_, ?_⟩ hb.le he hl
        (fun i hi hil => absurd (hm.2.2 i hi) (by omega))
      · simpa [E.decl, Tds.tags, Tds.decl] using hc.nodup
      · simpa [E.decl, Tds.tags, Tds.decl] using hc.range
      · simp [E.acts, Tds.acts, hn]
      · exact ⟨hc.wf, trivial, fun _ t ht => by rw [hn] at ht; simp at ht⟩
  | .while c b r, env, n, names, hm, hj, he, hl => by
      have hb := build_good b env n names hm.1 hj.1 he hl
      have hr := build_good r env (build env n b).next names hm.2.1 hj.2 he (lt_of_le' hl hb.le)
      have hc := hb.close
      have hn := hc.none hm.2.2
      rw [build]
      refine hr.cons (marks := b.marks) ⟨?_, ?_, ?_, ?_⟩ hb.le he hl
        (fun i hi hil => absurd (hm.2.2 i hi) (by omega))
      · simpa [E.decl] using hc.nodup
      · simpa [E.decl] using hc.range
      · simp [E.acts, hn]
      · exact ⟨trivial, hc.wf, trivial, rfl, rfl, hn, rfl⟩
  | .ifelse c y f r, env, n, names, hm, hj, he, hl => by
      have hy := build_good y env n names hm.1 hj.1 he hl
      have hf := build_good f env (build env n y).next names hm.2.1 hj.2.1 he (lt_of_le' hl hy.le)
      have hnf := Nat.le_trans hy.le hf.le
      have hr := build_good r env _ names hm.2.2.1 hj.2.2 he (lt_of_le' hl hnf)
      have h2 := GoodE.two hy.close hf.close hy.le hf.le
      rw [build, Steps.marks, ← List.append_assoc]
      exact hr.cons (marks := y.marks ++ f.marks) ⟨h2.1, h2.2.1, h2.2.2, ⟨hy.close.wf, hf.close.wf⟩⟩ hnf he hl
        hm.2.2.2
  | .tryCatch b h r, env, n, names, hm, hj, he, hl => by
      have hb := build_good b env n names hm.1 hj.1 he hl
      have hh := build_good h env (build env n b).next names hm.2.1 hj.2.1 he (lt_of_le' hl hb.le)
      have hnh := Nat.le_trans hb.le hh.le
      have hr := build_good r env _ names hm.2.2.1 hj.2.2 he (lt_of_le' hl hnh)
      have h2 := GoodE.two hb.close hh.close hb.le hh.le
      rw [build, Steps.marks, ← List.append_assoc]
      refine hr.cons (marks := b.marks ++ h.marks) ⟨h2.1, h2.2.1, h2.2.2, ⟨hb.close.wf, hh.close.wf, ?_, ?_⟩⟩
        hnh he hl (fun i hi hil => absurd (hm.2.2.2 i hi) (by omega))
      · exact hb.close.none fun i hi => hm.2.2.2 i (List.mem_append_left _ hi)
      · exact hh.close.none fun i hi => hm.2.2.2 i (List.mem_append_right _ hi)

theorem Built.close_falls (b : Built) : b.close.falls = b.e.falls := by
  unfold Built.close; split <;> simp [E.falls]

theorem build_falls : ∀ (s : Steps) (env : List Tag) (n : Nat), (build env n s).e.falls = s.falls
  | .done, env, n => rfl
  | .effect a ct r, env, n => by simp [build, E.falls, Steps.falls, build_falls r]
  | .temp a ct d r, env, n => by simp [build, E.falls, Steps.falls, build_falls r]
  | .slot d r, env, n => by simp [build, Steps.falls, build_falls r]
  | .mark i r, env, n => by
      rw [build, Steps.falls]
      split <;> simp [E.falls, build_falls r]
  | .sub b r, env, n => by
      simp [build, E.falls, Steps.falls, build_falls r, Built.close_falls, build_falls b]
  | .ifelse c y f r, env, n => by
      simp [build, E.falls, Steps.falls, build_falls r, Built.close_falls, build_falls y, build_falls f]
  | .while c b r, env, n => by simp [build, E.falls, Steps.falls, build_falls r]
  | .throw r, env, n => by simp [build, E.falls, Steps.falls]
  | .ret nm r, env, n => by simp [build, E.falls, Steps.falls]
  | .traced b tb r, env, n => by
      simp [build, E.falls, Steps.falls, build_falls r, Built.close_falls, build_falls b]
  | .block nm b r, env, n => by simp [build, E.falls, Steps.falls, build_falls r]
  | .tryCatch b h r, env, n => by simp [build, E.falls, Steps.falls, build_falls r]
  | .cleanup b d r, env, n => by
      simp [build, E.falls, Steps.falls, build_falls r, Built.close_falls, build_falls b]

theorem Built.close_calm {w : World} {b : Built} (h : b.e.Calm w ∧ b.tds.Calm w) : b.close.Calm w := by
  unfold Built.close; split
  · exact h.1
  · exact h
  · exact h

theorem destroy_quiet {w : World} {d : Nat} (h : ∀ tr, w.throws tr d = false) : (destroy d).Quiet w :=
  fun _ => h

theorem build_calm {w : World} : ∀ (s : Steps) (env : List Tag) (n : Nat),
    (∀ d ∈ s.destroys, ∀ tr, w.throws tr d = false) →
    (build env n s).e.Calm w ∧ (build env n s).tds.Calm w
  | .done, env, n, _ => by rw [build]; exact ⟨trivial, trivial⟩
  | .effect a ct r, env, n, h => by
      rw [build]; have := build_calm r env n h; exact ⟨⟨trivial, this.1⟩, this.2⟩
  | .temp a ct d r, env, n, h => by
      rw [build]
      have := build_calm r env (n + 1) fun x hx => h x (List.mem_cons_of_mem _ hx)
      exact ⟨⟨⟨trivial, trivial⟩, this.1⟩, destroy_quiet (h d (List.mem_cons_self ..)), trivial, this.2⟩
  | .slot d r, env, n, h => by
      rw [build]
      have := build_calm r (env ++ [n]) (n + 1) fun x hx => h x (List.mem_cons_of_mem _ hx)
      exact ⟨this.1, destroy_quiet (h d (List.mem_cons_self ..)), trivial, this.2⟩
  | .mark i r, env, n, h => by
      rw [build]
      have := build_calm r env n h
      split
      · exact ⟨⟨trivial, this.1⟩, this.2⟩
      · exact this
  | .sub b r, env, n, h => by
      rw [build]
      have hb := build_calm b env n fun x hx => h x (List.mem_append_left _ hx)
      have hr := build_calm r env (build env n b).next fun x hx => h x (List.mem_append_right _ hx)
      exact ⟨⟨Built.close_calm hb, hr.1⟩, hr.2⟩
  | .ifelse c y f r, env, n, h => by
      rw [build]
      have hy := build_calm y env n fun x hx => h x (List.mem_append_left _ hx)
      have hf := build_calm f env (build env n y).next fun x hx =>
        h x (List.mem_append_right _ (List.mem_append_left _ hx))
      have hr := build_calm r env (build env (build env n y).next f).next fun x hx =>
        h x (List.mem_append_right _ (List.mem_append_right _ hx))
      exact ⟨⟨⟨Built.close_calm hy, Built.close_calm hf⟩, hr.1⟩, hr.2⟩
  | .while c b r, env, n, h => by
      rw [build]
      have hb := build_calm b env n fun x hx => h x (List.mem_append_left _ hx)
      have hr := build_calm r env (build env n b).next fun x hx => h x (List.mem_append_right _ hx)
      exact ⟨⟨⟨trivial, Built.close_calm hb, trivial⟩, hr.1⟩, hr.2⟩
  | .throw r, env, n, h => by
      rw [build]; have := build_calm r env n h; exact ⟨⟨trivial, this.1⟩, this.2⟩
  | .ret nm r, env, n, h => by
      rw [build]; have := build_calm r env n h; exact ⟨⟨trivial, this.1⟩, this.2⟩
  | .traced b tb r, env, n, h => by
      rw [build]
      have hb := build_calm b env n fun x hx => h x (List.mem_append_left _ hx)
      have hr := build_calm r env (build env n b).next fun x hx => h x (List.mem_append_right _ hx)
      exact ⟨⟨⟨Built.close_calm hb, trivial, trivial⟩, hr.1⟩, hr.2⟩
  | .block nm b r, env, n, h => by
      rw [build]
      have hb := build_calm b env n fun x hx => h x (List.mem_append_left _ hx)
      have hr := build_calm r env (build env n b).next fun x hx => h x (List.mem_append_right _ hx)
      exact ⟨⟨⟨Built.close_calm hb, trivial⟩, hr.1⟩, hr.2⟩
  | .tryCatch b f r, env, n, h => by
      rw [build]
      have hy := build_calm b env n fun x hx => h x (List.mem_append_left _ hx)
      have hf := build_calm f env (build env n b).next fun x hx =>
        h x (List.mem_append_right _ (List.mem_append_left _ hx))
      have hr := build_calm r env (build env (build env n b).next f).next fun x hx =>
        h x (List.mem_append_right _ (List.mem_append_right _ hx))
      exact ⟨⟨⟨Built.close_calm hy, Built.close_calm hf⟩, hr.1⟩, hr.2⟩
  | .cleanup b d r, env, n, h => by
      rw [build]
      have hb := build_calm b env n fun x hx => h x (List.mem_cons_of_mem _ (List.mem_append_left _ hx))
      have hr := build_calm r env (build env n b).next fun x hx =>
        h x (List.mem_cons_of_mem _ (List.mem_append_right _ hx))
      exact ⟨⟨⟨Built.close_calm hb, destroy_quiet (h d (List.mem_cons_self ..)), trivial, trivial⟩, hr.1⟩, hr.2⟩

/-- What the compiler builds is well formed. -/
theorem Steps.Ok.function {s : Steps} (h : s.Ok) : s.function.Ok := by
  have hg := (build_good s [] 0 [] h.1 h.2.1 .nil (by simp)).close
  refine ⟨hg.nodup, hg.wf, ?_, ?_⟩
  · rw [List.eq_nil_iff_forall_not_mem]
    intro t ht
    obtain ⟨i, _, hi⟩ := hg.acts t ht
    simp at hi
  · rw [Steps.function, Built.close_falls, build_falls]; exact h.2.2

theorem Steps.calm {w : World} {s : Steps} (h : ∀ d ∈ s.destroys, ∀ tr, w.throws tr d = false) :
    s.function.Calm w := Built.close_calm (build_calm s [] 0 h)

end Verif.Native
