import Verif.Common
import Verif.Mro.DispatchClass
/-
C77: in compiled code a method call on an instance of a class, known as any class it inherits from, runs
the function compiled for exactly that instance's class, that view of it and that signature, whatever
other threads make, load and compile at the same time; and casts keep the dispatch table with the view.
-/
namespace Verif.Mro.Dispatch

/-- **Calls.**  However class statements, loads of modules, compilations and calls of any number of
threads are interleaved, the tables are never found inconsistent, and each call that is made is of a
function compiled for the class of the instance, the class it is known as, and the signature of the
call.  No thread reads outside an array, reads uninitialized memory or calls null, except one that
propagates an exception (see `failed_compile_calls_null`). -/
theorem dispatch_right_partial {steps : List Step} (hf : ∀ st ∈ steps, st.Fine) :
    (run steps).err = none ∧
    ∀ t ∈ (run steps).threads, (t.pc = .crashed → t.unwinding = true) ∧
      ∀ p, t.pc = .called p → p.impl = t.impl ∧ p.iface = t.iface ∧ p.sig = t.sig := by
  have hv := run_inv hf
  refine ⟨hv.err, ?_⟩
  intro t ht
  obtain ⟨_, h⟩ := hv.threads t ht
  constructor
  · intro e; rw [e] at h; exact h
  · intro p e
    rw [e] at h
    exact ⟨h.2.1, h.1, h.2.2⟩

/-- A method that does not compile, called by a `__del__` while an exception is propagated: the thread
calls null. -/
theorem failed_compile_calls_null :
    (run [.classStmt [], .allocate 0 7, .call 0 0 7 true, .advance 0, .advance 0, .ask 0, .abandon,
      .advance 0, .advance 0, .advance 0]).threads.map (fun t => t.pc) = [.crashed] := by
  decide +kernel

/-- A call goes on as the same call: thread `n` stays in the call that it began. -/
theorem call_stays {l m : List Step} (hl : ∀ st ∈ l, st.Fine) (hm : ∀ st ∈ m, st.Fine) {n : Nat}
    {t : Thread} (h : (run l).threads[n]? = some t) :
    ∃ t', (run (l ++ m)).threads[n]? = some t' ∧ t'.impl = t.impl ∧ t'.iface = t.iface ∧
      t'.sig = t.sig := by
  obtain ⟨_, _, hk⟩ := steps_all (run_inv hl) hm
  obtain ⟨t', h1, h2⟩ := hk n t h
  refine ⟨t', ?_, ?_⟩
  · unfold run at h1 ⊢
    rw [List.foldl_append]
    exact h1
  · unfold Thread.what at h2
    simp only [Prod.mk.injEq] at h2
    exact ⟨h2.1, h2.2.1, h2.2.2.1⟩

/-- A call that has a slot begins: there is a new thread in it. -/
theorem call_begins {steps : List Step} {c i sig k : Nat} {u : Bool} {t : Table}
    (hi : i ∈ (run steps).world.mroOf c) (ht : tableAs (run steps) i i = .ok t)
    (hk : lookup t.indices sig = some k) :
    (run (steps ++ [.call c i sig u])).threads = (run steps).threads ++ [⟨c, i, sig, k, u, .load⟩] := by
  unfold run at *
  rw [List.foldl_append]
  generalize steps.foldl step {} = s at *
  change (step s (.call c i sig u)).threads = _
  change (if (s.world.mroOf c).contains i then match tableAs s i i with
      | .ok t => match lookup t.indices sig with
        | some k => { s with threads := s.threads ++ [⟨c, i, sig, k, u, .load⟩] }
        | none => s
      | .error _ => s
    else s).threads = _
  rw [if_pos (List.contains_iff_mem.mpr hi), ht]
  simp only
  rw [hk]

/-! ### Slots -/

/-- **Slots.**  The table of a class as a class it inherits from and the table of that class itself give
the same slots to the same signatures; the slot of a signature and the signature of a slot are inverse
to each other. -/
theorem slots_agree {steps : List Step} (hf : ∀ st ∈ steps, st.Fine) {c i : Nat}
    (hi : i ∈ (run steps).world.mroOf c) :
    ∃ tc ti, tableAs (run steps) c i = .ok tc ∧ tableAs (run steps) i i = .ok ti ∧
      tc.impl = c ∧ tc.iface = i ∧
      (∀ sig, lookup tc.indices sig = lookup ti.indices sig) ∧
      (∀ k, lookup tc.defs k = lookup ti.defs k) ∧
      (∀ sig k, lookup tc.indices sig = some k ↔ lookup tc.defs k = some sig) := by
  have hv := run_inv hf
  obtain ⟨tc, h1, hok⟩ := hv.mem.tab c i hi
  obtain ⟨ti, h2, hok'⟩ := hv.mem.tab i i (self_mem hv.world hi)
  have ha := hv.agree c i hi
  rw [idx_ok h1, idx_ok h2] at ha
  refine ⟨tc, ti, h1, h2, hok.impl, hok.iface, fun _ => by rw [ha], fun k => ?_, fun sig k => ?_⟩
  · rw [hok.defs, hok'.defs, ha]
  · rw [hok.defs]
    constructor
    · intro h
      exact lookup_swap hok.pos (hok.pos.lookup h)
    · intro h
      have hmem := lookup_mem h
      obtain ⟨⟨sig', k'⟩, hp, e⟩ := List.mem_map.mp hmem
      simp only [Prod.mk.injEq] at e
      obtain ⟨rfl, rfl⟩ := e
      cases e' : lookup tc.indices sig' with
      | none => exact absurd (List.mem_map.mpr ⟨_, hp, rfl⟩) (lookup_none e')
      | some j =>
        have hj := hok.pos.lookup e'
        obtain ⟨m, hm⟩ := List.mem_iff_getElem?.mp hp
        have hnd := hok.nodup
        have g1 : (tc.indices.map Prod.fst)[j]? = some sig' := by rw [List.getElem?_map, hj]; rfl
        have g2 : (tc.indices.map Prod.fst)[m]? = some sig' := by rw [List.getElem?_map, hm]; rfl
        have hlt := (List.getElem?_eq_some_iff.mp g1).1
        have := (List.getElem?_inj hlt hnd).mp (g1.trans g2.symm)
        subst this
        rw [hj] at hm
        cases hm
        rfl

/-- Loading a module that makes a call gives the call a slot. -/
theorem allocate_slot {steps : List Step} (hf : ∀ st ∈ steps, st.Fine) {i c : Nat} (sig : Sig)
    (hi : i ∈ (run steps).world.mroOf c) :
    ∃ t k, tableAs (run (steps ++ [.allocate i sig])) c i = .ok t ∧
      lookup t.indices sig = some k := by
  have hv := run_inv hf
  have hlt : i < (run steps).world.length := mro_lt (self_mem hv.world hi)
  obtain ⟨s', h1, hs, _, h2, h3⟩ := allocate_spec hv hlt sig
  have hrun : run (steps ++ [.allocate i sig]) = s' := by
    unfold run at *
    rw [List.foldl_append]
    change (if i < (steps.foldl step {}).world.length then
      match allocate (steps.foldl step {}) i sig with
      | .ok (s', _) => s'
      | .error e => { (steps.foldl step {}) with err := some e } else (steps.foldl step {})) = s'
    rw [if_pos hlt, h1]
  rw [hrun]
  have hval := h3 c hi
  obtain ⟨t, ht, hok, _⟩ := hval.table h2
  have := hval.2
  rw [idx_ok ht] at this
  cases e : lookup t.indices sig with
  | none => exact absurd (List.mem_map.mpr ⟨_, List.mem_of_getElem? this, rfl⟩) (lookup_none e)
  | some j => exact ⟨t, j, ht, e⟩

/-- A slot that was given to a signature stays its slot. -/
theorem slot_stays {l m : List Step} (hl : ∀ st ∈ l, st.Fine) (hm : ∀ st ∈ m, st.Fine) {c i : Nat}
    {t : Table} {sig k : Nat} (ht : tableAs (run l) c i = .ok t)
    (hk : lookup t.indices sig = some k) :
    ∃ t', tableAs (run (l ++ m)) c i = .ok t' ∧ lookup t'.indices sig = some k := by
  have hv := run_inv hl
  have hi : i ∈ (run l).world.mroOf c := tableAs_ok.mp ⟨t, ht⟩
  obtain ⟨t1, ht1, hok⟩ := hv.mem.tab c i hi
  rw [ht] at ht1
  cases ht1
  have hval : Valid (run l) c i k sig := ⟨hi, by rw [idx_ok ht]; exact hok.pos.lookup hk⟩
  obtain ⟨hv', hg, _⟩ := steps_all hv hm
  have hval' := hg.valid _ _ _ _ hval
  have hrun : run (l ++ m) = m.foldl step (run l) := by unfold run; rw [List.foldl_append]
  rw [hrun]
  obtain ⟨t', ht', hok', _⟩ := hval'.table hv'
  refine ⟨t', ht', ?_⟩
  have h2 := hval'.2
  rw [idx_ok ht'] at h2
  cases e : lookup t'.indices sig with
  | none => exact absurd (List.mem_map.mpr ⟨_, List.mem_of_getElem? h2, rfl⟩) (lookup_none e)
  | some j =>
    have hj := hok'.pos.lookup e
    have g1 : (t'.indices.map Prod.fst)[j]? = some sig := by rw [List.getElem?_map, hj]; rfl
    have g2 : (t'.indices.map Prod.fst)[k]? = some sig := by rw [List.getElem?_map, h2]; rfl
    have hlt := (List.getElem?_eq_some_iff.mp g1).1
    have := (List.getElem?_inj hlt hok'.nodup).mp (g1.trans g2.symm)
    rw [this]

/-! ### Progress -/

theorem step_advance {s : State} {n : Nat} {t : Thread} (h : s.threads[n]? = some t) :
    step s (.advance n) = { s with threads := s.threads.set n { t with pc := advance s t } } := by
  change (match s.threads[n]? with
    | some t => { s with threads := s.threads.set n { t with pc := advance s t } }
    | none => s) = _
  rw [h]

theorem step_advance_at {s : State} {n : Nat} {t : Thread} (h : s.threads[n]? = some t) :
    (step s (.advance n)).threads[n]? = some { t with pc := advance s t } := by
  rw [step_advance h]
  exact List.getElem?_set_self (List.getElem?_eq_some_iff.mp h).1

theorem advance_congr {s s' : State} (hw : s'.world = s.world) (ht : s'.tables = s.tables)
    (hh : s'.heap = s.heap) (t : Thread) : advance s' t = advance s t := by
  unfold advance current
  rw [tableAs_congr hw ht, hh]

theorem advance_after (s : State) (n : Nat) (x : Thread) :
    advance (step s (.advance n)) x = advance s x := by
  cases h : s.threads[n]? with
  | none =>
    have : step s (.advance n) = s := by
      change (match s.threads[n]? with
        | some t => { s with threads := s.threads.set n { t with pc := advance s t } }
        | none => s) = _
      rw [h]
    rw [this]
  | some t =>
    rw [step_advance h]
    exact advance_congr rfl rfl rfl x

/-- A thread whose slot holds a function gets to call it. -/
theorem reach_call {s : State} {n : Nat} {t : Thread} {tab : Table} {p : Ptr}
    (h : s.threads[n]? = some t) (htab : tableAs s t.impl t.iface = .ok tab)
    (hr : read s.heap tab.arr t.slot = some (.fn p)) (hpc : t.pc = .empty ∨ t.pc = .reload) :
    ∃ t', ([Step.advance n, .advance n, .advance n].foldl step s).threads[n]? = some t' ∧
      t'.pc = .called p ∧ t'.what = t.what := by
  have e1 := step_advance_at h
  have e2 := step_advance_at e1
  have e3 := step_advance_at e2
  refine ⟨_, e3, ?_, rfl⟩
  · simp only [advance_after]
    obtain ⟨c, i, sig, k, u, pc⟩ := t
    simp only at htab hr hpc
    rcases hpc with e | e
    · subst e
      have a1 : advance s ⟨c, i, sig, k, u, .empty⟩ = .reload := by
        change (match current s ⟨c, i, sig, k, u, .empty⟩ with
          | some .null => if u then Pc.reload else Pc.raised
          | some (.fn _) => .reload
          | _ => .crashed) = _
        unfold current
        simp only
        rw [htab]
        simp only
        rw [hr]
      simp only
      rw [a1]
      have a2 : advance s ⟨c, i, sig, k, u, .reload⟩ = .jump tab.arr := by
        change (match tableAs s c i with
          | .error _ => Pc.crashed
          | .ok tab => .jump tab.arr) = _
        rw [htab]
      rw [a2]
      change (match read s.heap tab.arr k with
          | some (.fn p) => Pc.called p
          | _ => .crashed) = _
      rw [hr]
    · subst e
      have a2 : advance s ⟨c, i, sig, k, u, .reload⟩ = .jump tab.arr := by
        change (match tableAs s c i with
          | .error _ => Pc.crashed
          | .ok tab => .jump tab.arr) = _
        rw [htab]
      simp only
      rw [a2]
      have a3 : advance s ⟨c, i, sig, k, u, .jump tab.arr⟩ = .called p := by
        change (match read s.heap tab.arr k with
          | some (.fn p) => Pc.called p
          | _ => .crashed) = _
        rw [hr]
      rw [a3]
      rfl

theorem run_append (l m : List Step) : run (l ++ m) = m.foldl step (run l) := by
  unfold run; rw [List.foldl_append]

/-- A thread that found its slot empty, or knows that it is filled, gets to its call once it has
compiled the method. -/
theorem compile_then_call {s : State} (hv : Inv s) {n : Nat} {t : Thread}
    (h : s.threads[n]? = some t) (hpc : t.pc = .empty ∨ t.pc = .reload ∧ ∃ tab p,
      tableAs s t.impl t.iface = .ok tab ∧ read s.heap tab.arr t.slot = some (.fn p)) (hc : s.compiling = none)
    (v : Nat) :
    ∃ t' p, ([Step.ask n, .finish v, .advance n, .advance n, .advance n].foldl step s).threads[n]? =
      some t' ∧ t'.pc = .called p ∧ t'.what = t.what := by
  have hth := hv.threads t (List.mem_of_getElem? h)
  have hval := hth.1
  obtain ⟨tab, htab, hok, hk⟩ := hval.table hv
  have hrest : ∀ s2 : State, s2.threads = s.threads →
      (∃ tab p, tableAs s2 t.impl t.iface = .ok tab ∧ read s2.heap tab.arr t.slot = some (.fn p)) →
      step (step s (.ask n)) (.finish v) = s2 → ∃ t' p,
      ([Step.ask n, .finish v, .advance n, .advance n, .advance n].foldl step s).threads[n]? =
      some t' ∧ t'.pc = .called p ∧ t'.what = t.what := by
    rintro s2 h1 ⟨tab2, p, h2, h3⟩ h4
    obtain ⟨t', g1, g2, g3⟩ := reach_call (s := s2) (n := n) (t := t) (by rw [h1]; exact h) h2 h3
      (hpc.imp_right And.left)
    refine ⟨t', p, ?_, g2, g3⟩
    change ([Step.advance n, .advance n, .advance n].foldl step
      (step (step s (.ask n)) (.finish v))).threads[n]? = _
    rw [h4]
    exact g1
  have hask : step s (.ask n) = if t.pc = Pc.empty then beginCompile s t.iface t.impl t.slot else s := by
    change (match s.threads[n]? with
      | some t => if t.pc = Pc.empty then beginCompile s t.iface t.impl t.slot else s
      | none => s) = _
    rw [h]
  have hnofin : step s (.finish v) = s := by
    change finishCompile s v = s
    unfold finishCompile
    rw [hc]
  rcases hpc with e | ⟨e, hfilled⟩
  · rw [if_pos e] at hask
    by_cases hin : (t.iface, t.impl, t.slot) ∈ s.installed
    · refine hrest s rfl ?_ ?_
      · rcases hok.read_some hk with h3 | ⟨q, h3⟩
        · exact absurd hin ((hok.empty t.slot hk).mp h3)
        · exact ⟨tab, q, htab, h3⟩
      · have : beginCompile s t.iface t.impl t.slot = s := by
          unfold beginCompile
          rw [hc]
          simp only [Option.isSome_none, Bool.false_eq_true, if_false]
          rw [if_pos (List.contains_iff_mem.mpr hin)]
        rw [hask, this, hnofin]
    · obtain ⟨b1, b2⟩ := beginCompile_spec hv hval
      have hb := b2 hc hin
      rw [hb] at b1
      obtain ⟨s', g1, g2, _, g4, t2, g5, g6⟩ := finishCompile_spec b1 rfl v
      refine hrest s' (by rw [g4]) ⟨t2, _, g5, g6⟩ ?_
      rw [hask, hb]
      exact g1
  · have he : t.pc ≠ Pc.empty := by rw [e]; exact fun h => by cases h
    rw [if_neg he] at hask
    exact hrest s rfl hfilled (by rw [hask, hnofin])

/-- **Progress.**  A call that begins when nothing is being compiled, and whose method compiles, is made:
after two accesses the thread knows whether to compile the method, and after three more it is in the
function compiled for it. -/
theorem dispatch_progress {steps : List Step} (hf : ∀ st ∈ steps, st.Fine) {n : Nat} {t : Thread}
    (h : (run steps).threads[n]? = some t) (hpc : t.pc = .load)
    (hc : (run steps).compiling = none) (v : Nat) :
    ∃ t' p, (run (steps ++ [.advance n, .advance n, .ask n, .finish v, .advance n, .advance n,
        .advance n])).threads[n]? = some t' ∧
      t'.pc = .called p ∧ p.impl = t.impl ∧ p.iface = t.iface ∧ p.sig = t.sig := by
  have hv := run_inv hf
  have hval := (hv.threads t (List.mem_of_getElem? h)).1
  obtain ⟨tab, htab, hok, hk⟩ := hval.table hv
  have hfine : ∀ st ∈ (steps ++ [.advance n, .advance n, .ask n, .finish v, .advance n, .advance n,
      .advance n]), st.Fine := by
    intro st hst
    rcases List.mem_append.mp hst with h' | h'
    · exact hf st h'
    · simp only [List.mem_cons, List.not_mem_nil, or_false] at h'
      rcases h' with e | e | e | e | e | e | e <;> (rw [e]; trivial)
  suffices hs : ∃ t' p, (run (steps ++ [.advance n, .advance n, .ask n, .finish v, .advance n,
      .advance n, .advance n])).threads[n]? = some t' ∧ t'.pc = .called p ∧ t'.what = t.what by
    obtain ⟨t', p, g1, g2, g3⟩ := hs
    refine ⟨t', p, g1, g2, ?_⟩
    have hr := ((dispatch_right_partial hfine).2 t' (List.mem_of_getElem? g1)).2 p g2
    unfold Thread.what at g3
    simp only [Prod.mk.injEq] at g3
    rw [hr.1, hr.2.1, hr.2.2]
    exact ⟨g3.1, g3.2.1, g3.2.2.1⟩
  rw [run_append]
  generalize run steps = s at *
  have e1 := step_advance_at h
  have e1' := step_advance h
  have f1 := (step_all hv (st := .advance n) trivial).1
  have e2 := step_advance_at e1
  have e2' := step_advance e1
  have f2 := (step_all f1 (st := .advance n) trivial).1
  have a1 : advance s t = .test tab.arr := by
    unfold advance
    rw [hpc]
    simp only
    rw [htab]
  have a2 : advance (step s (.advance n)) { t with pc := advance s t } = .empty ∨
      advance (step s (.advance n)) { t with pc := advance s t } = .reload ∧
        ∃ p, read s.heap tab.arr t.slot = some (.fn p) := by
    rw [advance_after, a1]
    unfold advance
    simp only
    rcases hok.read_some hk with h3 | ⟨q, h3⟩
    · rw [h3]; exact Or.inl rfl
    · rw [h3]; exact Or.inr ⟨rfl, q, rfl⟩
  have a3 := a2.imp_right (fun ⟨x, p, hp⟩ => And.intro x
    (show ∃ (tab : Table) (p : Ptr),
      tableAs (step (step s (.advance n)) (.advance n)) t.impl t.iface = Except.ok tab ∧
      read (step (step s (.advance n)) (.advance n)).heap tab.arr t.slot = some (Cell.fn p) from
      ⟨tab, p, by
        rw [e2', e1']
        exact htab, by rw [e2', e1']; exact hp⟩))
  obtain ⟨t', p, g1, g2, g3⟩ := compile_then_call f2 e2 a3 (by rw [e2', e1']; exact hc) v
  exact ⟨t', p, g1, g2, g3⟩

/-! ### Casts -/

/-- A cast that compiled code makes: to class number `k` of the order of the class that the value is
known as, or a checked cast to any class. -/
inductive Cast where
  | up (k : Nat)
  | down (j : Nat)

/-- An instance of `c` as compiled code has it: its tag, and the class it is known as. -/
def castOnce (s : State) (c : Nat) (v : Tag × Nat) : Cast → Option (Tag × Nat)
  | .up k => match (s.world.mroOf v.2)[k]?, upcast s c v.1 k with
    | some j, some tag => some (tag, j)
    | _, _ => none
  | .down j => match downcast s c j with
    | some tag => some (tag, j)
    | none => none

/-- Casts one after the other. -/
def casts (s : State) (c : Nat) (v : Tag × Nat) : List Cast → Option (Tag × Nat)
  | [] => some v
  | x :: rest => match castOnce s c v x with
    | none => none
    | some v' => casts s c v' rest

theorem upcastTable_get {w : World} {c : Nat} : ∀ {L l : List Nat}, upcastTable w c L = .ok l →
    ∀ (k j : Nat), L[k]? = some j → ∃ x, mroIndex w c j = some x ∧ l[k]? = some (x % 65536) := by
  intro L
  induction L with
  | nil => intro l _ k j h; cases h
  | cons a rest ih =>
    intro l h k j hk
    change (match mroIndex w c a with
      | none => Except.error Err.badMroIndex
      | some k => match upcastTable w c rest with
        | .error e => .error e
        | .ok l => .ok (k % 65536 :: l)) = .ok l at h
    cases e : mroIndex w c a with
    | none => rw [e] at h; cases h
    | some x =>
      rw [e] at h
      simp only at h
      cases e' : upcastTable w c rest with
      | error _ => rw [e'] at h; cases h
      | ok l' =>
        rw [e'] at h
        cases h
        cases k with
        | zero => cases hk; exact ⟨x, e, rfl⟩
        | succ k => exact ih e' k j hk

/-- The tag fits the view. -/
def Fits (s : State) (c : Nat) (v : Tag × Nat) : Prop := mroIndex s.world c v.2 = some v.1

theorem indexOf_lt {l : List Nat} {x k : Nat} (h : indexOf l x = some k) : k < l.length :=
  (List.getElem?_eq_some_iff.mp (indexOf_some h)).1

theorem Fits.table {s : State} {c : Nat} {v : Tag × Nat} (h : Fits s c v) :
    tableAs s c v.2 = .ok (s.tables c v.1) := by
  unfold tableAs
  rw [h]

theorem castOnce_up {s : State} (hv : Inv s) {c : Nat} (hlen : (s.world.mroOf c).length ≤ 65536)
    {v : Tag × Nat} (h : Fits s c v) {k j : Nat} (hk : (s.world.mroOf v.2)[k]? = some j) :
    ∃ tag, castOnce s c v (.up k) = some (tag, j) ∧ Fits s c (tag, j) := by
  have hmem : v.2 ∈ s.world.mroOf c := List.mem_of_getElem? (indexOf_some h)
  have hu := hv.ups c v.2 hmem
  rw [ups_ok h.table] at hu
  obtain ⟨x, h1, h2⟩ := upcastTable_get hu k j hk
  have hx : x % 65536 = x := by
    have := indexOf_lt h1
    exact Nat.mod_eq_of_lt (by omega)
  rw [hx] at h2
  refine ⟨x, ?_, h1⟩
  change (match (s.world.mroOf v.2)[k]?, (s.tables c v.1).upcasts[k]? with
    | some j, some tag => some (tag, j)
    | _, _ => none) = _
  rw [hk, h2]

theorem castOnce_down {s : State} {c : Nat} (hlen : (s.world.mroOf c).length ≤ 65536)
    (v : Tag × Nat) {j : Nat} (hj : j ∈ s.world.mroOf c) :
    ∃ tag, castOnce s c v (.down j) = some (tag, j) ∧ Fits s c (tag, j) := by
  obtain ⟨x, hx⟩ := indexOf_mem hj
  have hlt := indexOf_lt hx
  refine ⟨x, ?_, hx⟩
  change (match downcast s c j with
    | some tag => some (tag, j)
    | none => none) = _
  unfold downcast
  rw [show mroIndex s.world c j = some x from hx]
  simp only [Option.map_some]
  rw [Nat.mod_eq_of_lt (by omega)]

/-- **Casts.**  A new instance of a class, cast any number of times to classes that it is known to
inherit from and back by checked casts, carries the number of the dispatch table of its own class as the
class that it is now known as; and that is a class it has. -/
theorem casts_right {steps : List Step} (hf : ∀ st ∈ steps, st.Fine) {c : Nat}
    (hc : c < (run steps).world.length) (hlen : ((run steps).world.mroOf c).length ≤ 65536)
    {l : List Cast} {tag j : Nat} (h : casts (run steps) c (0, c) l = some (tag, j)) :
    ((run steps).world.mroOf c)[tag]? = some j ∧
    tableAs (run steps) c j = .ok ((run steps).tables c tag) := by
  have hv := run_inv hf
  have key : ∀ (l : List Cast) (v v' : Tag × Nat), Fits (run steps) c v →
      casts (run steps) c v l = some v' → Fits (run steps) c v' := by
    intro l
    induction l with
    | nil => intro v v' hfit e; cases e; exact hfit
    | cons x rest ih =>
      intro v v' hfit e
      change (match castOnce (run steps) c v x with
        | none => none
        | some v' => casts (run steps) c v' rest) = some v' at e
      cases e1 : castOnce (run steps) c v x with
      | none => rw [e1] at e; cases e
      | some v1 =>
        rw [e1] at e
        refine ih v1 v' ?_ e
        cases x with
        | up k =>
          cases e2 : ((run steps).world.mroOf v.2)[k]? with
          | none =>
            change (match ((run steps).world.mroOf v.2)[k]?, upcast (run steps) c v.1 k with
              | some j, some tag => some (tag, j)
              | _, _ => none) = some v1 at e1
            rw [e2] at e1
            cases e1
          | some j1 =>
            obtain ⟨tag1, g1, g2⟩ := castOnce_up hv hlen hfit e2
            rw [g1] at e1
            cases e1
            exact g2
        | down j1 =>
          by_cases hj : j1 ∈ (run steps).world.mroOf c
          · obtain ⟨tag1, g1, g2⟩ := castOnce_down hlen v hj
            rw [g1] at e1
            cases e1
            exact g2
          · change (match downcast (run steps) c j1 with
              | some tag => some (tag, j1)
              | none => none) = some v1 at e1
            unfold downcast at e1
            cases e3 : mroIndex (run steps).world c j1 with
            | none => rw [e3] at e1; cases e1
            | some x => exact absurd (List.mem_of_getElem? (indexOf_some e3)) hj
  have h0 : Fits (run steps) c (0, c) := by
    obtain ⟨out, _, ho⟩ := hv.world.order c hc
    unfold Fits mroIndex
    simp only
    rw [ho, indexOf_cons, if_pos rfl]
  have hfit := key l (0, c) (tag, j) h0 h
  exact ⟨indexOf_some hfit, hfit.table⟩

/-- Every cast that should succeed does, and a checked cast to a class that the instance does not have
fails. -/
theorem cast_succeeds {steps : List Step} (hf : ∀ st ∈ steps, st.Fine) {c : Nat}
    (hlen : ((run steps).world.mroOf c).length ≤ 65536) {tag i : Nat}
    (hfit : indexOf ((run steps).world.mroOf c) i = some tag) :
    (∀ (k j : Nat), ((run steps).world.mroOf i)[k]? = some j →
      (castOnce (run steps) c (tag, i) (.up k)).map Prod.snd = some j) ∧
    (∀ j, castOnce (run steps) c (tag, i) (.down j) ≠ none ↔ j ∈ (run steps).world.mroOf c) := by
  have hv := run_inv hf
  constructor
  · intro k j hk
    obtain ⟨tag', h1, _⟩ := castOnce_up hv hlen (v := (tag, i)) hfit hk
    rw [h1]
    rfl
  · intro j
    constructor
    · intro h
      cases e : mroIndex (run steps).world c j with
      | some x => exact List.mem_of_getElem? (indexOf_some e)
      | none =>
        exfalso
        apply h
        change (match downcast (run steps) c j with
              | some tag => some (tag, j)
              | none => none) = none
        unfold downcast
        rw [e]
        rfl
    · intro hj
      obtain ⟨tag', h1, _⟩ := castOnce_down hlen (tag, i) hj
      rw [h1]
      simp

/-! ### Examples -/

/-- `class A`, `class B(A)`, `class C(A)`, `class D(B, C)`; a module that calls method 7 of an `A` is
loaded, and two threads call it on a `D` known as an `A`: the first compiles it while the second has read
that the slot is empty.  In between another module is loaded, which moves the array. -/
def diamond : List Step :=
  [.classStmt [], .classStmt [0], .classStmt [0], .classStmt [1, 2], .allocate 0 7,
   .call 3 0 7 false, .call 3 0 7 true, .advance 0, .advance 1, .advance 0, .ask 0, .advance 1,
   .allocate 0 8, .allocate 0 9, .finish 100, .advance 0, .classStmt [3], .advance 0, .ask 1,
   .advance 1, .advance 1, .advance 0, .advance 1]

example : ∀ st ∈ diamond, st.Fine := by
  intro st h
  simp only [diamond, List.mem_cons, List.not_mem_nil, or_false] at h
  rcases h with rfl | rfl | rfl | rfl | rfl | rfl | rfl | rfl | rfl | rfl | rfl | rfl | rfl | rfl | rfl |
    rfl | rfl | rfl | rfl | rfl | rfl | rfl | rfl <;> simp [Step.Fine]

example : (run diamond).world.mroOf 4 = [4, 3, 1, 2, 0] ∧
    (run diamond).threads.map (fun t => t.pc) = [.called ⟨0, 3, 7, 100⟩, .called ⟨0, 3, 7, 100⟩] ∧
    (run diamond).installed = [(0, 3, 0)] := by decide +kernel

-- without the second thread's compiling being skipped, nothing is compiled twice
example : (run (diamond.take 12)).threads.map (fun t => t.pc) = [.empty, .empty] := by decide +kernel

-- casts of a `D` (class 3): to `B` and on to `A`, and back to `C`
example : casts (run diamond) 3 (0, 3) [.up 1] = some (1, 1) ∧
    casts (run diamond) 3 (0, 3) [.up 1, .up 1] = some (3, 0) ∧
    casts (run diamond) 3 (0, 3) [.up 1, .up 1, .down 2] = some (2, 2) ∧
    casts (run diamond) 1 (0, 1) [.up 1, .down 2] = none := by decide +kernel

-- a slot is given when the module is loaded, and the same in the table of each class
example : ((List.range 5).map (fun c => match tableAs (run diamond) c 0 with
    | .ok t => t.indices
    | .error _ => [])) = List.replicate 5 [(7, 0), (8, 1), (9, 2)] := by decide +kernel

-- a method that does not compile: the call raises
example : (run [.classStmt [], .allocate 0 7, .call 0 0 7 false, .advance 0, .advance 0, .ask 0, .abandon,
    .advance 0]).threads.map (fun t => t.pc) = [.raised] := by decide +kernel

end Verif.Mro.Dispatch
