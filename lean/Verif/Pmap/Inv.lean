import Verif.Pmap.Spec
import Mathlib.Algebra.BigOperators.Group.Finset.Basic
import Mathlib.Data.Fintype.BigOperators
import Mathlib.Tactic.Tauto
/-
The invariant of the threads of `pmap`.
-/
namespace Verif.Pmap

variable {V E : Type} {N : Nat}

/-- How far a job is. -/
inductive Phase where
  | fresh
  | mid (x : Nat)
  | done

/-- A job `(call, index)` held somewhere, and how far it is. -/
abbrev Item := (Nat × Nat) × Phase

def Mode.items : Mode V E → List Item
  | .run _ => []
  | .put c cnt i _ => (List.range' i (cnt - i)).map fun j => ((c, j), .fresh)
  | .drain _ _ _ => []
  | .wait c _ got _ => got.map fun j => ((c, j), .done)

def Mode.calls : Mode V E → List Nat
  | .run _ => []
  | .put c _ _ _ => [c]
  | .drain c _ _ => [c]
  | .wait c _ _ _ => [c]

def Nest.item (f : Nest V E) : Item := ((f.jc, f.ji), .mid f.jx)

def Below.items : Below V E → List Item
  | .client => []
  | .job c i x rest => ((c, i), .mid x) :: rest.map Nest.item

def Below.calls : Below V E → List Nat
  | .client => []
  | .job _ _ _ rest => rest.map (·.c)

/-- the jobs a thread holds -/
def held : Thread V E → List Item
  | .comp m b => m.items ++ b.items
  | .next c i x rest => ((c, i), .mid x) :: rest.map Nest.item
  | .finish c i rest => ((c, i), .done) :: rest.map Nest.item
  | .idle => []
  | .done _ => []
  | .dead => []
  | .fault => []

/-- the calls a thread is in -/
def owns : Thread V E → List Nat
  | .comp m b => m.calls ++ b.calls
  | .next _ _ _ rest => rest.map (·.c)
  | .finish _ _ rest => rest.map (·.c)
  | .idle => []
  | .done _ => []
  | .dead => []
  | .fault => []

def cntItem (l : List Item) (c i : Nat) : Nat := l.countP fun z => z.1 = (c, i)

@[simp] theorem cntItem_nil (c i : Nat) : cntItem [] c i = 0 := rfl

@[simp] theorem cntItem_append (l l' : List Item) (c i : Nat) :
    cntItem (l ++ l') c i = cntItem l c i + cntItem l' c i := List.countP_append

@[simp] theorem cntItem_cons (z : Item) (l : List Item) (c i : Nat) :
    cntItem (z :: l) c i = cntItem l c i + if z.1 = (c, i) then 1 else 0 := by
  simp [cntItem, List.countP_cons]

theorem cntItem_pos {l : List Item} {z : Item} (h : z ∈ l) : 0 < cntItem l z.1.1 z.1.2 :=
  List.countP_pos_iff.2 ⟨z, h, by simp⟩

theorem exists_of_cntItem {l : List Item} {c i : Nat} (h : 0 < cntItem l c i) :
    ∃ ph, ((c, i), ph) ∈ l := by
  obtain ⟨z, hz, h⟩ := List.countP_pos_iff.1 h
  refine ⟨z.2, ?_⟩
  simp only [decide_eq_true_eq] at h
  rw [← h]; exact hz

def total (s : State N V E) (c i : Nat) : Nat :=
  s.queue.count (c, i) + (∑ t, cntItem (held (s.thr t)) c i) + (s.calls c).out.count i

def ownSum (s : State N V E) (c : Nat) : Nat := ∑ t, (owns (s.thr t)).count c

theorem sum_update (f : Thread V E → Nat) (thr : Fin N → Thread V E) (t : Fin N) (th : Thread V E) :
    (∑ t', f (Function.update thr t th t')) + f (thr t) = (∑ t', f (thr t')) + f th := by
  have h1 := Finset.add_sum_erase Finset.univ (fun t' => f (Function.update thr t th t')) (Finset.mem_univ t)
  have h2 := Finset.add_sum_erase Finset.univ (fun t' => f (thr t')) (Finset.mem_univ t)
  have h3 : ∑ x ∈ Finset.univ.erase t, f (Function.update thr t th x) =
      ∑ x ∈ Finset.univ.erase t, f (thr x) := by
    refine Finset.sum_congr rfl fun x hx => ?_
    rw [Function.update_of_ne (Finset.ne_of_mem_erase hx)]
  simp only [Function.update_self] at h1
  omega

theorem le_sum (f : Thread V E → Nat) (thr : Fin N → Thread V E) (t : Fin N) :
    f (thr t) ≤ ∑ t', f (thr t') := by
  have h1 := Finset.add_sum_erase Finset.univ (fun u => f (thr u)) (Finset.mem_univ t)
  omega

theorem two_le_sum (f : Thread V E → Nat) (thr : Fin N → Thread V E) {t t' : Fin N} (h : t ≠ t') :
    f (thr t) + f (thr t') ≤ ∑ u, f (thr u) := by
  have h1 := Finset.add_sum_erase Finset.univ (fun u => f (thr u)) (Finset.mem_univ t)
  have h2 := Finset.add_sum_erase (Finset.univ.erase t) (fun u => f (thr u))
    (Finset.mem_erase.2 ⟨h.symm, Finset.mem_univ t'⟩)
  omega

theorem exists_of_sum_pos {f : Thread V E → Nat} {thr : Fin N → Thread V E} (h : 0 < ∑ u, f (thr u)) :
    ∃ t, 0 < f (thr t) := by
  by_contra hc
  push Not at hc
  have : ∑ u, f (thr u) = 0 := Finset.sum_eq_zero fun u _ => by have := hc u; omega
  omega

/-- What is known about the elements of job `i`. -/
def PhaseOK (cl : Call V E) (i : Nat) : Phase → Prop
  | .fresh => ∀ y, jobLo cl.g i ≤ y → y < jobHi cl.n cl.g i → cl.res y = none
  | .mid x => jobLo cl.g i ≤ x ∧ x ≤ jobHi cl.n cl.g i ∧
      (∀ y, jobLo cl.g i ≤ y → y < x → cl.res y ≠ none) ∧
      (∀ y, x ≤ y → y < jobHi cl.n cl.g i → cl.res y = none)
  | .done => ∀ y, jobLo cl.g i ≤ y → y < jobHi cl.n cl.g i →
      cl.res y ≠ none ∨ ∃ z e, (z, e) ∈ cl.exq ∧ z ≤ y

/-- What is written in the storage of a call is what the sequential program computes. -/
structure CallOK (cl : Call V E) : Prop where
  res : ∀ x v, cl.res x = some v → x < cl.n ∧ seq (cl.xs x) = .ok v
  exq : ∀ x e, (x, e) ∈ cl.exq → x < cl.n ∧ seq (cl.xs x) = .error e
  noBase : ∀ x, x < cl.n → NoBase (cl.xs x)

/-- the sequential result of a call -/
def callSeq (cl : Call V E) : Except E (List V) := listComp (fun i => seq (cl.xs i)) cl.n

def cntOf (cl : Call V E) : Nat := jobCount cl.n cl.g

/-- what a computation will return or raise, sequentially -/
def Mode.val (calls : Nat → Call V E) : Mode V E → Except E V
  | .run p => seq p
  | .put c _ _ k => seq (k (callSeq (calls c)))
  | .drain c _ k => seq (k (callSeq (calls c)))
  | .wait c _ _ k => seq (k (callSeq (calls c)))

/-- a computation is well formed -/
def Mode.OK (calls : Nat → Call V E) (nc : Nat) : Mode V E → Prop
  | .run p => NoBase p
  | .put c cnt i k => (∀ r, NoBase (k r)) ∧ cnt = cntOf (calls c) ∧ c < nc ∧ i ≤ cnt
  | .drain c cnt k => (∀ r, NoBase (k r)) ∧ cnt = cntOf (calls c) ∧ c < nc
  | .wait c cnt _ k => (∀ r, NoBase (k r)) ∧ cnt = cntOf (calls c) ∧ c < nc

/-- The nested calls of a worker are well formed. -/
def RestOK (calls : Nat → Call V E) (nc : Nat) : List (Nest V E) → Prop
  | [] => True
  | f :: rest =>
    (∀ r, NoBase (f.k r)) ∧ f.cnt = cntOf (calls f.c) ∧ f.c < nc ∧ f.jc < f.c ∧
    (∀ f' ∈ rest, f'.jc < f.c) ∧
    f.jx < jobHi (calls f.jc).n (calls f.jc).g f.ji ∧
    seq (f.k (callSeq (calls f.c))) = seq ((calls f.jc).xs f.jx) ∧ RestOK calls nc rest

/-- A thread is well formed; `p` is its program, `none` for a worker. -/
def ThreadOK (calls : Nat → Call V E) (nc : Nat) (p : Option (Comp V E)) : Thread V E → Prop
  | .comp m .client => m.OK calls nc ∧ ∃ p', p = some p' ∧ m.val calls = seq p' ∧
      ∀ c cnt k, m ≠ .drain c cnt k
  | .comp m (.job c i x rest) => m.OK calls nc ∧ p = none ∧ c < nc ∧ x < jobHi (calls c).n (calls c).g i ∧
      m.val calls = seq ((calls c).xs x) ∧ RestOK calls nc rest ∧
      ∀ c' ∈ m.calls, c < c' ∧ ∀ f ∈ rest, f.jc < c'
  | .next c _ _ rest => p = none ∧ c < nc ∧ RestOK calls nc rest
  | .finish c _ rest => p = none ∧ c < nc ∧ RestOK calls nc rest
  | .idle => p = none
  | .done r => ∃ p', p = some p' ∧ r = seq p'
  | .dead => False
  | .fault => False

/-- a worker in `getMany` -/
def waitsFor (c : Nat) : Thread V E → Prop
  | .comp (.wait c' _ _ _) (.job _ _ _ _) => c' = c
  | _ => False

/-- The invariant. -/
structure Inv (progs : Fin N → Option (Comp V E)) (s : State N V E) : Prop where
  own : ∀ c, ownSum s c ≤ 1
  tot : ∀ c i, total s c i = if i < cntOf (s.calls c) then ownSum s c else 0
  items : ∀ t, ∀ z ∈ held (s.thr t), PhaseOK (s.calls z.1.1) z.1.2 z.2
  queue : ∀ z ∈ s.queue, PhaseOK (s.calls z.1) z.2 .fresh
  out : ∀ c, ∀ i ∈ (s.calls c).out, PhaseOK (s.calls c) i .done
  calls : ∀ c, CallOK (s.calls c)
  threads : ∀ t, ThreadOK s.calls s.ncalls (progs t) (s.thr t)
  waits : ∀ t c, waitsFor c (s.thr t) → ∀ i, (c, i) ∉ s.queue
  closed : ∀ c, ownSum s c = 0 → (∀ x, (s.calls c).res x = none) ∧ (s.calls c).exq = []

end Verif.Pmap
