import Verif.Typed.Total
/-
C15 and C17: every value of every type in the grammar survives serialization and deserialization, with its sharing and its
cycles.
-/
namespace Verif.Typed

open Verif.Wire (Bytes Reg InRange readHeader)

/-! ### The same graph -/

theorem reach_memo {heap : Nat → List Val} {v : Val} {m : List Nat} (hr : ∀ a ∈ refs v, a ∈ m)
    (hm : ∀ a ∈ m, ∀ b ∈ refsAll (heap a), b ∈ m) {a : Nat} (h : Reach heap v a) : a ∈ m := by
  induction h with
  | root h => exact hr _ h
  | step _ hb ih => exact hm _ ih _ hb

mutual
theorem subst_rename (f : Nat → Nat) (g h : Nat → Val) : ∀ v, (∀ a ∈ refs v, g (f a) = h a) → subst g (rename f v) = subst h v
  | .reg _, _ | .unit, _ | .bytes _, _ | .str _, _ => rfl
  | .seq vs, e => by simp only [rename, subst]; rw [substAll_rename f g h vs (by simpa only [refs] using e)]
  | .tag i v, e => by simp only [rename, subst]; rw [subst_rename f g h v (by simpa only [refs] using e)]
  | .ref a, e => by simp only [rename, subst]; exact e a (by simp [refs])
theorem substAll_rename (f : Nat → Nat) (g h : Nat → Val) : ∀ vs, (∀ a ∈ refsAll vs, g (f a) = h a) →
    substAll g (renameAll f vs) = substAll h vs
  | [], _ => rfl
  | v :: vs, e => by
    simp only [renameAll, substAll]
    rw [subst_rename f g h v (fun a ha => e a (by simp [refsAll, ha])),
      substAll_rename f g h vs (fun a ha => e a (by simp [refsAll, ha]))]
end

/-- The same graphs look the same, however far one looks. -/
theorem same_view {heap heap' : Nat → List Val} {v v' : Val} (h : SameGraph heap v heap' v') :
    ∀ n, view heap' n v' = view heap n v := by
  obtain ⟨f, rfl, hc, -⟩ := h
  have key : ∀ n (w : Val), (∀ a ∈ refs w, Reach heap v a) → view heap' n (rename f w) = view heap n w := by
    intro n
    induction n with
    | zero => intro w _; exact subst_rename f _ _ w fun _ _ => rfl
    | succ n ih =>
      intro w hw
      refine subst_rename f _ _ w fun a ha => ?_
      rw [hc a (hw a ha), renameAll_eq_map, List.map_map]
      congr 1
      refine List.map_congr_left fun x hx => ?_
      exact ih x fun b hb => (hw a ha).step (mem_refsAll.2 ⟨x, hx, hb⟩)
  exact fun n => key n v fun a ha => .root ha

theorem subst_closed (f : Nat → Val) (v : Val) (h : refs v = []) : subst f v = v := by
  have := subst_rename id f .ref v (by simp [h])
  rw [rename_id] at this
  rw [this]
  exact subst_ref v
where
  subst_ref : ∀ v, subst Val.ref v = v
    | .reg _ | .unit | .bytes _ | .str _ | .ref _ => rfl
    | .seq vs => by simp only [subst]; rw [substAll_ref vs]
    | .tag i v => by simp only [subst]; rw [subst_ref v]
  substAll_ref : ∀ vs, substAll Val.ref vs = vs
    | [] => rfl
    | v :: vs => by simp only [substAll]; rw [subst_ref v, substAll_ref vs]

/-! ### C17 -/

/-- C17: what was serialized is deserialized as the same graph, and nothing more of the stream is read.  There is one
object for each object; an object that was reachable in several ways, or from itself, still is. -/
theorem read_written (env : Nat → Ty) (inline : Bool) (heap : Nat → List Val) (dflt : Ty → St → Except Err (Val × St)) (depth : Nat)
    (t : Ty) (v : Val) (bytes rest : Bytes) (h : serialize env inline heap depth t v = .ok bytes) :
    ∃ v' st, deserialize env dflt depth t (bytes ++ rest) = .ok (v', st) ∧ st.bytes = rest ∧
      SameGraph heap v (fun a => st.heap.getD a []) v' := by
  unfold serialize at h
  split at h
  · cases h
  rename_i b m' hs
  cases h
  obtain ⟨-, w, bs1, st', e1, -, e3, e4⟩ := good_all env inline heap dflt depth t 0 v [] bytes m' ⟨bytes ++ rest, [], []⟩ rest
    (by norm_num) hs ⟨by simp, by simp, rfl, rfl⟩ rfl
  have hnew := e4.ext.new
  have hm : ∀ a ∈ m', ∀ b ∈ refsAll (heap a), b ∈ m' := by
    intro a ha b hb
    obtain ⟨i, hi, rfl⟩ := List.getElem_of_mem ha
    obtain ⟨x, x1, -, x3⟩ := hnew i (by simp) hi
    rw [List.getElem?_eq_getElem hi] at x1
    cases x1
    exact x3 b hb
  have hin : ∀ a, Reach heap v a → a ∈ m' := fun a ha => reach_memo e4.closed hm ha
  refine ⟨_, st', ?_, e4.bytes, pos m', rfl, ?_, ?_⟩
  · unfold deserialize
    simp only at e1
    rw [e1]
    exact e3
  · intro a ha
    have hlt : pos m' a < m'.length := List.idxOf_lt_length_of_mem (hin a ha)
    obtain ⟨x, x1, x2, -⟩ := hnew (pos m' a) (by simp) hlt
    have hx : x = a := by
      rw [List.getElem?_eq_getElem hlt] at x1
      have hg : m'[pos m' a] = a := List.getElem_idxOf hlt
      rw [hg] at x1
      exact (Option.some.inj x1).symm
    subst hx
    show st'.heap.getD _ _ = _
    rw [List.getD_eq_getElem?_getD, x2]
    rfl
  · intro a b ha hb hab
    exact (List.idxOf_inj (hin a ha)).1 hab

/-- C15, C17: every value of every type in the grammar, with every graph of objects, can be serialized, and is deserialized
as the same graph.  It is deep enough to descend into each object once. -/
theorem graph_roundtrip (env heapTy : Nat → Ty) (dom : List Nat) (heap : Nat → List Val) (hh : HeapOk env heapTy dom heap)
    (hd : dom.length ≤ 2 ^ 31) (inline : Bool) (dflt : Ty → St → Except Err (Val × St)) (t : Ty) (v : Val)
    (h : HasType env heapTy dom t v) (rest : Bytes) :
    ∃ depth bytes, ∀ d, depth ≤ d → serialize env inline heap d t v = .ok bytes ∧
      ∃ v' st, deserialize env dflt d t (bytes ++ rest) = .ok (v', st) ∧ st.bytes = rest ∧
        SameGraph heap v (fun a => st.heap.getD a []) v' := by
  obtain ⟨depth, b, m', e, -, -⟩ := writes_all (inline := inline) hh hd _ t v h 0 [] ⟨by simp, by simp⟩ (Nat.le_refl _)
  refine ⟨depth, b, fun d hdd => ?_⟩
  have hs : serialize env inline heap d t v = .ok b := by
    unfold serialize
    rw [ser_le env inline heap hdd _ _ _ _ _ e]
  exact ⟨hs, read_written env inline heap dflt d t v b rest hs⟩

/-- C15: the value that comes back equals the one that was serialized: it looks the same through any number of references,
and it is the same value if it has no mutable parts.  The whole message is read. -/
theorem value_roundtrip (env heapTy : Nat → Ty) (dom : List Nat) (heap : Nat → List Val) (hh : HeapOk env heapTy dom heap)
    (hd : dom.length ≤ 2 ^ 31) (inline : Bool) (dflt : Ty → St → Except Err (Val × St)) (t : Ty) (v : Val)
    (h : HasType env heapTy dom t v) :
    ∃ depth bytes, ∀ d, depth ≤ d → serialize env inline heap d t v = .ok bytes ∧
      ∃ v' st, deserialize env dflt d t bytes = .ok (v', st) ∧ st.bytes = [] ∧
        (∀ n, view (fun a => st.heap.getD a []) n v' = view heap n v) ∧ (refs v = [] → v' = v) := by
  obtain ⟨depth, bytes, e⟩ := graph_roundtrip env heapTy dom heap hh hd inline dflt t v h []
  refine ⟨depth, bytes, fun d hdd => ?_⟩
  obtain ⟨e1, v', st, e2, e3, e4⟩ := e d hdd
  rw [List.append_nil] at e2
  refine ⟨e1, v', st, e2, e3, same_view e4, fun hr => ?_⟩
  obtain ⟨f, rfl, -, -⟩ := e4
  exact rename_closed f v hr

/-! ### Cases that meet the hypotheses -/

/-- A list type that contains itself. -/
def exEnv : Nat → Ty
  | 0 => .listOf (.named 0)
  | _ => .alt [.tuple [], .tuple [.reg (.int 8), .named 1, .dict .str (.named 0)]]

/-- Two lists, each in the other and the first in itself; a dictionary with the first under two keys. -/
def exHeap : Nat → List Val
  | 10 => [.ref 11, .ref 10]
  | 11 => [.ref 10]
  | 12 => [.str [97], .ref 10, .str [8364], .ref 10]
  | _ => []

/-- The types of these objects. -/
def exTy : Nat → Ty
  | 12 => .dict .str (.named 0)
  | _ => .listOf (.named 0)

/-- A list of two nodes, which share a dictionary. -/
def exVal : Val :=
  .tag 1 (.seq [.reg (-5), .tag 1 (.seq [.reg 7, .tag 0 (.seq []), .ref 12]), .ref 12])

example : HeapOk exEnv exTy [10, 11, 12] exHeap ∧ HasType exEnv exTy [10, 11, 12] (.named 1) exVal := by
  have hlist : ∀ a ∈ [10, 11], HasType exEnv exTy [10, 11, 12] (.named 0) (.ref a) := by
    intro a ha
    refine .named (.ref rfl ?_ ?_)
    · simp only [List.mem_cons, List.not_mem_nil, or_false] at ha ⊢; omega
    · simp only [List.mem_cons, List.not_mem_nil, or_false] at ha
      rcases ha with rfl | rfl <;> rfl
  have hstr : ∀ s ∈ [[97], [8364]], HasType exEnv exTy [10, 11, 12] .str (.str s) := by
    intro s hs
    simp only [List.mem_cons, List.not_mem_nil, or_false] at hs
    rcases hs with rfl | rfl <;> exact .str (by decide) (by decide)
  refine ⟨⟨?_, ?_, ?_, ?_⟩, ?_⟩
  · intro a ha
    simp only [List.mem_cons, List.not_mem_nil, or_false] at ha
    rcases ha with rfl | rfl | rfl <;> decide
  · intro a ha t ht size hs
    simp only [List.mem_cons, List.not_mem_nil, or_false] at ha
    rcases ha with rfl | rfl | rfl <;> cases ht <;> simp [podSize] at hs
  · intro a ha k v hk
    simp only [List.mem_cons, List.not_mem_nil, or_false] at ha
    rcases ha with rfl | rfl | rfl <;> cases hk
    rfl
  · intro a ha e he i hi
    simp only [List.mem_cons, List.not_mem_nil, or_false] at ha
    rcases ha with rfl | rfl | rfl
    · cases he
      rcases i with _ | _ | i
      · exact hlist 11 (by simp)
      · exact hlist 10 (by simp)
      · simp [exHeap] at hi; omega
    · cases he
      rcases i with _ | i
      · exact hlist 10 (by simp)
      · simp [exHeap] at hi
    · cases he
      rcases i with _ | _ | _ | _ | i
      · exact hstr [97] (by simp)
      · exact hlist 10 (by simp)
      · exact hstr [8364] (by simp)
      · exact hlist 10 (by simp)
      · simp [exHeap] at hi; omega
  · have hd : HasType exEnv exTy [10, 11, 12] (.dict .str (.named 0)) (.ref 12) := .ref rfl (by simp) rfl
    have h0 : HasType exEnv exTy [10, 11, 12] (.named 1) (.tag 0 (.seq [])) :=
      .named (.alt (i := 0) (by decide) (by decide) (.tuple rfl (by decide) (fun i h => by simp at h)))
    have hn : ∀ x v, InRange (.int 8) x → HasType exEnv exTy [10, 11, 12] (.named 1) v →
        HasType exEnv exTy [10, 11, 12] (.named 1) (.tag 1 (.seq [.reg x, v, .ref 12])) := by
      intro x v hx hv
      refine .named (.alt (i := 1) (by decide) (by decide) (.tuple rfl (by decide) (fun i h h' => ?_)))
      rcases i with _ | _ | _ | i
      · exact .reg hx
      · exact hv
      · exact hd
      · simp at h'; omega
    exact hn _ _ (by simp [InRange]) (hn _ _ (by simp [InRange]) h0)

/-- What comes back for these: three new objects, which refer to each other as the old ones did. -/
example : (match serialize exEnv true exHeap 20 (.named 1) exVal with
    | .error _ => none
    | .ok b => match deserialize exEnv (fun _ _ => .error .fuel) 20 (.named 1) b with
      | .error _ => none
      | .ok (v, st) => some (v, st.heap, st.bytes)) =
    some (.tag 1 (.seq [.reg (-5), .tag 1 (.seq [.reg 7, .tag 0 (.seq []), .ref 0]), .ref 0]),
      [[.str [97], .ref 1, .str [8364], .ref 1], [.ref 2, .ref 1], [.ref 1]], []) := by decide +kernel

end Verif.Typed
