import Verif.TypeGroup.Iso
import Verif.TypeGroup.Hash
/-
Concrete processes.
-/
namespace Verif.TypeGroup

open HashOps

instance {O H : Type} [DecidableEq O] [DecidableEq H] : DecidableEq (Grp O H)
  | ⟨a, b⟩, ⟨c, d⟩ => if h : a = c ∧ b = d then isTrue (by rw [h.1, h.2]) else isFalse (by simpa using h)

/-- Two classes `A` and `B` that refer to each other, at the addresses 2 and 1, a tuple type at 3 that
refers to `A`, and a constant at 0, which `B` mentions by name. -/
def exWorld : World Nat Text where
  walk o := match o with
    | 1 => [.hash (raw1 1), .str "B", .topo 2, .named "k" 0]
    | 2 => [.hash (raw1 1), .str "A", .topo 1]
    | 3 => [.hash (raw1 1), .topo 2]
    | _ => []
  const o := if o = 0 then some (sha "zero") else none
  type o := match o with | 1 => some (7, "B") | 2 => some (7, "A") | 3 => some (9, "T") | _ => none
  tpName o := match o with | 1 => some "B" | 2 => some "A" | _ => none
  pyName _ := none
  kindName o := match o with | 1 => "B" | 2 => "A" | 3 => "T" | _ => "int"
  const_leaf o h := by
    by_cases h0 : o = 0
    · subst h0; rfl
    · simp [h0] at h

/-- A call made alone, for at most `n` steps. -/
def runCall {O H : Type} [LinearOrder O] [LinearOrder H] [HashOps H] (W : World O H) :
    Nat → Reg O H → Call O → Except Err (Reg O H × Call O)
  | 0, reg, c => .ok (reg, c)
  | n + 1, reg, c =>
    match c.search.stack with
    | [] => .ok (reg, c)
    | _ :: _ =>
      match callStep W reg c with
      | .error e => .error e
      | .ok (reg', c') => runCall W n reg' c'

theorem runCall_reachable {O H : Type} [LinearOrder O] [LinearOrder H] [HashOps H] {W : World O H} :
    ∀ {n : Nat} {reg reg' : Reg O H} {c c' : Call O} {ret : List O},
      Reachable W ⟨reg, [c], ret, []⟩ → runCall W n reg c = .ok (reg', c') → Reachable W ⟨reg', [c'], ret, []⟩
  | 0, reg, reg', c, c', ret, hr, h => by
    simp only [runCall, Except.ok.injEq, Prod.mk.injEq] at h
    obtain ⟨rfl, rfl⟩ := h; exact hr
  | n + 1, reg, reg', c, c', ret, hr, h => by
    rw [runCall] at h
    split at h
    · simp only [Except.ok.injEq, Prod.mk.injEq] at h
      obtain ⟨rfl, rfl⟩ := h; exact hr
    · rename_i p rest hst
      split at h
      · cases h
      · rename_i r2 c2 hs
        exact runCall_reachable (n := n) (.next hr (.step (before := []) (after := []) rfl (by rw [hst]; simp) hs)) h

/-- `ensureRecursiveTypeGroup(root)` made alone. -/
def ensure {O H : Type} [LinearOrder O] [LinearOrder H] [HashOps H] (W : World O H) (n : Nat) (reg : Reg O H)
    (root : O) : Except Err (Reg O H) :=
  match startCall W reg root with
  | .error e => .error e
  | .ok c =>
    match runCall W n reg c with
    | .error e => .error e
    | .ok (reg', c') => if c'.search.stack = [] then .ok reg' else .error .noRoot

theorem runCall_root {O H : Type} [LinearOrder O] [LinearOrder H] [HashOps H] {W : World O H} :
    ∀ {n : Nat} {reg reg' : Reg O H} {c c' : Call O} {ret : List O},
      Reachable W ⟨reg, [c], ret, []⟩ → runCall W n reg c = .ok (reg', c') → c'.root = c.root
  | 0, reg, reg', c, c', ret, hr, h => by
    simp only [runCall, Except.ok.injEq, Prod.mk.injEq] at h
    obtain ⟨rfl, rfl⟩ := h; rfl
  | n + 1, reg, reg', c, c', ret, hr, h => by
    rw [runCall] at h
    split at h
    · simp only [Except.ok.injEq, Prod.mk.injEq] at h
      obtain ⟨rfl, rfl⟩ := h; rfl
    · rename_i p rest hst
      split at h
      · cases h
      · rename_i r2 c2 hs
        have hne : c.search.stack ≠ [] := by rw [hst]; simp
        obtain ⟨r3, c3, e1, _, _, _, _, e5, _⟩ :=
          callStep_spec (reachable_inv hr).reg ((reachable_inv hr).calls c (by simp)) hne
        rw [hs] at e1
        simp only [Except.ok.injEq, Prod.mk.injEq] at e1
        obtain ⟨rfl, rfl⟩ := e1
        rw [← e5]
        exact runCall_root (n := n) (.next hr (.step (before := []) (after := []) rfl hne hs)) h

theorem ensure_reachable {O H : Type} [LinearOrder O] [LinearOrder H] [HashOps H] {W : World O H} {n : Nat}
    {reg reg' : Reg O H} {root : O} {ret : List O} (hr : Reachable W ⟨reg, [], ret, []⟩)
    (h : ensure W n reg root = .ok reg') : Reachable W ⟨reg', [], root :: ret, []⟩ := by
  unfold ensure at h
  split at h
  · cases h
  · rename_i c hc
    split at h
    · cases h
    · rename_i r2 c2 h2
      split at h
      · rename_i hnil
        simp only [Except.ok.injEq] at h
        subst h
        have h1 : Reachable W ⟨reg, [c], ret, []⟩ := .next hr (.start hc)
        have h3 := runCall_reachable h1 h2
        have hroot : c2.root = root := (runCall_root h1 h2).trans (startCall_root hc).1
        have := Reachable.next h3 (.returns (before := []) (after := []) rfl hnil)
        rw [hroot] at this
        exact this
      · cases h

/-- The groups after a call on the tuple type: `[B, A]`, whose root is `B`, and `[T]`. -/
def exReg : Reg Nat Text := (ensure exWorld 20 (fun _ => none) 3).toOption.getD (fun _ => none)

theorem ex_ensure : ensure exWorld 20 (fun _ => none) 3 = .ok exReg := by
  unfold exReg
  cases h : ensure exWorld 20 (fun _ => none) 3 with
  | ok r => rfl
  | error e =>
    have : (ensure exWorld 20 (fun _ => none) 3).toOption.isSome = true := by decide +kernel
    rw [h] at this; cases this

theorem ex_reachable : Reachable exWorld ⟨exReg, [], [3], []⟩ := ensure_reachable .init ex_ensure

example : (exReg 1).map Grp.members = some [1, 2] ∧ exReg 1 = exReg 2 ∧
    (exReg 3).map Grp.members = some [3] ∧ exReg 0 = none := by decide +kernel

example : (exReg 1).map Grp.hash ≠ some poison ∧ shaHash exWorld exReg 1 ≠ shaHash exWorld exReg 2 ∧
    shaHash exWorld exReg 2 ≠ shaHash exWorld exReg 3 := by decide +kernel

end Verif.TypeGroup
