import Verif.Ptr.Model
/-
What is said about pointers: an array of elements in memory, as C has it.
-/
namespace Verif.Ptr

/-- `n` elements of `s` bytes each, from the address `a` on, lie in the lower half of the addresses (where programs have their memory). -/
def Array (s n : Nat) (a : Addr) : Prop := a.toNat + n * s < 2 ^ 63

/-- `p` points to element `i` of the array at `a`. -/
def At (s : Nat) (a : Addr) (i : Nat) (p : Addr) : Prop := p.toNat = a.toNat + i * s

/-- What an operator says about two positions. -/
def Cmp.holds (op : Cmp) (i j : Nat) : Prop := match op with
  | .lt => i < j
  | .le => i ≤ j
  | .eq => i = j
  | .ne => i ≠ j
  | .gt => i > j
  | .ge => i ≥ j

/-- The memory differs at most in the `len` bytes from `start` on. -/
def OnlyThere (m m' : Memory) (start len : Nat) : Prop := ∀ x : Addr, x.toNat < start ∨ start + len ≤ x.toNat → m' x = m x

end Verif.Ptr
