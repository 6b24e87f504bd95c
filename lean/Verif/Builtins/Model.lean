import Verif.Builtins.Spec
/-
`any`, `all`, `min` and `max` as compiled: typed_python/compiler/type_wrappers/all_any_wrapper.py and min_max_wrapper.py.
Simplification: what is iterated over is a list of values; conversions of arguments to a common type do nothing.
-/
namespace Verif.Builtins
variable {σ ε α κ : Type}

/-- all_any_wrapper.py:19-24 `all`. -/
def allLoop (truth : α → Run σ ε Bool) : List α → Run σ ε Bool
  | [] => pure true
  | a :: rest => do
      if !(← truth a) then pure false else allLoop truth rest

/-- all_any_wrapper.py:27-32 `any`. -/
def anyLoop (truth : α → Run σ ε Bool) : List α → Run σ ε Bool
  | [] => pure false
  | a :: rest => do
      if ← truth a then pure true else anyLoop truth rest

/-- all_any_wrapper.py:46-47 `AllWrapper.convert_call`. -/
def compiledAll (truth : α → Run σ ε Bool) (xs : List α) : Run σ ε Bool := allLoop truth xs

/-- all_any_wrapper.py:61-62 `AnyWrapper.convert_call`: it calls `all`. -/
def compiledAny (truth : α → Run σ ε Bool) (xs : List α) : Run σ ε Bool := allLoop truth xs

/-- min_max_wrapper.py:54-59 and 67-72 (for `max` 102-107 and 115-120): the loop of `i_min_key`; `first` and the variables of the
result are one optional pair. Without a key (lines 30-49, 78-97) the key is the element. -/
def iLoop (key : α → Run σ ε κ) (better : κ → κ → Run σ ε Bool) : Option (α × κ) → List α → Run σ ε (Option (α × κ))
  | s, [] => pure s
  | none, e :: v => do
      let k ← key e
      iLoop key better (some (e, k)) v
  | some (ret, retKey), e :: v => do
      let k ← key e
      if ← better k retKey then iLoop key better (some (e, k)) v
      else iLoop key better (some (ret, retKey)) v

/-- min_max_wrapper.py:30-123: `i_min` to `i_max_key_default`. -/
def iMin (key : α → Run σ ε κ) (better : κ → κ → Run σ ε Bool) (default : Option α) (v : List α) : Run σ ε α := do
  match ← iLoop key better none v with
  | some (ret, _) => pure ret
  | none => match default with
    | some d => pure d
    | none => throw .empty

/-- min_max_wrapper.py:219-244: several arguments, no key: `worse selected arg` is `selected > arg` for `min`. -/
def several (worse : α → α → Run σ ε Bool) : α → List α → Run σ ε α
  | selected, [] => pure selected
  | selected, a :: rest => do
      if ← worse selected a then several worse a rest else several worse selected rest

/-- min_max_wrapper.py:205-217: several arguments with their keys. `lost` counts the values that are in `selected` or
`selected_key` and are overwritten by `convert_copy_initialize` (lines 214-215) without being destroyed. -/
def keyedLoop (worse : κ → κ → Run σ ε Bool) : α → κ → Nat → List (α × κ) → Run σ ε (α × Nat)
  | selected, _, lost, [] => pure (selected, lost)
  | selected, selectedKey, lost, (a, k) :: rest => do
      if ← worse selectedKey k then keyedLoop worse a k (lost + 2) rest
      else keyedLoop worse selected selectedKey lost rest

/-- The keys of all of them, in order. -/
def keysOf (key : α → Run σ ε κ) : List α → Run σ ε (List κ)
  | [] => pure []
  | a :: rest => do
      let k ← key a
      let ks ← keysOf key rest
      pure (k :: ks)

/-- min_max_wrapper.py:173-217: several arguments and a key: the key is called for each to learn its type (lines 186-193) and
again for its value (lines 197-200). The result, and how many values leaked. -/
def keyed (key : α → Run σ ε κ) (worse : κ → κ → Run σ ε Bool) (a : α) (rest : List α) : Run σ ε (α × Nat) := do
  let _ ← keysOf key (a :: rest)
  let k ← key a
  let ks ← keysOf key rest
  keyedLoop worse a k 0 (rest.zip ks)

end Verif.Builtins
