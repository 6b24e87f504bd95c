import Verif.Common

/-!
# Fixed-width integer arithmetic

Models the integer operators of typed_python twice: the functions the interpreter
dispatches to (`PyRegisterTypeInstance.hpp`) and the code the compiler emits
(`arithmetic_wrapper.py` calling `_runtime.cpp`).  Values are Lean `Int`s; every C++
operation is followed by the wrap-around of its type (the build uses `-fwrapv`,
`Makefile:35`).  Undefined C++ behaviour that `-fwrapv` does not define (shifting by 64 or
more) is the distinguished result `Err.ub`.
-/

namespace Verif.Arith

/-- Ways an operator can fail to return a value. -/
inductive Err
  | zeroDivision
  | valueError
  | overflowError
  /-- undefined behaviour in the C++ source -/
  | ub
  /-- the hardware division trap (`INT64_MIN / -1`) -/
  | trap
  deriving DecidableEq, Repr

/-- The integer register types: `PyRegisterTypeInstance.hpp:134-139`,
`type_promotion.py:25-34`.  `bits` is one of 8, 16, 32, 64. -/
structure ITy where
  signed : Bool
  bits : Nat
  deriving DecidableEq, Repr

/-- Conversion of an arbitrary integer to a C++ integer type of this signedness and width
(two's complement truncation).  Simplification: C++ casts, `T(...)` in
`PyRegisterTypeInstance.hpp:356-418` and native casts in `arithmetic_wrapper.py:229-241`
are all this one function. -/
def wrap (t : ITy) (x : Int) : Int :=
  if t.signed then Int.bmod x (2 ^ t.bits) else x % (2 ^ t.bits : Nat)

/-- `int64_t` wrap-around after `+ - *` and unary minus (`Makefile:35`, `-fwrapv`). -/
def w64 (x : Int) : Int := Int.bmod x (2 ^ 64)

/-- `uint64_t` wrap-around. -/
def u64 (x : Int) : Int := x % (2 ^ 64 : Nat)

/-- The smallest `int64_t`. -/
def int64Min : Int := -(2 ^ 63)

/-- C++ `l % r` on `int64_t` (truncating remainder); callers guarantee `r ≠ 0`.
`INT64_MIN % -1` traps on x86 but no caller can reach it: every caller has excluded `r = -1`. -/
def crem (l r : Int) : Int := Int.tmod l r

/-- C++ `l / r` on `int64_t` (truncating), `_runtime.cpp:1713`. -/
def cdiv (l r : Int) : Except Err Int :=
  if l = int64Min ∧ r = -1 then .error .trap else .ok (Int.tdiv l r)

/-- `nativepython_runtime_mod_int64_int64`, `_runtime.cpp:1544-1561`. -/
def rtModI (l r : Int) : Int :=
  if r = 1 ∨ r = -1 ∨ r = 0 ∨ l = 0 then 0
  else if r < 0 then
    if l < 0 then w64 (-(crem (w64 (-l)) (w64 (-r))))
    else w64 (-(w64 (w64 (-r) - w64 (crem (w64 (l - 1)) (w64 (-r)) + 1))))
  else if l < 0 then w64 (r - w64 (crem (w64 (w64 (-l) - 1)) r + 1))
  else crem l r

/-- `nativepython_runtime_mod_uint64_uint64`, `_runtime.cpp:1563-1569`. -/
def rtModU (l r : Int) : Int :=
  if r = 1 ∨ r = 0 ∨ l = 0 then 0 else crem l r

/-- `pyMod(int64_t, int64_t)`, `PyRegisterTypeInstance.hpp:87-109`. -/
def pyModI (l r : Int) : Except Err Int :=
  if r = 1 ∨ r = -1 ∨ l = 0 then .ok 0
  else if r = 0 then .error .zeroDivision
  else if r < 0 then
    if l < 0 then .ok (w64 (-(crem (w64 (-l)) (w64 (-r)))))
    else .ok (w64 (-(crem (w64 (w64 (-r) + crem (w64 (-l)) (w64 (-r)))) (w64 (-r)))))
  else if l < 0 then .ok (crem (w64 (r + crem l r)) r)
  else .ok (crem l r)

/-- `pyMod(uint64_t, uint64_t)`, `PyRegisterTypeInstance.hpp:77-84`. -/
def pyModU (l r : Int) : Except Err Int :=
  if r = 0 then .error .zeroDivision else .ok (crem l r)

/-- `nativepython_runtime_floordiv_int64_int64`, `_runtime.cpp:1701-1717`. -/
def rtFloorDivI (l r : Int) : Except Err Int :=
  if r = 0 then .error .zeroDivision
  else if l < 0 ∧ l = w64 (-l) ∧ r = -1 then .ok 1
  else if (l > 0 ∧ r > 0) ∨ (l < 0 ∧ r < 0) then cdiv l r
  else do
    let q ← cdiv l r
    if crem l r ≠ 0 then .ok (w64 (q - 1)) else .ok q

/-- `pyFloorDiv(int64_t, int64_t)`, `PyRegisterTypeInstance.hpp:286-301`. -/
def pyFloorDivI (l r : Int) : Except Err Int :=
  if r = 0 then .error .zeroDivision
  else if l < 0 ∧ l = w64 (-l) ∧ r = -1 then .ok l
  else if (l > 0 ∧ r > 0) ∨ (l < 0 ∧ r < 0) then cdiv l r
  else do
    let q ← cdiv l r
    if crem l r ≠ 0 then .ok (w64 (q - 1)) else .ok q

/-- C++ `l << r` on `int64_t`/`uint64_t`, undefined for a count of 64 or more. -/
def cshl (w : Int → Int) (l r : Int) : Except Err Int :=
  if r ≥ 64 then .error .ub else .ok (w (l * 2 ^ r.toNat))

/-- C++ `l >> r` (arithmetic shift), undefined for a count of 64 or more. -/
def cshr (l r : Int) : Except Err Int :=
  if r ≥ 64 then .error .ub else .ok (l / 2 ^ r.toNat)

/-- `SSIZE_MAX` on a 64-bit build. -/
def ssizeMax : Int := 2 ^ 63 - 1

/-- `nativepython_runtime_lshift_int64_int64`, `_runtime.cpp:1632-1650`, on a Python with
minor version above 6. -/
def rtLshiftI (l r : Int) : Except Err Int :=
  if r < 0 then .error .valueError
  else if l = 0 then .ok 0
  else if (l = 0 ∧ r > ssizeMax) ∨ (l ≠ 0 ∧ r ≥ 1024) then .error .overflowError
  else if l ≥ 0 then cshl w64 l r
  else do
    let s ← cshl w64 (w64 (-l)) r
    .ok (w64 (-s))

/-- `pyLshift(int64_t, int64_t)`, `PyRegisterTypeInstance.hpp:195-205`. -/
def pyLshiftI (l r : Int) : Except Err Int :=
  if r < 0 then .error .valueError
  else if (l = 0 ∧ r > ssizeMax) ∨ (l ≠ 0 ∧ r ≥ 1024) then .error .valueError
  else if l ≥ 0 then cshl w64 l r
  else do
    let s ← cshl w64 (w64 (-l)) r
    .ok (w64 (-s))

/-- `nativepython_runtime_lshift_uint64_uint64`, `_runtime.cpp:1653-1660`. -/
def rtLshiftU (l r : Int) : Except Err Int :=
  if (l = 0 ∧ r > ssizeMax) ∨ (l ≠ 0 ∧ r ≥ 1024) then .error .overflowError
  else cshl u64 l r

/-- `pyLshift(uint64_t, uint64_t)`, `PyRegisterTypeInstance.hpp:206-212`. -/
def pyLshiftU (l r : Int) : Except Err Int :=
  if (l = 0 ∧ r > ssizeMax) ∨ (l ≠ 0 ∧ r ≥ 1024) then .error .valueError
  else cshl u64 l r

/-- `nativepython_runtime_rshift_int64_int64`, `_runtime.cpp:1677-1698`. -/
def rtRshiftI (l r : Int) : Except Err Int :=
  if r < 0 then .error .valueError
  else if r > ssizeMax then .error .overflowError
  else if r = 0 then .ok l
  else if l ≥ 0 then cshr l r
  else do
    let ret ← cshr (w64 (-l)) r
    if ret = 0 then .ok (-1)
    else if l = w64 (-l) then .ok ret
    else .ok (w64 (-ret))

/-- `pyRshift(int64_t, int64_t)`, `PyRegisterTypeInstance.hpp:239-258`. -/
def pyRshiftI (l r : Int) : Except Err Int :=
  if r < 0 then .error .valueError
  else if r > ssizeMax then .error .valueError
  else if r = 0 then .ok l
  else if l ≥ 0 then cshr l r
  else do
    let ret ← cshr (w64 (-l)) r
    if ret = 0 then .ok (-1)
    else if l = w64 (-l) then .ok ret
    else .ok (w64 (-ret))

/-- `nativepython_runtime_rshift_uint64_uint64`, `_runtime.cpp:1663-1674`. -/
def rtRshiftU (l r : Int) : Except Err Int :=
  if r > ssizeMax then .error .overflowError
  else if r = 0 then .ok l
  else if r ≥ 64 then .ok 0
  else cshr l r

/-- `pyRshift(uint64_t, uint64_t)`, `PyRegisterTypeInstance.hpp:228-238`. -/
def pyRshiftU (l r : Int) : Except Err Int :=
  if r > ssizeMax then .error .valueError
  else if r = 0 then .ok l
  else if r ≥ 64 then .ok 0
  else cshr l r

/-- The binary integer operators modelled. -/
inductive Op
  | add | sub | mul | floordiv | mod | lshift | rshift
  deriving DecidableEq, Repr

/-- The interpreter's operator on two operands of one register type:
`pyOperatorConcreteForRegisterPromoted`, `PyRegisterTypeInstance.hpp:354-421`.  The narrow
signed overloads widen to `int64_t` and the narrow unsigned ones to `uint64_t`
(lines 134-139, 213-218, 259-264, 302-308); the result is cast to `T`. -/
def interp (t : ITy) (op : Op) (a b : Int) : Except Err Int :=
  match op with
  | .add => .ok (wrap t (a + b))
  | .sub => .ok (wrap t (a - b))
  | .mul => .ok (wrap t (a * b))
  | .floordiv =>
    if b = 0 then .error .zeroDivision
    else if t.signed then (pyFloorDivI a b).map (wrap t)
    else .ok (wrap t (Int.tdiv a b))
  | .mod =>
    if b = 0 then .error .zeroDivision
    else if t.signed then (pyModI a b).map (wrap t)
    else (pyModU a b).map (wrap t)
  | .lshift => if t.signed then (pyLshiftI a b).map (wrap t) else (pyLshiftU a b).map (wrap t)
  | .rshift => if t.signed then (pyRshiftI a b).map (wrap t) else (pyRshiftU a b).map (wrap t)

/-- The compiled operator on two operands of one register type: `IntWrapper.convert_bin_op`,
`compiler/type_wrappers/arithmetic_wrapper.py:411-493`.  `toInt64`/`toUInt64` are identities
on in-range operands, and the `int` that `pushPod(int, ...)` labels an unsigned result with is
re-read at the operand type by `convert_to_type`, so both steps are one `wrap`.  Native
`Add/Sub/Mul` are LLVM's wrapping operations and native `Div` on an unsigned type is `udiv`.
Simplification: constant operands folded at compile time (lines 351-362) are not modelled. -/
def compiled (t : ITy) (op : Op) (a b : Int) : Except Err Int :=
  match op with
  | .add => .ok (wrap t (a + b))
  | .sub => .ok (wrap t (a - b))
  | .mul => .ok (wrap t (a * b))
  | .floordiv =>
    if t.signed then (rtFloorDivI a b).map (wrap t)
    else if b = 0 then .error .zeroDivision
    else .ok (wrap t (Int.tdiv a b))
  | .mod =>
    if b = 0 then .error .zeroDivision
    else if t.signed then .ok (wrap t (rtModI a b))
    else .ok (wrap t (rtModU a b))
  | .lshift => if t.signed then (rtLshiftI a b).map (wrap t) else (rtLshiftU a b).map (wrap t)
  | .rshift => if t.signed then (rtRshiftI a b).map (wrap t) else (rtRshiftU a b).map (wrap t)

/-- `IntWrapper.convert_abs`, `arithmetic_wrapper.py:286-297`. -/
def compiledAbs (t : ITy) (a : Int) : Int :=
  if t.signed then if a > 0 then a else wrap t (-a) else a

/-! ### Promotion -/

/-- The arithmetic types of `type_promotion.py:20-23` (also the C++ register types). -/
inductive NTy
  | bool | int8 | int16 | int32 | int64 | uint8 | uint16 | uint32 | uint64 | float32 | float64
  deriving DecidableEq, Repr

/-- `floatness`, `type_promotion.py:37-40`. -/
def floatness : NTy → Bool
  | .float32 => true
  | .float64 => true
  | _ => false

/-- `bitness`, `type_promotion.py:43-48`; `T.Bits` of the sized types. -/
def bitness : NTy → Nat
  | .bool => 1
  | .int8 => 8 | .uint8 => 8
  | .int16 => 16 | .uint16 => 16
  | .int32 => 32 | .uint32 => 32 | .float32 => 32
  | .int64 => 64 | .uint64 => 64 | .float64 => 64

/-- `signedness`, `type_promotion.py:51-56`; `none` is the `assert False`. -/
def signedness : NTy → Option Bool
  | .int64 => some true | .int8 => some true | .int16 => some true | .int32 => some true
  | .bool => some false | .uint8 => some false | .uint16 => some false
  | .uint32 => some false | .uint64 => some false
  | .float32 => none | .float64 => none

/-- `_intsBySignednessAndBitness`, `type_promotion.py:25-34`; `none` is a `KeyError`. -/
def intsBySignednessAndBitness : Bool × Nat → Option NTy
  | (true, 8) => some .int8
  | (true, 16) => some .int16
  | (true, 32) => some .int32
  | (true, 64) => some .int64
  | (false, 8) => some .uint8
  | (false, 16) => some .uint16
  | (false, 32) => some .uint32
  | (false, 64) => some .uint64
  | _ => none

/-- `computeArithmeticBinaryResultType`, `type_promotion.py:71-109`; `none` is any exception. -/
def promote (a b : NTy) : Option NTy :=
  if a = .bool ∧ b = .bool then some .bool
  else
    let outFloat := floatness a || floatness b
    let outBits := max (bitness a) (bitness b)
    if outFloat then some (if outBits = 32 then .float32 else .float64)
    else do
      let sa ← signedness a
      -- `signedness(T1) or signedness(T2)` short-circuits
      let s ← if sa then some true else signedness b
      intsBySignednessAndBitness (s, outBits)

/-- The template table `PromotesTo<T1, T2>`, `PromotesTo.hpp:30-150`, one line per
specialisation group. -/
def promotesTo : NTy → NTy → NTy
  -- lines 30-46
  | .bool, .bool => .bool
  | .int8, .bool => .int8 | .int16, .bool => .int16 | .int32, .bool => .int32
  | .int64, .bool => .int64 | .uint8, .bool => .uint8 | .uint16, .bool => .uint16
  | .uint32, .bool => .uint32 | .uint64, .bool => .uint64
  | .bool, .int8 => .int8 | .bool, .int16 => .int16 | .bool, .int32 => .int32
  | .bool, .int64 => .int64 | .bool, .uint8 => .uint8 | .bool, .uint16 => .uint16
  | .bool, .uint32 => .uint32 | .bool, .uint64 => .uint64
  -- lines 47-64
  | .float32, .bool => .float32 | .float32, .int8 => .float32 | .float32, .int16 => .float32
  | .float32, .int32 => .float32 | .float32, .int64 => .float64 | .float32, .uint8 => .float32
  | .float32, .uint16 => .float32 | .float32, .uint32 => .float32 | .float32, .uint64 => .float64
  | .float64, .bool => .float64 | .float64, .int8 => .float64 | .float64, .int16 => .float64
  | .float64, .int32 => .float64 | .float64, .int64 => .float64 | .float64, .uint8 => .float64
  | .float64, .uint16 => .float64 | .float64, .uint32 => .float64 | .float64, .uint64 => .float64
  -- lines 65-82
  | .bool, .float32 => .float32 | .int8, .float32 => .float32 | .int16, .float32 => .float32
  | .int32, .float32 => .float32 | .int64, .float32 => .float64 | .uint8, .float32 => .float32
  | .uint16, .float32 => .float32 | .uint32, .float32 => .float32 | .uint64, .float32 => .float64
  | .bool, .float64 => .float64 | .int8, .float64 => .float64 | .int16, .float64 => .float64
  | .int32, .float64 => .float64 | .int64, .float64 => .float64 | .uint8, .float64 => .float64
  | .uint16, .float64 => .float64 | .uint32, .float64 => .float64 | .uint64, .float64 => .float64
  -- lines 83-98
  | .int8, .int8 => .int8 | .int16, .int8 => .int16 | .int8, .int16 => .int16
  | .int16, .int16 => .int16 | .int32, .int8 => .int32 | .int8, .int32 => .int32
  | .int32, .int16 => .int32 | .int16, .int32 => .int32 | .int32, .int32 => .int32
  | .int64, .int8 => .int64 | .int8, .int64 => .int64 | .int64, .int16 => .int64
  | .int64, .int32 => .int64 | .int16, .int64 => .int64 | .int32, .int64 => .int64
  | .int64, .int64 => .int64
  -- lines 99-114
  | .uint8, .int8 => .int8 | .uint16, .int8 => .int16 | .uint8, .int16 => .int16
  | .uint16, .int16 => .int16 | .uint32, .int8 => .int32 | .uint8, .int32 => .int32
  | .uint32, .int16 => .int32 | .uint16, .int32 => .int32 | .uint32, .int32 => .int32
  | .uint64, .int8 => .int64 | .uint8, .int64 => .int64 | .uint64, .int16 => .int64
  | .uint64, .int32 => .int64 | .uint16, .int64 => .int64 | .uint32, .int64 => .int64
  | .uint64, .int64 => .int64
  -- lines 115-130
  | .int8, .uint8 => .int8 | .int16, .uint8 => .int16 | .int8, .uint16 => .int16
  | .int16, .uint16 => .int16 | .int32, .uint8 => .int32 | .int8, .uint32 => .int32
  | .int32, .uint16 => .int32 | .int16, .uint32 => .int32 | .int32, .uint32 => .int32
  | .int64, .uint8 => .int64 | .int8, .uint64 => .int64 | .int64, .uint16 => .int64
  | .int64, .uint32 => .int64 | .int16, .uint64 => .int64 | .int32, .uint64 => .int64
  | .int64, .uint64 => .int64
  -- lines 131-146
  | .uint8, .uint8 => .uint8 | .uint16, .uint8 => .uint16 | .uint8, .uint16 => .uint16
  | .uint16, .uint16 => .uint16 | .uint32, .uint8 => .uint32 | .uint8, .uint32 => .uint32
  | .uint32, .uint16 => .uint32 | .uint16, .uint32 => .uint32 | .uint32, .uint32 => .uint32
  | .uint64, .uint8 => .uint64 | .uint8, .uint64 => .uint64 | .uint64, .uint16 => .uint64
  | .uint64, .uint32 => .uint64 | .uint16, .uint64 => .uint64 | .uint32, .uint64 => .uint64
  | .uint64, .uint64 => .uint64
  -- lines 147-150
  | .float32, .float64 => .float64 | .float64, .float32 => .float64
  | .float32, .float32 => .float32 | .float64, .float64 => .float64

/-- `pyOperatorConcreteForRegister` for every operator but `/` and `**`,
`PyRegisterTypeInstance.hpp:423-436`: both operands are cast to the promoted type first.
Integer types only; `ity` gives the width and signedness of an integer type. -/
def ity : NTy → Option ITy
  | .int8 => some ⟨true, 8⟩ | .int16 => some ⟨true, 16⟩
  | .int32 => some ⟨true, 32⟩ | .int64 => some ⟨true, 64⟩
  | .uint8 => some ⟨false, 8⟩ | .uint16 => some ⟨false, 16⟩
  | .uint32 => some ⟨false, 32⟩ | .uint64 => some ⟨false, 64⟩
  | _ => none

/-- Interpreter, mixed operand types (`PyRegisterTypeInstance.hpp:423-436`). -/
def interpMixed (ta tb : NTy) (op : Op) (a b : Int) : Option (Except Err Int) := do
  let t ← ity (promotesTo ta tb)
  some (interp t op (wrap t a) (wrap t b))

/-- Compiled, mixed operand types (`arithmetic_wrapper.py:382-407`). -/
def compiledMixed (ta tb : NTy) (op : Op) (a b : Int) : Option (Except Err Int) := do
  let p ← promote ta tb
  let t ← ity p
  some (compiled t op (wrap t a) (wrap t b))

end Verif.Arith
