import Verif.Py
import Verif.Model.Float64
import Mathlib.Data.Nat.Factorial.Basic
/-!
# tools/PandC.py: `Permutation` and `Combination`
-/

namespace Verif

/-- An argument of `Permutation`/`Combination`: a Python `int` or something that is not one.
Used at tools/PandC.py:37-43, 68-74. -/
inductive CountArg
  | int (n : ℤ)
  | other

/-- `math.factorial` on a Python int: ValueError on negative arguments.
Used at tools/PandC.py:43, 72, 74. -/
def pyFactorial (n : ℤ) : Py ℤ :=
  if n < 0 then raise .valueError else .ok (Nat.factorial n.toNat)

/-- Python's `a / b` on two ints: the correctly rounded quotient, OverflowError when it does not
fit a double, ZeroDivisionError when `b = 0`.
Used at tools/PandC.py:43, 72, 74. -/
def intTrueDiv (a b : ℤ) : Py ℚ :=
  if b = 0 then raise .zeroDivisionError
  else match fl ((a : ℚ) / b) with
    | .fin q => .ok q
    | _ => raise .overflowError

/-- Python's `x / b` for a finite float `x` and an int `b`: `b` is converted to a double first
(OverflowError when it does not fit), then IEEE division.
Used at tools/PandC.py:72, 74. -/
def floatDivInt (x : ℚ) (b : ℤ) : Py F64 := do
  let y ← intToFloat b
  if y = 0 then raise .zeroDivisionError else return fl (x / y)

/-- The two assertions (PandC.py:36-37 and 67-68); short-circuit evaluation makes `n >= 0` run only
on ints. -/
def checkNK : CountArg → CountArg → Py (ℤ × ℤ)
  | .int n, .int k => do
    pyAssert (decide (0 ≤ n))
    pyAssert (decide (0 ≤ k) && decide (k ≤ n))
    return (n, k)
  | _, _ => raise .assertionError

/-- `Permutation(n, k, repeat)` (PandC.py:16-42). -/
def permutation (n k : CountArg) (repet : Bool) : Py ℤ := do
  let (n, k) ← checkNK n k
  if repet then return n ^ k.toNat
  else
    let a ← pyFactorial n
    let b ← pyFactorial (n - k)
    let x ← intTrueDiv a b
    floatToInt (.fin x)

/-- `Combination(n, k, repeat)` (PandC.py:45-74). -/
def combination (n k : CountArg) (repet : Bool) : Py ℤ := do
  let (n, k) ← checkNK n k
  if repet then
    let a ← pyFactorial (n + k - 1)
    let b ← pyFactorial k
    let x ← intTrueDiv a b
    let c ← pyFactorial (n - 1)
    let y ← floatDivInt x c
    floatToInt y
  else
    let a ← pyFactorial n
    let b ← pyFactorial k
    let x ← intTrueDiv a b
    let c ← pyFactorial (n - k)
    let y ← floatDivInt x c
    floatToInt y

end Verif
