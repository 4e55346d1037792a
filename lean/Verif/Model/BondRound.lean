import Verif.Model.Bond
/-!
# bond.py: the parameter `ndigits` of `getLength`, `getDisplace` and `getAzimuth`

`np.around(x, n)` of a float multiplies with `10**n`, rounds to the nearest integer (ties to even) and divides by
`10**n`; for `n < 0` it divides by `10**-n`, rounds and multiplies.  The power of ten is the nearest double.
-/

namespace Verif

/-- `np.rint` on doubles.
Used at bond.py:155, 183, 240 (inside `np.around`). -/
def frint : F64 → F64
  | .fin q => .fin (roundHalfEven q)
  | x => x

/-- `x / y` on doubles; division by zero does not happen at these places and is `nan` here.
Used at bond.py:155, 183, 240 (inside `np.around`). -/
def fdiv : F64 → F64 → F64
  | .nan, _ => .nan
  | _, .nan => .nan
  | .inf _, .inf _ => .nan
  | .inf s, .fin q => if q = 0 then .nan else .inf (s != decide (q < 0))
  | .fin _, .inf _ => .fin 0
  | .fin a, .fin b => if b = 0 then .nan else fl (a / b)

/-- `np.around(x, n)` of a double.
Used at bond.py:155, 183, 240. -/
def around (n : ℤ) (x : F64) : F64 :=
  if 0 ≤ n then fdiv (frint (fmul x (fl (10 ^ n.toNat)))) (fl (10 ^ n.toNat))
  else fmul (frint (fdiv x (fl (10 ^ (-n).toNat)))) (fl (10 ^ (-n).toNat))

/-- `np.around(k, n)` of an int64 number: unchanged for `n >= 0`, otherwise rounded as a double and cast back (an
infinite or nan result, which needs `n < -308`, casts to an unspecified integer, here 0).
Used at bond.py:183. -/
def aroundInt (n : ℤ) (k : ℤ) : ℤ :=
  if 0 ≤ n then k
  else match around n (fl k) with
    | .fin q => wrap64 (truncRat q)
    | _ => 0

/-- `np.around(a, n)` of an array.
Used at bond.py:183. -/
def NpVec.around (n : ℤ) : NpVec → NpVec
  | .i64 l => .i64 (l.map (aroundInt n))
  | .f64 l => .f64 (l.map (Verif.around n))

namespace Bond

/-- `Bond.getLength(ndigits)` (bond.py:137-155). -/
def getLengthRound (sqrt : F64 → F64) (b : Bond) (ndigits : Option ℤ := none) : F64 :=
  let length := b.getLength sqrt
  match ndigits with
  | none => length
  | some n => around n length

/-- `Bond.getDisplace(ndigits)` (bond.py:157-187). -/
def getDisplaceRound (b : Bond) (ndigits : Option ℤ := none) : Py NpVec := do
  let dr ← b.getDisplace
  match ndigits with
  | none => return dr
  | some n => return dr.around n

end Bond

/-- `np.around` over the real numbers: the multiple of `10**-n` nearest to `x`, ties to even.
Used at bond.py:240. -/
noncomputable def aroundReal (n : ℤ) (x : ℝ) : ℝ :=
  let y := x * 10 ^ n
  (if y - ⌊y⌋ < 1 / 2 then (⌊y⌋ : ℝ)
   else if 1 / 2 < y - ⌊y⌋ then ⌊y⌋ + 1
   else if ⌊y⌋ % 2 = 0 then ⌊y⌋ else ⌊y⌋ + 1) / 10 ^ n

/-- `Bond.getAzimuth(radian, ndigits)` for a displacement with exact real components (bond.py:189-244). -/
noncomputable def exactAzimuthRound (directional : Bool) (dr : List ℝ) (radian : Bool := false)
    (ndigits : Option ℤ := none) : Py Azimuth := do
  let theta ← exactAzimuth directional radian dr
  match ndigits, theta with
  | none, theta => return theta
  | some n, .angle t => return .angle (aroundReal n t)
  | some n, .angles a b => return .angles (aroundReal n a) (aroundReal n b)

end Verif
