import Verif.Py
import Mathlib.Analysis.SpecialFunctions.Trigonometric.Basic
import Mathlib.LinearAlgebra.Matrix.Notation
import Mathlib.Analysis.Real.Sqrt
/-!
# Model of `HamiltonianPy/rotation3d.py`

Angles and matrix elements are exact real numbers.
-/

namespace Verif

namespace Rot

open Classical Matrix

/-- 3x3 arrays.
Used at rotation3d.py:56-222. -/
abbrev Mat3 := Matrix (Fin 3) (Fin 3) ℝ

/-- Default value of the module global `_VIEW_AS_ZERO` (rotation3d.py:32). -/
noncomputable def viewAsZero : ℝ := 1 / 10 ^ 10

/-- `set_threshold` (rotation3d.py:36-52) for a float argument: the new value of `_VIEW_AS_ZERO`. -/
noncomputable def setThreshold (threshold : ℝ := viewAsZero) : Py ℝ := do
  pyAssert (decide (0 ≤ threshold))
  return threshold

/-- The value of `_VIEW_AS_ZERO` (rotation3d.py:32,51-52) after a history of `set_threshold` calls, failed ones
included. -/
noncomputable def thresholdAfter (calls : List ℝ) : ℝ :=
  calls.foldl (fun t x => match setThreshold x with | .ok y => y | .error _ => t) viewAsZero

/-- rotation3d.py:56-59 -/
noncomputable def E : Mat3 := !![1, 0, 0; 0, 1, 0; 0, 0, 1]
/-- rotation3d.py:60-63 -/
noncomputable def INVERSION : Mat3 := !![-1, 0, 0; 0, -1, 0; 0, 0, -1]

/-- rotation3d.py:65-71 -/
noncomputable def RX30 : Mat3 := !![1, 0, 0; 0, √3/2, -1/2; 0, 1/2, √3/2]
/-- rotation3d.py:72-78 -/
noncomputable def RX45 : Mat3 := !![1, 0, 0; 0, 1/√2, -1/√2; 0, 1/√2, 1/√2]
/-- rotation3d.py:79-85 -/
noncomputable def RX60 : Mat3 := !![1, 0, 0; 0, 1/2, -√3/2; 0, √3/2, 1/2]
/-- rotation3d.py:86-92 -/
noncomputable def RX90 : Mat3 := !![1, 0, 0; 0, 0, -1; 0, 1, 0]
/-- rotation3d.py:93-99 -/
noncomputable def RX180 : Mat3 := !![1, 0, 0; 0, -1, 0; 0, 0, -1]
/-- rotation3d.py:100-106 -/
noncomputable def RX270 : Mat3 := !![1, 0, 0; 0, 0, 1; 0, -1, 0]

/-- rotation3d.py:109-115 -/
noncomputable def RY30 : Mat3 := !![√3/2, 0, 1/2; 0, 1, 0; -1/2, 0, √3/2]
/-- rotation3d.py:116-122 -/
noncomputable def RY45 : Mat3 := !![1/√2, 0, 1/√2; 0, 1, 0; -1/√2, 0, 1/√2]
/-- rotation3d.py:123-129 -/
noncomputable def RY60 : Mat3 := !![1/2, 0, √3/2; 0, 1, 0; -√3/2, 0, 1/2]
/-- rotation3d.py:130-136 -/
noncomputable def RY90 : Mat3 := !![0, 0, 1; 0, 1, 0; -1, 0, 0]
/-- rotation3d.py:137-143 -/
noncomputable def RY180 : Mat3 := !![-1, 0, 0; 0, 1, 0; 0, 0, -1]
/-- rotation3d.py:144-150 -/
noncomputable def RY270 : Mat3 := !![0, 0, -1; 0, 1, 0; 1, 0, 0]

/-- rotation3d.py:153-159 -/
noncomputable def RZ30 : Mat3 := !![√3/2, -1/2, 0; 1/2, √3/2, 0; 0, 0, 1]
/-- rotation3d.py:160-166 -/
noncomputable def RZ45 : Mat3 := !![1/√2, -1/√2, 0; 1/√2, 1/√2, 0; 0, 0, 1]
/-- rotation3d.py:167-173 -/
noncomputable def RZ60 : Mat3 := !![1/2, -√3/2, 0; √3/2, 1/2, 0; 0, 0, 1]
/-- rotation3d.py:174-180 -/
noncomputable def RZ90 : Mat3 := !![0, -1, 0; 1, 0, 0; 0, 0, 1]
/-- rotation3d.py:181-187 -/
noncomputable def RZ180 : Mat3 := !![-1, 0, 0; 0, -1, 0; 0, 0, 1]
/-- rotation3d.py:188-194 -/
noncomputable def RZ270 : Mat3 := !![0, 1, 0; -1, 0, 0; 0, 0, 1]

/-- rotation3d.py:197-199 -/
noncomputable def R111_60 : Mat3 :=
  (1 / 3 : ℝ) • !![2, -1, 2; 2, 2, -1; -1, 2, 2]
/-- rotation3d.py:200-202 -/
noncomputable def R111_120 : Mat3 := !![0, 0, 1; 1, 0, 0; 0, 1, 0]
/-- rotation3d.py:203-205 -/
noncomputable def R111_180 : Mat3 :=
  (1 / 3 : ℝ) • !![-1, 2, 2; 2, -1, 2; 2, 2, -1]
/-- rotation3d.py:206-208 -/
noncomputable def R111_240 : Mat3 := !![0, 1, 0; 0, 0, 1; 1, 0, 0]
/-- rotation3d.py:209-211 -/
noncomputable def R111_300 : Mat3 :=
  (1 / 3 : ℝ) • !![2, 2, -1; -1, 2, 2; 2, -1, 2]

/-- rotation3d.py:214-216 -/
noncomputable def AP0 : Mat3 := !![1, 0, 0; 0, 0, 1; 0, 1, 0]
/-- rotation3d.py:217-219 -/
noncomputable def AP1 : Mat3 := !![0, 0, 1; 0, 1, 0; 1, 0, 0]
/-- rotation3d.py:220-222 -/
noncomputable def AP2 : Mat3 := !![0, 1, 0; 1, 0, 0; 0, 0, 1]

/-- `(theta * np.pi / 180) if deg else theta` (rotation3d.py:246, 281, 316, 365, 385, 438). -/
noncomputable def toRad (deg : Bool) (theta : ℝ) : ℝ := if deg then theta * Real.pi / 180 else theta

/-- `np.matmul(R, INVERSION) if inversion else R` (rotation3d.py:257, 292, 327, 413, 464). -/
noncomputable def withInversion (inversion : Bool) (R : Mat3) : Mat3 :=
  if inversion then R * INVERSION else R

/-- `RotationX` (rotation3d.py:225-257). -/
noncomputable def rotationX (theta : ℝ) (deg : Bool := false) (inversion : Bool := false) : Mat3 :=
  let t := toRad deg theta
  withInversion inversion
    !![1, 0, 0; 0, Real.cos t, -Real.sin t; 0, Real.sin t, Real.cos t]

/-- `RotationY` (rotation3d.py:260-292). -/
noncomputable def rotationY (theta : ℝ) (deg : Bool := false) (inversion : Bool := false) : Mat3 :=
  let t := toRad deg theta
  withInversion inversion
    !![Real.cos t, 0, Real.sin t; 0, 1, 0; -Real.sin t, 0, Real.cos t]

/-- `RotationZ` (rotation3d.py:295-327). -/
noncomputable def rotationZ (theta : ℝ) (deg : Bool := false) (inversion : Bool := false) : Mat3 :=
  let t := toRad deg theta
  withInversion inversion
    !![Real.cos t, -Real.sin t, 0; Real.sin t, Real.cos t, 0; 0, 0, 1]

/-- The matrices assembled at rotation3d.py:391-413 from the sines and cosines. -/
noncomputable def generalMatrix (sA cA sB cB sT cT : ℝ) : Mat3 :=
  let rzAlpha : Mat3 := !![cA, -sA, 0; sA, cA, 0; 0, 0, 1]
  let ryBeta : Mat3 := !![cB, 0, sB; 0, 1, 0; -sB, 0, cB]
  let rzTheta : Mat3 := !![cT, -sT, 0; sT, cT, 0; 0, 0, 1]
  rzAlpha * ryBeta * rzTheta * ryBetaᵀ * rzAlphaᵀ

/-- `RotationGeneral` (rotation3d.py:320-413).  The axis is a list/tuple/array of numbers, or an object
of another type (`none`), which fails the assertion at line 360.  `thr` is `_VIEW_AS_ZERO`.  A numpy
division by zero (lines 379-382) raises nothing but fills the matrix with `nan`; the model represents
this outcome, which is no matrix, by `zeroDivisionError`. -/
noncomputable def rotationGeneral (axis : Option (List ℝ)) (theta : ℝ) (deg : Bool := false)
    (inversion : Bool := false) (thr : ℝ := viewAsZero) : Py Mat3 :=
  match axis with
  | none => raise .assertionError
  | some [alpha, beta] =>
    let a := toRad deg alpha
    let b := toRad deg beta
    let t := toRad deg theta
    .ok (withInversion inversion (generalMatrix (Real.sin a) (Real.cos a) (Real.sin b) (Real.cos b)
      (Real.sin t) (Real.cos t)))
  | some [x, y, z] =>
    let dxy := √(x ^ 2 + y ^ 2)
    let dr := √(x ^ 2 + y ^ 2 + z ^ 2)
    if dr < thr then raise .valueError
    else if (¬ dxy < thr ∧ dxy = 0) ∨ dr = 0 then raise .zeroDivisionError
    else
      let sA := if dxy < thr then 0 else y / dxy
      let cA := if dxy < thr then 1 else x / dxy
      let t := toRad deg theta
      .ok (withInversion inversion (generalMatrix sA cA (dxy / dr) (z / dr) (Real.sin t) (Real.cos t)))
  | some _ => raise .valueError

/-- `RotationEuler` (rotation3d.py:416-464). -/
noncomputable def rotationEuler (alpha beta gamma : ℝ) (deg : Bool := false)
    (inversion : Bool := false) : Mat3 :=
  let a := toRad deg alpha
  let b := toRad deg beta
  let c := toRad deg gamma
  let rzAlpha : Mat3 := !![Real.cos a, -Real.sin a, 0; Real.sin a, Real.cos a, 0; 0, 0, 1]
  let ryBeta : Mat3 := !![Real.cos b, 0, Real.sin b; 0, 1, 0; -Real.sin b, 0, Real.cos b]
  let rzGamma : Mat3 := !![Real.cos c, -Real.sin c, 0; Real.sin c, Real.cos c, 0; 0, 0, 1]
  withInversion inversion (rzAlpha * ryBeta * rzGamma)

end Rot

end Verif
