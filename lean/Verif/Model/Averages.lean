import Verif.Model.Spin
import Mathlib.Analysis.Complex.Basic
import Mathlib.Analysis.Real.Sqrt
/-!
# Model of `HamiltonianPy/averages.py` and `HamiltonianPy/tools/TotalSpin.py`

State vectors (numpy arrays of shape `(d,)` or `(d, 1)`) are modelled by their length and entries;
entries are exact complex numbers.
-/

namespace Verif

/-- A state vector.
Used at averages.py:30-48. -/
structure Ket where
  dim : ℕ
  get : ℕ → ℂ

/-- `operator.dot(ket)`; scipy raises ValueError when the dimensions differ.
Used at averages.py:48, 134-136. -/
def SMat.dotKet (A : SMat) (v : Ket) : Py Ket :=
  if A.dim = v.dim then .ok ⟨A.dim, fun r => ∑ k ∈ Finset.range A.dim, A.get r k * v.get k⟩
  else raise .valueError

/-- `np.vdot(a, b)`: the first argument is conjugated; ValueError when the sizes differ.
Used at averages.py:48, 138-147. -/
def vdot (a b : Ket) : Py ℂ :=
  if a.dim = b.dim then .ok (∑ k ∈ Finset.range a.dim, (starRingEnd ℂ) (a.get k) * b.get k)
  else raise .valueError

/-- `A + B` of two csr matrices; scipy raises ValueError when the shapes differ.
Used at averages.py:77-83. -/
def SMat.add (A B : SMat) : Py SMat :=
  if A.dim = B.dim then .ok ⟨A.dim, fun r c => A.get r c + B.get r c⟩ else raise .valueError

/-- `SX_MATRIX` (averages.py:20; TotalSpin.py:16). -/
noncomputable def sxMatrix : SMat := ⟨2, fun r c => match r, c with
  | 0, 1 => 1 / 2
  | 1, 0 => 1 / 2
  | _, _ => 0⟩

/-- `SY_MATRIX_IMAG` (averages.py:23; TotalSpin.py:19). -/
noncomputable def syMatrixImag : SMat := ⟨2, fun r c => match r, c with
  | 0, 1 => -(1 / 2)
  | 1, 0 => 1 / 2
  | _, _ => 0⟩

/-- `SZ_MATRIX` (averages.py:24; TotalSpin.py:20). -/
noncomputable def szMatrix : SMat := ⟨2, fun r c => match r, c with
  | 0, 0 => 1 / 2
  | 1, 1 => -(1 / 2)
  | _, _ => 0⟩

/-- `kron(I1, kron(S, I0))` of one loop pass (averages.py:79-83; TotalSpin.py:47-51). -/
noncomputable def spinPass (S : SMat) (spinNum index : ℤ) : Py SMat := do
  let d0 ← shl1 index
  let d1 ← shl1 (spinNum - index - 1)
  return SMat.kron (SMat.identity d1) (SMat.kron S (SMat.identity d0))

/-- `total += ...`; `none` is the initial value `0.0`, and `0.0 + csr` is the csr matrix.
Used at averages.py:77-83. -/
def accumulate (total : Option SMat) (M : SMat) : Py (Option SMat) :=
  match total with
  | none => .ok (some M)
  | some T => do
    let R ← T.add M
    return some R

/-- The loop over `index` (averages.py:78-84; TotalSpin.py:46-52) for the remaining indices. -/
noncomputable def totalSpinLoop (spinNum : ℤ) :
    List ℤ → Option SMat × Option SMat × Option SMat → Py (Option SMat × Option SMat × Option SMat)
  | [], acc => .ok acc
  | index :: rest, (sx, sy, sz) => do
    let mx ← spinPass sxMatrix spinNum index
    let sx ← accumulate sx mx
    let mz ← spinPass szMatrix spinNum index
    let sz ← accumulate sz mz
    let my ← spinPass syMatrixImag spinNum index
    let sy ← accumulate sy my
    totalSpinLoop spinNum rest (sx, sy, sz)

/-- `TotalSpinMatrices` (averages.py:51-89) and `TotalSpin` (TotalSpin.py:23-53), which have the same
body.  `spinNum` is an int by typing. -/
noncomputable def totalSpinMatrices (spinNum : ℤ) : Py (SMat × SMat × SMat) := do
  pyAssert (decide (spinNum > 0))
  let acc ← totalSpinLoop spinNum ((List.range spinNum.toNat).map (fun i : ℕ => (i : ℤ)))
    (none, none, none)
  match acc with
  | (some sx, some sy, some sz) => return (sx, sy, sz)
  | _ => raise .typeError   -- not reached: the loop runs at least once

/-- `np.linalg.norm(ket)` (averages.py:133). -/
noncomputable def Ket.norm (v : Ket) : ℝ := Real.sqrt (∑ k ∈ Finset.range v.dim, ‖v.get k‖ ^ 2)

/-- `ket / norm` (averages.py:133).  For the zero vector numpy returns `nan`; that case is outside the
model (the theorems assume a nonzero vector). -/
noncomputable def Ket.normalized (v : Ket) : Ket := ⟨v.dim, fun k => v.get k / (v.norm : ℂ)⟩

/-- The function returned by `TotalSpinAverages` (averages.py:92-153), applied to `ket`. -/
noncomputable def totalSpinAverages (spinNum : ℤ) (ket : Ket) : Py (ℂ × ℂ × ℂ × ℂ) := do
  let (sx, sy, sz) ← totalSpinMatrices spinNum
  let ket := ket.normalized
  let sxKet ← sx.dotKet ket
  let syKet ← sy.dotKet ket
  let szKet ← sz.dotKet ket
  let sxAvg ← vdot ket sxKet
  let szAvg ← vdot ket szKet
  let syIm ← vdot ket syKet
  let syAvg := Complex.I * syIm
  let s2y ← vdot syKet syKet
  let s2x ← vdot sxKet sxKet
  let s2z ← vdot szKet szKet
  return (s2y + s2x + s2z, sxAvg, syAvg, szAvg)

/-- `QuantumAverages` (averages.py:30-48); division by zero (numpy `nan`) is outside the model. -/
noncomputable def quantumAverages (ket : Ket) (operator : SMat) : Py ℂ := do
  let v ← operator.dotKet ket
  let a ← vdot ket v
  let b ← vdot ket ket
  return a / b

end Verif
