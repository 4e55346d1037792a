import Verif.Py
import Mathlib.LinearAlgebra.Matrix.Hermitian
import Mathlib.Analysis.Real.Sqrt
import Mathlib.Analysis.Complex.Basic
/-!
# lanczos.py in exact arithmetic

Vectors are `Fin N → ℂ`, matrices `Matrix (Fin N) (Fin N) ℂ`.  Rounding is not modelled.  Dicts of
vectors are a list of keys (in insertion order, without repetitions) together with a function.
Timing and logging are dropped.
-/

namespace Verif.Lanczos

open Matrix

/-- Vectors.
Used at lanczos.py:97-140. -/
abbrev Vec (N : ℕ) := Fin N → ℂ

/-- `np.vdot(a, b)`: conjugates its first argument.
Used at lanczos.py:115-120. -/
def vdot {N : ℕ} (a b : Vec N) : ℂ := ∑ i, star (a i) * b i

/-- `np.linalg.norm(a)`.
Used at lanczos.py:97, 125. -/
noncomputable def norm2 {N : ℕ} (a : Vec N) : ℝ := Real.sqrt (∑ i, Complex.normSq (a i))

/-- A Python number given as a threshold: a float, or something else.
Used at lanczos.py:53. -/
inductive ThresholdArg
  | float (x : ℝ)
  | other

/-- `set_threshold` (lanczos.py:38-55): the new value of `_VIEW_AS_ZERO`. -/
noncomputable def setThreshold : ThresholdArg → Py ℝ
  | .float x => if 0 ≤ x then .ok x else raise .assertionError
  | .other => raise .assertionError

/-- The module-level threshold (lanczos.py:33) after a sequence of `set_threshold` calls, the
failing ones leaving it unchanged. -/
noncomputable def thresholdAfter (calls : List ThresholdArg) : ℝ :=
  calls.foldl (fun t a => match setThreshold a with | .ok x => x | .error _ => t) (1 / 10000)

/-- One iteration of the loop (lanczos.py:110-120): the ket and the two complex numbers `A`, `B`
computed from it. -/
structure Step (N : ℕ) where
  ket : Vec N
  A : ℂ
  B : ℂ

/-- `M_dot_ket` after lines 123-124.
Used at lanczos.py:123-124. -/
def residual {N : ℕ} (M : Matrix (Fin N) (Fin N) ℂ) (ket old : Vec N) : Vec N :=
  M.mulVec ket - vdot ket (M.mulVec ket) • ket - vdot old (M.mulVec ket) • old

/-- The loop `for ith in range(krylov_space_dim)` (lanczos.py:110-134), with `n` iterations left.
The lists `As`, `Bs` and `projected_vectors[key]` that the code appends to are read off the returned
list of iterations, see `krylov`. -/
noncomputable def krylovSteps {N : ℕ} (threshold : ℝ) (M : Matrix (Fin N) (Fin N) ℂ) :
    ℕ → Vec N → Vec N → List (Step N)
  | 0, _, _ => []
  | n + 1, ket, old =>
    let w := residual M ket old
    ⟨ket, vdot ket (M.mulVec ket), vdot old (M.mulVec ket)⟩ ::
      (if threshold < norm2 w then
        krylovSteps threshold M n (fun i => w i / (norm2 w : ℂ)) ket
      else [])

/-- What `KrylovRepresentation` returns: a square real matrix and, for every key, a vector, all of
dimension `dim`.
Used at lanczos.py:133-140. -/
structure Rep (κ : Type) where
  dim : ℕ
  mat : Matrix (Fin dim) (Fin dim) ℝ
  vec : κ → Fin dim → ℂ

/-- `np.diag(As, k=0) + np.diag(Bs, k=-1) + np.diag(Bs, k=1)` after `Bs = Bs[1:]`
(lanczos.py:136-137). -/
def tridiag {N : ℕ} (l : List (Step N)) : Matrix (Fin l.length) (Fin l.length) ℝ := fun i j =>
  (if i = j then (l.get i).A.re else 0) +
  (if (i : ℕ) = j + 1 then (l.get i).B.re else 0) +
  (if (j : ℕ) = i + 1 then (l.get j).B.re else 0)

/-- `KrylovRepresentation(M, vectors, v0, krylov_space_dim)` (lanczos.py:58-140);
`range` of a negative number is empty. -/
noncomputable def krylov {N : ℕ} {κ : Type} (threshold : ℝ) (M : Matrix (Fin N) (Fin N) ℂ)
    (vectors : κ → Vec N) (v0 : Vec N) (krylovSpaceDim : ℤ) : Py (Rep κ) :=
  if threshold < norm2 v0 then
    let steps := krylovSteps threshold M krylovSpaceDim.toNat (fun i => v0 i / (norm2 v0 : ℂ)) 0
    .ok ⟨steps.length, tridiag steps, fun key i => vdot (steps.get i).ket (vectors key)⟩
  else raise .valueError

/-- `MultiKrylov(M, vectors, krylov_space_dim)` (lanczos.py:143-185): one representation per key, in
the order of the dict; `projected_matrices[key]` and `projected_vectors[key]` are the two parts. -/
noncomputable def multiKrylov {N : ℕ} {κ : Type} (threshold : ℝ) (M : Matrix (Fin N) (Fin N) ℂ)
    (keys : List κ) (vectors : κ → Vec N) (krylovSpaceDim : ℤ) : Py (List (Rep κ)) :=
  keys.mapM fun key => krylov threshold M vectors (vectors key) krylovSpaceDim

end Verif.Lanczos
