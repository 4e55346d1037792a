import Verif.Model.Lanczos
import Mathlib.LinearAlgebra.Matrix.NonsingularInverse
/-!
# GreenFunction/_GFSolver.py in exact arithmetic

Operators are the elements of a type `κ` with a function `dagger`; dicts are functions into
`Option`.  All arrays are assumed to have the shapes the documentation asks for (the dimension `N`
of the Hamiltonian, or the dimension of the Krylov space); `GE`, `omega` and `eta` are real.
Rounding is not modelled.  The content of `np.empty` arrays is an extra argument (`g…`).
-/

namespace Verif.GF

open Matrix Verif.Lanczos

/-- `d[key]`.
Used at GreenFunction/_GFSolver.py:66-71, 122-125, 175-180. -/
def getItem {κ α : Type} (d : κ → Option α) (key : κ) : Py α :=
  match d key with
  | some v => .ok v
  | none => raise .keyError

/-- `np.linalg.solve(M, b)`: the solution of `M x = b`, LinAlgError for a singular matrix.
Used at GreenFunction/_GFSolver.py:71, 122, 182, 235. -/
noncomputable def solve {N : ℕ} (M : Matrix (Fin N) (Fin N) ℂ) (b : Vec N) : Py (Vec N) :=
  open Classical in
  if IsUnit M.det then .ok (M⁻¹ *ᵥ b) else raise .linAlgError

/-- `z = omega + 1j * eta`.
Used at GreenFunction/_GFSolver.py:65, 116, 174, 225, 285. -/
def zOf (omega eta : ℝ) : ℂ := omega + Complex.I * eta

/-- `(z - GE) * I + HM if sign == "+" else (z + GE) * I - HM` (_GFSolver.py:67, 121, 181, 234). -/
def shifted {N : ℕ} (z : ℂ) (GE : ℝ) (HM : Matrix (Fin N) (Fin N) ℂ) (sign : String) :
    Matrix (Fin N) (Fin N) ℂ :=
  if sign = "+" then (z - GE) • (1 : Matrix (Fin N) (Fin N) ℂ) + HM
  else (z + GE) • (1 : Matrix (Fin N) (Fin N) ℂ) - HM

/-- A sequence of assignments `array[index] = value`, applied to the previous content.
Used at GreenFunction/_GFSolver.py:118-126, 226-239. -/
def applyWrites {ι α : Type} [DecidableEq ι] (init : ι → α) (ws : List (ι × α)) : ι → α :=
  ws.foldl (fun arr w => Function.update arr w.1 w.2) init

/-- What the `*Multiple` solvers return: a 3D array, or a dict of 1D arrays.
Used at GreenFunction/_GFSolver.py:127-135, 240-248. -/
inductive GFs (κ : Type) (a b m : ℕ)
  | array (G : Fin a × Fin b × Fin m → ℂ)
  | dict (D : κ × κ → Option (Fin m → ℂ))

section exact

variable {N : ℕ} {κ : Type} [DecidableEq κ] (dagger : κ → κ)

/-- `GFSolverExactSingle` (_GFSolver.py:65-71). -/
noncomputable def exactSingle (omega : ℝ) (A B : κ) (GE : ℝ) (HM : Matrix (Fin N) (Fin N) ℂ)
    (excited : κ → Option (Vec N)) (eta : ℝ) (sign : String) : Py ℂ := do
  let M := shifted (zOf omega eta) GE HM sign
  let bGS ← getItem excited B
  let aGS ← getItem excited (dagger A)
  let x ← solve M bGS
  pure (vdot aGS x)

/-- The triple loop of `GFSolverExactMultiple` (_GFSolver.py:116-126), filling an array whose
previous content is `g`. -/
noncomputable def exactArray (omegas : List ℝ) (As Bs : List κ) (GE : ℝ)
    (HM : Matrix (Fin N) (Fin N) ℂ) (excited : κ → Option (Vec N)) (eta : ℝ) (sign : String)
    (g : Fin As.length × Fin Bs.length × Fin omegas.length → ℂ) :
    Py (Fin As.length × Fin Bs.length × Fin omegas.length → ℂ) := do
  let ws ← (List.finRange omegas.length).mapM fun k => do
    let M := shifted (zOf (omegas.get k) eta) GE HM sign
    (List.finRange Bs.length).mapM fun j => do
      let bGS ← getItem excited (Bs.get j)
      let ket ← solve M bGS
      (List.finRange As.length).mapM fun i => do
        let aGS ← getItem excited (dagger (As.get i))
        pure ((i, j, k), vdot aGS ket)
  pure (applyWrites g ws.flatten.flatten)

/-- The final part of `GFSolverExactMultiple` and `GFSolverLanczosMultiple`
(_GFSolver.py:128-135, 241-248): the array itself, or a dict of its rows. -/
def structured {m : ℕ} (As Bs : List κ) (G : Fin As.length × Fin Bs.length × Fin m → ℂ)
    (struct : String) : GFs κ As.length Bs.length m :=
  if struct = "dict" then
    .dict (applyWrites (fun _ => none)
      ((List.finRange As.length).flatMap fun i => (List.finRange Bs.length).map fun j =>
        ((As.get i, Bs.get j), some fun k => G (i, j, k))))
  else .array G

/-- `GFSolverExactMultiple` (_GFSolver.py:74-135). -/
noncomputable def exactMultiple (omegas : List ℝ) (As Bs : List κ) (GE : ℝ)
    (HM : Matrix (Fin N) (Fin N) ℂ) (excited : κ → Option (Vec N)) (eta : ℝ)
    (sign struct : String) (g : Fin As.length × Fin Bs.length × Fin omegas.length → ℂ) :
    Py (GFs κ As.length Bs.length omegas.length) := do
  let G ← exactArray dagger omegas As Bs GE HM excited eta sign g
  pure (structured As Bs G struct)

/-- `RGFSolverExactSingle` (_GFSolver.py:285-296). -/
noncomputable def rgfExactSingle (omega : ℝ) (A B : κ) (GE : ℝ) (HM : Matrix (Fin N) (Fin N) ℂ)
    (excited : κ → Option (Vec N)) (eta : ℝ) (sign : String) : Py ℂ := do
  let z := zOf omega eta
  let M1 := (z + GE) • (1 : Matrix (Fin N) (Fin N) ℂ) - HM
  let M2 := (z - GE) • (1 : Matrix (Fin N) (Fin N) ℂ) + HM
  let aGS ← getItem excited A
  let bGS ← getItem excited B
  let adGS ← getItem excited (dagger A)
  let bdGS ← getItem excited (dagger B)
  let x1 ← solve M1 bGS
  let x2 ← solve M2 aGS
  pure (if sign = "+" then vdot adGS x1 + vdot bdGS x2 else vdot adGS x1 - vdot bdGS x2)

/-- The final part of the `RGFSolver*Multiple` functions (_GFSolver.py:354-370, 470-486): the two
arrays are combined row by row, `GFs_AB[i, j] ± GFs_BA[j, i]`; `g` is the content of
`np.empty_like`. -/
def combined {m : ℕ} (As Bs : List κ) (AB : Fin As.length × Fin Bs.length × Fin m → ℂ)
    (BA : Fin Bs.length × Fin As.length × Fin m → ℂ) (sign struct : String)
    (g : Fin As.length × Fin Bs.length → Fin m → ℂ) : GFs κ As.length Bs.length m :=
  let row (i : Fin As.length) (j : Fin Bs.length) : Fin m → ℂ := fun k =>
    if sign = "+" then AB (i, j, k) + BA (j, i, k) else AB (i, j, k) - BA (j, i, k)
  if struct = "dict" then
    .dict (applyWrites (fun _ => none)
      ((List.finRange As.length).flatMap fun i => (List.finRange Bs.length).map fun j =>
        ((As.get i, Bs.get j), some (row i j))))
  else
    let R := applyWrites g
      ((List.finRange As.length).flatMap fun i => (List.finRange Bs.length).map fun j =>
        ((i, j), row i j))
    .array fun p => R (p.1, p.2.1) p.2.2

/-- `RGFSolverExactMultiple` (_GFSolver.py:345-370). -/
noncomputable def rgfExactMultiple (omegas : List ℝ) (As Bs : List κ) (GE : ℝ)
    (HM : Matrix (Fin N) (Fin N) ℂ) (excited : κ → Option (Vec N)) (eta : ℝ)
    (sign struct : String) (g1 : Fin As.length × Fin Bs.length × Fin omegas.length → ℂ)
    (g2 : Fin Bs.length × Fin As.length × Fin omegas.length → ℂ)
    (g3 : Fin As.length × Fin Bs.length → Fin omegas.length → ℂ) :
    Py (GFs κ As.length Bs.length omegas.length) := do
  let AB ← exactArray dagger omegas As Bs GE HM excited eta "-" g1
  let BA ← exactArray dagger omegas Bs As GE HM excited eta "+" g2
  pure (combined As Bs AB BA sign struct g3)

end exact

section lanczos

variable {κ : Type} [DecidableEq κ] (dagger : κ → κ)

/-- `projected_matrices[key]` and `projected_vectors[key]`; simplification: the two dicts have the
same keys and the shapes fit, as in the output of `MultiKrylov`.
Used at GreenFunction/_GFSolver.py:175-180, 228-238. -/
structure PRep (κ : Type) where
  dim : ℕ
  mat : Matrix (Fin dim) (Fin dim) ℝ
  vec : κ → Option (Fin dim → ℂ)

/-- The two dicts returned by `MultiKrylov` (lanczos.py:170-185): one assignment per key; the
inner dicts have the keys of `vectors`. -/
def toDict (keys : List κ) (reps : List (Rep κ)) : κ → Option (PRep κ) :=
  applyWrites (fun _ => none) ((keys.zip reps).map fun p =>
    (p.1, some ⟨p.2.dim, p.2.mat, fun key => if key ∈ keys then some (p.2.vec key) else none⟩))

/-- `B_dot_GS = np.zeros_like(temp); B_dot_GS[0] = temp[0]` (_GFSolver.py:178-179, 231-232):
IndexError if the Krylov space has dimension 0. -/
def firstOnly {d : ℕ} (temp : Fin d → ℂ) : Py (Fin d → ℂ) :=
  if h : 0 < d then .ok (Function.update 0 ⟨0, h⟩ (temp ⟨0, h⟩)) else raise .indexError

/-- The projected matrix as a complex matrix (NumPy's type promotion).
Used at GreenFunction/_GFSolver.py:175-182, 228-235. -/
def PRep.cmat (r : PRep κ) : Matrix (Fin r.dim) (Fin r.dim) ℂ := r.mat.map fun x => (x : ℂ)

/-- `GFSolverLanczosSingle` (_GFSolver.py:174-182). -/
noncomputable def lanczosSingle (omega : ℝ) (A B : κ) (GE : ℝ) (proj : κ → Option (PRep κ))
    (eta : ℝ) (sign : String) : Py ℂ := do
  let r ← getItem proj B
  let temp ← getItem r.vec B
  let bGS ← firstOnly temp
  let aGS ← getItem r.vec (dagger A)
  let x ← solve (shifted (zOf omega eta) GE r.cmat sign) bGS
  pure (vdot aGS x)

/-- The triple loop of `GFSolverLanczosMultiple` (_GFSolver.py:225-239). -/
noncomputable def lanczosArray (omegas : List ℝ) (As Bs : List κ) (GE : ℝ)
    (proj : κ → Option (PRep κ)) (eta : ℝ) (sign : String)
    (g : Fin As.length × Fin Bs.length × Fin omegas.length → ℂ) :
    Py (Fin As.length × Fin Bs.length × Fin omegas.length → ℂ) := do
  let ws ← (List.finRange Bs.length).mapM fun j => do
    let r ← getItem proj (Bs.get j)
    let temp ← getItem r.vec (Bs.get j)
    let bGS ← firstOnly temp
    (List.finRange omegas.length).mapM fun k => do
      let ket ← solve (shifted (zOf (omegas.get k) eta) GE r.cmat sign) bGS
      (List.finRange As.length).mapM fun i => do
        let aGS ← getItem r.vec (dagger (As.get i))
        pure ((i, j, k), vdot aGS ket)
  pure (applyWrites g ws.flatten.flatten)

/-- `GFSolverLanczosMultiple` (_GFSolver.py:185-248). -/
noncomputable def lanczosMultiple (omegas : List ℝ) (As Bs : List κ) (GE : ℝ)
    (proj : κ → Option (PRep κ)) (eta : ℝ) (sign struct : String)
    (g : Fin As.length × Fin Bs.length × Fin omegas.length → ℂ) :
    Py (GFs κ As.length Bs.length omegas.length) := do
  let G ← lanczosArray dagger omegas As Bs GE proj eta sign g
  pure (structured As Bs G struct)

/-- `RGFSolverLanczosSingle` (_GFSolver.py:406-414). -/
noncomputable def rgfLanczosSingle (omega : ℝ) (A B : κ) (GE : ℝ) (proj : κ → Option (PRep κ))
    (eta : ℝ) (sign : String) : Py ℂ := do
  let ab ← lanczosSingle dagger omega A B GE proj eta "-"
  let ba ← lanczosSingle dagger omega B A GE proj eta "+"
  pure (if sign = "+" then ab + ba else ab - ba)

/-- `RGFSolverLanczosMultiple` (_GFSolver.py:461-486). -/
noncomputable def rgfLanczosMultiple (omegas : List ℝ) (As Bs : List κ) (GE : ℝ)
    (proj : κ → Option (PRep κ)) (eta : ℝ) (sign struct : String)
    (g1 : Fin As.length × Fin Bs.length × Fin omegas.length → ℂ)
    (g2 : Fin Bs.length × Fin As.length × Fin omegas.length → ℂ)
    (g3 : Fin As.length × Fin Bs.length → Fin omegas.length → ℂ) :
    Py (GFs κ As.length Bs.length omegas.length) := do
  let AB ← lanczosArray dagger omegas As Bs GE proj eta "-" g1
  let BA ← lanczosArray dagger omegas Bs As GE proj eta "+" g2
  pure (combined As Bs AB BA sign struct g3)

end lanczos

end Verif.GF
