import Verif.Model.DemoGreen
import Verif.Model.Spin
import Verif.Spec.Spin
/-!
# Model of `GreenFunction/demo/HeisenbergChain1.py` and `HeisenbergChain2.py`

As for the other scripts, arithmetic is exact, the diagonaliser is a parameter, and timing, logging and plotting are
dropped.  `near` answers the nearest-point queries of `cluster.getIndex`.
-/

namespace Verif.Demo

open Latt LDB GF Lanczos Matrix

section

variable {n m k : ℕ}

/-- The loop over the bonds (HeisenbergChain1.py:36-45), with the bonds still to come: the matrices added to `HM`. -/
noncomputable def exchangeLoop (near : (Fin n → Pt m) → Pt m → Option (Fin n)) (prec : ℕ) (L : Lat n m k)
    (siteNum : ℤ) (J : ℂ) : List (LBond m) → Option (Py (List SMat))
  | [] => some (.ok [])
  | bond :: rest =>
    andThen (getIndexFold near prec L bond.1) fun index0 =>
    andThen (getIndexFold near prec L bond.2) fun index1 =>
    andThen (some do
      let a ← SpinInteraction.matrixFunction [(((index0 : ℕ) : ℤ), .z), (((index1 : ℕ) : ℤ), .z)] siteNum (J / 2)
      let b ← SpinInteraction.matrixFunction [(((index0 : ℕ) : ℤ), .p), (((index1 : ℕ) : ℤ), .m)] siteNum (J / 2)
      return [a, b]) fun Ms =>
    andThen (exchangeLoop near prec L siteNum J rest) fun Ns => some (.ok (Ms ++ Ns))

/-- `HM = 0.0`, the sum of the matrices, `HM += HM.getH()` (HeisenbergChain1.py:34-46).  Without bonds `HM` is still a
`float`, which has no `getH`.  All the matrices have dimension `2 ** site_num`. -/
noncomputable def exchangeMatrix (siteNum : ℕ) (Ms : List SMat) :
    Py (Matrix (Fin (2 ^ siteNum)) (Fin (2 ^ siteNum)) ℂ) :=
  if Ms = [] then raise .attributeError
  else
    let HM := (Ms.map fun M => M.toMatrix (2 ^ siteNum)).sum
    .ok (HM + HM.conjTranspose)

/-- One pass of the loop over `cluster.points` (HeisenbergChain1.py:63-72): `Sp`, `Sm` and the excited state. -/
noncomputable def spinExcitation (near : (Fin n → Pt m) → Pt m → Option (Fin n)) (prec : ℕ) (zoom : ℤ)
    (coordOf : ℝ → Coord) (L : Lat n m k) (siteNum : ℕ) (GS : Vec (2 ^ siteNum)) (i : Fin n) :
    Py (SpinOperator × SpinOperator × Vec (2 ^ siteNum)) := do
  let index ← getIndex near prec L (L.points i)
  let Sp ← SpinOperator.init zoom "p" (siteOf coordOf (L.points i))
  let Sm ← SpinOperator.init zoom "m" (siteOf coordOf (L.points i))
  let M ← SpinOperator.matrixFunction (((index : ℕ) : ℤ), .m) siteNum
  return (Sp, Sm, M.toMatrix (2 ^ siteNum) *ᵥ GS)

end

/-- The dict of Green functions of spin operators: its keys in insertion order, and the values.
Used at GreenFunction/demo/HeisenbergChain1.py:59-71. -/
structure SpinDict (m : ℕ) where
  keys : List (SpinOperator × SpinOperator)
  get : SpinOperator × SpinOperator → Option (Fin m → ℂ)

/-- The dict returned by the solvers, with the order of its keys (_GFSolver.py:128-135); unpacking the elements of an
array into `A, B` would raise. -/
def SpinDict.of {m : ℕ} (As Bs : List SpinOperator) : GFs SpinOperator As.length Bs.length m → Py (SpinDict m)
  | .dict D => .ok ⟨firstOccurrences (As.flatMap fun A => Bs.map fun B => (A, B)), D⟩
  | .array _ => raise .valueError

/-- `np.exp(1j * np.dot(kpoints, site1 - site0))` for one k-point (HeisenbergChain1.py:92). -/
noncomputable def spinPhase (k : List ℝ) (A B : SpinOperator) : ℂ :=
  Complex.exp (Complex.I *
    ((List.zipWith (fun x y : ℝ => x * y) k
      (List.zipWith (fun x y : ℝ => x - y) (B.siteId.site.map coordVal) (A.siteId.site.map coordVal))).sum : ℝ))

/-- The loop over `cluster_gfs` and the division by `site_num` (HeisenbergChain1.py:87-94). -/
noncomputable def spinKspaceGfs {m : ℕ} (siteNum : ℕ) (kpts : List (List ℝ)) (D : SpinDict m) : Spectrum m :=
  ⟨kpts, fun w i =>
    (D.keys.map fun p => (D.get p).getD 0 w * spinPhase (kpts.get i) p.1 p.2).sum / (siteNum : ℂ)⟩

/-- `A.dagger()`; it cannot fail for the operators of the scripts, which were built with the same precision.
Used at GreenFunction/demo/HeisenbergChain1.py:59-71. -/
def spinDaggerOf (zoom : ℤ) (a : SpinOperator) : SpinOperator :=
  match a.dagger zoom with
  | .ok b => b
  | .error _ => a

/-- What the scripts know when the Hamiltonian is built (HeisenbergChain1.py:29-46): the cluster (`bonds` has filled
its caches) and `HM`. -/
structure SpinSetup (siteNum : ℕ) where
  cluster : Built
  HM : Matrix (Fin (2 ^ siteNum)) (Fin (2 ^ siteNum)) ℂ

section scripts

variable (near : ∀ n m : ℕ, (Fin n → Pt m) → Pt m → Option (Fin n))
  (order : ∀ k : ℕ, List (Fin k → ℤ) → List (Fin k → ℤ))
  (porder : ∀ N : ℕ, List (Fin N × Fin N) → List (Fin N × Fin N)) (zoom : ℤ) (coordOf : ℝ → Coord)
  (prec : ℕ) (eig : (N : ℕ) → Matrix (Fin N) (Fin N) ℂ → ℝ × Vec N)

/-- HeisenbergChain1.py:29-46 (HeisenbergChain2.py:30-47 alike). -/
noncomputable def heisenbergSetup (siteNum : ℕ) (J : ℂ) : Option (Py (SpinSetup siteNum)) :=
  match latticeGenerator prec "chain" siteNum 1 1 with
  | .error e => some (.error e)
  | .ok cluster =>
    match bonds (order cluster.k) porder prec cluster.lat 1 true false with
    | none => none
    | some (_, .error e) => some (.error e)
    | some (_, .ok (_, none)) => some (raise .typeError)
    | some (L', .ok (intra, some inter)) =>
      andThen (exchangeLoop (near _ _) prec L' siteNum J (intra ++ inter)) fun Ms => some do
        let HM ← exchangeMatrix siteNum Ms
        return ⟨⟨_, _, _, L'⟩, HM⟩

/-- The operators and excited states of all sites (HeisenbergChain1.py:59-72). -/
noncomputable def spinExcitations {siteNum : ℕ} (U : SpinSetup siteNum) (GS : Vec (2 ^ siteNum)) :
    Py (List (SpinOperator × SpinOperator × Vec (2 ^ siteNum))) :=
  (List.finRange _).mapM fun i => spinExcitation (near _ _) prec zoom coordOf U.cluster.lat siteNum GS i

/-- `excited_states`.
Used at GreenFunction/demo/HeisenbergChain1.py:59-71. -/
def excitedDict {N : ℕ} (ops : List (SpinOperator × SpinOperator × Vec N)) : SpinOperator → Option (Vec N) :=
  applyWrites (fun _ => none) (ops.map fun p => (p.2.1, some p.2.2))

/-- `GFSolverExactMultiple(omegas, As, Bs, GE, HM, excited_states, eta=eta, sign="-", structure="dict")`
(HeisenbergChain1.py:79-82). -/
noncomputable def spinGfsExact {N : ℕ} (HM : Matrix (Fin N) (Fin N) ℂ)
    (ops : List (SpinOperator × SpinOperator × Vec N)) (GE : ℝ) (omegas : List ℝ) (eta : ℝ)
    (g : Garbage omegas.length) : Py (SpinDict omegas.length) := do
  let r ← exactMultiple (spinDaggerOf zoom) omegas (ops.map fun p => p.1) (ops.map fun p => p.2.1) GE HM
    (excitedDict ops) eta "-" "dict" (g _ _)
  SpinDict.of _ _ r

/-- `MultiKrylov(HM, excited_states)` and `GFSolverLanczosMultiple` (HeisenbergChain2.py:79-88). -/
noncomputable def spinGfsLanczos (threshold : ℝ) (K : ℤ) {N : ℕ} (HM : Matrix (Fin N) (Fin N) ℂ)
    (ops : List (SpinOperator × SpinOperator × Vec N)) (GE : ℝ) (omegas : List ℝ) (eta : ℝ)
    (g : Garbage omegas.length) : Py (SpinDict omegas.length) := do
  let keys := ops.map fun p => p.2.1
  let reps ← multiKrylov threshold HM keys (fun key => (excitedDict ops key).getD 0) K
  let r ← lanczosMultiple (spinDaggerOf zoom) omegas (ops.map fun p => p.1) keys GE (toDict keys reps) eta "-" "dict"
    (g _ _)
  SpinDict.of _ _ r

/-- The end of the scripts, from `cell.bs` to `kspace_gfs` (HeisenbergChain1.py:30, 76, 87-94). -/
noncomputable def spinFinish {m : ℕ} (siteNum : ℕ) (D : SpinDict m) : Py (Spectrum m) := do
  let cell ← latticeGenerator prec "chain" 1 1 1
  let kpts ← kpoints siteNum cell
  return spinKspaceGfs siteNum kpts D

/-- HeisenbergChain1.py (`eta = 0.05`). -/
noncomputable def scriptHeisenberg1 (siteNum : ℕ) (J : ℂ) (omegas : List ℝ) (eta : ℝ) (g : Garbage omegas.length) :
    Option (Py (Spectrum omegas.length)) :=
  andThen (heisenbergSetup near order porder prec siteNum J) fun U => some do
    let (GE, GS) := eig _ U.HM
    let ops ← spinExcitations near zoom coordOf prec U GS
    let D ← spinGfsExact zoom U.HM ops GE omegas eta g
    spinFinish prec siteNum D

/-- HeisenbergChain2.py. -/
noncomputable def scriptHeisenberg2 (threshold : ℝ) (K : ℤ) (siteNum : ℕ) (J : ℂ) (omegas : List ℝ) (eta : ℝ)
    (g : Garbage omegas.length) : Option (Py (Spectrum omegas.length)) :=
  andThen (heisenbergSetup near order porder prec siteNum J) fun U => some do
    let (GE, GS) := eig _ U.HM
    let ops ← spinExcitations near zoom coordOf prec U GS
    let D ← spinGfsLanczos zoom threshold K U.HM ops GE omegas eta g
    spinFinish prec siteNum D

end scripts

end Verif.Demo
