import Verif.Model.Demo
import Verif.Model.GreenFunction
import Mathlib.Analysis.SpecialFunctions.Trigonometric.Basic
/-!
# Model of the scripts in `GreenFunction/demo`: the momentum-resolved Green function

The part of NNTBChain1.py to NNTBChain4.py after the Hamiltonian.  Arithmetic is exact.  The diagonalisation
(`np.linalg.eigh`, `scipy.sparse.linalg.eigsh`) is a parameter `eig`.  `del`, timing, logging, printing and
plotting are dropped.
-/

namespace Verif.Demo

open Latt LDB GF Lanczos Matrix

/-- The numerical value of a coordinate (`inf` and `nan` cannot occur, `StateID.__init__` raises).
Used at GreenFunction/demo/NNTBChain1.py:78-84. -/
noncomputable def coordVal : Coord → ℝ
  | .int n => n
  | .flt (.fin q) => (q : ℝ)
  | .flt _ => 0

/-- `A.site`, an array of numbers (NNTBChain1.py:80-81). -/
noncomputable def siteVal (a : AoC) : List ℝ := a.state.site.map coordVal

/-- `np.exp(1j * np.dot(kpoints, site1 - site0))` for one k-point (NNTBChain1.py:82). -/
noncomputable def phaseFactor (k : List ℝ) (A B : AoC) : ℂ :=
  Complex.exp (Complex.I *
    ((List.zipWith (fun x y : ℝ => x * y) k
      (List.zipWith (fun x y : ℝ => x - y) (siteVal B) (siteVal A))).sum : ℝ))

/-- `np.dot([[i / site_num] for i in range(site_num + 1)], cell.bs)` (NNTBChain1.py:69): ValueError unless
`cell.bs` has one row. -/
noncomputable def kpoints (siteNum : ℕ) (cell : Built) : Py (List (List ℝ)) :=
  if h : cell.k = 1 then
    .ok ((List.range (siteNum + 1)).map fun i : ℕ => (List.finRange cell.m).map fun a =>
      ((i : ℝ) / (siteNum : ℝ)) * cell.lat.bs ⟨0, h ▸ Nat.one_pos⟩ a)
  else raise .valueError

/-- The dict `cluster_gfs`: its keys in insertion order, and the values.
Used at GreenFunction/demo/NNTBChain1.py:66-69. -/
structure GfDict (m : ℕ) where
  keys : List (AoC × AoC)
  get : AoC × AoC → Option (Fin m → ℂ)

/-- The distinct elements of a list, in the order of their first occurrence.
Used at GreenFunction/demo/NNTBChain1.py:57-69. -/
def firstOccurrences {α : Type} [DecidableEq α] (l : List α) : List α := l.reverse.dedup.reverse

/-- The dict returned by the solvers, with the order of its keys (_GFSolver.py:354-361); unpacking the
elements of an array into `A, B` would raise. -/
def GfDict.of {m : ℕ} (As Bs : List AoC) : GFs AoC As.length Bs.length m → Py (GfDict m)
  | .dict D => .ok ⟨firstOccurrences (As.flatMap fun A => Bs.map fun B => (A, B)), D⟩
  | .array _ => raise .valueError

/-- `cluster_gfs.update(other)` (NNTBChain4.py:149). -/
def GfDict.update {m : ℕ} (D E : GfDict m) : GfDict m :=
  ⟨firstOccurrences (D.keys ++ E.keys), fun key => (E.get key).orElse fun _ => D.get key⟩

/-- What the scripts plot: the k-points, and `kspace_gfs` at every frequency and k-point.
Used at GreenFunction/demo/NNTBChain1.py:71-100. -/
structure Spectrum (m : ℕ) where
  kpts : List (List ℝ)
  gfs : Fin m → Fin kpts.length → ℂ

/-- `spectrum = -kspace_gfs.imag / np.pi` (NNTBChain1.py:85). -/
noncomputable def Spectrum.spectrum {m : ℕ} (R : Spectrum m) (w : Fin m) (i : Fin R.kpts.length) : ℝ :=
  -(R.gfs w i).im / Real.pi

/-- The loop over `cluster_gfs` and the division by `site_num` (NNTBChain1.py:78-84). -/
noncomputable def kspaceGfs {m : ℕ} (siteNum : ℕ) (kpts : List (List ℝ)) (D : GfDict m) : Spectrum m :=
  ⟨kpts, fun w i =>
    (D.keys.map fun p => (D.get p).getD 0 w * phaseFactor (kpts.get i) p.1 p.2).sum / (siteNum : ℂ)⟩

/-- The operators `A`, `C` of every spin and site (NNTBChain1.py:59-64, NNTBChain2.py:65-71); NNTBChain1.py
passes no spin, which is `spins = [0]`. -/
noncomputable def operators {n m k : ℕ} (zoom : ℤ) (coordOf : ℝ → Coord) (L : Lat n m k) (spins : List ℤ) :
    Py (List (AoC × AoC)) :=
  (spins.flatMap fun s => (List.finRange n).map fun i => (s, i)).mapM fun p => do
    let C ← AoC.init zoom 1 (siteOf coordOf (L.points p.2)) p.1
    let A ← AoC.init zoom 0 (siteOf coordOf (L.points p.2)) p.1
    return (A, C)

/-- `excited_states[X] = X.matrix_repr(table, basis, left_bases=left).dot(GS)` for all given operators
(NNTBChain1.py:65-66, NNTBChain3.py:82-87).  Simplification: keys of the dict are compared field by field;
operators built from the same site, spin and orbit are equal in this sense, too. -/
noncomputable def excitedStates (table : IndexTable StateID) (basis : List ℕ) (left : Option (List ℕ))
    (GS : Vec basis.length) (ops : List AoC) : Py (AoC → Option (Vec (left.getD basis).length)) := do
  let ws ← ops.mapM fun a => do
    let M ← a.matrixRepr table basis left
    return (a, some ((Matrix.of fun (r : Fin (left.getD basis).length) (c : Fin basis.length) => M.get r c) *ᵥ GS))
  return applyWrites (fun _ => none) ws

/-- `A.dagger()`; it cannot fail for the operators of the scripts, which were built with the same
precision.
Used at GreenFunction/demo/NNTBChain1.py:57-67. -/
def daggerOf (zoom : ℤ) (a : AoC) : AoC :=
  match a.dagger zoom with
  | .ok b => b
  | .error _ => a

/-- Memory content of the arrays allocated by the solvers.
Used at GreenFunction/_GFSolver.py:118, 226. -/
abbrev Garbage (m : ℕ) := (a b : ℕ) → Fin a × Fin b × Fin m → ℂ

/-- NNTBChain1.py:56-76: excited states and `RGFSolverExactMultiple(..., structure="dict")` (whose default
sign is "+"). -/
noncomputable def gfsExact (zoom : ℤ) (U : Setup) (ops : List (AoC × AoC)) (GE : ℝ) (GS : Vec U.basis.length)
    (omegas : List ℝ) (eta : ℝ) (g : Garbage omegas.length) : Py (GfDict omegas.length) := do
  let excited ← excitedStates U.table U.basis none GS (ops.flatMap fun p => [p.1, p.2])
  let r ← rgfExactMultiple (daggerOf zoom) omegas (ops.map Prod.fst) (ops.map Prod.snd) GE U.HM excited eta "+"
    "dict" (g _ _) (g _ _) (fun p k => g _ _ (p.1, p.2, k))
  GfDict.of _ _ r

/-- The dicts of `MultiKrylov(HM, excited_states)`; `threshold` is the module-level threshold of lanczos.py. -/
noncomputable def project {N : ℕ} (threshold : ℝ) (K : ℤ) (HM : Matrix (Fin N) (Fin N) ℂ) (keys : List AoC)
    (excited : AoC → Option (Vec N)) : Py (AoC → Option (PRep AoC)) := do
  let reps ← multiKrylov threshold HM keys (fun key => (excited key).getD 0) K
  return toDict keys reps

/-- NNTBChain2.py:62-93: one Hilbert space, `MultiKrylov`, `RGFSolverLanczosMultiple`. -/
noncomputable def gfsLanczos (zoom : ℤ) (threshold : ℝ) (K : ℤ) (U : Setup) (ops : List (AoC × AoC)) (GE : ℝ)
    (GS : Vec U.basis.length) (omegas : List ℝ) (eta : ℝ) (g : Garbage omegas.length) :
    Py (GfDict omegas.length) := do
  let keys := ops.flatMap fun p => [p.2, p.1]
  let excited ← excitedStates U.table U.basis none GS keys
  let proj ← project threshold K U.HM keys excited
  let r ← rgfLanczosMultiple (daggerOf zoom) omegas (ops.map Prod.fst) (ops.map Prod.snd) GE proj eta "+"
    "dict" (g _ _) (g _ _) (fun p k => g _ _ (p.1, p.2, k))
  GfDict.of _ _ r

/-- NNTBChain3.py:70-113 and one pass of the loop of NNTBChain4.py:104-149: `Uh`, `Up` are the Hilbert spaces
with one particle less and more (`basis_h`, `HM_H`, `basis_p`, `HM_P`); the projections of the two are merged
with `update`. -/
noncomputable def gfsSectors (zoom : ℤ) (threshold : ℝ) (K : ℤ) (U Uh Up : Setup) (ops : List (AoC × AoC))
    (GE : ℝ) (GS : Vec U.basis.length) (omegas : List ℝ) (eta : ℝ) (g : Garbage omegas.length) :
    Py (GfDict omegas.length) := do
  let excitedH ← excitedStates U.table U.basis (some Uh.basis) GS (ops.map Prod.fst)
  let excitedP ← excitedStates U.table U.basis (some Up.basis) GS (ops.map Prod.snd)
  let projP ← project threshold K Up.HM (ops.map Prod.snd) excitedP
  let projH ← project threshold K Uh.HM (ops.map Prod.fst) excitedH
  let proj : AoC → Option (PRep AoC) := fun key => (projH key).orElse fun _ => projP key
  let r ← rgfLanczosMultiple (daggerOf zoom) omegas (ops.map Prod.fst) (ops.map Prod.snd) GE proj eta "+"
    "dict" (g _ _) (g _ _) (fun p k => g _ _ (p.1, p.2, k))
  GfDict.of _ _ r

/-- Sequencing of a computation that may run forever (the lattice code) with further code.
Used at GreenFunction/demo/NNTBChain1.py:17-100. -/
def andThen {α β : Type} (x : Option (Py α)) (f : α → Option (Py β)) : Option (Py β) :=
  match x with
  | none => none
  | some (.error e) => some (.error e)
  | some (.ok a) => f a

section scripts

variable (order : ∀ k : ℕ, List (Fin k → ℤ) → List (Fin k → ℤ))
  (porder : ∀ N : ℕ, List (Fin N × Fin N) → List (Fin N × Fin N)) (zoom : ℤ) (coordOf : ℝ → Coord)
  (prec : ℕ) (eig : (N : ℕ) → Matrix (Fin N) (Fin N) ℂ → ℝ × Vec N)

/-- The last part of the scripts, from `cell.bs` to `kspace_gfs`.
Used at GreenFunction/demo/NNTBChain1.py:71-88. -/
noncomputable def finish {m : ℕ} (prec : ℕ) (siteNum : ℕ) (D : GfDict m) : Py (Spectrum m) := do
  let cell ← latticeGenerator prec "chain" 1 1 1
  let kpts ← kpoints siteNum cell
  return kspaceGfs siteNum kpts D

/-- The cluster and its operators.
Used at GreenFunction/demo/NNTBChain3.py:71-87. -/
noncomputable def clusterOperators (siteNum : ℕ) (spins : List ℤ) : Py (List (AoC × AoC)) := do
  let cluster ← latticeGenerator prec "chain" siteNum 1 1
  operators zoom coordOf cluster.lat spins

/-- NNTBChain1.py (`spins = [0]`, `specs = [site_num]`). -/
noncomputable def scriptExact (siteNum : ℕ) (spins : List ℤ) (t : ℂ) (specs : List HVal) (omegas : List ℝ)
    (eta : ℝ) (g : Garbage omegas.length) : Option (Py (Spectrum omegas.length)) :=
  andThen (chainSetup order porder zoom coordOf prec siteNum spins t specs) fun U => some do
    let (GE, GS) := eig U.basis.length U.HM
    let ops ← clusterOperators zoom coordOf prec siteNum spins
    let D ← gfsExact zoom U ops GE GS omegas eta g
    finish prec siteNum D

/-- NNTBChain2.py (`spins = [0, 1]`, `specs = [2 * site_num]`). -/
noncomputable def scriptLanczos (threshold : ℝ) (K : ℤ) (siteNum : ℕ) (spins : List ℤ) (t : ℂ)
    (specs : List HVal) (omegas : List ℝ) (eta : ℝ) (g : Garbage omegas.length) :
    Option (Py (Spectrum omegas.length)) :=
  andThen (chainSetup order porder zoom coordOf prec siteNum spins t specs) fun U => some do
    let (GE, GS) := eig U.basis.length U.HM
    let ops ← clusterOperators zoom coordOf prec siteNum spins
    let D ← gfsLanczos zoom threshold K U ops GE GS omegas eta g
    finish prec siteNum D

/-- NNTBChain3.py (`spins = [0, 1]`); the terms and the table, computed once in the script, are the same for
the three Hilbert spaces. -/
noncomputable def scriptSectors (threshold : ℝ) (K : ℤ) (siteNum : ℕ) (spins : List ℤ) (t : ℂ)
    (specs specsH specsP : List HVal) (omegas : List ℝ) (eta : ℝ) (g : Garbage omegas.length) :
    Option (Py (Spectrum omegas.length)) :=
  andThen (chainSetup order porder zoom coordOf prec siteNum spins t specs) fun U =>
  andThen (chainSetup order porder zoom coordOf prec siteNum spins t specsH) fun Uh =>
  andThen (chainSetup order porder zoom coordOf prec siteNum spins t specsP) fun Up => some do
    let (GE, GS) := eig U.basis.length U.HM
    let ops ← clusterOperators zoom coordOf prec siteNum spins
    let D ← gfsSectors zoom threshold K U Uh Up ops GE GS omegas eta g
    finish prec siteNum D

/-- The loop `for spin in SPINS` of NNTBChain4.py:82-149, with the spins still to come; `specsH`, `specsP` are
the arguments of `base_vectors` depending on the spin. -/
noncomputable def spinLoop (threshold : ℝ) (K : ℤ) (siteNum : ℕ) (spins : List ℤ) (t : ℂ)
    (specsH specsP : ℤ → List HVal) (U : Setup) (GE : ℝ) (GS : Vec U.basis.length) (omegas : List ℝ) (eta : ℝ)
    (g : Garbage omegas.length) : List ℤ → GfDict omegas.length → Option (Py (GfDict omegas.length))
  | [], D => some (.ok D)
  | s :: rest, D =>
    andThen (chainSetup order porder zoom coordOf prec siteNum spins t (specsH s)) fun Uh =>
    andThen (chainSetup order porder zoom coordOf prec siteNum spins t (specsP s)) fun Up =>
    andThen (some do
      let ops ← clusterOperators zoom coordOf prec siteNum [s]
      gfsSectors zoom threshold K U Uh Up ops GE GS omegas eta g) fun E =>
    spinLoop threshold K siteNum spins t specsH specsP U GE GS omegas eta g rest (D.update E)

/-- The two arguments of `base_vectors` for given numbers of particles with spin up and down
(NNTBChain4.py:44-56, 78-98).  The lists of state indices are written out: the table of NNTBChain4.py:40-43 numbers the sites
with spin down `0, ..., n - 1` and those with spin up `n, ..., 2 n - 1` (C85). -/
def spinSpecs (n : ℕ) (Nup Ndown : ℤ) : List HVal :=
  [.list [.list ((List.range n).map fun i : ℕ => .int (n + i : ℕ)), .int Nup],
    .list [.list ((List.range n).map fun i : ℕ => .int i), .int Ndown]]

/-- NNTBChain4.py. -/
noncomputable def scriptSpins (threshold : ℝ) (K : ℤ) (siteNum : ℕ) (spins : List ℤ) (t : ℂ)
    (specs : List HVal) (specsH specsP : ℤ → List HVal) (omegas : List ℝ) (eta : ℝ)
    (g : Garbage omegas.length) : Option (Py (Spectrum omegas.length)) :=
  andThen (chainSetup order porder zoom coordOf prec siteNum spins t specs) fun U =>
    let E := eig U.basis.length U.HM
    andThen (spinLoop order porder zoom coordOf prec threshold K siteNum spins t specsH specsP U E.1 E.2 omegas eta
      g spins ⟨[], fun _ => none⟩) fun D => some (finish prec siteNum D)

end scripts

end Verif.Demo
