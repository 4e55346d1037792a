import Verif.Model.LatticeDatabase
import Verif.Model.Factory
import Verif.Model.MatrixRepr
import Verif.Model.HilbertSpace
import Mathlib.LinearAlgebra.Matrix.ConjTranspose
import Mathlib.Data.Complex.BigOperators
/-!
# Model of the scripts in `GreenFunction/demo`: building the Hamiltonian

The scripts are straight-line code; here they are functions of the numbers the scripts fix at the top
(`t`, `site_num`, the list of spins, the arguments of `base_vectors`), so that one definition covers
NNTBChain1.py to NNTBChain4.py.  `coordOf` turns a lattice coordinate (a real number in the lattice model)
into the `float` handed to `StateID` and `AoC`.
-/

namespace Verif.Demo

open Latt LDB

variable {n m k : ℕ}

/-- A row of `cluster.points` or an endpoint of a bond, as the `site` argument of the operators
(NNTBChain1.py:31-36). -/
def siteOf (coordOf : ℝ → Coord) (p : Pt m) : List Coord := (List.finRange m).map fun a => coordOf (p a)

/-- The loop over the bonds (NNTBChain1.py:27-31; NNTBChain2.py:34-39, NNTBChain3.py and NNTBChain4.py
alike): both endpoints are moved into the cluster, and one hopping term per spin is appended.
NNTBChain1.py passes no spin, which is `spins = [0]`. -/
noncomputable def termLoop (zoom : ℤ) (coordOf : ℝ → Coord) (prec : ℕ) (L : Lat n m k) (spins : List ℤ)
    (t : ℂ) : List (LBond m) → Option (Py (List ParticleTerm))
  | [] => some (.ok [])
  | bond :: rest =>
    match decompose prec L bond.1 with
    | none => none
    | some (.error e) => some (.error e)
    | some (.ok (p0, _)) =>
      match decompose prec L bond.2 with
      | none => none
      | some (.error e) => some (.error e)
      | some (.ok (p1, _)) =>
        match spins.mapM fun s => hoppingFactory zoom (siteOf coordOf p0) (siteOf coordOf p1)
            (spin0 := s) (coeff := t) with
        | .error e => some (.error e)
        | .ok ts =>
          match termLoop zoom coordOf prec L spins t rest with
          | none => none
          | some (.error e) => some (.error e)
          | some (.ok us) => some (.ok (ts ++ us))

/-- `intra_bonds, inter_bonds = cluster.bonds(nth=1)` and the loop over `intra_bonds + inter_bonds`
(NNTBChain1.py:25-31). -/
noncomputable def hoppingTerms (order : List (Fin k → ℤ) → List (Fin k → ℤ))
    (porder : ∀ N : ℕ, List (Fin N × Fin N) → List (Fin N × Fin N)) (zoom : ℤ) (coordOf : ℝ → Coord)
    (prec : ℕ) (L : Lat n m k) (spins : List ℤ) (t : ℂ) : Option (Py (List ParticleTerm)) :=
  match bonds order porder prec L 1 true false with
  | none => none
  | some (_, .error e) => some (.error e)
  | some (_, .ok (_, none)) => some (raise .typeError)
  | some (L', .ok (intra, some inter)) => termLoop zoom coordOf prec L' spins t (intra ++ inter)

/-- `HP.IndexTable(HP.StateID(site=site, spin=spin) for spin in SPINS for site in cluster.points)`
(NNTBChain1.py:34-36 without spin, NNTBChain2.py:42-45). -/
noncomputable def stateTable (zoom : ℤ) (coordOf : ℝ → Coord) (L : Lat n m k) (spins : List ℤ) :
    Py (IndexTable StateID) := do
  let objs ← (spins.flatMap fun s => (List.finRange n).map fun i => (s, i)).mapM fun p =>
    StateID.init zoom (siteOf coordOf (L.points p.2)) p.1
  IndexTable.init objs 0

/-- `HM = 0.0; for term in terms: HM += term.matrix_repr(table, basis); HM += HM.getH()`
(NNTBChain1.py:38-42).  Without any term `HM` is still a `float`, which has no `getH`. -/
noncomputable def hamiltonian (table : IndexTable StateID) (basis : List ℕ) (terms : List ParticleTerm) :
    Py (Matrix (Fin basis.length) (Fin basis.length) ℂ) := do
  let Ms ← terms.mapM fun term => (term.matrixRepr table basis).2
  if terms = [] then raise .attributeError
  else
    let HM := (Ms.map fun M => Matrix.of fun r c : Fin basis.length => M.get r c).sum
    return HM + HM.conjTranspose

/-- What the first part of the scripts leaves in the variables `state_indices_table`, `basis`, `HM`.
Used at GreenFunction/demo/NNTBChain1.py:28-52. -/
structure Setup where
  table : IndexTable StateID
  basis : List ℕ
  HM : Matrix (Fin basis.length) (Fin basis.length) ℂ

/-- The scripts up to the Hamiltonian (NNTBChain1.py:22-43): `cluster = lattice_generator("chain",
num0=site_num)`, terms, `basis = base_vectors(*specs)`, table, `HM`. -/
noncomputable def chainSetup (order : ∀ k : ℕ, List (Fin k → ℤ) → List (Fin k → ℤ))
    (porder : ∀ N : ℕ, List (Fin N × Fin N) → List (Fin N × Fin N)) (zoom : ℤ) (coordOf : ℝ → Coord)
    (prec : ℕ) (siteNum : ℤ) (spins : List ℤ) (t : ℂ) (specs : List HVal) : Option (Py Setup) :=
  match latticeGenerator prec "chain" siteNum 1 1 with
  | .error e => some (.error e)
  | .ok cluster =>
    match hoppingTerms (order cluster.k) porder zoom coordOf prec cluster.lat spins t with
    | none => none
    | some (.error e) => some (.error e)
    | some (.ok terms) => some do
      let basis ← baseVectors specs
      let table ← stateTable zoom coordOf cluster.lat spins
      let HM ← hamiltonian table basis terms
      return ⟨table, basis, HM⟩

end Verif.Demo
