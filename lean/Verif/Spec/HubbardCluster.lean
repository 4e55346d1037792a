import Verif.Spec.LatticeBand
import Verif.Spec.Hubbard
import Verif.Model.DemoHubbardCluster
/-!
# The Hubbard model of a cluster with open boundaries

`n` points, spin down (0) and up (1); the single-particle state of spin `s` on point `i` is `s n + i`.  Neither bonds nor
index tables occur: neighbours are the points at distance `d`.
-/

namespace Verif.LDB

open Verif.Latt Verif.Spec

variable {n m : ℕ}

/-- The number of particles in a single-particle state. -/
noncomputable def numberOp (q : ℕ) : Module.End ℂ Fock := create q * annihilate q

open Classical in
/-- `H = U sum_i n_{i,up} n_{i,down} + t sum_{<ij>} sum_s (c_{s,i}^dagger c_{s,j} + h.c.)`, where `<ij>` runs over the
pairs of points at distance `d`. -/
noncomputable def clusterHubbard (d : ℝ) (points : Fin n → Pt m) (t U : ℝ) : Module.End ℂ Fock :=
  (U : ℂ) • ∑ i : Fin n, numberOp (n + i) * numberOp i +
    (t : ℂ) • ∑ p : Fin n × Fin n with p.1 < p.2 ∧ ndist (points p.1) (points p.2) = d, hopPair n 2 p.1 p.2

/-- The list contains, in ascending order, the bit patterns of all states of `Nup` particles of spin up and `Ndown`
particles of spin down on `n` points. -/
def SpinSector (n Nup Ndown : ℕ) (B : List ℕ) : Prop :=
  B.Pairwise (· < ·) ∧ ∀ k, k ∈ B ↔ occ k ⊆ Finset.range (2 * n) ∧
    ((occ k).filter (n ≤ ·)).card = Nup ∧ ((occ k).filter (· < n)).card = Ndown

open Demo

/-- The call returns a lattice of `count` points; and for all iteration orders of the sets, previous calls, states, `t` and
`U`, the statement `Q` holds of the lattice, the states and of what the script computes for each `t`, `U` and all particle
numbers. -/
def EveryHubbardRun (prec count : ℕ) (r : Py Built)
    (Q : Lat count m m → ℤ → (ℝ → Coord) → (ℝ → ℝ → ℕ → ℕ → Option (Py Setup)) → Prop) : Prop :=
  ∃ L0 : Lat count m m, r = .ok ⟨count, m, m, L0⟩ ∧
    ∀ (order : List (Fin m → ℤ) → List (Fin m → ℤ)), (∀ l, (order l).Perm l) →
    ∀ (porder : ∀ N : ℕ, List (Fin N × Fin N) → List (Fin N × Fin N)), (∀ N l, (porder N l).Perm l) →
    ∀ (calls : List Call) (zoom : ℤ) (coordOf : ℝ → Coord), Distinguishes zoom coordOf L0.points →
      Q L0 zoom coordOf
        (hubbardClusterSetup order porder zoom coordOf prec (calls.foldl (after order porder prec) L0))

/-- The script succeeds for all particle numbers; its table numbers the state of spin `s` on point `i` by `s count + i`;
its basis lists the states with these particle numbers; its matrix is that of the Hubbard model, and Hermitian. -/
def HubbardModel (d : ℝ) {count : ℕ} (L : Lat count m m) (zoom : ℤ) (coordOf : ℝ → Coord)
    (run : ℝ → ℝ → ℕ → ℕ → Option (Py Setup)) : Prop :=
  ∀ t U Nup Ndown, Nup ≤ count → Ndown ≤ count → ∃ V, run t U Nup Ndown = some (.ok V) ∧
    (∀ s : ℕ, s < 2 → ∀ (i : Fin count) st, StateID.init zoom (siteOf coordOf (L.points i)) (s : ℤ) = .ok st →
      V.table.queryIndex st = .ok ((s * count + i : ℕ) : ℤ)) ∧
    SpinSector count Nup Ndown V.basis ∧
    (∀ r c, V.HM r c = matrixElement (clusterHubbard d L.points t U) (occ V.basis[r]) (occ V.basis[c])) ∧
    V.HM.IsHermitian

end Verif.LDB
