import Verif.Spec.LatticeBand
import Verif.Spec.Heisenberg
import Verif.Spec.Averages
import Verif.Spec.Coordination
import Verif.Model.DemoSpinCluster
/-!
# The Heisenberg model of a periodic lattice

Neither bonds nor index tables occur: the Hamiltonian is a sum over the neighbours in the infinite lattice `S`.
-/

namespace Verif.LDB

open Verif.Latt Verif.Spec Matrix

variable {n m k : ℕ}

open Classical in
/-- `H = (J/2) sum_i sum_x S_i . S_x`, where `i` runs over the points of the cluster and `x` over the sites of the
infinite lattice `S` at distance `d` from point `i`; the spin at `x` is that of the point `j` that `x` is an image of.
Every pair of neighbours is met twice. -/
noncomputable def latticeHeisenberg (S : Set (Pt m)) (d : ℝ) (points : Fin n → Pt m) (v : Fin k → Pt m) (J : ℝ) :
    Matrix (Fin (2 ^ n)) (Fin (2 ^ n)) ℂ :=
  ((J / 2 : ℝ) : ℂ) • ∑ i : Fin n, ∑ᶠ x ∈ {x | x ∈ S ∧ ndist (points i) x = d},
    ∑ j : Fin n with ∃ c, x = points j + comb v c, Spec.spinDot n i j

/-- How many of the neighbours of a point are images of the point itself. -/
noncomputable def ownNeighbours (S : Set (Pt m)) (d : ℝ) (v : Fin k → Pt m) (p : Pt m) : ℕ :=
  {x | (x ∈ S ∧ ndist p x = d) ∧ ∃ c, x = p + comb v c}.ncard

/-- The state with all spins up. -/
def upState (n : ℕ) : Fin (2 ^ n) → ℂ := fun a => if (a : ℕ) = 0 then 1 else 0

/-- The superposition of the states with one spin turned down, spin `j` with amplitude `g j`. -/
noncomputable def magnon (g : Fin n → ℂ) : Fin (2 ^ n) → ℂ := ∑ j : Fin n, g j • siteOp n j (spinHalf .m) *ᵥ upState n

open Demo

/-- The call returns a lattice of `count` points; and for all iteration orders of the sets, all ways to answer
nearest-point queries, all previous calls and all real `J`, the script succeeds, and `Q` holds of the lattice, `J` and
the Hamiltonian. -/
def EverySpinRun (prec count : ℕ) (r : Py Built)
    (Q : Lat count m m → ℝ → Matrix (Fin (2 ^ count)) (Fin (2 ^ count)) ℂ → Prop) : Prop :=
  ∃ L0 : Lat count m m, r = .ok ⟨count, m, m, L0⟩ ∧
    ∀ near : (Fin count → Pt m) → Pt m → Option (Fin count), IsNearest near →
    ∀ (order : List (Fin m → ℤ) → List (Fin m → ℤ)), (∀ l, (order l).Perm l) →
    ∀ (porder : ∀ N : ℕ, List (Fin N × Fin N) → List (Fin N × Fin N)), (∀ N l, (porder N l).Perm l) →
    ∀ (calls : List Call) (J : ℝ), ∃ U, spinClusterSetup near order porder prec count
        (calls.foldl (after order porder prec) L0) J = some (.ok U) ∧ Q L0 J U.HM

/-- The Hamiltonian is that of the Heisenberg model, plus a magnetic field: each point whose image is its own neighbour
feels `J` times half the number of such images. -/
def HeisenbergField (S : Set (Pt m)) (d : ℝ) {count : ℕ} (L : Lat count m m) (J : ℝ)
    (H : Matrix (Fin (2 ^ count)) (Fin (2 ^ count)) ℂ) : Prop :=
  H = latticeHeisenberg S d L.points L.vectors J +
    ((J / 2 : ℝ) : ℂ) • ∑ i : Fin count, (ownNeighbours S d L.vectors (L.points i) : ℂ) • siteOp count i (spinHalf .z)

/-- The Hamiltonian is that of the Heisenberg model, hermitian and symmetric under spin rotations. -/
def HeisenbergModel (S : Set (Pt m)) (d : ℝ) {count : ℕ} (L : Lat count m m) (J : ℝ)
    (H : Matrix (Fin (2 ^ count)) (Fin (2 ^ count)) ℂ) : Prop :=
  H = latticeHeisenberg S d L.points L.vectors J ∧ H.IsHermitian ∧
    ∀ a ∈ [SpinOtype.x, .y, .z], Commute H (totalSpinOp count a)

/-- With `z` neighbours per site, all spins up is an eigenstate of energy `J z count / 8`; turning down one spin makes a
particle that hops to the neighbours with amplitude `J / 2`, at the cost `-J z / 2`; and for `J <= 0` no state has a lower
energy than all spins up. -/
def Ferromagnet (S : Set (Pt m)) (d : ℝ) (z : ℕ) {count : ℕ} (L : Lat count m m) (J : ℝ)
    (H : Matrix (Fin (2 ^ count)) (Fin (2 ^ count)) ℂ) : Prop :=
  H *ᵥ upState count = ((J * z * count / 8 : ℝ) : ℂ) • upState count ∧
  (∀ f : Pt m → ℂ, Periodic L.vectors f → H *ᵥ magnon (fun i => f (L.points i)) =
    magnon fun i => ((J * z * count / 8 - J * z / 2 : ℝ) : ℂ) * f (L.points i) + hops S d (J / 2) f (L.points i)) ∧
  (J ≤ 0 → ∀ ψ, ψ ≠ 0 → J * z * count / 8 ≤ (expectation H ψ).re)

/-- Both. -/
def HeisenbergFerromagnet (S : Set (Pt m)) (d : ℝ) (z : ℕ) {count : ℕ} (L : Lat count m m) (J : ℝ)
    (H : Matrix (Fin (2 ^ count)) (Fin (2 ^ count)) ℂ) : Prop :=
  HeisenbergModel S d L J H ∧ Ferromagnet S d z L J H

/-- The spin waves of a Bravais lattice: for every wave vector `q` allowed by the periodic boundary conditions the plane
wave of turned-down spins is an eigenstate, of energy `J z count / 8 + (J/2) sum_y (cos(q . y) - 1)`. -/
def SpinWaves (D : Finset (Pt m)) {count : ℕ} (L : Lat count m m) (J : ℝ)
    (H : Matrix (Fin (2 ^ count)) (Fin (2 ^ count)) ℂ) : Prop :=
  ∀ q, Allowed L.vectors q → magnon (fun i => planeWave q (L.points i)) ≠ 0 ∧
    H *ᵥ magnon (fun i => planeWave q (L.points i)) =
      ((J * D.card * count / 8 + J / 2 * ∑ y ∈ D, (Real.cos (∑ a, q a * y a) - 1) : ℝ) : ℂ) •
        magnon fun i => planeWave q (L.points i)

end Verif.LDB
