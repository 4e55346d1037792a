import Verif.Spec.NearestBuilt
import Verif.Model.DemoCluster
import Mathlib.Algebra.BigOperators.Finprod
import Mathlib.Algebra.Polynomial.BigOperators
import Mathlib.Analysis.SpecialFunctions.Trigonometric.Basic
import Mathlib.LinearAlgebra.Matrix.Charpoly.Basic
/-!
# The tight-binding model of a periodic lattice

The first part mentions neither bonds nor Fock space.
-/

namespace Verif.LDB

open Verif.Latt Complex

variable {n m k : ℕ}

/-- `f` takes the same value at points that differ by a translation. -/
def Periodic (v : Fin k → Pt m) (f : Pt m → ℂ) : Prop := ∀ p c, f (p + comb v c) = f p

/-- The Schrödinger equation of one particle hopping with amplitude `t` between sites at distance `d`: what the
Hamiltonian makes of the amplitudes `f`, at the site `s`. -/
noncomputable def hops (S : Set (Pt m)) (d t : ℝ) (f : Pt m → ℂ) (s : Pt m) : ℂ :=
  t * ∑ᶠ x ∈ {x | x ∈ S ∧ ndist s x = d}, f x

/-- The plane wave of wave vector `q`. -/
noncomputable def planeWave (q p : Pt m) : ℂ := Complex.exp (I * ((∑ a, q a * p a : ℝ) : ℂ))

/-- The wave vector `q` is allowed by the periodic boundary conditions. -/
def Allowed (v : Fin k → Pt m) (q : Pt m) : Prop := ∀ i, ∃ z : ℤ, ∑ a, q a * v i a = 2 * Real.pi * z

/-- Two wave vectors describe the same wave on the sites `S` (up to a factor). -/
def Equivalent (S : Set (Pt m)) (q q' : Pt m) : Prop :=
  ∀ s ∈ S, ∀ t ∈ S, planeWave q (t - s) = planeWave q' (t - s)

/-- The sites form a Bravais lattice: the vector from one site to another leads from every site to a site. -/
def Bravais (S : Set (Pt m)) : Prop := ∀ s ∈ S, ∀ t ∈ S, ∀ u ∈ S, s + t - u ∈ S

/-- The vectors `D` lead from every site to its neighbours at distance `d`. -/
def NeighbourVectors (S : Set (Pt m)) (d : ℝ) (D : Finset (Pt m)) : Prop :=
  ∀ s ∈ S, ∀ x, x ∈ S ∧ ndist s x = d ↔ ∃ y ∈ D, x = s + y

/-- The band energy `t sum_y cos(q . y)`. -/
noncomputable def bandEnergy (t : ℝ) (D : Finset (Pt m)) (q : Pt m) : ℝ := t * ∑ y ∈ D, Real.cos (∑ a, q a * y a)

/-- The steps to the neighbours in the chain. -/
noncomputable def chainSteps : Finset (Pt 1) := {![1], ![-1]}

/-- The steps to the neighbours in the square lattice. -/
noncomputable def squareSteps : Finset (Pt 2) := {![1, 0], ![-1, 0], ![0, 1], ![0, -1]}

/-- The steps to the neighbours in the cubic lattice. -/
noncomputable def cubicSteps : Finset (Pt 3) :=
  {![1, 0, 0], ![-1, 0, 0], ![0, 1, 0], ![0, -1, 0], ![0, 0, 1], ![0, 0, -1]}

/-- The steps to the neighbours in the triangular lattice. -/
noncomputable def triangleSteps : Finset (Pt 2) :=
  {![1, 0], ![-1, 0], ![1 / 2, Real.sqrt 3 / 2], ![-1 / 2, -Real.sqrt 3 / 2], ![1 / 2, -Real.sqrt 3 / 2],
    ![-1 / 2, Real.sqrt 3 / 2]}

/-- The coordinates, as floats, are accepted as sites, and different points are different sites. -/
def Distinguishes (zoom : ℤ) (coordOf : ℝ → Coord) (points : Fin n → Pt m) : Prop :=
  ∃ site : Fin n → SiteID, (∀ i, SiteID.init zoom (Demo.siteOf coordOf (points i)) = .ok (site i)) ∧
    ∀ i j, (site i).rich .eq (site j) = true → i = j

/-- Coordinates up to a hundred thousand become finite floats with an error of at most a millionth. -/
def NearFloats (coordOf : ℝ → Coord) : Prop :=
  ∀ x : ℝ, |x| ≤ 100000 → ∃ c : ℚ, coordOf x = .flt (.fin c) ∧ |(c : ℝ) - x| ≤ 1 / 1000000

/-- The polynomial whose roots are, with multiplicities, the sums of `N` different ones of the numbers `eps`. -/
noncomputable def energySums {ι : Type*} [Fintype ι] (N : ℕ) (eps : ι → ℝ) : Polynomial ℂ :=
  ∏ K ∈ Finset.powersetCard N (Finset.univ : Finset ι),
    (Polynomial.X - Polynomial.C ((∑ k ∈ K, eps k : ℝ) : ℂ))

open Demo

/-- The call returns a lattice of `count` points; and for all iteration orders of the sets, previous calls, states, numbers
`species` of spin species and hopping amplitudes `t`, the statement `Q` holds of the lattice, `species`, `t` and of
what the script computes for each particle number. -/
def EveryRun (prec count : ℕ) (r : Py Built)
    (Q : Lat count m m → ℕ → ℝ → (ℕ → Option (Py Setup)) → Prop) : Prop :=
  ∃ L0 : Lat count m m, r = .ok ⟨count, m, m, L0⟩ ∧
    ∀ (order : List (Fin m → ℤ) → List (Fin m → ℤ)), (∀ l, (order l).Perm l) →
    ∀ (porder : ∀ N : ℕ, List (Fin N × Fin N) → List (Fin N × Fin N)), (∀ N l, (porder N l).Perm l) →
    ∀ (calls : List Call) (zoom : ℤ) (coordOf : ℝ → Coord), Distinguishes zoom coordOf L0.points →
    ∀ species : ℕ, 1 ≤ species → species * count ≤ 64 → ∀ t : ℝ,
      Q L0 species t fun N => clusterSetup order porder zoom coordOf prec (calls.foldl (after order porder prec) L0)
        ((List.range species).map fun s : ℕ => (s : ℤ)) t [.tuple [.int ((species * count : ℕ) : ℤ), .int (N : ℕ)]]

/-- The script for one particle succeeds; row and column `s * count + i` of its matrix belong to point `i` with spin `s`;
applied to amplitudes with the period of the cluster, the matrix moves them to the neighbours at distance `d` in the
infinite lattice `S`. -/
def OneParticle (S : Set (Pt m)) (d : ℝ) {count : ℕ} (L : Lat count m m) (species : ℕ) (t : ℝ)
    (run : ℕ → Option (Py Setup)) : Prop :=
  ∃ (U : Setup) (e : Fin species × Fin count ≃ Fin U.basis.length), run 1 = some (.ok U) ∧
    (∀ x, (e x : ℕ) = x.1 * count + x.2 ∧ U.basis[e x] = 2 ^ ((x.1 : ℕ) * count + x.2)) ∧
    ∀ f : Fin species → Pt m → ℂ, (∀ s, Periodic L.vectors (f s)) → ∀ x,
      ∑ y, U.HM (e x) (e y) * f y.1 (L.points y.2) = hops S d t (f x.1) (L.points x.2)

/-- For any choice of as many pairwise inequivalent allowed wave vectors as there are points, the energies of `N`
particles are, with multiplicities, the sums of `N` of the band energies at these wave vectors, each taken once per
spin species. -/
def BandSpectrum (S : Set (Pt m)) (D : Finset (Pt m)) {count : ℕ} (L : Lat count m m) (species : ℕ) (t : ℝ)
    (run : ℕ → Option (Py Setup)) : Prop :=
  ∀ (ι : Type) [Fintype ι] (q : ι → Pt m), Fintype.card ι = count → (∀ x, Allowed L.vectors (q x)) →
    (∀ x y, x ≠ y → ¬ Equivalent S (q x) (q y)) →
    ∀ N ≤ species * count, ∃ U, run N = some (.ok U) ∧
      U.HM.charpoly = energySums N fun x : Fin species × ι => bandEnergy t D (q x.2)

/-- The energies of `N` particles are, with multiplicities, the sums of `N` of the one-particle energies `eps t x`, each
taken once per spin species. -/
def Energies (m : ℕ) {ι : Type} [Fintype ι] (eps : ℝ → ι → ℝ) {count : ℕ} (_L : Lat count m m) (species : ℕ) (t : ℝ)
    (run : ℕ → Option (Py Setup)) : Prop :=
  ∀ N ≤ species * count, ∃ U, run N = some (.ok U) ∧
    U.HM.charpoly = energySums N fun x : Fin species × ι => eps t x.2

end Verif.LDB
