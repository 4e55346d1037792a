import Verif.Spec.LatticeSpin
/-!
# Symmetries of an infinite lattice and of the models on a periodic cluster
-/

namespace Verif.LDB

open Verif.Latt Verif.Spec Matrix

variable {n m k : ℕ}

/-- `g` is a symmetry of the infinite lattice `S`: it maps the sites onto the sites and keeps all distances; and it
respects the periodic boundary conditions: it maps sites that differ by a translation to such sites. -/
structure SymmetryOf (S : Set (Pt m)) (v : Fin k → Pt m) (g : Pt m → Pt m) : Prop where
  maps : ∀ s ∈ S, g s ∈ S
  onto : ∀ s ∈ S, ∃ t ∈ S, g t = s
  isometry : ∀ s ∈ S, ∀ t ∈ S, ndist (g s) (g t) = ndist s t
  periodic : ∀ s ∈ S, ∀ c, ∃ c', g (s + comb v c) = g s + comb v c'

/-- `g` maps point `i` to an image of point `σ i`. -/
def Carries (g : Pt m → Pt m) (points : Fin n → Pt m) (v : Fin k → Pt m) (σ : Equiv.Perm (Fin n)) : Prop :=
  ∀ i, ∃ c, g (points i) = points (σ i) + comb v c

/-- `f` moves the spin of every site `i` to site `σ i`. -/
def MovesSpins (σ : Equiv.Perm (Fin n)) (f : Equiv.Perm (Fin (2 ^ n))) : Prop :=
  ∀ (r : Fin (2 ^ n)) (i : Fin n), digit (f r) (σ i) = digit r i

/-- Every symmetry of the infinite lattice is a symmetry of the Hamiltonian of the spins: it permutes the points of the
cluster, and moving the spins along changes no matrix element. -/
def SpinSymmetric (S : Set (Pt m)) {count : ℕ} (L : Lat count m m) (_J : ℝ)
    (H : Matrix (Fin (2 ^ count)) (Fin (2 ^ count)) ℂ) : Prop :=
  ∀ g, SymmetryOf S L.vectors g → ∃ σ f, Carries g L.points L.vectors σ ∧ MovesSpins σ f ∧
    ∀ r c, H (f r) (f c) = H r c

open Demo in
/-- Every symmetry of the infinite lattice is a symmetry of the hopping matrix of one particle, whose row and column
`s * count + i` belong to point `i` with spin `s`. -/
def HoppingSymmetric (S : Set (Pt m)) {count : ℕ} (L : Lat count m m) (species : ℕ) (_t : ℝ)
    (run : ℕ → Option (Py Setup)) : Prop :=
  ∃ (U : Setup) (e : Fin species × Fin count ≃ Fin U.basis.length), run 1 = some (.ok U) ∧
    (∀ x, (e x : ℕ) = x.1 * count + x.2) ∧
    ∀ g, SymmetryOf S L.vectors g → ∃ σ, Carries g L.points L.vectors σ ∧
      ∀ s s' i j, U.HM (e (s, σ i)) (e (s', σ j)) = U.HM (e (s, i)) (e (s', j))

/-- The translation by `u`. -/
def translation (u : Pt m) : Pt m → Pt m := fun p => p + u

/-- The inversion that exchanges `s` and `t`. -/
def inversion (s t : Pt m) : Pt m → Pt m := fun p => s + t - p

/-- The rotation of the plane by a quarter turn about `p0`. -/
def quarterTurn (p0 : Pt 2) : Pt 2 → Pt 2 := fun p => ![p0 0 - (p 1 - p0 1), p0 1 + (p 0 - p0 0)]

end Verif.LDB
