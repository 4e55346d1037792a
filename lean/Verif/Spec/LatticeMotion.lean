import Verif.Model.Lattice
import Mathlib.Algebra.Module.LinearMap.Defs
/-!
# Rigid motions of lattices
-/

namespace Verif.Latt

/-- A linear map that preserves lengths: a rotation or a reflection, or an embedding of the line or the
plane in a space of more dimensions. -/
def PreservesLength {m m' : ℕ} (R : Pt m →ₗ[ℝ] Pt m') : Prop :=
  ∀ p : Pt m, ∑ a, R p a ^ 2 = ∑ a, p a ^ 2

/-- The rigid motion `p ↦ R p + t`. -/
def moved {m m' : ℕ} (R : Pt m →ₗ[ℝ] Pt m') (t : Pt m') (p : Pt m) : Pt m' := R p + t

/-- The lattice with all the points moved, and all the vectors turned. -/
def movedLat {n m m' k : ℕ} (R : Pt m →ₗ[ℝ] Pt m') (t : Pt m') (L : Lat n m k) : Lat n m' k :=
  ⟨fun i => moved R t (L.points i), fun i => R (L.vectors i), fun i => R (L.bs i), L.allDist⟩

/-- A bond with both ends moved. -/
def movedBond {m m' : ℕ} (R : Pt m →ₗ[ℝ] Pt m') (t : Pt m') (b : LBond m) : LBond m' :=
  (moved R t b.1, moved R t b.2)

end Verif.Latt
