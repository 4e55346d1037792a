import Verif.Spec.LatticeDatabase
import Mathlib.Order.Bounds.Defs
/-!
# What a list of the nearest-neighbour bonds of a periodic lattice is
-/

namespace Verif.LDB

open Verif.Latt

variable {n m k : ℕ}

/-- The smallest distance between two different sites. -/
def IsNearestDistance (S : Set (Pt m)) (d : ℝ) : Prop :=
  IsLeast {x | ∃ s ∈ S, ∃ t ∈ S, s ≠ t ∧ x = ndist s t} d

/-- `d` rounded to `prec` decimals. -/
noncomputable def roundTo (prec : ℕ) (d : ℝ) : ℝ := (rint (d * 10 ^ prec) : ℝ) / 10 ^ prec

/-- Two bonds of the periodic lattice are the same: they join the same two sites after a translation. -/
def SameBond (v : Fin k → Pt m) (b b' : Pt m × Pt m) : Prop :=
  ∃ c : Fin k → ℤ, (b.1 + comb v c = b'.1 ∧ b.2 + comb v c = b'.2) ∨
    (b.1 + comb v c = b'.2 ∧ b.2 + comb v c = b'.1)

/-- `intra` are bonds between two cluster points, `inter` are bonds from a cluster point to a site
outside the cluster, all of a length satisfying `P`, and together they contain every bond of the infinite
lattice of such a length exactly once (up to translations). -/
structure ListsBonds (S : Set (Pt m)) (points : Fin n → Pt m) (v : Fin k → Pt m) (P : ℝ → Prop)
    (intra inter : List (Pt m × Pt m)) : Prop where
  inside : ∀ b ∈ intra, (∃ i, b.1 = points i) ∧ (∃ j, b.2 = points j) ∧ P (ndist b.1 b.2)
  across : ∀ b ∈ inter, (∃ i, b.1 = points i) ∧ b.2 ∈ S ∧ (∀ j, b.2 ≠ points j) ∧ P (ndist b.1 b.2)
  nodup : (intra ++ inter).Nodup
  each : ∀ s ∈ S, ∀ t ∈ S, P (ndist s t) → ∃! b, b ∈ intra ++ inter ∧ SameBond v b (s, t)

end Verif.LDB
