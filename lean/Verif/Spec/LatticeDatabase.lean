import Verif.Spec.Lattice
/-!
# The infinite lattices that the built-in clusters should tile

None of these definitions mentions a cluster or its translation vectors.
-/

namespace Verif.LDB

open Verif.Latt

/-- All integers on a line. -/
def chainSites : Set (Pt 1) := {s | ∃ a : ℤ, s = ![(a : ℝ)]}

/-- All points of the plane with integer coordinates. -/
def squareSites : Set (Pt 2) := {s | ∃ a b : ℤ, s = ![(a : ℝ), (b : ℝ)]}

/-- All points of space with integer coordinates. -/
def cubicSites : Set (Pt 3) := {s | ∃ a b c : ℤ, s = ![(a : ℝ), (b : ℝ), (c : ℝ)]}

/-- Rows of integer points, every row half a step to the right of and `√3/2` above the previous one. -/
def triangleSites : Set (Pt 2) :=
  {s | ∃ a b : ℤ, s = ![(a : ℝ) + (b : ℝ) / 2, (b : ℝ) * (Real.sqrt 3 / 2)]}

/-- Two triangular lattices, half a bond (`1 / (2√3)`) below and above. -/
def honeycombSites : Set (Pt 2) :=
  {s | ∃ t ∈ triangleSites, s = ![t 0, t 1 - 1 / (2 * Real.sqrt 3)] ∨
    s = ![t 0, t 1 + 1 / (2 * Real.sqrt 3)]}

/-- The triangular lattice of half the spacing, without one site out of four. -/
def kagomeSites : Set (Pt 2) :=
  {s | ∃ a b : ℤ, ¬(Odd a ∧ Odd b) ∧
    s = ![((a : ℝ) + (b : ℝ) / 2) / 2, (b : ℝ) * (Real.sqrt 3 / 2) / 2]}

/-- The lattice moved by `t`. -/
def shifted {m : ℕ} (t : Pt m) (S : Set (Pt m)) : Set (Pt m) := {s | s - t ∈ S}

/-- Every copy of a cluster point is a site, and every site is a cluster point plus an integer
combination of the vectors in exactly one way. -/
structure ExactTiling {n m k : ℕ} (S : Set (Pt m)) (points : Fin n → Pt m) (vectors : Fin k → Pt m) :
    Prop where
  inside : ∀ i c, points i + comb vectors c ∈ S
  covers : ∀ s ∈ S, ∃! q : Fin n × (Fin k → ℤ), s = points q.1 + comb vectors q.2

/-- Different sites are at least `d` apart. -/
def Separated {m : ℕ} (d : ℝ) (S : Set (Pt m)) : Prop :=
  ∀ s ∈ S, ∀ t ∈ S, s ≠ t → d ≤ ndist s t

end Verif.LDB


namespace Verif.LDB

open Verif.Latt

/-- The closed first Brillouin zone: the points at least as close to the origin as to any other point of
the reciprocal lattice. -/
def InFirstBZ {m : ℕ} (B : Fin m → Pt m) (k : Pt m) : Prop :=
  ∀ c : Fin m → ℤ, nnorm k ≤ ndist k (comb B c)

/-- A corner of a two-dimensional first Brillouin zone: two independent boundary lines meet there. -/
def IsCorner (B : Fin 2 → Pt 2) (k : Pt 2) : Prop :=
  InFirstBZ B k ∧ ∃ c d : Fin 2 → ℤ, c 0 * d 1 - c 1 * d 0 ≠ 0 ∧
    ndist k (comb B c) = nnorm k ∧ ndist k (comb B d) = nnorm k

/-- The middle of an edge of a two-dimensional first Brillouin zone: half way to a point of the
reciprocal lattice, and farther from all the others. -/
def IsEdgeMiddle (B : Fin 2 → Pt 2) (k : Pt 2) : Prop :=
  ∃ c : Fin 2 → ℤ, c ≠ 0 ∧ (fun a => 2 * k a) = comb B c ∧
    ∀ d : Fin 2 → ℤ, d ≠ 0 → d ≠ c → nnorm k < ndist k (comb B d)

end Verif.LDB
