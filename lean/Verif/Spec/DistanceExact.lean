import Verif.Spec.NeighborShells
/-!
# Which distances a search can see

`neighbor_distance` looks at finitely many copies of the cluster: initially only at the cluster itself,
and in a search for the q-th distance at the copies translated by at most `q` along each vector.
-/

namespace Verif.Latt

open Verif.LDB

variable {n m k : ℕ}

/-- The distances between two different sites of the copies translated by at most `s` along each vector
(`s = 0`: the cluster itself). -/
def BoxDistances (points : Fin n → Pt m) (v : Fin k → Pt m) (s : ℕ) : Set ℝ :=
  {x | ∃ (i j : Fin n) (c c' : Fin k → ℤ), (∀ q, |c q| ≤ s) ∧ (∀ q, |c' q| ≤ s) ∧ (i ≠ j ∨ c ≠ c') ∧
    x = ndist (points i + comb v c) (points j + comb v c')}

/-- The number of different distances seen, after rounding to the float precision. -/
noncomputable def distancesSeen (prec : ℕ) (points : Fin n → Pt m) (v : Fin k → Pt m) (s : ℕ) : ℕ :=
  (roundTo prec '' BoxDistances points v s).ncard

/-- The distances of the infinite lattice up to `d` are all seen. -/
def SeesAll (S : Set (Pt m)) (points : Fin n → Pt m) (v : Fin k → Pt m) (d : ℝ) (s : ℕ) : Prop :=
  ∀ x ∈ Distances S, x ≤ d → x ∈ BoxDistances points v s

/-- Two different distances, the smaller one at most `d`, differ by more than one and a half units of the
float precision. -/
def WellSpaced (prec : ℕ) (S : Set (Pt m)) (d : ℝ) : Prop :=
  ∀ x ∈ Distances S, ∀ y ∈ Distances S, x < y → x ≤ d → 3 / 2 / 10 ^ prec < y - x

end Verif.Latt
