import Verif.Model.Lattice
/-!
# What the lattice properties talk about
-/

namespace Verif.Latt

variable {n m k : ℕ}

/-- The endpoint shown for the site `q`. -/
noncomputable def foldPt (prec : ℕ) (L : Lat n m k) (q : Pt m) : Pt m :=
  match decompose prec L q with
  | some (.ok (p, _)) => p
  | _ => q

/-- `near` answers nearest-point queries: for a nonempty set of points it returns the index of one of
the points at the smallest distance. -/
def IsNearest (near : (Fin n → Pt m) → Pt m → Option (Fin n)) : Prop :=
  ∀ pts s, (near pts s = none ∧ n = 0) ∨
    ∃ i, near pts s = some i ∧ ∀ j, ndist (pts i) s ≤ ndist (pts j) s

/-- No two cluster points are (closer than the tolerance to being) related by a translation. -/
def Inequivalent (prec : ℕ) (points : Fin n → Pt m) (vectors : Fin k → Pt m) : Prop :=
  ∀ i j, i ≠ j → ∀ c : Fin k → ℤ, tol prec ≤ ndist (points i + comb vectors c) (points j)

/-- Scalar products of the translation vectors. -/
def gram (v : Fin k → Pt m) (i j : Fin k) : ℝ := ∑ a, v i a * v j a

/-- The largest component of `c` has absolute value `t`. -/
def OnShell (c : Fin k → ℤ) (t : ℤ) : Prop := (∀ i, |c i| ≤ t) ∧ ∃ i, |c i| = t

/-- For every translation on the shell `t` there is one at most as long on every smaller shell.  Basis
vectors that are too oblique violate this. -/
def ShellMonotone (v : Fin k → Pt m) : Prop :=
  ∀ (c : Fin k → ℤ) (t s : ℤ), OnShell c t → 1 ≤ s → s ≤ t →
    ∃ d, OnShell d s ∧ nnorm (comb v d) ≤ nnorm (comb v c)

/-- Each vector is at least as long (squared) as the sum of its overlaps with all the others. -/
def WeaklyOrthogonal (v : Fin k → Pt m) : Prop :=
  ∀ i, ∑ j ∈ Finset.univ.erase i, |gram v i j| ≤ gram v i i

/-- Two vectors at an angle between 60 and 120 degrees. -/
def WideAngle (v : Fin 2 → Pt m) : Prop := 4 * gram v 0 1 ^ 2 ≤ gram v 0 0 * gram v 1 1

end Verif.Latt

namespace Verif.Latt

variable {n m k : ℕ}

open Classical in
/-- The bonds inside the cluster whose length satisfies `P`, once for every pair of points. -/
noncomputable def intraBonds (points : Fin n → Pt m) (P : ℝ → Prop) : List (Pt m × Pt m) :=
  (((List.finRange n).product (List.finRange n)).filter
    fun p => decide (p.1 < p.2 ∧ P (ndist (points p.1) (points p.2)))).map
      fun p => (points p.1, points p.2)

open Classical in
/-- The bonds from a cluster point `i` to the copy of a cluster point `j` translated by `c`, whose
length satisfies `P`, once for every triple `(c, i, j)` with `c` in `H`; the second endpoint is shown
as `g c j`. -/
noncomputable def interBonds (points : Fin n → Pt m) (vectors : Fin k → Pt m)
    (H : List (Fin k → ℤ)) (P : ℝ → Prop) (g : (Fin k → ℤ) → Fin n → Pt m) :
    List (Pt m × Pt m) :=
  ((H.product ((List.finRange n).product (List.finRange n))).filter
    fun p => decide (P (ndist (points p.2.1) (points p.2.2 + comb vectors p.1)))).map
      fun p => (points p.2.1, g p.1 p.2.2)

/-- `H` contains exactly one of each pair of opposite nonzero translations of the box of size `s`, and
nothing else. -/
structure IsHalfBox (H : List (Fin k → ℤ)) (s : ℤ) : Prop where
  nodup : H.Nodup
  inBox : ∀ c ∈ H, c ≠ 0 ∧ ∀ i, |c i| ≤ s
  half : ∀ c : Fin k → ℤ, c ≠ 0 → (∀ i, |c i| ≤ s) → (c ∈ H ∧ -c ∉ H) ∨ (c ∉ H ∧ -c ∈ H)

end Verif.Latt

namespace Verif.Latt

variable {n m k : ℕ}

/-- `z` is the rounded distance (in units of the precision) of two different sites of the infinite
lattice; one of them may be taken in the cluster. -/
def RoundedDist (prec : ℕ) (points : Fin n → Pt m) (vectors : Fin k → Pt m) (z : ℤ) : Prop :=
  ∃ i j c, (c ≠ 0 ∨ i ≠ j) ∧ z = rint (ndist (points i) (points j + comb vectors c) * 10 ^ prec)

/-- A call that may change the cached distances. -/
inductive Call
  | neighborDistance (nth : ℤ)
  | bonds (nth : ℤ) (only fold : Bool)

/-- `s` is the first scope whose outer edge keeps every copy of the cluster farther than `ref` from the
cluster. -/
structure IsScope (points : Fin n → Pt m) (vectors : Fin k → Pt m) (ref : ℝ) (s : ℤ) : Prop where
  ge : -1 ≤ s
  far : ∀ c : Fin k → ℤ, OnShell c (s + 1) → ∀ i j,
    ref < ndist (points i + comb vectors c) (points j)
  first : ∀ s', -1 ≤ s' → s' < s → ∃ c : Fin k → ℤ, OnShell c (s' + 1) ∧ ∃ i j,
    ndist (points i + comb vectors c) (points j) ≤ ref

/-- The cluster is small compared with the cell: the components of the difference of two points along
the translation vectors are limited by how close to orthogonal the vectors are.  (For orthogonal
vectors: at most one and a half cells.) -/
def CompactCluster (points : Fin n → Pt m) (vectors : Fin k → Pt m) : Prop :=
  ∀ i j q, 2 * |∑ a, (points i a - points j a) * vectors q a| ≤
    3 * (gram vectors q q - ∑ r ∈ Finset.univ.erase q, |gram vectors q r|)

end Verif.Latt
