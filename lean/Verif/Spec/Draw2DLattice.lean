import Verif.Spec.Lattice
/-!
# The two-dimensional lattices of `Draw2DLattice.show`, in coordinates
-/

namespace Verif.D2L

open Verif.Latt

/-- Integer pairs in the box `[-n0, n0] × [-n1, n1]`. -/
def InBox (n0 n1 a b : ℤ) : Prop := |a| ≤ n0 ∧ |b| ≤ n1

/-- The four lattices and the two spellings of their names. -/
inductive Kind | square | triangle | honeycomb | kagome
  deriving DecidableEq

/-- The lattice meant by a name. -/
def Named (which : String) : Kind → Prop
  | .square => which = "s" ∨ which = "square"
  | .triangle => which = "t" ∨ which = "triangle"
  | .honeycomb => which = "h" ∨ which = "honeycomb"
  | .kagome => which = "k" ∨ which = "kagome"

/-- The corner of the cell `(a, b)` of the square lattice. -/
noncomputable def sq (a b : ℤ) : Pt 2 := ![(a : ℝ), (b : ℝ)]

/-- The corner of the cell `(a, b)` of the triangular lattice of spacing one: rows of integer points,
every row shifted by one half and `√3/2` higher than the previous one. -/
noncomputable def tri (a b : ℤ) : Pt 2 := ![(a : ℝ) + b / 2, b * (Real.sqrt 3 / 2)]

/-- The sites of the cell `(a, b)`. -/
noncomputable def cellSites : Kind → ℤ → ℤ → Set (Pt 2)
  | .square, a, b => {sq a b}
  | .triangle, a, b => {tri a b}
  | .honeycomb, a, b => {tri a b, tri a b + ![0, 1 / Real.sqrt 3]}
  | .kagome, a, b => {tri a b, tri a b + ![1 / 4, Real.sqrt 3 / 4], tri a b + ![1 / 2, 0]}

/-- The sites of the cells of a box. -/
def block (k : Kind) (n0 n1 : ℤ) : Set (Pt 2) :=
  {s | ∃ a b, InBox n0 n1 a b ∧ s ∈ cellSites k a b}

/-- The infinite lattice. -/
def whole (k : Kind) : Set (Pt 2) := {s | ∃ a b, s ∈ cellSites k a b}

/-- `d` is the smallest distance between different sites. -/
def IsNNDistance (S : Set (Pt 2)) (d : ℝ) : Prop :=
  (∃ s ∈ S, ∃ t ∈ S, s ≠ t ∧ ndist s t = d) ∧ ∀ s ∈ S, ∀ t ∈ S, s ≠ t → d ≤ ndist s t

/-- The number of sites of a cell. -/
def perCell : Kind → ℕ
  | .square => 1
  | .triangle => 1
  | .honeycomb => 2
  | .kagome => 3

/-- The directory part of a POSIX path: everything up to and including the last slash (empty: the
current directory), and the file name after it. -/
def DirAndFile (path dir file : String) : Prop :=
  path.toList = dir.toList ++ file.toList ∧ '/' ∉ file.toList ∧
    (dir.toList = [] ∨ dir.toList.getLast? = some '/')

end Verif.D2L
