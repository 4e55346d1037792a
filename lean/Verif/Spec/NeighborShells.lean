import Verif.Spec.NearestBuilt
import Mathlib.Data.Set.Card
/-!
# The neighbour shells of an infinite lattice
-/

namespace Verif.LDB

open Verif.Latt

variable {m : ℕ}

/-- The distances between two different sites. -/
def Distances (S : Set (Pt m)) : Set ℝ := {x | ∃ s ∈ S, ∃ t ∈ S, s ≠ t ∧ x = ndist s t}

/-- `d` is the `nth` smallest distance. -/
def IsNthDistance (S : Set (Pt m)) (nth : ℕ) (d : ℝ) : Prop :=
  d ∈ Distances S ∧ {x ∈ Distances S | x ≤ d}.ncard = nth

/-- The lengths of the bonds that `bonds(nth, only=only)` should list when `d` is the `nth` distance. -/
def ShellLength (only : Bool) (d x : ℝ) : Prop := if only then x = d else 0 < x ∧ x ≤ d

/-- The call returns a lattice on which, after any history of `neighbor_distance` and `bonds` calls and
for any iteration orders of the sets, `neighbor_distance(nth)` is `d` rounded to the precision,
`bonds(nth)` lists the bonds of length `d` of `S`, and `bonds(nth, only=False)` those of length up to
`d`; with `fold=True` the far endpoints are replaced by the equivalent cluster points. -/
def FindsShell (prec : ℕ) (S : Set (Pt m)) (nth : ℕ) (d : ℝ) (r : Py Built) : Prop :=
  ∃ (n : ℕ) (L0 : Lat n m m), r = .ok ⟨n, m, m, L0⟩ ∧
    ∀ (order : List (Fin m → ℤ) → List (Fin m → ℤ)), (∀ l, (order l).Perm l) →
    ∀ (porder : ∀ N : ℕ, List (Fin N × Fin N) → List (Fin N × Fin N)),
      (∀ N l, (porder N l).Perm l) →
    ∀ (calls : List Call) (only : Bool),
    let L := calls.foldl (after order porder prec) L0
    (neighborDistance order prec L nth).2 = .ok (roundTo prec d) ∧
    (∃ L' intra inter, bonds order porder prec L nth only false = some (L', .ok (intra, some inter)) ∧
      ListsBonds S L0.points L0.vectors (ShellLength only d) intra inter) ∧
    ∃ L' intra inter inter0, bonds order porder prec L nth only true =
        some (L', .ok (intra, some inter)) ∧
      ListsBonds S L0.points L0.vectors (ShellLength only d) intra inter0 ∧
      ∀ fold : Pt m → Pt m, (∀ j c, fold (L0.points j + comb L0.vectors c) = L0.points j) →
        inter.Perm (inter0.map fun b => (b.1, fold b.2))

/-- The call returns a lattice whose second distance, `neighbor_distance(2)`, is reported as two. -/
def ReportsTwo (m prec : ℕ) (r : Py Built) : Prop :=
  ∃ (n : ℕ) (L : Lat n m m), r = .ok ⟨n, m, m, L⟩ ∧
    ∀ order : List (Fin m → ℤ) → List (Fin m → ℤ), (neighborDistance order prec L 2).2 = .ok 2

end Verif.LDB
