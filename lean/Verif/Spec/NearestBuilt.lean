import Verif.Spec.NearestBonds
import Verif.Model.LatticeDatabase
import Verif.Props.LatticeDistance
/-!
# What C94 says about a call that builds a lattice
-/

namespace Verif.LDB

open Verif.Latt

variable {m : ℕ}

/-- The call returns a lattice on which, after any history of `neighbor_distance` and `bonds` calls and
for any iteration orders of the sets, `neighbor_distance(1)` is `d` rounded to the precision, and
`bonds(1)` lists the bonds of length `d` of `S`; with `fold=True` it lists them with the far endpoints
replaced by the equivalent cluster points. -/
def FindsNearest (prec : ℕ) (S : Set (Pt m)) (d : ℝ) (r : Py Built) : Prop :=
  ∃ (n : ℕ) (L0 : Lat n m m), r = .ok ⟨n, m, m, L0⟩ ∧
    ∀ (order : List (Fin m → ℤ) → List (Fin m → ℤ)), (∀ l, (order l).Perm l) →
    ∀ (porder : ∀ N : ℕ, List (Fin N × Fin N) → List (Fin N × Fin N)),
      (∀ N l, (porder N l).Perm l) →
    ∀ (calls : List Call) (only : Bool),
    let L := calls.foldl (after order porder prec) L0
    (neighborDistance order prec L 1).2 = .ok (roundTo prec d) ∧
    (∃ L' intra inter, bonds order porder prec L 1 only false = some (L', .ok (intra, some inter)) ∧
      ListsBonds S L0.points L0.vectors (· = d) intra inter) ∧
    ∃ L' intra inter inter0, bonds order porder prec L 1 only true = some (L', .ok (intra, some inter)) ∧
      ListsBonds S L0.points L0.vectors (· = d) intra inter0 ∧
      ∀ fold : Pt m → Pt m, (∀ j c, fold (L0.points j + comb L0.vectors c) = L0.points j) →
        inter.Perm (inter0.map fun b => (b.1, fold b.2))

/-- The call returns a lattice on which `bonds(1)` never lists a bond that leaves the cluster. -/
def MissesCrossing (m : ℕ) (prec : ℕ) (r : Py Built) : Prop :=
  ∃ (n : ℕ) (L0 : Lat n m m), r = .ok ⟨n, m, m, L0⟩ ∧
    ∀ (order : List (Fin m → ℤ) → List (Fin m → ℤ)), (∀ l, (order l).Perm l) →
    ∀ (porder : ∀ N : ℕ, List (Fin N × Fin N) → List (Fin N × Fin N)),
      (∀ N l, (porder N l).Perm l) →
    ∀ (calls : List Call) (only fold : Bool),
    ∃ L' intra, bonds order porder prec (calls.foldl (after order porder prec) L0) 1 only fold =
      some (L', .ok (intra, some []))

end Verif.LDB
