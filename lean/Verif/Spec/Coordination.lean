import Verif.Spec.NearestBuilt
import Mathlib.Data.Set.Card
/-!
# Coordination numbers
-/

namespace Verif.LDB

open Verif.Latt

variable {m : ℕ}

/-- Every site has exactly `z` sites at distance `d`. -/
def Coordination (S : Set (Pt m)) (d : ℝ) (z : ℕ) : Prop := ∀ s ∈ S, {t | t ∈ S ∧ ndist s t = d}.ncard = z

open Classical in
/-- How many ends of the listed bonds are at the point `p`. -/
noncomputable def ends (l : List (Pt m × Pt m)) (p : Pt m) : ℕ :=
  l.countP (fun b => b.1 = p) + l.countP (fun b => b.2 = p)

/-- The call returns a lattice of `count` points on which `bonds(1)`, after any sequence of calls, lists
`z * count / 2` bonds; with periodic boundary conditions (`fold=True`) every point is `z` times an end of a
listed bond. -/
def BondsPerSite (m prec z count : ℕ) (r : Py Built) : Prop :=
  ∃ L0 : Lat count m m, r = .ok ⟨count, m, m, L0⟩ ∧
    ∀ (order : List (Fin m → ℤ) → List (Fin m → ℤ)), (∀ l, (order l).Perm l) →
    ∀ (porder : ∀ N : ℕ, List (Fin N × Fin N) → List (Fin N × Fin N)),
      (∀ N l, (porder N l).Perm l) →
    ∀ (calls : List Call) (only fold : Bool),
    ∃ L' intra inter, bonds order porder prec (calls.foldl (after order porder prec) L0) 1 only fold =
        some (L', .ok (intra, some inter)) ∧
      2 * (intra.length + inter.length) = z * count ∧
      (fold = true → ∀ i, ends (intra ++ inter) (L0.points i) = z)

end Verif.LDB
