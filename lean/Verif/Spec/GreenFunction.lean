import Verif.Model.GreenFunction
/-!
# What it means that a table of Green functions agrees with a single-frequency solver
-/

namespace Verif.GF

/-- `r` holds the values of `single`: the array at `[i, j, k]` for `As[i], Bs[j], omegas[k]`; the
dict has exactly the keys `(A, B)` with `A` in `As` and `B` in `Bs`, and the k-th entry of its
value is that for `omegas[k]`. -/
def Tabulates {κ : Type} (single : ℝ → κ → κ → Py ℂ) (omegas : List ℝ) (As Bs : List κ) :
    GFs κ As.length Bs.length omegas.length → Prop
  | .array G => ∀ i j k, single (omegas.get k) (As.get i) (Bs.get j) = .ok (G (i, j, k))
  | .dict D => ∀ A B, (D (A, B) ≠ none ↔ A ∈ As ∧ B ∈ Bs) ∧
      ∀ row, D (A, B) = some row → ∀ k, single (omegas.get k) A B = .ok (row k)

/-- The result is a dict (as opposed to an array). -/
def GFs.IsDict {κ : Type} {a b m : ℕ} : GFs κ a b m → Prop
  | .array _ => False
  | .dict _ => True

end Verif.GF
