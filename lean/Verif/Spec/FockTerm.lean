import Verif.Spec.Fock
import Verif.Model.Particle
/-!
# Specification: the Fock-space operator of a product of creation/annihilation operators
-/

namespace Verif.Spec

/-- `c_i^dagger` or `c_i`. -/
noncomputable def fockOp : Otype → ℕ → Module.End ℂ Fock
  | .creation, i => create i
  | .annihilation, i => annihilate i

/-- The operator product, in reading order, of the listed `(state index, type)` operators. -/
noncomputable def fockProduct (l : List (ℕ × Otype)) : Module.End ℂ Fock :=
  (l.map (fun p => fockOp p.2 p.1)).prod

/-- The same for the `(index, otype)` lists handed to `matrix_function` (indices are non-negative
whenever it returns). -/
noncomputable def termOperator (l : List (ℤ × Otype)) : Module.End ℂ Fock :=
  fockProduct (l.map (fun p => (p.1.toNat, p.2)))

end Verif.Spec
