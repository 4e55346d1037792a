import Verif.Model.Float64
/-!
# Double precision numbers
-/

namespace Verif

/-- A number with a significand of 53 binary digits and an exponent not below that of the smallest double. -/
def BinaryRep (r : ℚ) : Prop := ∃ m e : ℤ, |m| < 2 ^ 53 ∧ -1074 ≤ e ∧ r = m * 2 ^ e

end Verif
