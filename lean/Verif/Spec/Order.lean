import Verif.Model.QuantumState
/-!
# Specification: what it means for six comparison methods to be one total order
-/

namespace Verif

/-- the state was built under the precision `zoom` -/
def StateID.BuiltUnder (zoom : ℤ) (s : StateID) : Prop :=
  ∃ site spin orbit, StateID.init zoom site spin orbit = .ok s

end Verif

namespace Verif.Spec

/-- The six rich comparisons `rich op a b` are the six faces of one total order on the objects
modulo `==`. -/
structure IsTotalOrder {α : Type _} (rich : CmpOp → α → α → Bool) : Prop where
  /-- exactly one of `a < b`, `a == b`, `a > b` -/
  trichotomy : ∀ a b,
    (rich .lt a b = true ∧ rich .eq a b = false ∧ rich .gt a b = false) ∨
    (rich .lt a b = false ∧ rich .eq a b = true ∧ rich .gt a b = false) ∨
    (rich .lt a b = false ∧ rich .eq a b = false ∧ rich .gt a b = true)
  lt_trans : ∀ a b c, rich .lt a b = true → rich .lt b c = true → rich .lt a c = true
  gt_iff : ∀ a b, rich .gt a b = rich .lt b a
  le_iff : ∀ a b, rich .le a b = (rich .lt a b || rich .eq a b)
  ge_iff : ∀ a b, rich .ge a b = (rich .gt a b || rich .eq a b)
  ne_iff : ∀ a b, rich .ne a b = !rich .eq a b
  eq_refl : ∀ a, rich .eq a a = true
  eq_symm : ∀ a b, rich .eq a b = true → rich .eq b a = true
  eq_trans : ∀ a b c, rich .eq a b = true → rich .eq b c = true → rich .eq a c = true
  /-- `==` objects compare alike with everything -/
  congr : ∀ a a' b op, rich .eq a a' = true → rich op a b = rich op a' b

end Verif.Spec
