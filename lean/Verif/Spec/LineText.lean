import Verif.Model.Text
import Mathlib.Data.Real.Basic
/-!
# Reading decimal numbers

Independent of the model of the formatting: what number a text denotes, and when a text is the equation of
a line.
-/

namespace Verif.Spec

/-- The natural number written with these digits. -/
def digitsValue (t : Txt) : ℕ := t.foldl (fun v c => 10 * v + (c.toNat - '0'.toNat)) 0

/-- The text is an optional minus sign, digits, a point and four digits, and denotes the number `v`. -/
def Writes (t : Txt) (v : ℝ) : Prop :=
  ∃ (neg : Bool) (ip fp : Txt), ip ≠ [] ∧ (∀ c ∈ ip, c.isDigit = true) ∧ (∀ c ∈ fp, c.isDigit = true) ∧
    fp.length = 4 ∧ t = (if neg then ['-'] else []) ++ ip ++ '.' :: fp ∧
    v = (if neg then -1 else 1) * (digitsValue ip + digitsValue fp / 10000)

/-- The text is the equation `y = b`. -/
def SaysHorizontal (t : Txt) (b : ℝ) : Prop := ∃ tb, t = "y = ".toList ++ tb ∧ Writes tb b

/-- The text is the equation `x = b`. -/
def SaysVertical (t : Txt) (b : ℝ) : Prop := ∃ tb, t = "x = ".toList ++ tb ∧ Writes tb b

/-- The text is the equation `y = a x + b`. -/
def SaysSloped (t : Txt) (a b : ℝ) : Prop :=
  ∃ ta tb, t = "y = ".toList ++ ta ++ "x + ".toList ++ tb ∧ Writes ta a ∧ Writes tb b

end Verif.Spec
