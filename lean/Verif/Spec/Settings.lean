import Verif.Model.Settings
/-!
# What the setters should do
-/

namespace Verif.Sett

/-- The setting of a module as a number: how many units make one (bonds, lattices, sites), or the threshold
(rotations, Lanczos). -/
noncomputable def reading (s : Settings) : Module → ℝ
  | .bond => s.bondZoom
  | .lattice => 10 ^ s.latPrec
  | .states => s.stateZoom
  | .rotation => s.rotZero
  | .lanczos => s.lanZero

/-- The setting of a module before any call, and after a call without argument. -/
noncomputable def default : Module → ℝ
  | .bond | .lattice | .states => 10000
  | .rotation => 1 / 10 ^ 10
  | .lanczos => 1 / 10 ^ 4

/-- The setting that a call of the setter of a module asks for; `none` if the argument is not allowed.  The
precisions are non-negative integers (`True` and `False` count as 1 and 0), the thresholds non-negative
floats. -/
noncomputable def asked : Module → Option Val → Option ℝ
  | md, none => some (default md)
  | .bond, some (.int n) | .lattice, some (.int n) | .states, some (.int n) =>
    if 0 ≤ n then some ((10 : ℝ) ^ n) else none
  | .bond, some (.bool b) | .lattice, some (.bool b) | .states, some (.bool b) =>
    some (if b then 10 else 1)
  | .rotation, some (.float x) | .lanczos, some (.float x) => if 0 ≤ x then some x else none
  | _, _ => none

/-- The module whose setting a command depends on. -/
def Cmd.reads : Cmd → Option Module
  | .newBond .. | .flip .. | .oppositeTo .. => some .bond
  | .newSite .. => some .states
  | .newLattice .. | .neighborDistance .. | .bonds .. | .decompose .. => some .lattice
  | .rotationGeneral .. => some .rotation
  | .krylov .. => some .lanczos
  | .set .. | .bondEq .. | .siteEq .. => none

/-- The command is a call of a setter. -/
def Cmd.isSet : Cmd → Prop
  | .set .. => True
  | _ => False

end Verif.Sett
