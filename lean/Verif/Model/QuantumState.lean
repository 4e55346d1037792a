import Verif.Model.Float64
import Verif.Model.IndexTable
/-!
# Model of `HamiltonianPy/quantumoperator/quantumstate.py`
-/

namespace Verif

/-- The six rich comparisons.
Used at quantumstate.py:181-239. -/
inductive CmpOp | lt | le | eq | ne | gt | ge
  deriving DecidableEq

/-- Comparison of two Python ints.
Used at quantumstate.py:181-239. -/
def CmpOp.int (op : CmpOp) (a b : ℤ) : Bool :=
  match op with
  | .lt => decide (a < b)
  | .le => decide (a ≤ b)
  | .eq => decide (a = b)
  | .ne => decide (a ≠ b)
  | .gt => decide (a > b)
  | .ge => decide (a ≥ b)

/-- Comparison of two Python tuples of ints: the first differing position decides, otherwise the
lengths do (CPython `tuplerichcompare`; used at quantumstate.py:187-237). -/
def tupleRich (op : CmpOp) : List ℤ → List ℤ → Bool
  | a :: as, b :: bs => if a = b then tupleRich op as bs else op.int a b
  | as, bs => op.int as.length bs.length

/-- A coordinate accepted by `SiteID`: a Python `int` or `float` (constant.py:33).  numpy's
fixed-width integers and `float32`, also accepted by the code, are not modelled. -/
inductive Coord
  | int (n : ℤ)
  | flt (x : F64)
  deriving DecidableEq

/-- `int(_ZOOM * coord)` (quantumstate.py:107; bond.py:88-89). -/
def Coord.zoomInt (zoom : ℤ) : Coord → Py ℤ
  | .int n => .ok (zoom * n)
  | .flt x => do
    let z ← intToFloat zoom
    floatToInt (fmul (.fin z) x)

/-- Default value of the module global `_ZOOM` (quantumstate.py:21). -/
def defaultZoom : ℤ := 10000

/-- `set_float_point_precision` (quantumstate.py:25-48): the new value of `_ZOOM`. -/
def setFloatPointPrecision (precision : ℤ) : Py ℤ := do
  pyAssert (0 ≤ precision)
  return 10 ^ precision.toNat

/-- `SiteID` instances: `_site` and `_tuple_form` (quantumstate.py:102-107). -/
structure SiteID where
  site : List Coord
  tuple : List ℤ
  deriving DecidableEq

/-- `SiteID.__init__` (quantumstate.py:88-107) under the current `_ZOOM`.  The coordinates are
numeric by typing (line 100 cannot fail). -/
def SiteID.init (zoom : ℤ) (site : List Coord) : Py SiteID := do
  pyAssert (site.length = 1 ∨ site.length = 2 ∨ site.length = 3)
  let t ← site.mapM (Coord.zoomInt zoom)
  return ⟨site, t⟩

/-- `SiteID.__lt__ ... __ge__` between two SiteIDs (quantumstate.py:181-239). -/
def SiteID.rich (op : CmpOp) (a b : SiteID) : Bool := tupleRich op a.tuple b.tuple

/-- The tuple that is hashed by `SiteID.__hash__` (quantumstate.py:174-179). -/
def SiteID.hashKey (a : SiteID) : List ℤ := a.tuple

/-- `StateID` instances (quantumstate.py:301-325): `_tuple_form` is `(site tuple, spin, orbit)`. -/
structure StateID where
  site : List Coord
  spin : ℕ
  orbit : ℕ
  siteTuple : List ℤ
  deriving DecidableEq

/-- `StateID.__init__` (quantumstate.py:301-325). -/
def StateID.init (zoom : ℤ) (site : List Coord) (spin : ℤ := 0) (orbit : ℤ := 0) : Py StateID := do
  pyAssert (0 ≤ spin)
  pyAssert (0 ≤ orbit)
  let s ← SiteID.init zoom site
  return ⟨s.site, spin.toNat, orbit.toNat, s.tuple⟩

/-- `StateID` comparisons: the inherited methods on `(site tuple, spin, orbit)`
(quantumstate.py:181-239, 325). -/
def StateID.rich (op : CmpOp) (a b : StateID) : Bool :=
  if a.siteTuple ≠ b.siteTuple then tupleRich op a.siteTuple b.siteTuple
  else if a.spin ≠ b.spin then op.int a.spin b.spin
  else if a.orbit ≠ b.orbit then op.int a.orbit b.orbit
  else op.int 3 3

/-- The tuple that is hashed by the inherited `__hash__` (quantumstate.py:174-179, 325). -/
def StateID.hashKey (a : StateID) : List ℤ × ℕ × ℕ := (a.siteTuple, a.spin, a.orbit)

/-- A `SiteID` or a `StateID` (the latter is a subclass, quantumstate.py:259). -/
inductive AnyID
  | site (s : SiteID)
  | state (s : StateID)

/-- Comparison of two objects of either class (quantumstate.py:181-239): same class compares
tuples; for mixed classes the `SiteID` method runs and compares an int with a tuple, so `==` is
False, `!=` is True and the order comparisons raise TypeError. -/
def AnyID.rich (op : CmpOp) : AnyID → AnyID → Py Bool
  | .site a, .site b => .ok (a.rich op b)
  | .state a, .state b => .ok (a.rich op b)
  | _, _ =>
    match op with
    | .eq => .ok false
    | .ne => .ok true
    | _ => raise .typeError

/-- `SiteID`/`StateID` objects as `IndexTable` entries: `isinstance(StateID(...), SiteID)`.
Used at indextable.py:72, 168 with quantumstate.py:174-199. -/
instance : PyObj AnyID where
  Ty := Bool   -- `false` is `SiteID`, `true` is `StateID`
  typeOf | .site _ => false | .state _ => true
  isInstance | .site _, t => !t | .state _, _ => true
  eq
    | .site a, .site b => SiteID.rich .eq a b
    | .state a, .state b => StateID.rich .eq a b
    | _, _ => false

/-- `StateID` objects as `IndexTable` entries.
Used at indextable.py:72, 168 with quantumstate.py:174-199. -/
instance : PyObj StateID where
  Ty := Unit
  typeOf _ := ()
  isInstance _ _ := true
  eq a b := StateID.rich .eq a b

/-- `SiteID` objects as `IndexTable` entries.
Used at indextable.py:72, 168 with quantumstate.py:174-199. -/
instance : PyObj SiteID where
  Ty := Unit
  typeOf _ := ()
  isInstance _ _ := true
  eq a b := SiteID.rich .eq a b

end Verif
