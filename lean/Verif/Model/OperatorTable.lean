import Verif.Model.Spin
/-!
# Model of the comparison and index methods of the operator classes

`SpinOperator.__lt__ ... __ge__` (spinsystem.py:206-278), and `getIndex` / `getStateIndex` /
`getSiteIndex` of all the classes (quantumstate.py:241-256; particlesystem.py:157-200,606-650;
spinsystem.py:118-161).
-/

namespace Verif

/-- The string stored in `_otype` (spinsystem.py:80), as its character. -/
def SpinOtype.char : SpinOtype → Char
  | .x => 'x'
  | .y => 'y'
  | .z => 'z'
  | .p => 'p'
  | .m => 'm'

/-- Comparison of two one-character Python strings: the code points decide (the strings of
`SPIN_OTYPES`, constant.py:27, all have length 1). -/
def CmpOp.char (op : CmpOp) (a b : Char) : Bool := op.int a.toNat b.toNat

/-- `SpinOperator.__lt__ ... __ge__` between two SpinOperators (spinsystem.py:213-278): comparison
of the tuples `(otype, site tuple)` of spinsystem.py:84. -/
def SpinOperator.rich (op : CmpOp) (a b : SpinOperator) : Bool :=
  if a.otype.char ≠ b.otype.char then op.char a.otype.char b.otype.char
  else if a.siteId.tuple ≠ b.siteId.tuple then tupleRich op a.siteId.tuple b.siteId.tuple
  else op.int 2 2

/-- The tuple that is hashed by `SpinOperator.__hash__` (spinsystem.py:206-211). -/
def SpinOperator.hashKey (a : SpinOperator) : Char × List ℤ := (a.otype.char, a.siteId.tuple)

/-- An instance of one of the five classes that can be looked up in an `IndexTable`.
Used at indextable.py:61-90, 168. -/
inductive AnyObj
  | site (s : SiteID)
  | state (s : StateID)
  | aoc (a : AoC)
  | number (n : NumberOperator)
  | spin (s : SpinOperator)

/-- The five classes.
Used at indextable.py:61-90, 168. -/
inductive AnyCls | site | state | aoc | number | spin
  deriving DecidableEq

/-- `type(obj)`.
Used at indextable.py:61-90. -/
def AnyObj.cls : AnyObj → AnyCls
  | .site _ => .site
  | .state _ => .state
  | .aoc _ => .aoc
  | .number _ => .number
  | .spin _ => .spin

/-- `issubclass`: `StateID` is a subclass of `SiteID` (quantumstate.py:259), the others are
unrelated. -/
def AnyCls.sub (c d : AnyCls) : Bool := decide (c = d) || (decide (c = .state) && decide (d = .site))

/-- `==` between two objects (quantumstate.py:193-203; particlesystem.py:322-330,714-722;
spinsystem.py:230-238).  Between different classes it is False: `SiteID.__eq__` compares an int with
a tuple, and the other classes return `NotImplemented` on both sides, which falls back to identity. -/
def AnyObj.eq : AnyObj → AnyObj → Bool
  | .site a, .site b => a.rich .eq b
  | .state a, .state b => a.rich .eq b
  | .aoc a, .aoc b => AoC.eq a b
  | .number a, .number b => a.rich .eq b
  | .spin a, .spin b => a.rich .eq b
  | _, _ => false

/-- These objects as `IndexTable` entries.
Used at indextable.py:72, 168. -/
instance : PyObj AnyObj where
  Ty := AnyCls
  typeOf := AnyObj.cls
  isInstance o c := o.cls.sub c
  eq := AnyObj.eq

/-- `getIndex(indices_table)` of `SiteID`, `StateID` (quantumstate.py:241-256), `AoC`
(particlesystem.py:157-175), `NumberOperator` (particlesystem.py:606-625) and `SpinOperator`
(spinsystem.py:118-137): the table is called with the object. -/
def AnyObj.getIndex (o : AnyObj) (table : IndexTable AnyObj) : Py Int := table.queryIndex o

/-- `AoC.getStateIndex` (particlesystem.py:177-200). -/
def AoC.getStateIndex (a : AoC) (table : IndexTable AnyObj) : Py Int := table.queryIndex (.state a.state)

/-- `NumberOperator.getStateIndex` (particlesystem.py:627-650). -/
def NumberOperator.getStateIndex (n : NumberOperator) (table : IndexTable AnyObj) : Py Int :=
  table.queryIndex (.state n.state)

/-- `SpinOperator.getSiteIndex` (spinsystem.py:139-161). -/
def SpinOperator.getSiteIndex (s : SpinOperator) (table : IndexTable AnyObj) : Py Int :=
  table.queryIndex (.site s.siteId)

end Verif
