import Verif.Model.OperatorTable
/-!
# Model of the textual forms `__repr__`, `__str__` and `tolatex`

quantumstate.py:125-172,343-415; particlesystem.py:202-235,652-680,991-1066;
spinsystem.py:163-191,535-576.

A Python `str` is a list of characters.  The text of a `float` (CPython's shortest round-trip
representation) is a parameter `ft`; the text of a coefficient is a parameter of the methods of the
two term classes, because it depends on the numeric type of the coefficient, which the model of
the terms does not keep.
-/

namespace Verif

/-- A Python `str`.
Used at quantumstate.py:125-172. -/
abbrev Txt := List Char

/-- `str(n)` of a non-negative int.
Used at quantumstate.py:349, 399-412. -/
def decNat (n : ℕ) : Txt := Nat.toDigits 10 n

/-- `str(n)`, `repr(n)` of an int.
Used at quantumstate.py:130, 164-170, 349. -/
def decInt (n : ℤ) : Txt := if n < 0 then '-' :: decNat n.natAbs else decNat n.natAbs

/-- `repr(x)`, `str(x)` of a coordinate.
Used at quantumstate.py:130, 349. -/
def Coord.text (ft : F64 → Txt) : Coord → Txt
  | .int n => decInt n
  | .flt x => ft x

/-- `sep.join(parts)`.
Used at quantumstate.py:169, 410-412. -/
def pyJoin (sep : Txt) : List Txt → Txt
  | [] => []
  | [a] => a
  | a :: b :: l => a ++ sep ++ pyJoin sep (b :: l)

/-- `repr` of a tuple of numbers: `(a,)`, `(a, b)`, `(a, b, c)`.
Used at quantumstate.py:130, 349. -/
def tupleText (ft : F64 → Txt) (site : List Coord) : Txt :=
  match site with
  | [a] => "(".toList ++ a.text ft ++ ",)".toList
  | l => "(".toList ++ pyJoin ", ".toList (l.map (Coord.text ft)) ++ ")".toList

/-- `s.replace("$", "")`.
Used at quantumstate.py:399-412. -/
def dropDollar (s : Txt) : Txt := s.filter (fun c => c != '$')

/-- `10 ** n` as a rational, for any int `n`.
Used at quantumstate.py:169-171. -/
def pow10 (n : ℤ) : ℚ := 10 ^ n

/-- `round(coord, ndigits=ndigits)` (used at quantumstate.py:168): on ints, the nearest multiple of
`10**(-ndigits)`, ties to even (the int itself if `ndigits >= 0`); on floats, the exact value
rounded to `ndigits` decimals (ties to even) and then to the nearest double, OverflowError if that
is infinite. -/
def pyRound (c : Coord) (ndigits : ℤ) : Py Coord :=
  match c with
  | .int n =>
    if 0 ≤ ndigits then .ok (.int n)
    else .ok (.int (roundHalfEven (n / pow10 (-ndigits)) * 10 ^ (-ndigits).toNat))
  | .flt (.fin q) =>
    match fl (roundHalfEven (q * pow10 ndigits) / pow10 ndigits) with
    | .fin r => .ok (.flt (.fin r))
    | _ => raise .overflowError
  | .flt x => .ok (.flt x)

/-- The `site_index` argument of `tolatex` (quantumstate.py:134-149): an int, an `IndexTable`, or
anything else (documented: None). -/
inductive SiteIndex
  | none
  | int (i : ℤ)
  | table (t : IndexTable AnyObj)

/-- `SiteID.__repr__` (quantumstate.py:125-132). -/
def SiteID.repr (ft : F64 → Txt) (s : SiteID) : Txt :=
  "SiteID(site=".toList ++ tupleText ft s.site ++ ")".toList

/-- `SiteID.tolatex` (quantumstate.py:134-172). -/
def SiteID.tolatex (ft : F64 → Txt) (s : SiteID) (siteIndex : SiteIndex) (ndigits : ℤ := 4) : Py Txt :=
  match siteIndex with
  | .int i => .ok (decInt i)
  | .table t => do
    let i ← t.queryIndex (.site s)
    return decInt i
  | .none => do
    let l ← s.site.mapM (fun c => pyRound c ndigits)
    return "(".toList ++ pyJoin ",".toList (l.map (Coord.text ft)) ++ ")".toList

/-- `StateID.__repr__` (quantumstate.py:343-351). -/
def StateID.repr (ft : F64 → Txt) (s : StateID) : Txt :=
  "StateID(site=".toList ++ tupleText ft s.site ++ ", spin=".toList ++ decNat s.spin ++
    ", orbit=".toList ++ decNat s.orbit ++ ")".toList

/-- The arrow or number that shows the spin (quantumstate.py:399-406); `SPIN_DOWN = 0`,
`SPIN_UP = 1` (constant.py:23-24). -/
def spinText (spinOneHalf : Bool) (spin : ℕ) : Txt :=
  if spinOneHalf && (decide (spin = 0) || decide (spin = 1)) then
    if spin = 0 then "$\\downarrow$".toList else "$\\uparrow$".toList
  else decNat spin

/-- The keyword arguments of `StateID.tolatex` except `site_index` (quantumstate.py:353-356). -/
structure LatexOpts where
  ndigits : ℤ := 4
  spinOneHalf : Bool := true
  suppressOrbit : Bool := true

/-- `StateID.tolatex` (quantumstate.py:353-415): a new `SiteID` is made from the coordinates with the
current `_ZOOM` (line 395). -/
def StateID.tolatex (ft : F64 → Txt) (zoom : ℤ) (s : StateID) (siteIndex : SiteIndex)
    (o : LatexOpts) : Py Txt := do
  let id ← SiteID.init zoom s.site
  let site ← id.tolatex ft siteIndex o.ndigits
  if o.suppressOrbit then
    return pyJoin ",".toList [site, spinText o.spinOneHalf s.spin]
  else
    return pyJoin ",".toList [site, spinText o.spinOneHalf s.spin, decNat s.orbit]

/-- `AoC.__repr__` (particlesystem.py:202-211). -/
def AoC.repr (ft : F64 → Txt) (a : AoC) : Txt :=
  let otype := match a.otype with
    | .creation => "CREATION".toList
    | .annihilation => "ANNIHILATION".toList
  "AoC(otype=".toList ++ otype ++ ", site=".toList ++ tupleText ft a.state.site ++
    ", spin=".toList ++ decNat a.state.spin ++ ", orbit=".toList ++ decNat a.state.orbit ++ ")".toList

/-- `AoC.tolatex` (particlesystem.py:213-235). -/
def AoC.tolatex (ft : F64 → Txt) (zoom : ℤ) (a : AoC) (siteIndex : SiteIndex) (o : LatexOpts) :
    Py Txt := do
  let s ← a.state.tolatex ft zoom siteIndex o
  let subscript := dropDollar s
  match a.otype with
  | .creation => return "$c_{".toList ++ subscript ++ "}^{\\dagger}$".toList
  | .annihilation => return "$c_{".toList ++ subscript ++ "}$".toList

/-- `NumberOperator.__repr__` (particlesystem.py:652-660). -/
def NumberOperator.repr (ft : F64 → Txt) (n : NumberOperator) : Txt :=
  "NumberOperator(site=".toList ++ tupleText ft n.state.site ++
    ", spin=".toList ++ decNat n.state.spin ++ ", orbit=".toList ++ decNat n.state.orbit ++ ")".toList

/-- `NumberOperator.tolatex` (particlesystem.py:662-680). -/
def NumberOperator.tolatex (ft : F64 → Txt) (zoom : ℤ) (n : NumberOperator) (siteIndex : SiteIndex)
    (o : LatexOpts) : Py Txt := do
  let s ← n.state.tolatex ft zoom siteIndex o
  return "$n_{".toList ++ dropDollar s ++ "}$".toList

/-- `SpinOperator.__repr__` (spinsystem.py:163-171). -/
def SpinOperator.repr (ft : F64 → Txt) (s : SpinOperator) : Txt :=
  "SpinOperator(otype=\"".toList ++ [s.otype.char] ++ "\", site=".toList ++
    tupleText ft s.siteId.site ++ ")".toList

/-- `SpinOperator.tolatex` (spinsystem.py:173-191). -/
def SpinOperator.tolatex (ft : F64 → Txt) (s : SpinOperator) (siteIndex : SiteIndex)
    (ndigits : ℤ := 4) : Py Txt := do
  let subscript ← s.siteId.tolatex ft siteIndex ndigits
  return "$S_{".toList ++ subscript ++ "}^{".toList ++ [s.otype.char] ++ "}$".toList

/-- `__repr__` of the five classes.
Used at quantumstate.py:125-132, 343-351, particlesystem.py:202-211, 652-660, spinsystem.py:163-171. -/
def AnyObj.repr (ft : F64 → Txt) : AnyObj → Txt
  | .site s => s.repr ft
  | .state s => s.repr ft
  | .aoc a => a.repr ft
  | .number n => n.repr ft
  | .spin s => s.repr ft

/-- `ParticleTerm.__str__` (particlesystem.py:991-1002), `coeff` is `str(self._coeff)`. -/
def ParticleTerm.str (ft : F64 → Txt) (t : ParticleTerm) (coeff : Txt) : Txt :=
  pyJoin "\n".toList (("The coefficient of this term: ".toList ++ coeff) ::
    "The component operators:".toList :: t.aocs.map (fun a => "    ".toList ++ a.repr ft))

/-- The site-index argument made from `indices_table` (particlesystem.py:1062, spinsystem.py:572). -/
def siteIndexOf : Option (IndexTable AnyObj) → SiteIndex
  | none => .none
  | some t => .table t

/-- `ParticleTerm.tolatex` (particlesystem.py:1038-1066), `coeff` is `str(self._coeff)`. -/
def ParticleTerm.tolatex (ft : F64 → Txt) (zoom : ℤ) (t : ParticleTerm) (coeff : Txt)
    (table : Option (IndexTable AnyObj)) (o : LatexOpts) : Py Txt := do
  let l ← t.aocs.mapM (fun a => do
    let s ← a.tolatex ft zoom (siteIndexOf table) o
    return dropDollar s)
  return "$".toList ++ coeff ++ l.flatten ++ "$".toList

/-- `SpinInteraction.__str__` (spinsystem.py:535-547), `coeff` is `str(self._coeff)`. -/
def SpinInteraction.str (ft : F64 → Txt) (t : SpinInteraction) (coeff : Txt) : Txt :=
  pyJoin "\n".toList (("The coefficient of this term: ".toList ++ coeff) ::
    "The component operators:".toList :: t.operators.map (fun a => "    ".toList ++ a.repr ft))

/-- `SpinInteraction.tolatex` (spinsystem.py:549-576), `coeff` is `str(self._coeff)`. -/
def SpinInteraction.tolatex (ft : F64 → Txt) (t : SpinInteraction) (coeff : Txt)
    (table : Option (IndexTable AnyObj)) (ndigits : ℤ := 4) : Py Txt := do
  let l ← t.operators.mapM (fun a => do
    let s ← a.tolatex ft (siteIndexOf table) ndigits
    return dropDollar s)
  return "$".toList ++ coeff ++ l.flatten ++ "$".toList

end Verif
