import Verif.Model.Text
import Verif.Model.HilbertSpace
import Verif.Model.Bond
import Verif.Model.ColorPrint
/-!
# Model of the printed forms of spaces, bonds and index tables, and of `color_demo`

hilbertspace.py:247-268,413-435; bond.py:287-295; indextable.py:101-113; colorprint.py:258-287.

Texts are lists of characters; `ft` is `repr(float)` as in `Model/Text`.  A particle number is an int or a
float (the text of a `bool` is not modelled).  The entries of numpy arrays are printed like Python numbers
(numpy before 2.0).
-/

namespace Verif

/-- `repr`, `str` of a tuple of non-negative ints.
Used at hilbertspace.py:247-268. -/
def statesText (states : List ℕ) : Txt := tupleText (fun _ => []) (states.map fun n : ℕ => Coord.int n)

/-- `SimpleHilbertSpace.__repr__` (hilbertspace.py:247-254). -/
def SimpleHilbertSpace.repr (h : SimpleHilbertSpace) : Txt :=
  "SimpleHilbertSpace(".toList ++ statesText h.states ++ ", ".toList ++ decInt h.number ++ ")".toList

/-- `SimpleHilbertSpace.__str__` (hilbertspace.py:256-268); `state_number` is `len(states)`
(hilbertspace.py:210,218). -/
def SimpleHilbertSpace.str (h : SimpleHilbertSpace) : Txt :=
  pyJoin "\n".toList
    ["The number of particle: ".toList ++ decInt h.number,
     "The number of single-particle state: ".toList ++ decNat h.states.length,
     "All available single-particle states:".toList,
     "    ".toList ++ statesText h.states]

/-- `repr`, `str` of a particle number.
Used at hilbertspace.py:413-435. -/
def HNum.text (ft : F64 → Txt) : HNum → Txt
  | .int n => decInt n
  | .float q => ft (.fin q)

/-- `repr`, `str` of a subspace specifier in standard form: a pair of a tuple and a number.
Used at hilbertspace.py:413-435. -/
def specifierText (ft : F64 → Txt) (s : List ℕ × HNum) : Txt :=
  "(".toList ++ statesText s.1 ++ ", ".toList ++ s.2.text ft ++ ")".toList

/-- `HilbertSpace.__repr__` (hilbertspace.py:413-421). -/
def HilbertSpace.repr (ft : F64 → Txt) (h : HilbertSpace) : Txt :=
  "HilbertSpace(".toList ++ pyJoin ", ".toList (h.specifiers.map (specifierText ft)) ++ ")".toList

/-- `HilbertSpace.__str__` (hilbertspace.py:423-435). -/
def HilbertSpace.str (ft : F64 → Txt) (h : HilbertSpace) : Txt :=
  pyJoin "\n".toList
    (("subspace number: ".toList ++ decNat h.specifiers.length) :: "subspace specifiers:".toList ::
      h.specifiers.map fun s => "    ".toList ++ specifierText ft s)

/-- the entries of an array as Python numbers: `tuple(p)` (bond.py:294) -/
def NpVec.entries : NpVec → List Coord
  | .i64 l => l.map Coord.int
  | .f64 l => l.map Coord.flt

/-- `Bond.__repr__` (bond.py:287-295). -/
def Bond.repr (ft : F64 → Txt) (b : Bond) : Txt :=
  "Bond(p0=".toList ++ tupleText ft b.p0.entries ++ ", p1=".toList ++ tupleText ft b.p1.entries ++
    ", directional=".toList ++ (if b.directional then "True".toList else "False".toList) ++ ")".toList

/-- `"{0:<n}"`: pad with spaces on the right up to `n` characters.
Used at indextable.py:109. -/
def padRight (n : ℕ) (t : Txt) : Txt := t ++ List.replicate (n - t.length) ' '

/-- `"{0:>n}"`: pad with spaces on the left up to `n` characters.
Used at colorprint.py:277-285. -/
def padLeft (n : ℕ) (t : Txt) : Txt := List.replicate (n - t.length) ' ' ++ t

/-- `IndexTable.__str__` (indextable.py:101-113). -/
def IndexTable.str (ft : F64 → Txt) (t : IndexTable AnyObj) : Txt :=
  pyJoin "\n".toList
    ("Index   Object".toList :: "==============".toList ::
      t.index2object.map fun p => padRight 8 (decInt p.1) ++ p.2.repr ft)

namespace Color

/-- One call of `print(prefix, end='')` and `color_print(content, fg=fg, bg=bg)` with the defaults `end="\n"`,
`bold=False`, `color_scheme=8` (colorprint.py:272-274 and the same lines of the loops). -/
def demoLine (t : PyText) (pre content : Str) (fg bg : Color) : Py Str := do
  let s ← colorPrint t [content] " ".toList "\n".toList fg bg false (.int 8)
  return pre ++ s

/-- `{0:>4d}`; `None` is written as it is.
Used at colorprint.py:272-286. -/
def demoField : Option ℕ → Str
  | none => "None".toList
  | some n => padLeft 4 (decNat n)

/-- the text `fg = .., bg = ..` (colorprint.py:274,277,282,286). -/
def demoContent (fg bg : Option ℕ) : Str :=
  "fg = ".toList ++ demoField fg ++ ", bg = ".toList ++ demoField bg

/-- the colour argument
Used at colorprint.py:272-286. -/
def demoColor : Option ℕ → Color
  | none => .other
  | some n => .int n

/-- `color_demo(with_bg, space_num)` (colorprint.py:258-287): everything that is written to the stream. -/
def colorDemo (t : PyText) (withBg : Bool := false) (spaceNum : ℤ := 0) : Py Str := do
  let pre := List.replicate spaceNum.toNat ' '
  let line := fun fg bg => demoLine t pre (demoContent fg bg) (demoColor fg) (demoColor bg)
  let l0 ← line none none
  let l1 ← (List.range 256).mapM fun fg => line (some fg) none
  if withBg then do
    let l2 ← (List.range 256).mapM fun bg => line none (some bg)
    let l3 ← ((List.range 256).flatMap fun fg => (List.range 256).map fun bg => (fg, bg)).mapM
      fun p => line (some p.1) (some p.2)
    return l0 ++ l1.flatten ++ l2.flatten ++ l3.flatten
  else return l0 ++ l1.flatten

end Color
end Verif
