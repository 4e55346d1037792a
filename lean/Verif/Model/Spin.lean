import Verif.Model.Particle
import Verif.Model.HilbertSpace
import Mathlib.Data.Complex.Basic
import Mathlib.Data.List.Sort
import Mathlib.Algebra.BigOperators.Group.Finset.Basic
/-!
# Model of `HamiltonianPy/quantumoperator/spinsystem.py`

Matrix entries are exact complex numbers.  A scipy csr matrix is modelled by its dimension (all
matrices here are square) and its entries; entries are meaningful for indices below the dimension.
-/

namespace Verif

/-- `SPIN_OTYPES` (constant.py:27). -/
inductive SpinOtype | x | y | z | p | m
  deriving DecidableEq

/-- The string is looked up in `SPIN_OTYPES` (constant.py:27, spinsystem.py:77). -/
def SpinOtype.ofString? : String → Option SpinOtype
  | "x" => some .x
  | "y" => some .y
  | "z" => some .z
  | "p" => some .p
  | "m" => some .m
  | _ => none

/-- A square csr matrix.
Used at spinsystem.py:430-432, 706-725. -/
structure SMat where
  dim : ℕ
  get : ℕ → ℕ → ℂ

namespace SMat

/-- `scipy.sparse.identity(d)` (used at spinsystem.py:429-432,703-725). -/
def identity (d : ℕ) : SMat := ⟨d, fun r c => if r = c then 1 else 0⟩

/-- `scipy.sparse.kron(A, B)`.
Used at spinsystem.py:430-432, 706-724. -/
def kron (A B : SMat) : SMat :=
  ⟨A.dim * B.dim, fun r c => A.get (r / B.dim) (c / B.dim) * B.get (r % B.dim) (c % B.dim)⟩

/-- `c * A` for a number `c`.
Used at spinsystem.py:700-730. -/
def smul (c : ℂ) (A : SMat) : SMat := ⟨A.dim, fun r s => c * A.get r s⟩

/-- `A.dot(B)`; scipy raises ValueError when the dimensions differ.
Used at spinsystem.py:725. -/
def dot (A B : SMat) : Py SMat :=
  if A.dim = B.dim then
    .ok ⟨A.dim, fun r c => ∑ k ∈ Finset.range A.dim, A.get r k * B.get k c⟩
  else raise .valueError

end SMat

/-- `SPIN_MATRICES` (constant.py:51-62); index 0 is spin up. -/
noncomputable def spinMatrix : SpinOtype → SMat
  | .x => ⟨2, fun r c => match r, c with
    | 0, 1 => 1 / 2
    | 1, 0 => 1 / 2
    | _, _ => 0⟩
  | .y => ⟨2, fun r c => match r, c with
    | 0, 1 => -(1 / 2) * Complex.I
    | 1, 0 => 1 / 2 * Complex.I
    | _, _ => 0⟩
  | .z => ⟨2, fun r c => match r, c with
    | 0, 0 => 1 / 2
    | 1, 1 => -(1 / 2)
    | _, _ => 0⟩
  | .p => ⟨2, fun r c => match r, c with
    | 0, 1 => 1
    | _, _ => 0⟩
  | .m => ⟨2, fun r c => match r, c with
    | 1, 0 => 1
    | _, _ => 0⟩

/-- `1 << k` (spinsystem.py:429-431,...): ValueError for a negative count. -/
def shl1 (k : ℤ) : Py ℕ := if k < 0 then raise .valueError else .ok (1 <<< k.toNat)

/-- `sorted(l, key=key)` for a stable sort by `key` (`lt` is the `<` of the keys): an element is
placed before the later ones whose key is not smaller.
Used at spinsystem.py:510, 696. -/
def pySorted {α κ : Type _} (lt : κ → κ → Bool) (key : α → κ) (l : List α) : List α :=
  l.insertionSort (fun a b => lt (key b) (key a) = false)

/-- `SpinOperator` instances (spinsystem.py:79-84); `_tuple_form` is `(otype, site tuple)` and is
recomputed where used. -/
structure SpinOperator where
  otype : SpinOtype
  siteId : SiteID
  deriving DecidableEq

namespace SpinOperator

/-- `SpinOperator.__init__` (spinsystem.py:62-84). -/
def init (zoom : ℤ) (otype : String) (site : List Coord) : Py SpinOperator :=
  match SpinOtype.ofString? otype with
  | none => raise .assertionError
  | some o => do
    let s ← SiteID.init zoom site
    return ⟨o, s⟩

/-- `SpinOperator.derive` (spinsystem.py:360-377); `none` is Python's `None`. -/
def derive (zoom : ℤ) (s : SpinOperator) (otype : Option SpinOtype := none)
    (site : Option (List Coord) := none) : Py SpinOperator := do
  let id ← SiteID.init zoom (site.getD s.siteId.site)
  return ⟨otype.getD s.otype, id⟩

/-- `SpinOperator.dagger` (spinsystem.py:323-334). -/
def dagger (zoom : ℤ) (s : SpinOperator) : Py SpinOperator :=
  match s.otype with
  | .p => s.derive zoom (otype := some .m)
  | .m => s.derive zoom (otype := some .p)
  | _ => .ok s

/-- `SpinOperator.__eq__` (spinsystem.py:230-238). -/
def eq (a b : SpinOperator) : Bool := decide (a.otype = b.otype ∧ a.siteId.tuple = b.siteId.tuple)

/-- `SpinOperator.conjugate_of` (spinsystem.py:336-346); the argument is a SpinOperator. -/
def conjugateOf (zoom : ℤ) (a b : SpinOperator) : Py Bool := do
  let d ← a.dagger zoom
  return d.eq b

/-- `SpinOperator.same_site` (spinsystem.py:348-358). -/
def sameSite (a b : SpinOperator) : Bool := a.siteId.rich .eq b.siteId

/-- `SpinOperator.matrix_function` (spinsystem.py:399-432). -/
noncomputable def matrixFunction (op : ℤ × SpinOtype) (totalSpin : ℤ) : Py SMat := do
  let d0 ← shl1 op.1
  let res := SMat.kron (spinMatrix op.2) (SMat.identity d0)
  let d1 ← shl1 (totalSpin - op.1 - 1)
  return SMat.kron (SMat.identity d1) res

/-- `SpinOperator.matrix_repr` (spinsystem.py:434-458). -/
noncomputable def matrixRepr (s : SpinOperator) (table : IndexTable SiteID) : Py SMat := do
  let i ← table.queryIndex s.siteId
  matrixFunction (i, s.otype) table.len

end SpinOperator

/-- `SpinInteraction` instances (spinsystem.py:509-513). -/
structure SpinInteraction where
  operators : List SpinOperator
  coeff : ℂ

/-- Factors of a product: spin operators, interactions, numbers, anything else.
Used at spinsystem.py:280-306, 605-643. -/
inductive SVal
  | op (s : SpinOperator)
  | inter (t : SpinInteraction)
  | num (c : ℂ)
  | other

namespace SpinInteraction

/-- `SpinInteraction.__init__` (spinsystem.py:490-513); the coefficient is a number by typing. -/
def init (operators : List SpinOperator) (coeff : ℂ := 1) : SpinInteraction :=
  ⟨pySorted (SiteID.rich .lt) SpinOperator.siteId operators, coeff⟩

/-- `SpinInteraction.__mul__` (spinsystem.py:605-625); `none` is `NotImplemented`. -/
def mul (t : SpinInteraction) : SVal → Option SpinInteraction
  | .inter u => some (init (t.operators ++ u.operators) (t.coeff * u.coeff))
  | .op s => some (init (t.operators ++ [s]) t.coeff)
  | .num c => some (init t.operators (t.coeff * c))
  | .other => none

/-- `SpinInteraction.__rmul__` (spinsystem.py:627-644): `other * self`. -/
def rmul (t : SpinInteraction) : SVal → Option SpinInteraction
  | .op s => some (init (s :: t.operators) t.coeff)
  | .num c => some (init t.operators (c * t.coeff))
  | _ => none

/-- `SpinInteraction.dagger` (spinsystem.py:646-652). -/
def dagger (zoom : ℤ) (t : SpinInteraction) : Py SpinInteraction := do
  let ops ← t.operators.reverse.mapM (SpinOperator.dagger zoom)
  return init ops ((starRingEnd ℂ) t.coeff)

/-- The loop `for index, otype in operators: ... res = res.dot(tmp)` (spinsystem.py:717-725). -/
noncomputable def dotLoop (totalSpin : ℤ) : List (ℤ × SpinOtype) → SMat → Py SMat
  | [], res => .ok res
  | p :: ops, res => do
    let d0 ← shl1 p.1
    let tmp := SMat.kron (spinMatrix p.2) (SMat.identity d0)
    let d1 ← shl1 (totalSpin - p.1 - 1)
    let tmp := SMat.kron (SMat.identity d1) tmp
    let res ← res.dot tmp
    dotLoop totalSpin ops res

/-- The two-operator branch (spinsystem.py:695-712), `i > j`. -/
noncomputable def twoSpin (i : ℤ) (alpha : SpinOtype) (j : ℤ) (beta : SpinOtype) (totalSpin : ℤ)
    (coeff : ℂ) : Py SMat := do
  let Si := SMat.smul coeff (spinMatrix alpha)
  let Sj := spinMatrix beta
  let dim0 ← shl1 j
  let dim1 ← shl1 (i - j - 1)
  let dim2 ← shl1 (totalSpin - i - 1)
  let res := if dim1 = 1 then SMat.kron Si Sj
    else SMat.kron Si (SMat.kron (SMat.identity dim1) Sj)
  let res := if dim0 ≠ 1 then SMat.kron res (SMat.identity dim0) else res
  let res := if dim2 ≠ 1 then SMat.kron (SMat.identity dim2) res else res
  return res

/-- The part after sorting (spinsystem.py:694-726). -/
noncomputable def sortedMatrix (ops : List (ℤ × SpinOtype)) (totalSpin : ℤ) (coeff : ℂ) :
    Py SMat :=
  match ops with
  | [(i, alpha), (j, beta)] =>
    if i > j then twoSpin i alpha j beta totalSpin coeff
    else do
      let d ← shl1 totalSpin
      dotLoop totalSpin ops (SMat.smul coeff (SMat.identity d))
  | _ => do
    let d ← shl1 totalSpin
    dotLoop totalSpin ops (SMat.smul coeff (SMat.identity d))

/-- `SpinInteraction.matrix_function` (spinsystem.py:668-726): `sorted(..., reverse=True)` is also
stable. -/
noncomputable def matrixFunction (operators : List (ℤ × SpinOtype)) (totalSpin : ℤ)
    (coeff : ℂ := 1) : Py SMat := do
  pyAssert (decide (totalSpin > 0))
  sortedMatrix (pySorted (fun a b => decide (a > b)) Prod.fst operators) totalSpin coeff

/-- The list built at spinsystem.py:750-754. -/
def indexed (t : SpinInteraction) (table : IndexTable SiteID) : Py (List (ℤ × SpinOtype)) :=
  t.operators.mapM (fun s => do let i ← table.queryIndex s.siteId; return (i, s.otype))

/-- The `coeff` setter (spinsystem.py:523-526): the new state of the object and the outcome. -/
def setCoeff (t : SpinInteraction) : CoeffArg → SpinInteraction × Py Unit
  | .num c => ({ t with coeff := c }, .ok ())
  | .other => (t, raise .assertionError)

/-- `SpinInteraction.matrix_repr` (spinsystem.py:728-755); a given coefficient is stored in the
instance first, so the updated object is returned as well. -/
noncomputable def matrixRepr (t : SpinInteraction) (table : IndexTable SiteID)
    (coeff : Option CoeffArg := none) : SpinInteraction × Py SMat :=
  let upd : SpinInteraction × Py Unit := match coeff with
    | some c => t.setCoeff c
    | none => (t, .ok ())
  (upd.1, do
    upd.2
    let ops ← upd.1.indexed table
    matrixFunction ops table.len upd.1.coeff)

end SpinInteraction

/-- `SpinOperator.__mul__` (spinsystem.py:280-293). -/
def SpinOperator.mul (s : SpinOperator) : SVal → Option SpinInteraction
  | .op u => some (SpinInteraction.init [s, u] 1)
  | .num c => some (SpinInteraction.init [s] c)
  | _ => none

/-- `SpinOperator.__rmul__` (spinsystem.py:295-306). -/
def SpinOperator.rmul (s : SpinOperator) : SVal → Option SpinInteraction
  | .num c => some (SpinInteraction.init [s] c)
  | _ => none

/-- The Python expression `x * y`: `type(x).__mul__`, then `type(y).__rmul__`, else TypeError.
Used at spinsystem.py:280-306, 605-643. -/
def spinMul (x y : SVal) : Py SVal :=
  let left : Option SVal :=
    match x with
    | .op a => (a.mul y).map .inter
    | .inter t => (t.mul y).map .inter
    | .num c => match y with | .num d => some (.num (c * d)) | _ => none
    | .other => none
  match left with
  | some v => .ok v
  | none =>
    let right : Option SVal :=
      match y with
      | .op a => (a.rmul x).map .inter
      | .inter t => (t.rmul x).map .inter
      | _ => none
    match right with
    | some v => .ok v
    | none => raise .typeError

/-! ### Schwinger fermions -/

open Classical in
/-- `SpinOperator.Schwinger` (spinsystem.py:379-397): one two-operator term for every nonzero matrix
entry, row by row. -/
noncomputable def SpinOperator.schwinger (zoom : ℤ) (s : SpinOperator) : Py (List ParticleTerm) := do
  let cUp ← AoC.init zoom 1 s.siteId.site 1
  let cDown ← AoC.init zoom 1 s.siteId.site 0
  let aUp ← AoC.init zoom 0 s.siteId.site 1
  let aDown ← AoC.init zoom 0 s.siteId.site 0
  let M := spinMatrix s.otype
  return [(0, cUp), (1, cDown)].flatMap fun row =>
    [(0, aUp), (1, aDown)].flatMap fun col =>
      if M.get row.1 col.1 ≠ 0 then [⟨[row.2, col.2], M.get row.1 col.1, .general⟩] else []

/-- The inner loop of `SpinInteraction.Schwinger` (spinsystem.py:661-665). -/
def schwingerProduct (zoom : ℤ) (coeff : ℂ) (term : List ParticleTerm) : Py PVal :=
  term.foldlM (fun res sub => pyMul zoom res (.term sub)) (.num coeff)

/-- `SpinInteraction.Schwinger` (spinsystem.py:654-666).  For an interaction without operators the
result is the bare coefficient. -/
noncomputable def SpinInteraction.schwinger (zoom : ℤ) (t : SpinInteraction) : Py (List PVal) := do
  let reprs ← t.operators.mapM (SpinOperator.schwinger zoom)
  (cartProduct reprs).mapM (schwingerProduct zoom t.coeff)

end Verif
