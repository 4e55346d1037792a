import Verif.Model.Particle
/-!
# Model of `HamiltonianPy/quantumoperator/matrixrepr.py`

Kets are `np.uint64` values, modelled as natural numbers: the code only applies `&` and `^` with
masks below `2^64` to them, which never leaves the 64-bit range.  The jitted kernels are modelled
with the semantics of the Python source (numba's integer typing is trusted).
-/

namespace Verif

/-- A row `[index, mask, criterion]` of the `term` array (matrixrepr.py:207-214). -/
structure TermRow where
  index : ℕ
  mask : ℕ
  criterion : ℕ
  deriving DecidableEq

/-- One row of the comprehension at matrixrepr.py:208-212; `1 << index` raises ValueError for a
negative index. -/
def termRow (p : ℤ × Otype) : Py TermRow :=
  if p.1 < 0 then raise .valueError
  else .ok ⟨p.1.toNat, 1 <<< p.1.toNat, if p.2 = .creation then 0 else 1 <<< p.1.toNat⟩

/-- Building the `term` array (matrixrepr.py:207-214): conversion to `uint64` raises OverflowError
when a mask needs more than 64 bits; for an empty term the array is one-dimensional and the typed
kernel rejects it with TypeError. -/
def termArray (term : List (ℤ × Otype)) : Py (List TermRow) := do
  let rows ← term.mapM termRow
  if rows.any (fun r => decide (2 ^ 64 ≤ r.mask)) then raise .overflowError
  else if rows = [] then raise .typeError
  else return rows

/-- `for pos in range(lo, hi): if ket & (1 << pos): swap ^= 1` (matrixrepr.py:37-39, 79-81). -/
def countSwap (lo hi ket : ℕ) (swap : Bool) : Bool :=
  (List.range' lo (hi - lo)).foldl
    (fun s pos => if ket &&& (1 <<< pos) ≠ 0 then !s else s) swap

/-- The loop over `j` (matrixrepr.py:29-42), `rows` listed in the order they are applied (last
operator first); `none` is the `break`. -/
def applyRows : List TermRow → ℕ → Bool → Option (ℕ × Bool)
  | [], ket, swap => some (ket, swap)
  | r :: rows, ket, swap =>
    if ket &&& r.mask = r.criterion then
      applyRows rows (ket ^^^ r.mask) (countSwap 0 r.index ket swap)
    else none

/-- `np.searchsorted(a, v)`: leftmost binary search between `lo` and `hi` (used at
matrixrepr.py:49,84).  `fuel` bounds the number of halvings (the window length is enough), so that
the recursion is structural. -/
def searchsortedAux (a : List ℕ) (v : ℕ) : (fuel lo hi : ℕ) → ℕ
  | 0, lo, _ => lo
  | fuel + 1, lo, hi =>
    if lo < hi then
      let mid := (lo + hi) / 2
      if a.getD mid 0 < v then searchsortedAux a v fuel (mid + 1) hi
      else searchsortedAux a v fuel lo mid
    else lo

/-- `np.searchsorted(a, v)` (matrixrepr.py:49,84). -/
def searchsorted (a : List ℕ) (v : ℕ) : ℕ := searchsortedAux a v a.length 0 a.length

/-- A column `result[:, i]` of a kernel's result: row, column, value.
Used at quantumoperator/matrixrepr.py:25, 51-53. -/
abbrev Col := ℕ × ℕ × ℤ

/-- Locating the produced ket in `left_bases` (matrixrepr.py:49-57 and 84-92). -/
def storeCol (left : List ℕ) (i ket : ℕ) (swap : Bool) : Py Col :=
  let index := searchsorted left ket
  if index ≠ left.length ∧ left[index]? = some ket then
    .ok (index, i, if swap then -1 else 1)
  else raise .keyError

/-- `_core_general` (matrixrepr.py:20-58); untouched columns of `np.zeros` stay `(0, 0, 0)`. -/
def coreGeneral (term : List TermRow) (right left : List ℕ) : Py (List Col) :=
  right.zipIdx.mapM fun p =>
    match applyRows term.reverse p.1 false with
    | some (ket, swap) => storeCol left p.2 ket swap
    | none => .ok (0, 0, 0)

/-- `_core_hopping` (matrixrepr.py:66-93): rows 0 and 1 give the masks, `start`/`end` are the
smallest/largest index over all rows.  With fewer than two rows the kernel reads out of bounds
(undefined; modelled as an error). -/
def coreHopping (term : List TermRow) (right left : List ℕ) : Py (List Col) :=
  match term with
  | r0 :: r1 :: rest =>
    let start := rest.foldl (fun m r => min m r.index) (min r0.index r1.index)
    let stop := rest.foldl (fun m r => max m r.index) (max r0.index r1.index)
    right.zipIdx.mapM fun p =>
      if p.1 &&& r0.mask = 0 ∧ p.1 &&& r1.mask = r1.mask then
        storeCol left p.2 ((p.1 ^^^ r1.mask) ^^^ r0.mask) (countSwap (start + 1) stop p.1 false)
      else .ok (0, 0, 0)
  | _ => raise .indexError

/-- `_core_particle_number` (matrixrepr.py:101-110). -/
def coreNumber (term : List TermRow) (bases : List ℕ) : Py (List Col) :=
  match term with
  | r0 :: _ =>
    .ok (bases.zipIdx.map fun p => if p.1 &&& r0.mask ≠ 0 then (p.2, p.2, 1) else (0, 0, 0))
  | _ => raise .indexError

/-- `_core_coulomb` (matrixrepr.py:125-136): masks from rows 0 and 2. -/
def coreCoulomb (term : List TermRow) (bases : List ℕ) : Py (List Col) :=
  match term with
  | r0 :: _ :: r2 :: _ =>
    .ok (bases.zipIdx.map fun p =>
      if p.1 &&& r0.mask ≠ 0 ∧ p.1 &&& r2.mask ≠ 0 then (p.2, p.2, 1) else (0, 0, 0))
  | _ => raise .indexError

/-- The common part of `matrix_function` (matrixrepr.py:207-235): build the array, choose the
kernel by `special_tag` and run it.  `left_bases=None` is modelled by passing `left = none`. -/
def matrixData (term : List (ℤ × Otype)) (right : List ℕ) (left : Option (List ℕ))
    (tag : Classification) : Py (List Col) := do
  let rows ← termArray term
  let leftBases := left.getD right
  match tag with
  | .hopping => coreHopping rows right leftBases
  | .number => coreNumber rows right
  | .coulomb => coreCoulomb rows right
  | .general => coreGeneral rows right leftBases

/-- A scipy `csr_matrix`: shape and the stored coordinates; duplicates are summed.
Used at quantumoperator/matrixrepr.py:237. -/
structure Csr where
  nrow : ℕ
  ncol : ℕ
  coo : List (ℕ × ℕ × ℂ)

/-- The matrix element of a `csr_matrix` (scipy sums duplicate coordinates).
Used at quantumoperator/matrixrepr.py:237. -/
noncomputable def Csr.get (m : Csr) (r c : ℕ) : ℂ :=
  ((m.coo.filter (fun e => e.1 = r ∧ e.2.1 = c)).map (fun e => e.2.2)).sum

open Classical in
/-- `matrix_function(..., to_csr=True)` (matrixrepr.py:216-238): scipy raises ValueError when a
stored coordinate is outside `shape`; `eliminate_zeros` drops stored zeros. -/
noncomputable def matrixFunctionCsr (term : List (ℤ × Otype)) (right : List ℕ)
    (left : Option (List ℕ) := none) (coeff : ℂ := 1) (tag : Classification := .general) :
    Py Csr := do
  let data ← matrixData term right left tag
  let nrow := (left.getD right).length
  if data.any (fun d => decide (nrow ≤ d.1 ∨ right.length ≤ d.2.1)) then raise .valueError
  else
    return ⟨nrow, right.length,
      (data.map (fun d => (d.1, d.2.1, coeff * (d.2.2 : ℂ)))).filter (fun e => e.2.2 ≠ 0)⟩

/-- `matrix_function(..., to_csr=False)` (matrixrepr.py:239-243): the triples
`(entry, (row, col))` of the columns with `data[2] != 0`. -/
noncomputable def matrixFunctionTriplets (term : List (ℤ × Otype)) (right : List ℕ)
    (left : Option (List ℕ) := none) (coeff : ℂ := 1) (tag : Classification := .general) :
    Py (List ℂ × List ℕ × List ℕ) := do
  let data ← matrixData term right left tag
  let tmp := data.filter (fun d => decide (d.2.2 ≠ 0))
  return (tmp.map (fun d => coeff * (d.2.2 : ℂ)), tmp.map (fun d => d.1), tmp.map (fun d => d.2.1))

/-! ### `matrix_repr` methods -/

/-- `AoC.matrix_repr` (particlesystem.py:454-490), sparse output. -/
noncomputable def AoC.matrixRepr (a : AoC) (table : IndexTable StateID) (right : List ℕ)
    (left : Option (List ℕ) := none) : Py Csr := do
  let i ← table.queryIndex a.state
  matrixFunctionCsr [(i, a.otype)] right left

/-- `NumberOperator.matrix_repr` (particlesystem.py:834-863), sparse output. -/
noncomputable def NumberOperator.matrixRepr (n : NumberOperator) (table : IndexTable StateID)
    (bases : List ℕ) : Py Csr := do
  let i ← table.queryIndex n.state
  matrixFunctionCsr [(i, .creation), (i, .annihilation)] bases none 1 .number

/-- The `term` list built by `ParticleTerm.matrix_repr` (particlesystem.py:1235-1238). -/
def ParticleTerm.indexed (t : ParticleTerm) (table : IndexTable StateID) :
    Py (List (ℤ × Otype)) :=
  t.aocs.mapM (fun a => do let i ← table.queryIndex a.state; return (i, a.otype))

/-- The `coeff` setter (particlesystem.py:970-973): the new state of the object and the outcome. -/
def ParticleTerm.setCoeff (t : ParticleTerm) : CoeffArg → ParticleTerm × Py Unit
  | .num c => ({ t with coeff := c }, .ok ())
  | .other => (t, raise .assertionError)

/-- `ParticleTerm.matrix_repr` (particlesystem.py:1195-1243), sparse output.  A given `coeff` is
stored in the instance first, so the updated term is returned as well. -/
noncomputable def ParticleTerm.matrixRepr (t : ParticleTerm) (table : IndexTable StateID)
    (right : List ℕ) (left : Option (List ℕ) := none) (coeff : Option CoeffArg := none) :
    ParticleTerm × Py Csr :=
  let upd : ParticleTerm × Py Unit := match coeff with
    | some c => t.setCoeff c
    | none => (t, .ok ())
  (upd.1, do
    upd.2
    let term ← upd.1.indexed table
    matrixFunctionCsr term right left upd.1.coeff upd.1.classification)

end Verif
