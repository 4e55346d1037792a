import Verif.Model.LatticeDatabase
import Verif.Model.KPath
/-!
# tools/Draw2DLattice.py

The sites and the bonds that `show` hands to matplotlib, and the path it saves the figure to.
Coordinates are real numbers (no rounding).  matplotlib itself is not modelled; neither are the
command line (lines 183-244) and the `trim` option (lines 154-158), which only changes the visible
range.
-/

namespace Verif.D2L

open Verif.Latt Verif.LDB

/-- `_square_cell_info` (Draw2DLattice.py:29-32). -/
noncomputable def squareInfo : Info 2 := ⟨[![0, 0]], ![![1, 0], ![0, 1]]⟩

/-- `_triangle_cell_info` (Draw2DLattice.py:34-37). -/
noncomputable def triangleInfo : Info 2 := ⟨[![0, 0]], ![![1, 0], ![1 / 2, r3 / 2]]⟩

/-- `_honeycomb_cell_info` (Draw2DLattice.py:39-42). -/
noncomputable def honeycombInfo : Info 2 :=
  ⟨[![0, 0], ![0, 1 / r3]], ![![1, 0], ![1 / 2, r3 / 2]]⟩

/-- `_kagome_cell_info` (Draw2DLattice.py:44-49). -/
noncomputable def kagomeInfo : Info 2 :=
  ⟨[![0, 0], ![1 / 4, r3 / 4], ![1 / 2, 0]], ![![1, 0], ![1 / 2, r3 / 2]]⟩

/-- `_common_cells_info[which]` (Draw2DLattice.py:51-63); `none` is the KeyError. -/
noncomputable def cellInfo (which : String) : Option (Info 2) :=
  if which = "s" then some squareInfo
  else if which = "square" then some squareInfo
  else if which = "t" then some triangleInfo
  else if which = "triangle" then some triangleInfo
  else if which = "h" then some honeycombInfo
  else if which = "honeycomb" then some honeycombInfo
  else if which = "k" then some kagomeInfo
  else if which = "kagome" then some kagomeInfo
  else none

/-- `list(product(range(-num0, num0+1), range(-num1, num1+1)))` (Draw2DLattice.py:76). -/
def cells (num0 num1 : ℤ) : List (Fin 2 → ℤ) :=
  (pyRange (-num0) (num0 + 1)).flatMap fun a => (pyRange (-num1) (num1 + 1)).map fun b => ![a, b]

/-- `_sites_factory(which, num0, num1)` (Draw2DLattice.py:66-79).  `np.matmul` of an empty list has
mismatching dimensions (ValueError). -/
noncomputable def sitesFactory (which : String) (num0 num1 : ℤ) : Py (List (Pt 2)) :=
  match cellInfo which with
  | none => raise .keyError
  | some info =>
    if (cells num0 num1).isEmpty then raise .valueError
    else .ok ((cells num0 num1).flatMap fun c => info.points.map fun p => comb info.vectors c + p)

/-- `_bonds_generator(sites)` (Draw2DLattice.py:82-86).  `min` of an empty array raises ValueError;
`porder` is the iteration order of the set of index pairs returned by `query_pairs`. -/
noncomputable def bondsGenerator
    (porder : ∀ N : ℕ, List (Fin N × Fin N) → List (Fin N × Fin N)) (sites : List (Pt 2)) :
    Py (List (Pt 2 × Pt 2)) :=
  if (pdist sites).isEmpty then raise .valueError
  else
    let r := KP.listMin (pdist sites) + 1 / 10000
    .ok ((porder sites.length (queryPairs sites r)).map fun p => (sites.get p.1, sites.get p.2))

/-- What is drawn: the markers, and the lines when `link` is true.
Used at tools/Draw2DLattice.py:143-158. -/
structure Picture where
  sites : List (Pt 2)
  bonds : Option (List (Pt 2 × Pt 2))

/-- The part of `show` up to the second `plot` (Draw2DLattice.py:141-152). -/
noncomputable def picture
    (porder : ∀ N : ℕ, List (Fin N × Fin N) → List (Fin N × Fin N)) (which : String)
    (num0 num1 : ℤ) (link : Bool) : Py Picture := do
  let sites ← sitesFactory which num0 num1
  if link then do
    let bonds ← bondsGenerator porder sites
    return ⟨sites, some bonds⟩
  else return ⟨sites, none⟩

/-- The name of the saved figure (Draw2DLattice.py:168-178). -/
def figureName (which : String) (name : Option String) : String :=
  match name with
  | some n => n
  | none =>
    if which = "s" ∨ which = "square" then "square.pdf"
    else if which = "t" ∨ which = "triangle" then "triangle.pdf"
    else if which = "h" ∨ which = "honeycomb" then "honeycomb.pdf"
    else if which = "k" ∨ which = "kagome" then "kagome.pdf"
    else which ++ ".pdf"

/-- The path passed to `savefig` (Draw2DLattice.py:179): `path + name`; the directory that was created
before is `path` (line 167). -/
def savePath (which path : String) (name : Option String) : String := path ++ figureName which name

end Verif.D2L
