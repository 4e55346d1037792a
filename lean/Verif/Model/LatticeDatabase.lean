import Verif.Model.Lattice
/-!
# lattice/_lattice_database.py: the built-in lattices

Coordinates are real numbers: `np.sqrt(3)` is the real square root, and no rounding happens.
-/

namespace Verif.LDB

open Verif.Latt Matrix

/-- `np.sqrt(3)`.
Used at lattice/_lattice_database.py:115-330. -/
noncomputable def r3 : ℝ := Real.sqrt 3

/-- One entry `{"points": ..., "vectors": ...}` of the tables (_lattice_database.py:342-413); all
entries have as many vectors as dimensions. -/
structure Info (m : ℕ) where
  points : List (Pt m)
  vectors : Fin m → Pt m

/-- A `Lattice` instance together with its shape.
Used at lattice/_lattice_database.py:479, 549. -/
structure Built where
  n : ℕ
  m : ℕ
  k : ℕ
  lat : Lat n m k

/-- `Lattice(points=points, vectors=vectors, name=...)`; the name is not modelled.
Used at lattice/_lattice_database.py:479, 549. -/
noncomputable def mkLattice (prec : ℕ) {m k : ℕ} (points : List (Pt m)) (vectors : Fin k → Pt m) : Py Built :=
  (init prec points.get vectors).map fun L => ⟨points.length, m, k, L⟩

/-! ### Unit cells -/

/-- `CHAIN_CELL_POINTS`, `CHAIN_CELL_AS` (_lattice_database.py:93-94). -/
noncomputable def chainCell : Info 1 := ⟨[![0]], ![![1]]⟩

/-- `SQUARE_CELL_POINTS`, `SQUARE_CELL_AS` (_lattice_database.py:102-103). -/
noncomputable def squareCell : Info 2 := ⟨[![0, 0]], ![![1, 0], ![0, 1]]⟩

/-- `TRIANGLE_CELL_POINTS`, `TRIANGLE_CELL_AS` (_lattice_database.py:114-115). -/
noncomputable def triangleCell : Info 2 := ⟨[![0, 0]], ![![1, 0], ![1 / 2, r3 / 2]]⟩

/-- `HONEYCOMB_CELL_POINTS`, `HONEYCOMB_CELL_AS` (_lattice_database.py:126-129). -/
noncomputable def honeycombCell : Info 2 :=
  ⟨[![0, -(1 / 2) / r3], ![0, 1 / 2 / r3]], ![![1, 0], ![1 / 2, r3 / 2]]⟩

/-- `KAGOME_CELL_POINTS`, `KAGOME_CELL_AS` (_lattice_database.py:140-143). -/
noncomputable def kagomeCell : Info 2 :=
  ⟨[![0, 0], ![1 / 4, r3 / 4], ![1 / 2, 0]], ![![1, 0], ![1 / 2, r3 / 2]]⟩

/-- `CUBIC_CELL_POINTS`, `CUBIC_CELL_AS` (_lattice_database.py:154-157). -/
noncomputable def cubicCell : Info 3 := ⟨[![0, 0, 0]], ![![1, 0, 0], ![0, 1, 0], ![0, 0, 1]]⟩

/-! ### Special clusters -/

/-- `SQUARE_CROSS_POINTS`, `SQUARE_CROSS_AS` (_lattice_database.py:185-194). -/
noncomputable def squareCross : Info 2 :=
  ⟨[![-(1 / 2), -(1 / 2)], ![-(1 / 2), 1 / 2], ![1 / 2, 1 / 2], ![1 / 2, -(1 / 2)],
    ![-(1 / 2), -(3 / 2)], ![-(3 / 2), -(1 / 2)], ![-(3 / 2), 1 / 2], ![-(1 / 2), 3 / 2],
    ![1 / 2, 3 / 2], ![3 / 2, 1 / 2], ![3 / 2, -(1 / 2)], ![1 / 2, -(3 / 2)]],
   ![![3, -2], ![3, 2]]⟩

/-- `SQUARE_Z_POINTS`, `SQUARE_Z_AS` (_lattice_database.py:202-212). -/
noncomputable def squareZ : Info 2 :=
  ⟨[![-(3 / 2), 1], ![-(1 / 2), 1], ![1 / 2, 1],
    ![-(3 / 2), 0], ![-(1 / 2), 0], ![1 / 2, 0], ![3 / 2, 0],
    ![-(1 / 2), -1], ![1 / 2, -1], ![3 / 2, -1]],
   ![![1, -3], ![3, 1]]⟩

/-- `SQUARE_S_POINTS`, `SQUARE_S_AS` (_lattice_database.py:224-234). -/
noncomputable def squareS : Info 2 :=
  ⟨[![-(1 / 2), 1], ![1 / 2, 1], ![3 / 2, 1],
    ![-(3 / 2), 0], ![-(1 / 2), 0], ![1 / 2, 0], ![3 / 2, 0],
    ![-(3 / 2), -1], ![-(1 / 2), -1], ![1 / 2, -1]],
   ![![3, -1], ![1, 3]]⟩

/-- `TRIANGLE_STAR_POINTS`, `TRIANGLE_STAR_AS` (_lattice_database.py:246-260). -/
noncomputable def triangleStar : Info 2 :=
  ⟨[![0, 0],
    ![-(1 / 2), -r3 / 2], ![-1, 0], ![-(1 / 2), r3 / 2],
    ![1 / 2, r3 / 2], ![1, 0], ![1 / 2, -r3 / 2],
    ![0, -r3], ![-(3 / 2), -r3 / 2], ![-(3 / 2), r3 / 2],
    ![0, r3], ![3 / 2, r3 / 2], ![3 / 2, -r3 / 2]],
   ![![7 / 2, r3 / 2], ![1, 2 * r3]]⟩

/-- `HONEYCOMB_BENZENE_POINTS`, `HONEYCOMB_BENZENE_AS` (_lattice_database.py:271-281). -/
noncomputable def honeycombBenzene : Info 2 :=
  ⟨[![0, -1 / r3], ![-(1 / 2), -(1 / 2) / r3], ![-(1 / 2), 1 / 2 / r3],
    ![0, 1 / r3], ![1 / 2, 1 / 2 / r3], ![1 / 2, -(1 / 2) / r3]],
   ![![3 / 2, -r3 / 2], ![3 / 2, r3 / 2]]⟩

/-- `HONEYCOMB_DIPHENYL_POINTS`, `HONEYCOMB_DIPHENYL_AS` (_lattice_database.py:292-303). -/
noncomputable def honeycombDiphenyl : Info 2 :=
  ⟨[![-(1 / 2), -1 / r3], ![-1, -(1 / 2) / r3], ![-1, 1 / 2 / r3], ![-(1 / 2), 1 / r3],
    ![0, 1 / 2 / r3], ![1 / 2, 1 / r3], ![1, 1 / 2 / r3], ![1, -(1 / 2) / r3],
    ![1 / 2, -1 / r3], ![0, -(1 / 2) / r3]],
   ![![5 / 2, -r3 / 2], ![5 / 2, r3 / 2]]⟩

/-- `HONEYCOMB_GEAR_POINTS`, `HONEYCOMB_GEAR_AS` (_lattice_database.py:311-331). -/
noncomputable def honeycombGear : Info 2 :=
  ⟨[![0, -1 / r3], ![-(1 / 2), -(1 / 2) / r3], ![-(1 / 2), 1 / 2 / r3],
    ![0, 1 / r3], ![1 / 2, 1 / 2 / r3], ![1 / 2, -(1 / 2) / r3],
    ![0, -2 / r3], ![-(1 / 2), -(5 / 2) / r3], ![-1, -2 / r3], ![-1, -1 / r3],
    ![-(3 / 2), -(1 / 2) / r3], ![-(3 / 2), 1 / 2 / r3], ![-1, 1 / r3], ![-1, 2 / r3],
    ![-(1 / 2), 5 / 2 / r3], ![0, 2 / r3], ![1 / 2, 5 / 2 / r3], ![1, 2 / r3],
    ![1, 1 / r3], ![3 / 2, 1 / 2 / r3], ![3 / 2, -(1 / 2) / r3], ![1, -1 / r3],
    ![1, -2 / r3], ![1 / 2, -(5 / 2) / r3]],
   ![![3, -r3], ![3, r3]]⟩

/-- `_common_cells_info[which]` (_lattice_database.py:372-379); `none` is the KeyError. -/
noncomputable def commonCell (which : String) : Option (Σ m, Info m) :=
  if which = "chain" then some ⟨_, chainCell⟩
  else if which = "square" then some ⟨_, squareCell⟩
  else if which = "triangle" then some ⟨_, triangleCell⟩
  else if which = "honeycomb" then some ⟨_, honeycombCell⟩
  else if which = "kagome" then some ⟨_, kagomeCell⟩
  else if which = "cubic" then some ⟨_, cubicCell⟩
  else none

/-- `_special_clusters_info[which]` (_lattice_database.py:416-443); `none` is the KeyError. -/
noncomputable def specialInfo (which : String) : Option (Σ m, Info m) :=
  if which ∈ ["square_cross", "square_12", "cross"] then some ⟨_, squareCross⟩
  else if which ∈ ["square_z", "z"] then some ⟨_, squareZ⟩
  else if which ∈ ["square_s", "s"] then some ⟨_, squareS⟩
  else if which ∈ ["triangle_star", "triangle_13", "star", "SD"] then some ⟨_, triangleStar⟩
  else if which ∈ ["honeycomb_benzene", "honeycomb_6", "benzene"] then some ⟨_, honeycombBenzene⟩
  else if which ∈ ["honeycomb_diphenyl", "honeycomb_10", "diphenyl"] then some ⟨_, honeycombDiphenyl⟩
  else if which ∈ ["honeycomb_gear", "honeycomb_24", "gear"] then some ⟨_, honeycombGear⟩
  else none

/-- `special_cluster(which)` (_lattice_database.py:446-481). -/
noncomputable def specialCluster (prec : ℕ) (which : String) : Py Built :=
  match specialInfo which with
  | some ⟨_, info⟩ => mkLattice prec info.points info.vectors
  | none => raise .keyError

/-- `itertools.product(range(n0), range(n1), ...)`, in the order of `product`.
Used at lattice/_lattice_database.py:529, 536, 543. -/
def prodRange : (k : ℕ) → (Fin k → ℤ) → List (Fin k → ℤ)
  | 0, _ => [Fin.elim0]
  | k + 1, ns => (pyRange 0 (ns 0)).flatMap fun a => (prodRange k (Fin.tail ns)).map fun c => Fin.cons a c

/-- `vectors = cell_vectors * np.array([[num0], ...])` (_lattice_database.py:528, 535, 542). -/
def scaleVectors {m k : ℕ} (ns : Fin k → ℤ) (v : Fin k → Pt m) : Fin k → Pt m :=
  fun i a => v i a * (ns i : ℝ)

/-- `np.reshape(dRs[:, np.newaxis, :] + cell_points, newshape=(-1, dim))`
(_lattice_database.py:545-547). -/
def superPoints {m k : ℕ} (ns : Fin k → ℤ) (points : List (Pt m)) (v : Fin k → Pt m) : List (Pt m) :=
  (prodRange k ns).flatMap fun c => points.map fun p => comb v c + p

/-- The last lines of `lattice_generator` (_lattice_database.py:528-529, 535-536, 542-549): the cell
repeated `nums[i]` times along its vector `i`.  A list of the wrong length does not broadcast
(ValueError); with the tables of this module that does not happen. -/
noncomputable def superLattice (prec : ℕ) {m : ℕ} (info : Info m) (nums : List ℤ) : Py Built :=
  if nums.length = m then
    let ns : Fin m → ℤ := fun i => nums.getD i 0
    mkLattice prec (superPoints ns info.points info.vectors) (scaleVectors ns info.vectors)
  else raise .valueError

/-- `lattice_generator(which, num0, num1, num2)` (_lattice_database.py:484-549) for integer sizes. -/
noncomputable def latticeGenerator (prec : ℕ) (which : String) (num0 num1 num2 : ℤ) : Py Built := do
  pyAssert (decide (1 ≤ num0))
  pyAssert (decide (1 ≤ num1))
  pyAssert (decide (1 ≤ num2))
  match commonCell which with
  | none => raise .keyError
  | some ⟨_, info⟩ =>
    if which = "chain" then
      if num0 = 1 then mkLattice prec info.points info.vectors
      else superLattice prec info [num0]
    else if which = "cubic" then
      if num0 = 1 ∧ num1 = 1 ∧ num2 = 1 then mkLattice prec info.points info.vectors
      else superLattice prec info [num0, num1, num2]
    else
      if num0 = 1 ∧ num1 = 1 then mkLattice prec info.points info.vectors
      else superLattice prec info [num0, num1]

/-! ### Reciprocal vectors and high-symmetry points -/

/-- `_BSCalculator(AS)` (_lattice_database.py:59): `2 * np.pi * np.linalg.inv(AS.T)`. -/
noncomputable def bsCalculator {m : ℕ} (AS : Fin m → Pt m) : Fin m → Pt m :=
  fun i a => ((2 * Real.pi) • ((Matrix.of AS)ᵀ)⁻¹) i a

/-- `np.dot(coeff, BS) / d` for one row of coefficients.
Used at lattice/_lattice_database.py:98-175, 218-338. -/
noncomputable def symPoint {m : ℕ} (BS : Fin m → Pt m) (coeff : Fin m → ℤ) (d : ℝ) : Pt m :=
  fun a => comb BS coeff a / d

/-- `_SQUARE_XS_COEFF` (_lattice_database.py:68). -/
def squareXsCoeff : List (Fin 2 → ℤ) := [![0, -1], ![-1, 0], ![0, 1], ![1, 0]]
/-- `_SQUARE_MS_COEFF` (_lattice_database.py:69). -/
def squareMsCoeff : List (Fin 2 → ℤ) := [![-1, -1], ![-1, 1], ![1, 1], ![1, -1]]
/-- `_HEXAGON_MS_COEFF_60` (_lattice_database.py:77). -/
def hexMs60 : List (Fin 2 → ℤ) := [![0, -1], ![-1, -1], ![-1, 0], ![0, 1], ![1, 1], ![1, 0]]
/-- `_HEXAGON_KS_COEFF_60` (_lattice_database.py:78). -/
def hexKs60 : List (Fin 2 → ℤ) := [![1, -1], ![-1, -2], ![-2, -1], ![-1, 1], ![1, 2], ![2, 1]]
/-- `_HEXAGON_MS_COEFF_120` (_lattice_database.py:81). -/
def hexMs120 : List (Fin 2 → ℤ) := [![0, -1], ![-1, 0], ![-1, 1], ![0, 1], ![1, 0], ![1, -1]]
/-- `_HEXAGON_KS_COEFF_120` (_lattice_database.py:82). -/
def hexKs120 : List (Fin 2 → ℤ) := [![1, -2], ![-1, -1], ![-2, 1], ![-1, 2], ![1, 1], ![2, -1]]

/-- `CHAIN_CELL_ES` (_lattice_database.py:98). -/
noncomputable def chainEs : List (Pt 1) :=
  [![-1], ![1]].map fun c => symPoint (bsCalculator chainCell.vectors) c 2

/-- The `_XS` of a two-dimensional cluster (_lattice_database.py:109, 218, 240). -/
noncomputable def squareXs (AS : Fin 2 → Pt 2) : List (Pt 2) :=
  squareXsCoeff.map fun c => symPoint (bsCalculator AS) c 2
/-- The `_MS` of the square clusters (_lattice_database.py:110, 219, 241). -/
noncomputable def squareMs (AS : Fin 2 → Pt 2) : List (Pt 2) :=
  squareMsCoeff.map fun c => symPoint (bsCalculator AS) c 2
/-- The `_MS` of the hexagonal clusters (_lattice_database.py:121, 135, 149, 266, 287, 337). -/
noncomputable def hexMs (AS : Fin 2 → Pt 2) : List (Pt 2) :=
  hexMs60.map fun c => symPoint (bsCalculator AS) c 2
/-- The `_KS` of the hexagonal clusters (_lattice_database.py:122, 136, 150, 267, 288, 338). -/
noncomputable def hexKs (AS : Fin 2 → Pt 2) : List (Pt 2) :=
  hexKs60.map fun c => symPoint (bsCalculator AS) c 3

/-- `CUBIC_CELL_XS` (_lattice_database.py:164-167). -/
noncomputable def cubicXs : List (Pt 3) :=
  [![-1, 0, 0], ![1, 0, 0], ![0, -1, 0], ![0, 1, 0], ![0, 0, -1], ![0, 0, 1]].map
    fun c => symPoint (bsCalculator cubicCell.vectors) c 2
/-- `CUBIC_CELL_MS` (_lattice_database.py:168-174). -/
noncomputable def cubicMs : List (Pt 3) :=
  [![-1, -1, 0], ![-1, 1, 0], ![1, 1, 0], ![1, -1, 0],
   ![-1, 0, -1], ![-1, 0, 1], ![1, 0, 1], ![1, 0, -1],
   ![0, -1, -1], ![0, -1, 1], ![0, 1, 1], ![0, 1, -1]].map
    fun c => symPoint (bsCalculator cubicCell.vectors) c 2
/-- `CUBIC_CELL_KS` (_lattice_database.py:175-180). -/
noncomputable def cubicKs : List (Pt 3) :=
  [![-1, -1, -1], ![-1, 1, -1], ![1, 1, -1], ![1, -1, -1],
   ![-1, -1, 1], ![-1, 1, 1], ![1, 1, 1], ![1, -1, 1]].map
    fun c => symPoint (bsCalculator cubicCell.vectors) c 2

end Verif.LDB
