import Verif.Model.Lattice
import Verif.Model.Text
/-!
# lattice/lattice.py: the printed form of a lattice
-/

namespace Verif.Latt

/-- One indented row `"    {0}".format(fomatter(p))` (lattice.py:207, 209, 211); `fmt` is
`np.array2string(_, separator=", ")` (lattice.py:200). -/
def rowText (fmt : List ℝ → Txt) {m : ℕ} (p : Pt m) : Txt := "    ".toList ++ fmt (List.ofFn p)

/-- `Lattice.__str__` (lattice.py:195-213). -/
def latticeStr (fmt : List ℝ → Txt) {n m k : ℕ} (L : Lat n m k) : Txt :=
  pyJoin "\n".toList
    (["Point Number: ".toList ++ decNat n, "Space Dimension: ".toList ++ decNat m,
      "Translation Dimension: ".toList ++ decNat k, "Points:".toList] ++
      List.ofFn (fun i => rowText fmt (L.points i)) ++ ["Vectors:".toList] ++
      List.ofFn (fun i => rowText fmt (L.vectors i)) ++ ["Bs:".toList] ++
      List.ofFn (fun i => rowText fmt (L.bs i)))

end Verif.Latt
