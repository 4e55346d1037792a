import Verif.Py
import Mathlib.LinearAlgebra.Matrix.NonsingularInverse
import Mathlib.Analysis.Real.Sqrt
import Mathlib.Analysis.Real.Pi.Bounds
import Mathlib.Data.Finset.Sort
/-!
# lattice/lattice.py: the class `Lattice`

Coordinates are real numbers (no rounding).  A lattice has `n` points in `m` dimensions and `k`
translation vectors.  The mutable state is the cache `allDist` (`_all_distances`); the cached
KD-tree `_dRsDataBase` depends only on the vectors and is recomputed here.  `_ZOOM = 10^prec` and
`_VIEW_AS_ZERO = 10^-prec` (lattice.py:24-49).

Sources of nondeterminism are arguments: `near` chooses a nearest point for `cKDTree.query`,
`order` is the iteration order of a set of translations, `porder` that of a set of index pairs.
A loop that never ends is `none` in `Option`.
-/

namespace Verif.Latt

open Matrix

/-- A point or vector.
Used at lattice/lattice.py:97-145. -/
abbrev Pt (m : ℕ) := Fin m → ℝ

/-- Euclidean distance (`pdist`, `cdist`, `cKDTree`).
Used at lattice/lattice.py:116, 122, 243, 281, 288. -/
noncomputable def ndist {m : ℕ} (p q : Pt m) : ℝ := Real.sqrt (∑ a, (p a - q a) ^ 2)

/-- `np.linalg.norm`.
Used at lattice/lattice.py:337. -/
noncomputable def nnorm {m : ℕ} (p : Pt m) : ℝ := Real.sqrt (∑ a, p a ^ 2)

/-- `np.matmul(config, vectors)` for one integer configuration.
Used at lattice/lattice.py:274-276, 340, 414. -/
def comb {m k : ℕ} (v : Fin k → Pt m) (c : Fin k → ℤ) : Pt m := fun a => ∑ i, (c i : ℝ) * v i a

/-- `_VIEW_AS_ZERO` (lattice.py:25, 49). -/
noncomputable def tol (prec : ℕ) : ℝ := 1 / 10 ^ prec

/-- The attributes of an instance.
Used at lattice/lattice.py:131-145. -/
structure Lat (n m k : ℕ) where
  points : Fin n → Pt m
  vectors : Fin k → Pt m
  bs : Fin k → Pt m
  allDist : List ℝ

/-- `range(a, b)`.
Used at lattice/lattice.py:272-273, 339, 403. -/
def pyRange (a b : ℤ) : List ℤ := (List.range (b - a).toNat).map fun (i : ℕ) => a + i

/-- `itertools.product(rng, repeat=k)`, in the order of `product`.
Used at lattice/lattice.py:272-273, 325, 339, 403. -/
def mesh (rng : List ℤ) : (k : ℕ) → List (Fin k → ℤ)
  | 0 => [Fin.elim0]
  | k + 1 => rng.flatMap fun a => (mesh rng k).map fun c => Fin.cons a c

/-- `pdist(points)`.
Used at lattice/lattice.py:116, 122, 445. -/
noncomputable def pdist {m : ℕ} : List (Pt m) → List ℝ
  | [] => []
  | p :: ps => ps.map (ndist p) ++ pdist ps

/-- `np.rint`: nearest integer, ties to even.
Used at lattice/lattice.py:128, 445. -/
noncomputable def rint (x : ℝ) : ℤ :=
  if x - ⌊x⌋ < 1 / 2 then ⌊x⌋
  else if 1 / 2 < x - ⌊x⌋ then ⌊x⌋ + 1
  else if ⌊x⌋ % 2 = 0 then ⌊x⌋ else ⌊x⌋ + 1

/-- `np.insert(np.unique(np.rint(ds * _ZOOM)) / _ZOOM, 0, 0.0)` (lattice.py:128, 444-446). -/
noncomputable def distances (prec : ℕ) (ds : List ℝ) : List ℝ :=
  0 :: ((ds.map fun d => rint (d * 10 ^ prec)).toFinset.sort (· ≤ ·)).map
    fun z : ℤ => (z : ℝ) / 10 ^ prec

section init

open Classical in
/-- The rest of `Lattice.__init__` once the shapes are compatible (lattice.py:117-145). -/
noncomputable def initSame (prec : ℕ) {n m k : ℕ} (points : Fin n → Pt m) (vectors : Fin k → Pt m) :
    Py (Lat n m k) :=
  if ∃ i j, i < j ∧ ndist (vectors i) (vectors j) < tol prec then raise .valueError
  else if ∃ i j, i < j ∧ ndist (points i) (points j) < tol prec then raise .valueError
  else
    let V : Matrix (Fin k) (Fin m) ℝ := Matrix.of vectors
    if IsUnit (V * Vᵀ).det then
      .ok ⟨points, vectors, fun i a => ((2 * Real.pi) • ((V * Vᵀ)⁻¹ * V)) i a,
        distances prec (pdist (List.ofFn points))⟩
    else raise .linAlgError

/-- `Lattice.__init__` (lattice.py:97-145) for arrays of shapes `(n, m)` and `(k, m')`; the type
checks are not modelled. -/
noncomputable def init (prec : ℕ) {n m k m' : ℕ} (points : Fin n → Pt m) (vectors : Fin k → Pt m') :
    Py (Lat n m k) :=
  if 3 < m then raise .valueError
  else if m < k then raise .valueError
  else if h : m' = m then initSame prec points (h ▸ vectors)
  else raise .valueError

end init

variable {n m k : ℕ}

/-- `Lattice.getIndex(site, fold=False)` (lattice.py:238-247); `near` is the index returned by
`cKDTree(self._points).query(site)`; a tree without points answers an infinite distance. -/
noncomputable def getIndex (near : (Fin n → Pt m) → Pt m → Option (Fin n)) (prec : ℕ)
    (L : Lat n m k) (site : Pt m) : Py (Fin n) :=
  match near L.points site with
  | none => raise .keyError
  | some i => if ndist (L.points i) site < tol prec then .ok i else raise .keyError

/-- `Lattice.getSite(index)` (lattice.py:249-266). -/
def getSite (L : Lat n m k) (index : ℤ) : Py (Pt m) :=
  if h : 0 ≤ index ∧ index < n then .ok (L.points ⟨index.toNat, by omega⟩)
  else raise .assertionError

/-- `Lattice.in_cluster(site)` (lattice.py:512-531). -/
noncomputable def inCluster (near : (Fin n → Pt m) → Pt m → Option (Fin n)) (prec : ℕ)
    (L : Lat n m k) (site : Pt m) : Py Bool :=
  match getIndex near prec L site with
  | .ok _ => .ok true
  | .error .keyError => .ok false
  | .error e => .error e

/-- The configurations of the outer mesh that are not in the inner mesh (lattice.py:272-275). -/
def edge (k : ℕ) (scope : ℤ) : List (Fin k → ℤ) :=
  (mesh (pyRange (-scope - 1) (scope + 2)) k).filter
    fun c => decide (c ∉ mesh (pyRange (-scope) (scope + 1)) k)

/-- `np.min(cdist(edge_points, self._points)) > ref_distance` (lattice.py:276-281). -/
def edgeFar (L : Lat n m k) (ref : ℝ) (scope : ℤ) : Prop :=
  ∀ c ∈ edge k scope, ∀ i j, ref < ndist (L.points i + comb L.vectors c) (L.points j)

open Classical in
/-- The loop of `_guess_scope` (lattice.py:271-285), `none` when the fuel runs out. -/
noncomputable def guessLoop (L : Lat n m k) (ref : ℝ) : ℕ → ℤ → Option ℤ
  | 0, _ => none
  | fuel + 1, scope => if edgeFar L ref scope then some scope else guessLoop L ref fuel (scope + 1)

open Classical in
/-- `_guess_scope(ref)` (lattice.py:268-285); `none` if the loop never ends.  Without translation
vectors the edge is empty and indexing the one-dimensional result of `matmul` fails (IndexError);
without points `np.min` fails (ValueError). -/
noncomputable def guessScope (L : Lat n m k) (ref : ℝ) : Option (Py ℤ) :=
  if k = 0 then some (raise .indexError)
  else if n = 0 then some (raise .valueError)
  else if h : ∃ fuel s, guessLoop L ref fuel (-1) = some s then
    some (.ok (Classical.choose (Classical.choose_spec h)))
  else none

open Classical in
/-- `_searching(database, displaces)` (lattice.py:287-293).  The distance to the nearest point of the
database is below the threshold iff that of some point is. -/
noncomputable def searching (prec : ℕ) (L : Lat n m k) (database : List (Fin k → ℤ))
    (displaces : Fin n → Pt m) : Option (Pt m × Pt m) :=
  match (List.finRange n).filter
    (fun i => decide (∃ c ∈ database, ndist (displaces i) (comb L.vectors c) < tol prec)) with
  | [i] => some (L.points i, displaces i)
  | _ => none

/-- `np.max(np.linalg.norm(all_displaces, axis=-1))`.
Used at lattice/lattice.py:337. -/
noncomputable def maxNorm (displaces : Fin n → Pt m) : Py ℝ :=
  match (List.finRange n).map fun i => nnorm (displaces i) with
  | [] => raise .valueError
  | x :: xs => .ok (xs.foldl max x)

/-- `Lattice.decompose(site)` (lattice.py:295-348). -/
noncomputable def decompose (prec : ℕ) (L : Lat n m k) (site : Pt m) : Option (Py (Pt m × Pt m)) :=
  let displaces : Fin n → Pt m := fun i => site - L.points i
  match searching prec L (mesh [-1, 0, 1] k) displaces with
  | some r => some (.ok r)
  | none =>
    match maxNorm displaces with
    | .error e => some (.error e)
    | .ok ref =>
      match guessScope L ref with
      | none => none
      | some (.error e) => some (.error e)
      | some (.ok scope) =>
        match searching prec L (mesh (pyRange (-scope) (scope + 1)) k) displaces with
        | some r => some (.ok r)
        | none => some (raise .runtimeError)

/-- `Lattice.getIndex(site, fold=True)` (lattice.py:238-247). -/
noncomputable def getIndexFold (near : (Fin n → Pt m) → Pt m → Option (Fin n)) (prec : ℕ)
    (L : Lat n m k) (site : Pt m) : Option (Py (Fin n)) :=
  match decompose prec L site with
  | none => none
  | some (.error e) => some (.error e)
  | some (.ok (p, _)) => some (getIndex near prec L p)

/-- The loop `for config in mesh: if -config not in translations: translations.add(config)`
(lattice.py:404-408), as the list of the configurations in the order of insertion. -/
def halfMesh (k : ℕ) (scope : ℤ) : List (Fin k → ℤ) :=
  (mesh (pyRange (-scope) (scope + 1)) k).foldl
    (fun acc c => if (-c) ∈ acc then acc else if c ∈ acc then acc else acc ++ [c]) []

/-- `[origin] + list(translations)` after discarding the origin (lattice.py:402-413). -/
def translations (order : List (Fin k → ℤ) → List (Fin k → ℤ)) (scope : ℤ) (noInversion : Bool) :
    List (Fin k → ℤ) :=
  let all := if noInversion then halfMesh k scope
    else (mesh (pyRange (-scope) (scope + 1)) k).dedup
  0 :: order (all.filter fun c => decide (c ≠ 0))

/-- `_sites_factory(scope, no_inversion)` (lattice.py:402-418): translation by translation, point by
point. -/
def sitesFactory (order : List (Fin k → ℤ) → List (Fin k → ℤ)) (L : Lat n m k) (scope : ℤ)
    (noInversion : Bool) : List (Pt m) :=
  (translations order scope noInversion).flatMap fun c =>
    (List.finRange n).map fun i => comb L.vectors c + L.points i

/-- `Lattice.neighbor_distance(nth)` (lattice.py:420-447): the new state and the outcome. -/
noncomputable def neighborDistance (order : List (Fin k → ℤ) → List (Fin k → ℤ)) (prec : ℕ)
    (L : Lat n m k) (nth : ℤ) : Lat n m k × Py ℝ :=
  if nth < 0 then (L, raise .assertionError)
  else
    match L.allDist[nth.toNat]? with
    | some d => (L, .ok d)
    | none =>
      let L' := { L with allDist := distances prec (pdist (sitesFactory order L nth false)) }
      match L'.allDist[nth.toNat]? with
      | some d => (L', .ok d)
      | none => (L', raise .indexError)

/-- A bond, by its two endpoints (`Bond(p0, p1, directional=True)`).
Used at lattice/lattice.py:479, 502-508. -/
abbrev LBond (m : ℕ) := Pt m × Pt m

open Classical in
/-- `tree.query_pairs(r)`: the index pairs `a < b` at distance at most `r`.
Used at lattice/lattice.py:487, 490. -/
noncomputable def queryPairs (sites : List (Pt m)) (r : ℝ) :
    List (Fin sites.length × Fin sites.length) :=
  ((List.finRange sites.length).flatMap fun a => (List.finRange sites.length).map fun b =>
    (a, b)).filter fun p => decide (p.1 < p.2 ∧ ndist (sites.get p.1) (sites.get p.2) ≤ r)

/-- The loop over the pairs (lattice.py:495-509), with the lists built so far; `decompose` is called
for every bond that leaves the cluster. -/
noncomputable def bondLoop (prec : ℕ) (L : Lat n m k) (sites : List (Pt m)) (fold : Bool) :
    List (Fin sites.length × Fin sites.length) → List (LBond m) → List (LBond m) →
    Option (Py (List (LBond m) × List (LBond m)))
  | [], intra, inter => some (.ok (intra, inter))
  | (a, b) :: rest, intra, inter =>
    let p0 := sites.get a
    let p1 := sites.get b
    if (b : ℕ) < n then bondLoop prec L sites fold rest (intra ++ [(p0, p1)]) inter
    else if (a : ℕ) < n then
      match decompose prec L p1 with
      | none => none
      | some (.error e) => some (.error e)
      | some (.ok (eqv, _)) =>
        bondLoop prec L sites fold rest intra (inter ++ [(p0, if fold then eqv else p1)])
    else bondLoop prec L sites fold rest intra inter

open Classical in
/-- `Lattice.bonds(nth, only, fold)` (lattice.py:449-510): the new state and the outcome. -/
noncomputable def bonds (order : List (Fin k → ℤ) → List (Fin k → ℤ))
    (porder : ∀ N : ℕ, List (Fin N × Fin N) → List (Fin N × Fin N)) (prec : ℕ) (L : Lat n m k)
    (nth : ℤ) (only fold : Bool) :
    Option (Lat n m k × Py (List (LBond m) × Option (List (LBond m)))) :=
  if nth < 0 then some (L, raise .assertionError)
  else if nth = 0 then
    some (L, .ok ((List.finRange n).map fun i => (L.points i, L.points i), none))
  else
    match neighborDistance order prec L nth with
    | (L1, .error e) => some (L1, .error e)
    | (L1, .ok judge) =>
      match guessScope L1 judge with
      | none => none
      | some (.error e) => some (L1, .error e)
      | some (.ok scope) =>
        let sites := sitesFactory order L1 scope true
        let outer := queryPairs sites (judge + tol prec)
        if only ∧ 1 < nth then
          match neighborDistance order prec L1 (nth - 1) with
          | (L2, .error e) => some (L2, .error e)
          | (L2, .ok judge') =>
            let inner := queryPairs sites (judge' + tol prec)
            match bondLoop prec L2 sites fold
              (porder _ (outer.filter fun p => decide (p ∉ inner))) [] [] with
            | none => none
            | some (.error e) => some (L2, .error e)
            | some (.ok (intra, inter)) => some (L2, .ok (intra, some inter))
        else
          match bondLoop prec L1 sites fold (porder _ outer) [] [] with
          | none => none
          | some (.error e) => some (L1, .error e)
          | some (.ok (intra, inter)) => some (L1, .ok (intra, some inter))

end Verif.Latt
