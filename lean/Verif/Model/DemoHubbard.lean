import Verif.Model.DemoGreen
/-!
# Model of `GreenFunction/demo/HubbardChain.py`: cluster perturbation theory for the Hubbard chain

As for the other scripts, arithmetic is exact, the diagonaliser is a parameter, and timing, logging, printing and
plotting are dropped.  The numbers fixed at the top of the script (`t`, `U`, `site_num`, `step`, `omegas`, `eta`) are
parameters.
-/

namespace Verif.Demo

open Latt LDB GF Lanczos Matrix

/-- `SPINS = (HP.SPIN_DOWN, HP.SPIN_UP)` (HubbardChain.py:19; constant.py: SPIN_DOWN is 0, SPIN_UP is 1). -/
def spinPair : List ℤ := [0, 1]

/-- What the first part of the script leaves behind (HubbardChain.py:31-46): the cluster (`bonds` has filled its caches),
`inter_bonds`, `HTerms` and `state_indices_table`. -/
structure HubbardTerms where
  cluster : Built
  inter : List (LBond cluster.m)
  terms : List ParticleTerm
  table : IndexTable StateID

/-- `HTerms` (HubbardChain.py:37-41): first the interaction of every site, then for every bond inside the cluster the
hopping of both spins. -/
noncomputable def hubbardTermList {n m k : ℕ} (zoom : ℤ) (coordOf : ℝ → Coord) (L : Lat n m k) (t U : ℝ)
    (intra : List (LBond m)) : Py (List ParticleTerm) := do
  let hubbard ← (List.finRange n).mapM fun i =>
    hubbardFactory zoom (siteOf coordOf (L.points i)) (coeff := ((U / 2 : ℝ) : ℂ))
  let hopping ← (intra.flatMap fun b => spinPair.map fun s => (b, s)).mapM fun p =>
    hoppingFactory zoom (siteOf coordOf p.1.1) (siteOf coordOf p.1.2) (spin0 := p.2) (coeff := (t : ℂ))
  return hubbard ++ hopping

/-- `[state_indices_table(HP.StateID(site=site, spin=spin)) for site in cluster.points]` (HubbardChain.py:47-54). -/
noncomputable def spinIndices {n m k : ℕ} (zoom : ℤ) (coordOf : ℝ → Coord) (L : Lat n m k) (table : IndexTable StateID)
    (spin : ℤ) : Py (List ℤ) :=
  (List.finRange n).mapM fun i => do
    let st ← StateID.init zoom (siteOf coordOf (L.points i)) spin
    table.queryIndex st

/-- `base_vectors([spin_up_state_indices, Nup], [spin_down_state_indices, Ndown])` and the Hamiltonian on it
(HubbardChain.py:55-64, 79-105). -/
noncomputable def hubbardSpace {n m k : ℕ} (zoom : ℤ) (coordOf : ℝ → Coord) (L : Lat n m k) (table : IndexTable StateID)
    (terms : List ParticleTerm) (Nup Ndown : ℤ) : Py Setup := do
  let up ← spinIndices zoom coordOf L table 1
  let down ← spinIndices zoom coordOf L table 0
  let basis ← baseVectors [.list [.list (up.map .int), .int Nup], .list [.list (down.map .int), .int Ndown]]
  let HM ← hamiltonian table basis terms
  return ⟨table, basis, HM⟩

/-- `np.arange(-0.5, 0.5 + step, step)`, exact: numpy returns `ceil((stop - start) / step)` numbers, and raises for
`step = 0`.
Used at GreenFunction/demo/HubbardChain.py:34. -/
noncomputable def kGrid (step : ℝ) : Py (List ℝ) :=
  if step = 0 then raise .valueError
  else .ok ((List.range ⌈((0.5 + step) - (-0.5)) / step⌉₊).map fun i : ℕ => -0.5 + i * step)

/-- `kpoints = np.dot(np.arange(...).reshape((-1, 1)), cell.bs)` (HubbardChain.py:34): ValueError unless `cell.bs` has one
row. -/
noncomputable def gridPoints (step : ℝ) (cell : Built) : Py (List (List ℝ)) := do
  let grid ← kGrid step
  if h : cell.k = 1 then
    .ok (grid.map fun x : ℝ => (List.finRange cell.m).map fun a => x * cell.lat.bs ⟨0, h ▸ Nat.one_pos⟩ a)
  else raise .valueError

/-- `[AoC(otype=CREATION, site=site, spin=spin) for spin in SPINS for site in L.points]` (HubbardChain.py:152-160). -/
noncomputable def creators {n m k : ℕ} (zoom : ℤ) (coordOf : ℝ → Coord) (L : Lat n m k) : Py (List AoC) :=
  (spinPair.flatMap fun s => (List.finRange n).map fun i => (s, i)).mapM fun p =>
    AoC.init zoom 1 (siteOf coordOf (L.points p.2)) p.1

/-- `cluster_gfs_array` at one frequency (HubbardChain.py:161-172); `Cluster_As` are the conjugates of `Cs`. -/
noncomputable def gfsArray {m : ℕ} (zoom : ℤ) (Cs : List AoC) (D : GfDict m) (w : Fin m) :
    Matrix (Fin Cs.length) (Fin Cs.length) ℂ :=
  .of fun r c => (D.get (daggerOf zoom Cs[r], daggerOf zoom (daggerOf zoom Cs[c]))).getD 0 w

/-- `list.index(x)` with the `==` of `AoC`.
Used at GreenFunction/demo/HubbardChain.py:179, 183, 194-195. -/
def indexOf (l : List AoC) (a : AoC) : Py ℕ :=
  match l.findIdx? fun b => b.eq a with
  | some i => .ok i
  | none => raise .valueError

/-- An array of coordinates as a point of the lattice; a wrong length does not broadcast.
Used at GreenFunction/demo/HubbardChain.py:179-196. -/
noncomputable def ptOf (m : ℕ) (l : List ℝ) : Py (Pt m) :=
  if h : l.length = m then .ok fun a => l[(a : ℕ)]'(h ▸ a.2) else raise .valueError

/-- A loop whose body may run forever.
Used at GreenFunction/demo/HubbardChain.py:179-196. -/
def mapRun {α β : Type} (f : α → Option (Py β)) : List α → Option (Py (List β))
  | [] => some (.ok [])
  | a :: as => andThen (f a) fun b => andThen (mapRun f as) fun bs => some (.ok (b :: bs))

/-- `p_eqv, dR = cell.decompose(X.site)`, `index = ops.index(X.derive(site=p_eqv))` (HubbardChain.py:176-183). -/
noncomputable def cellIndex (zoom : ℤ) (coordOf : ℝ → Coord) (prec : ℕ) (cell : Built) (ops : List AoC) (X : AoC) :
    Option (Py (ℕ × Pt cell.m)) :=
  andThen (some (ptOf cell.m (siteVal X))) fun p =>
  andThen (decompose prec cell.lat p) fun q => some do
    let Y ← X.derive zoom (site := some (siteOf coordOf q.1))
    let index ← indexOf ops Y
    return (index, q.2)

/-- An element of `FTs` or `VTerms`: positions and the translation.
Used at GreenFunction/demo/HubbardChain.py:184, 196. -/
structure Shifted (m : ℕ) where
  i0 : ℕ
  j0 : ℕ
  i1 : ℕ
  j1 : ℕ
  dR : Pt m

/-- `FTs` (HubbardChain.py:175-184). -/
noncomputable def fourierTerms (zoom : ℤ) (coordOf : ℝ → Coord) (prec : ℕ) (cell : Built) (cellCs Cs : List AoC) :
    Option (Py (List (Shifted cell.m))) :=
  andThen (mapRun (fun p : AoC × ℕ =>
    andThen (cellIndex zoom coordOf prec cell cellCs p.1) fun u =>
    mapRun (fun q : AoC × ℕ =>
      andThen (cellIndex zoom coordOf prec cell (cellCs.map (daggerOf zoom)) (daggerOf zoom q.1)) fun v =>
      some (.ok (⟨p.2, q.2, u.1, v.1, v.2 - u.2⟩ : Shifted cell.m))) Cs.zipIdx) Cs.zipIdx) fun ls =>
  some (.ok ls.flatten)

/-- `VTerms` (HubbardChain.py:186-196). -/
noncomputable def interTerms {n m k : ℕ} (zoom : ℤ) (coordOf : ℝ → Coord) (prec : ℕ) (L : Lat n m k) (Cs : List AoC)
    (inter : List (LBond m)) : Option (Py (List (ℕ × ℕ × Pt m))) :=
  andThen (mapRun (fun b : LBond m =>
    andThen (decompose prec L b.1) fun u =>
    andThen (decompose prec L b.2) fun v => some (spinPair.mapM fun s => do
      let C ← AoC.init zoom 1 (siteOf coordOf u.1) s
      let A ← AoC.init zoom 0 (siteOf coordOf v.1) s
      let index0 ← indexOf Cs C
      let index1 ← indexOf (Cs.map (daggerOf zoom)) A
      return (index0, index1, v.2 - u.2))) inter) fun ls =>
  some (.ok ls.flatten)

/-- `np.exp(1j * np.dot(kpoint, dR))`.
Used at GreenFunction/demo/HubbardChain.py:203, 211. -/
noncomputable def shiftPhase {m : ℕ} (k : List ℝ) (dR : Pt m) : ℂ :=
  Complex.exp (Complex.I * ((List.zipWith (fun x y : ℝ => x * y) k ((List.finRange m).map dR)).sum : ℝ))

/-- `VMatrix` (HubbardChain.py:201-204). -/
noncomputable def vMatrix {m : ℕ} (N : ℕ) (t : ℝ) (k : List ℝ) (terms : List (ℕ × ℕ × Pt m)) :
    Matrix (Fin N) (Fin N) ℂ :=
  let V : Matrix (Fin N) (Fin N) ℂ := .of fun r c => (terms.map fun p =>
    if p.1 = (r : ℕ) ∧ p.2.1 = (c : ℕ) then (t : ℂ) * shiftPhase k p.2.2 else 0).sum
  V + V.conjTranspose

open Classical in
/-- `np.linalg.inv` of one matrix.
Used at GreenFunction/demo/HubbardChain.py:205. -/
noncomputable def pyInv {N : ℕ} (M : Matrix (Fin N) (Fin N) ℂ) : Py (Matrix (Fin N) (Fin N) ℂ) :=
  if IsUnit M.det then .ok M⁻¹ else raise .linAlgError

/-- `np.trace(temp)`, where `temp[i1, j1]` collects the entries of `cpt_gfs` (HubbardChain.py:207-212). -/
noncomputable def periodize {N m : ℕ} (k : List ℝ) (cells : ℕ) (fts : List (Shifted m)) (P : Matrix (Fin N) (Fin N) ℂ) : ℂ :=
  let temp : Matrix (Fin cells) (Fin cells) ℂ := .of fun a b => (fts.map fun f =>
    if f.i1 = (a : ℕ) ∧ f.j1 = (b : ℕ) then
      (if h : f.i0 < N ∧ f.j0 < N then P ⟨f.i0, h.1⟩ ⟨f.j0, h.2⟩ else 0) * shiftPhase k f.dR
    else 0).sum
  temp.trace

/-- One pass of the loop over the k-points (HubbardChain.py:200-212): `np.linalg.inv` of all frequencies, then the
periodisation. -/
noncomputable def cptPoint {m d d' N : ℕ} (t : ℝ) (cells : ℕ) (G : Fin m → Matrix (Fin N) (Fin N) ℂ)
    (fts : List (Shifted d)) (vts : List (ℕ × ℕ × Pt d')) (k : List ℝ) : Py (Fin m → ℂ) := do
  let Gi ← (List.finRange m).mapM fun w => pyInv (G w)
  let Ps ← Gi.mapM fun M => pyInv (M - vMatrix N t k vts)
  return fun w => periodize k cells fts (Ps.getD w 0)

section scripts

variable (order : ∀ k : ℕ, List (Fin k → ℤ) → List (Fin k → ℤ))
  (porder : ∀ N : ℕ, List (Fin N × Fin N) → List (Fin N × Fin N)) (zoom : ℤ) (coordOf : ℝ → Coord)
  (prec : ℕ) (eig : (N : ℕ) → Matrix (Fin N) (Fin N) ℂ → ℝ × Vec N)

/-- HubbardChain.py:31-46. -/
noncomputable def hubbardTerms (siteNum : ℤ) (t U : ℝ) : Option (Py HubbardTerms) :=
  match latticeGenerator prec "chain" siteNum 1 1 with
  | .error e => some (.error e)
  | .ok cluster =>
    match bonds (order cluster.k) porder prec cluster.lat 1 true false with
    | none => none
    | some (_, .error e) => some (.error e)
    | some (_, .ok (_, none)) => some (raise .typeError)
    | some (L', .ok (intra, some inter)) => some do
      let terms ← hubbardTermList zoom coordOf L' t U intra
      let table ← stateTable zoom coordOf L' spinPair
      return ⟨⟨_, _, _, L'⟩, inter, terms, table⟩

/-- The numbers of particles in the Hilbert spaces with one particle of the given spin less and more
(HubbardChain.py:79-96): up, down. -/
def sectorNumbers (half : ℤ) (spin : ℤ) (d : ℤ) : ℤ × ℤ := if spin = 1 then (half + d, half) else (half, half + d)

/-- The loop `for spin in SPINS` (HubbardChain.py:77-150), with the spins still to come.  Simplification: the matrices
`HM_H` and `HM_P`, which the script sums in one loop, are computed one after the other. -/
noncomputable def hubbardLoop (threshold : ℝ) (K : ℤ) (half : ℤ) (T : HubbardTerms) (V : Setup) (GE : ℝ)
    (GS : Vec V.basis.length) (omegas : List ℝ) (eta : ℝ) (g : Garbage omegas.length) :
    List ℤ → GfDict omegas.length → Py (GfDict omegas.length)
  | [], D => .ok D
  | s :: rest, D => do
    let Vh ← hubbardSpace zoom coordOf T.cluster.lat T.table T.terms (sectorNumbers half s (-1)).1
      (sectorNumbers half s (-1)).2
    let Vp ← hubbardSpace zoom coordOf T.cluster.lat T.table T.terms (sectorNumbers half s 1).1
      (sectorNumbers half s 1).2
    let ops ← operators zoom coordOf T.cluster.lat [s]
    let E ← gfsSectors zoom threshold K V Vh Vp ops GE GS omegas eta g
    hubbardLoop threshold K half T V GE GS omegas eta g rest (D.update E)

/-- HubbardChain.py:152-213: from the dict of cluster Green functions to `final_gfs`. -/
noncomputable def cptFinish (siteNum : ℕ) (t step : ℝ) (T : HubbardTerms) {m : ℕ} (D : GfDict m) :
    Option (Py (Spectrum m)) :=
  andThen (some (latticeGenerator prec "chain" 1 1 1)) fun cell =>
  andThen (some (creators zoom coordOf cell.lat)) fun cellCs =>
  andThen (some (creators zoom coordOf T.cluster.lat)) fun Cs =>
  andThen (fourierTerms zoom coordOf prec cell cellCs Cs) fun fts =>
  andThen (interTerms zoom coordOf prec T.cluster.lat Cs T.inter) fun vts => some do
    let kpts ← gridPoints step cell
    let vals ← kpts.mapM (cptPoint t cellCs.length (gfsArray zoom Cs D) fts vts)
    return ⟨kpts, fun w i => vals.getD i 0 w / (siteNum : ℂ)⟩

/-- HubbardChain.py. -/
noncomputable def scriptHubbard (threshold : ℝ) (K : ℤ) (siteNum : ℕ) (t U step : ℝ) (omegas : List ℝ) (eta : ℝ)
    (g : Garbage omegas.length) : Option (Py (Spectrum omegas.length)) :=
  andThen (hubbardTerms order porder zoom coordOf prec siteNum t U) fun T =>
  andThen (some (hubbardSpace zoom coordOf T.cluster.lat T.table T.terms (siteNum / 2 : ℕ) (siteNum / 2 : ℕ))) fun V =>
  andThen (some (hubbardLoop zoom coordOf threshold K (siteNum / 2 : ℕ) T V (eig _ V.HM).1 (eig _ V.HM).2 omegas eta g
    spinPair ⟨[], fun _ => none⟩)) fun D =>
  cptFinish zoom coordOf prec siteNum t step T D

end scripts

end Verif.Demo
