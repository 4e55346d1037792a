# Formal model of HamiltonianPy in Lean 4

## Layout

* `lean/Verif/Py.lean` - Python exceptions as values (`PyErr`, `Py := Except PyErr`), list helpers.
* `lean/Verif/Model/*.lean` - the model: one file per Python module, function by function, every
  definition citing file and lines in `/repo/HamiltonianPy`.
* `lean/Verif/Spec/*.lean` - small specifications that do not mention the model (Fock space,
  tensor-product spins, floors, counting).
* `lean/Verif/Proofs/*.lean` - helper lemmas.
* `lean/Verif/Props/*.lean` - the property theorems (one file per group), each followed by an
  `example` showing that a concrete non-trivial case meets the hypotheses.

## Trusted base

* Lean 4.33.0's kernel and the axioms `propext`, `Classical.choice`, `Quot.sound` (no others).
* Mathlib definitions used in statements (`Matrix`, `Finset`, `Complex`, `Real`, `Nat.choose`, ...).
* My reading of the Python code: the code is not executed here. Each model definition cites the lines
  it models and says what is simplified.
* Behaviour of the runtime that is assumed, not proved: CPython evaluation order, dict/tuple semantics,
  `sorted` being a stable sort, numpy `searchsorted` being the leftmost binary search, scipy's
  csr constructor summing duplicates, `np.linalg.solve` returning the solution of a non-singular system.
* Floating point: amplitudes (coefficients, matrices, coordinates in the geometry part) are modelled as
  exact complex/real numbers; rounding is not modelled except where the property is about it
  (C04: `int(_ZOOM * coord)`; C61: true division of factorials), where an exact model
  of IEEE-754 binary64 round-to-nearest-even is used.

## Plan, property by property

| id | modelled | how proved |
|----|----------|------------|
| C01, C02 | `IndexTable.__init__`, queries, iteration as association lists/fold with exceptions | induction over the object list, invariant "the table is the enumeration of the prefix" |
| C03 | `SiteID`/`StateID` tuple forms and rich comparisons (Python tuple comparison) | lexicographic order is linear, transported along the tuple form |
| C04 | `int(_ZOOM*coord)` with a binary64 rounding function on rationals | monotonicity and error bounds of rounding, truncation lemmas |
| C05 | global `_ZOOM` of `quantumstate.py` and `bond.py` as state machine with object heap | invariant over histories |
| C06, C07 | `AoC` comparison methods branch by branch | case analysis + linear order |
| C08, C09 | `__mul__`/`__rmul__` dispatch of `AoC`, `NumberOperator`, `ParticleTerm` | induction over expression trees |
| C10, C11, C12 | `ParticleTerm.normalize` (nested bubble loops with exception) | loop invariant; inversions counting; CAR in Fock space |
| C13 | `check_compatibility` | case analysis |
| C14-C19 | `base_vectors` (itertools.product/chain/combinations), the two classes, validation | induction over lists; counting; uint64 bound |
| C20-C26 | `matrixrepr.py` kernels on naturals with `&&&`, `^^^`, testBit loops, binary search | simulation: ket bits = Finset, kernel = Fock-space operators; then corollaries |
| C27 | persistent `coeff` as a state machine | induction over call histories |
| C28 | `NumberOperator.matrix_repr` | from C20 |
| C29-C33 | `spinsystem.py` matrices by index arithmetic (`kron` by div/mod) | bit-wise description of kron, commuting of distinct sites, permutation argument for stable sorting |
| C34 | `Schwinger` + fermion matrices | correspondence of bases, from C20 and C29 |
| C35, C36 | factories | algebra from the previous results |
| C37, C38 | `averages.py`, `TotalSpin.py` | sums of single-spin matrices |
| C39 | `bond.py` | tuple forms |
| C40, C41 | `line2d.py` over the reals | field arithmetic |
| C42 | `polygon.py` | false for vertical edges: counterexample + partial theorem |
| C43-C45 | `rotation3d.py` over the reals | trigonometric identities |
| C46-C52, C65 | `lattice.py`: `Lattice.__init__`, `getIndex`, `getSite`, `in_cluster`, `_guess_scope`, `_searching`, `decompose`, `_sites_factory`, `neighbor_distance`, `bonds` over exact reals; KD-tree tie breaking and set iteration order are arguments; an endless loop is `none` | Gram-matrix linear algebra for the reciprocal vectors, shell arguments for the search scope (weakly orthogonal bases, 60-120 degrees), half meshes by induction over the mesh, `rint` error bounds for distances; counterexamples for C49, C52, C65 |
| C53, C54, C66 | `_lattice_database.py` | integer coordinates w.r.t. the cell vectors, a residue argument for "each site exactly once", transported through `Lattice.__init__` |
| C55 | `KPath`, with the sample count in exact and in double arithmetic | list induction; rounding lemmas |
| C56, C57 | `KrylovRepresentation`, `MultiKrylov`, `set_threshold` | three-term recurrence, orthonormality invariant |
| C58-C60 | `_GFSolver.py` | resolvent on an invariant subspace; spectrum of Hermitian matrices |
| C61 | `PandC.py` with float true division | exactness criteria from the rounding model; counterexamples outside |
| C62 | `runtimeenv.py` as a state machine; user programs are a small language with `with`, `try`, `raise`, `print`, assignment to `sys.stdout` | induction over programs |
| C63 | `colorprint.py` on lists of code points | finite tables + string algebra |
| C64 | `Bond.getAzimuth` over exact reals | polar/spherical coordinates |
| C67 | the `_XS/_MS/_KS/_ES` tables of the database | first Brillouin zone as the cell of points not closer to another reciprocal vector; finite case analysis after bounding the competing vectors |
| C68 | matrices of one term on two bases; sums of terms | matrix elements are Fock-space elements (C20), so independent of the basis; padding by zeros intertwines the two matrices |
| C69 | `base_vectors` for fixed numbers and for -1 | membership characterisation C14, order C15, sublist of an ascending list |
| C70 | `base_vectors((n,1))`, one-body terms on it | Fock-space action on singletons |
| C71 | two tables, full Fock basis | relabelling operator with the inversion sign intertwines the creation/annihilation operators; matrix elements follow; charpoly by similarity |
| C72 | matrices of terms and number operators | bookkeeping of bits along the kernel (Proofs/Conserve), diagonal matrices |
| C73 | Heisenberg/Ising terms and total spin matrices (already modelled) | commutators of site operators; derivation rule along products; diagonal form of total S^z |
| C74 | `KrylovRepresentation` (already modelled) | powers of M on the start vector in the Krylov basis; isometry; spectral theorem for the projected matrix |
| C75 | the Green-function solvers (already modelled) | expansion in an eigenbasis; integrals of Lorentzians |
| C76 | SpinOperator comparisons as tuple comparisons; five classes as one sum type with isinstance and == | pull the order back from a lexicographic linear order; IndexTable theorems C01/C02 instantiated |
| C77 | texts as character lists; repr(float) abstract | unique splitting at characters that numbers do not contain |
| C78 | tolatex of all classes over an abstract float text | unique splitting; brace-depth function; IndexTable theorems |
| C79 | cell tables, _sites_factory, _bonds_generator, show up to the plots | all squared distances are integers over 1, 1, 3, 4 (quadratic forms), so the next distance is far above the tolerance |
| C80 | figureName, savePath | string lists; witness path="figs" |
| C81 | `BZ.showFirstBZ` returns the labels and segments handed to matplotlib | the segment is parametrised; reciprocal vectors are characterised by their products, not by the inverse matrix |
| C82 | `BZ.ShowsZone`: same side of every drawn line as the origin, against `InFirstBZ` | obtuse superbase argument for sufficiency, an explicit corner point for necessity |
| C83 | `BZ.zoneAs/zoneBs/zoneKs/zoneMs/zoneFigure`: the constants and the loop of the script | reduction to `C67_hexagon` and to the hexagonal zone inequalities |
| C84 | `latticeGenerator`, `bonds`, `neighborDistance` as before | the distance cache of a chain is always an initial segment of the integers (invariant over histories), then C51 and completeness of the scope |
| C85 | `chainSetup`: the scripts up to HM as one function of t, site_num, spins, specifiers | C84 for the bonds, C25/C36 for each term, linearity of matrix elements, reindexing of the ring |
| C86 | `scriptExact`: the whole script as one function; the diagonaliser is a parameter | anticommutators give [H, c_k^dagger] = e_k c_k^dagger, so the Fourier sum of the two resolvents is diagonal; C85 for HM, C59 for the solver |
| C87 | `scriptLanczos`, `scriptSectors`, `scriptSpins`: the whole scripts; the diagonaliser is a parameter | the Krylov space of c_i^dagger |GS> stays in the span of the n vectors c_j^dagger |GS>, so its dimension is at most n and MultiKrylov stops by its threshold; C57/C60 give the error, C86's Fourier sum the value |
| C88 | `heisenbergSetup` with `exchangeLoop`, `exchangeMatrix`; spec `ringHeisenberg`, `totalSpinOp` | bond by bond: (J/2)(SzSz + S+S-) + h.c. = J S.S for different sites (C31), bonds of the ring by C84, indices by the lookup theorems of C47/C49 |
| C89 | `scriptHeisenberg1`, `scriptHeisenberg2`: the whole scripts; the diagonaliser is a parameter; spec `IsSpinSpectrum`, `spinWave` | the double sum over the dict is the matrix element between spin waves; Lehmann representation (C75); Lanczos error by C58/C60 with the whole space as invariant subspace; singlet: <S_j^z> = 0 from [S^x_tot, S_j^y] = i S_j^z |
| C90 | `SiteID.init`, `StateID.init`, `AoC.init`, `SpinOperator.init`, `conjugateOf`, `sameSite`, `AoC.matrixRepr` | case analysis of the assertions; the general kernel (C20) for one operator |
| C91 | `hubbardTerms`, `hubbardSpace`; spec `hubbardHamiltonian` | bonds of the chain by C84, numbering of the table by sorting of state ids, kernel C20 term by term |
| C92 | `scriptHubbard`: the whole script with `hubbardLoop`, `cptFinish`; spec `IsClusterGreen`, `interCluster`, `cptGreen` | Lanczos error C58/C60; Im G negative definite, hence G^-1 - V invertible; resolvent perturbation bounds in operator norm |
| C93 | as C92 | the cluster Green function without interaction is (z - h)^-1 for the one-particle matrix h; plane waves are eigenvectors of h + V(k) |
| C94 | `bonds`, `neighborDistance` on the lattices of `latticeGenerator`/`specialCluster`; spec `IsNearestDistance`, `ListsBonds` | C53 gives the sites; per-cell bounds on the shells reached by `_guess_scope`; integer quadratic forms for the distances |
| C95 | `bonds`, `neighborDistance` on the lattices of `latticeGenerator`; spec `IsNthDistance`, `ShellLength`, `FindsShell` | position in the sorted list of rounded distances = number of distances up to d; width bounds by integer quadratic forms; invariant of the distance cache over histories |
| C96 | as C95 with nth = 2 | small clusters: the cluster has a single distance, so the cache is refilled from the large set; lines: the cache of the fresh lattice holds 1, 2, ... ; squared distances have no value 2 in the triangular forms (mod 3) |
| C97 | `totalSpinAverages`; spec `PhysicalSpin` | S_i.S_j <= 1/4 because 1/4 - S_i.S_j is a projector; lower bound from the positivity of |(u + i w).S psi|^2 for a frame around the mean spin |
| C98 | `matrixRepr`, `baseVectors`; spec `IsQuadratic`, `sumsOf` | rotated creation operators of the one-particle eigenmodes obey the CAR; Slater states are orthonormal eigenvectors of the sector matrix and there are n choose N of them |
| C99 | the factories, `matrixRepr`, `baseVectors`; spec `SpinfulPart`, `BuildsMatrix` | commutators of the spin flip operator with the ladder operators (CAR); terms are matrices of Fock space operators (C21) |
| C100 | `Model/Ownership`: a heap of arrays, references, `np.array(copy=True)`; spec `vstep`/`vtrace`: the same programs with values | refinement: simulation relation (held references are distinct and disjoint from those of objects), induction over the program |
| C101 | spec `Coordination`, `ends`, `BondsPerSite` | handshake count over the bonds of the infinite lattice modulo translations (C94), coordination numbers by solving the distance equations over the integers |
| C102 | `Model/Settings`: world of the five settings and the objects made so far, one command per API call; spec `asked`, `reading`, `Cmd.reads` | case analysis of each command, induction over programs; witnesses computed |
| C103 | `Model/Rotation3D`; spec: orthogonal matrices of determinant 1 or -1 | an element that fixes the z axis is a rotation about it; conjugation; det(R - 1) = 0; Rodrigues' formula for the last clause |
| C104 | `Model/Show`; spec: the marked places and the drawn curve as sets | the mesh enumerates every coefficient vector once; consecutive vertices are the edges |
| C105 | `Model/LatticeDatabase`, `Model/Polygon`; spec `Spec/PolygonZone` | coordinates with respect to the reciprocal vectors; ties bound the coefficients; C42_exactly_when |
| C106 | `Model/Lattice`; spec `Spec/LatticeMotion`: length-preserving linear maps | every comparison in the code is of distances of points or combinations of vectors; polarisation for the Gram matrix |
| C107 | `Model/DemoCluster`, `Model/Demo`, `Model/LatticeDatabase`; spec `Spec/LatticeBand`: hopping on the infinite lattice, plane waves, allowed wave vectors, sums of energies | bonds per site (C66, C94, C105) give the one-particle matrix; plane waves are independent eigenvectors; free-fermion spectrum from the one-particle one (C70) |
| C108 | `Model/QuantumState` (floats bit by bit), `Model/LatticeDatabase`; spec `Spec/LatticeBand`: `Distinguishes`, `NearFloats` | sites are at least 1/10 apart (C53), identified coordinates less than 1/20 (C04) |
| C109 | `Model/DemoCluster`, `Model/LatticeDatabase`; spec `Spec/LatticeBand`, `Spec/BlochBand`: the textbook bands | Bloch waves: for each wave vector the 2 or 3 sublattice amplitudes are eigenvectors of the Bloch matrix; the waves are independent; free-fermion spectrum from the one-particle one (C70) |
| C110 | `Model/Bond`; spec `Spec/Bond`: coordinates as numbers, the distance over the reals, the accuracy of sqrt | rounding-error analysis: one rounding of the difference, of the square, of each sum, of the root; relative errors add up |
| C111 | the default values in the signatures of `Model/*`; spec: `Spec/Fock`, `Spec/Spin`, `Spec/Rotation`, `Spec/Geometry` | instances of C01, C20, C26, C35, C36, C39-C45 at the calls with omitted arguments |
| C112 | `Model/Printed`: the texts as character lists | prefix-free splitting at characters that numbers do not contain; idempotence of the constructors (C17) |
| C113 | `Model/Printed.colorDemo`; spec `Spec/Printed`: the list of combinations and the line of each | C63 for each line, the loops as mapM |
| C114 | `Model/DemoSpinCluster`, `Model/LatticeDatabase`; spec `Spec/LatticeSpin`: the sum over the neighbours in the infinite lattice | bonds per site (C66, C94, C105) turn the loop into a sum over neighbours; action on the fully polarised state and on one turned spin; S_i . S_j <= 1/4 |
| C115 | `Model/DemoHubbardCluster`, `Model/LatticeDatabase`; spec `Spec/HubbardCluster`: sum over pairs of points at the given distance | C94 identifies the intra bonds with the pairs of points at that distance; the term-to-matrix theorem (C20) for each term; C15 for the basis |
| C116 | `Model/DemoHubbardCluster` as in C115; spec `Spec/HubbardSymmetry`: each symmetry as a relation between two runs | canonical transformations of the Fock space (products of reflections) intertwine the two Hamiltonians sector by sector; the lowering operator is injective above half magnetisation; closed walks of odd length give a nonzero odd trace for the converse |
| C117 | `Model/Spin`, `Model/IndexTable`, `Model/Averages`; the permutation is characterised by `digit`: the digit of a site's new number in the new state is the digit of its old number in the old state | C01 gives the relabelling of the indices; one-spin matrices are carried along by it, products by `submatrix_mul_equiv` |
| C118 | `Model/DemoHubbardCluster` as in C115; spec `Spec/HubbardLimits`: one-electron hopping matrix from distances, lowest energy as an eigenvalue that bounds all eigenvalues | products of one-electron modes of either spin are an orthonormal family of eigenvectors that fills the sector (counting); variational principle with the number of doubly occupied points bounded by inclusion and exclusion |
| C119 | `Model/BondRound`: `np.around` on doubles and int64, bit by bit; spec: multiples of `10**-n`, `Spec/Bond` `distance` | error bound of the three float operations; the integer case is exact because a difference of at least 1/(2 10**k) cannot be bridged by rounding |
| C120 | `Model/DemoSpinCluster` (as C114); spec: `LowestAtLeast`, `LowestAtMost`, `HighestUp` in `Spec/Antiferromagnet` | X = S_i . sum_j S_j satisfies 2 X^2 = (1/2) sum S_j . S_k - X, so X >= -(z+2)/4 by the variance inequality; the Neel state has diagonal energy -J z N / 8; the singlet from dotOp_sq |
| C121 | `Model/LineText` (`__str__`, `__repr__`, `{:.4f}`); spec: what number a text denotes (`Writes`) in `Spec/LineText` | rounding error of the nearest ten-thousandth; the longest run of number characters is unique, so texts can be read back |
| C122 | `Model/DemoSpinCluster`, `Model/DemoCluster` (as C114, C107); spec: `SymmetryOf`, `SpinSymmetric`, `HoppingSymmetric` in `Spec/SpaceGroup` | a symmetry induces a permutation of the cluster points by the exact tiling (C53, C54) and a bijection of the neighbours of a point with those of its image; reindexing the sums of C114 and C107 |
| C123 | `Model/LatticeDatabase.latticeGenerator`; spec: `Numbers`, `triangleSite` in `Spec/Numbering` | `itertools.product` as a map over one range with quotients and remainders, by induction on the number of factors |
| C124 | `Model/DemoHubbardCluster` (as C115); spec: `chainLevel`, `FreeLevels` in `Spec/OpenBox` | C118 and C123; standing waves diagonalise the open chain (independent because the levels differ), products of them the boxes; roots of unity the ring; equal lists of levels give equal sums |
| C125 | `Model/LatticeText.latticeStr`; spec: splitting at newlines (`List.splitOn`) | positions in a concatenation; splitting undoes joining when no part contains a newline |
| C126 | `Model/DemoHubbardCluster` (as C115); spec: `HasLevels`, `DimerEnergies`, `DimerGround` in `Spec/Dimer` | C115 and C123; matrix elements between occupation sets are evaluated as integers, the characteristic polynomials of the nine sectors expanded and factored |
| C127 | `Model/ShowOperator`: pyplot's list of open figures and the displays; spec: `ShowsLatex`, `runShows` in `Spec/ShowOperator` | case analysis on the outcome of `tolatex`, C78 for its form, induction on the calls |
| C128 | `Model/DemoHubbardCluster` (as C115); spec: `bothOccupied`, `SimpleState`, `SameAverages`, `EvenlyFilled`, `UniformDensity` in `Spec/HubbardDensity` | C115 and the symmetry operators of C124 (permutations, spin exchange, particle-hole), which commute with the matrix and permute the occupation numbers |
| C129 | `Model/Octahedron`: all of tools/Octahedron.py; spec: `RegularOctahedron`, `DrawsEdges`, `HiddenAt`, `DashesRight` in `Spec/Octahedron` | the interior of the convex hull is described by the eight faces; a point is hidden iff all faces through it are turned away |
| C130 | as C108, C126, C128; spec: `UniqueGround`, `GroundDistribution` in `Spec/ChainGround` | no electron passes another of the same spin in a hop, so all off-diagonal entries are t or 0 and the states are connected; Perron-Frobenius (`Proofs/Perron`); the distribution from C128 |
| C131 | as C120; spec: `TwoSublattices`, `AntiferroGround` in `Spec/SingletGround` | Marshall's signs and Perron-Frobenius in every sector of the total S^z; the singlet of pairs between the sublattices has positive overlap with the ground state, which is therefore a singlet (`Proofs/Marshall`, `Proofs/SingletGround`); isotropy from commutators with the total spin, signs of the correlations from the exchange term (`Proofs/SingletCorrelations`); the infinite lattices are connected by steps between neighbours (`Proofs/SingletSteps`) |
| C132 | as C131; spec: `totalSpinSquare`, `OrderedLevels` in `Spec/SpinLevels` | Lieb and Mattis: in every sector the lowest state has positive overlap with a state in which some pairs are singlets and the spins of the others are up, so it cannot be raised; lowering it gives a state of the next sector that is not its lowest; a state of total spin s in any sector is raised to the one of its highest weight (`Proofs/SpinLevels`) |
| C133 | as C114; spec: `AlignedGround` in `Spec/AlignedGround` | the exchange of a pair is half the swap of two spins; the energy above the lowest is a sum of squared distances of w from its swapped copies, so every bond leaves w unchanged; the bonds link all points, so all permutations do (`Proofs/AlignedGround`) |

## Findings: where the code does not satisfy the English property

Each is proved as a theorem about the model with a concrete witness; the property is then claimed
`partial` (or its statement says so explicitly).

| property | theorem | what happens |
|---|---|---|
| C04 | `C04_large_values_not_identified` | floats beyond 2^53/10^p: an int coordinate and the equal float get different keys |
| C04 | `C04_precision_range` | from `set_float_point_precision(309)` on, every float coordinate (even 0.0) raises OverflowError, because `10**309` is not a double |
| C14 | `C14_repeated_states_break_it` | a specifier naming a state twice is accepted and yields kets outside the documented set (one ket twice, or a ket occupying a state that is not listed) |
| C23 | `C23_diagonal_kernels_ignore_left_bases`, `C23_exactly_when` | the number/Coulomb kernels ignore `left_bases`: they agree with the general kernel exactly when every contributing ket of the right basis is at the same position of the left basis |
| C40, C41 | `C40_gap_depends_on_orientation`, `C41_gap_point_off_line` | lines whose slope is within the tolerance are treated as horizontal: reversing the end points or moving along the line changes the answer |
| C42 | `C42_vertical_edge_bug` | a point on the line of a vertical edge but beyond the edge is reported as BOUNDARY (only the x-range is tested) |
| C43 | `C43_general` (last clause) | after `set_threshold(0.0)` an axis along z makes `RotationGeneral` divide 0 by 0: a matrix of `nan` |
| C44 | `C44_threshold_gap` | an axis of length just above the threshold whose in-plane part is below it: the in-plane direction is replaced by x, so the rotation is about another axis |
| C49 | `C49_violated_oblique` | vectors (1,0),(2.5,0.01): `decompose` raises RuntimeError for a true lattice site |
| C52 | `C52_violated` | points 0 and 1 with period 1.5: `neighbor_distance(1)` is the intra-cluster 1, not 0.5; a later call with a larger argument changes the answer |
| C52 | `C52_history_dependent` | one site, vectors (1, 0) and (0, 10): `neighbor_distance(3)` is 3 on a new lattice but 10 after `neighbor_distance(1)`; `C52_exactly_when` says exactly for which lattices this cannot happen |
| C55 | `C55_float_violation` | `int(100*0.081/0.081) = 99` in double arithmetic |
| C61 | `C61_violations` | `Combination(24,1) = 23` and others: two truncated divisions |
| C62 | examples in `Props/RunTimeEnv.lean` | entering the same object again inside itself, or a failing write inside `__exit__`, leaves `sys.stdout` redirected; an inner exit lifts the outer thread limit |
| C63 | `Props/ColorPrint.lean` | `"#-1+2 3"` is accepted as a hexadecimal colour and gives a negative component; sequences of other lengths than 3 are silently ignored |
| C65 | `C65_violated_rounding` | spacing sqrt 2: the rounded judge distance is below the true one, `bonds(1)` is empty |
| C102 | `C102_mixed_lattice`, `C102_mixed_bonds` | why the docstrings ask to set the precision first: a lattice with points 0 and 1/3 made at four digits loses its nearest-neighbour bonds at six digits; a bond flipped twice across a change is not equal to itself |
| C78 | `C78_precision_violated` | `StateID.tolatex(site_index=table)` re-creates the site under the current `_ZOOM`: after `set_float_point_precision` it raises KeyError for a state whose site is in the table |
| C80 | `C80_directory_violated`, `C80_outside` | `Draw2DLattice.show(path="figs")` creates the directory `figs` and saves `figssquare.pdf` beside it |
| C79 | `C79_sites` | documentation: `num0`, `num1` are the numbers of unit cells; `2*num0+1` by `2*num1+1` are drawn |
| C82 | `C82_zone_violated` | `ShowFirstBZ(np.array([[1,0],[3,1]]))`: the eight drawn lines enclose more than the first Brillouin zone (bisectors of reciprocal vectors with a coefficient 2 or more are missing) |
| C94 | `C94_rounded_down`, `C94_precision` | honeycomb lattices at float precision 5: 1/sqrt 3 is rounded down to 0.57735 and `bonds(1)` returns an empty list of inter-cluster bonds (`_guess_scope` compares with the rounded distance without tolerance) |
| C96 | `C96_lines`, `C96_second` | a square, cubic or triangular lattice generated as a straight line of 3 or more sites: `neighbor_distance(2)` answers from the cache of the cluster alone and returns 2 instead of sqrt 2 (sqrt 3), so `bonds(2)` is not the second-neighbour bonds; triangular cells of width 1 at precision 5: sqrt 3 is rounded down and `bonds(2)` misses bonds |
| C53 | hypothesis `1 <= prec` | with float precision 0 the honeycomb cell is refused (its points are closer than 1) |
| C104 | `Show.C104_lattice_savefig` | `Lattice.show(savefig=True)` never saves: lattice.py uses `Path` without importing it, so every such call raises NameError after drawing |
| C114 | `LDB.C114_symmetric_iff`, `LDB.C114_self_neighbour` | the Heisenberg scripts on a cluster with one cell in some direction: the bond of a site with its own image adds a magnetic field (for a chain of one site `3J/4 + J S^z` instead of `3J/4`) |
| C105 | `LDB.C105_square_wrong`, `LDB.C105_benzene_wrong` | the blind spot of C42 makes `Polygon(SQUARE_CELL_MS)` report points on kx = -pi outside the zone (and `Polygon(HONEYCOMB_BENZENE_KS)` points on kx = -2 pi / 3) as BOUNDARY |

## What is modelled and what is not

Modelled: indextable.py, bond.py, line2d.py, polygon.py (both with the calls their `Show*` methods make to matplotlib), rotation3d.py, hilbertspace.py,
averages.py, lanczos.py, quantumoperator/{quantumstate,particlesystem,spinsystem,matrixrepr,factory}.py
(including `__repr__`/`__str__`/`tolatex`; `repr(float)` and `str(coeff)` are parameters), lattice/{lattice,_lattice_database}.py (`Lattice.show` as the recorded calls to matplotlib),
GreenFunction/_GFSolver.py, tools/{PandC,TotalSpin,runtimeenv,colorprint,Draw2DLattice}.py (the last without matplotlib), tools/{BrillouinZone,Octahedron}.py and `ShowFirstBZ` (the points and segments handed to matplotlib), and the scripts
GreenFunction/demo/NNTBChain{1,2,3,4}.py, HeisenbergChain{1,2}.py and HubbardChain.py (without timing, printing and plotting; the diagonaliser is a parameter).

Not modelled: the rendering by matplotlib,
the `__main__` blocks, logging, mkl threading, performance.
