{"id": "C01", "title": "IndexTable is a bijection onto a contiguous index range", "statement": "When IndexTable(objects, start=s) succeeds, its indices are exactly s, s+1, ..., s+len-1 in the order the objects were given; query_index (and calling the table) maps the k-th object to s+k, query_object maps s+k back to the k-th object, the two are mutually inverse, iteration yields the (index, object) pairs in that order and len(table) is the number of objects.", "quantifier": "every finite sequence of hashable objects for which construction succeeds and every integer start", "why_tests_cant": "tables of every length and every start value; a test only samples a few", "anchors": [{"file": "HamiltonianPy/indextable.py", "symbols": ["IndexTable.__init__", "IndexTable.query_index", "IndexTable.query_object", "IndexTable.__iter__", "IndexTable.__len__", "IndexTable.indices", "IndexTable.objects"]}]}
{"id": "C02", "title": "IndexTable accepts exactly the non-empty, homogeneous, duplicate-free collections", "statement": "Construction succeeds iff the collection is non-empty, every object is an instance of the type of the first one, and no object equals an earlier one. Otherwise the first offending object decides the exception: TypeError for a foreign type, ValueError for a duplicate (the empty collection fails too). Queries for unmanaged keys or indices raise KeyError, for a foreign type TypeError; no query ever returns a wrong answer.", "quantifier": "every finite sequence of hashable objects, every query", "why_tests_cant": "the accept/reject boundary ranges over all sequences and positions of the offending element", "anchors": [{"file": "HamiltonianPy/indextable.py", "symbols": ["IndexTable.__init__", "IndexTable.query_index", "IndexTable.query_object"]}]}
{"id": "C03", "title": "SiteID/StateID comparisons are one total order consistent with equality and hashing", "statement": "Among SiteIDs (and among StateIDs) built under one precision, <, <=, ==, !=, >=, > are the six faces of a single total preorder on coordinates: exactly one of a<b, a==b, a>b holds, < is transitive, equal objects have equal hash keys, and StateIDs are ordered by site first, then spin, then orbit.", "quantifier": "all pairs and triples of sites/states of any supported dimension and any coordinates, for every precision", "why_tests_cant": "order laws quantify over all triples", "anchors": [{"file": "HamiltonianPy/quantumoperator/quantumstate.py", "symbols": ["SiteID.__lt__", "SiteID.__le__", "SiteID.__eq__", "SiteID.__ne__", "SiteID.__gt__", "SiteID.__ge__", "SiteID.__hash__", "StateID"]}]}
{"id": "C04", "title": "Coordinate identification is sound up to the chosen precision", "statement": "With precision p, two sites compare equal only if each pair of coordinates differs by less than 2*10**-p (up to floating-point rounding of the product), sites given by different integers are never identified, an integer coordinate and the same value as a float are identified whenever p <= 308 and 10**p*|n| <= 2**53 (beyond that they need not be; from p = 309 on every float coordinate raises OverflowError), and the order is monotone in the coordinates.", "quantifier": "all coordinates and all precisions", "why_tests_cant": "real-valued coordinates cannot be enumerated; behaviour near bin boundaries is where tests miss", "anchors": [{"file": "HamiltonianPy/quantumoperator/quantumstate.py", "symbols": ["SiteID.__init__", "set_float_point_precision"]}]}
{"id": "C05", "title": "Changing the precision never changes existing objects, but mixes", "statement": "After any history of set_float_point_precision calls and site/bond creations, every existing object keeps the identity it got at creation; two objects created under the same precision compare as if no other call had happened; objects created under different precisions may compare unequal although their coordinates are identical (so the documented 'call it first' rule is necessary).", "quantifier": "every finite history of precision changes and object creations", "why_tests_cant": "unbounded histories of a module-global", "anchors": [{"file": "HamiltonianPy/quantumoperator/quantumstate.py", "symbols": ["set_float_point_precision", "SiteID.__init__"]}, {"file": "HamiltonianPy/bond.py", "symbols": ["set_float_point_precision", "Bond.__init__"]}]}
{"id": "C06", "title": "AoC order is a strict total order putting operators in normal order", "statement": "For AoC objects, creation < annihilation always; creators are ordered by state ascending, annihilators by state descending; exactly one of a<b, a==b, a>b holds, < is transitive, > is its converse, and <=, >=, != agree with them.", "quantifier": "all pairs and triples of creation/annihilation operators", "why_tests_cant": "order laws quantify over all triples", "anchors": [{"file": "HamiltonianPy/quantumoperator/particlesystem.py", "symbols": ["AoC.__lt__", "AoC.__gt__", "AoC.__eq__", "AoC.__ne__", "AoC.__le__", "AoC.__ge__", "AoC.__hash__"]}]}
{"id": "C07", "title": "AoC.dagger is an involution and conjugate_of/same_state/derive characterise it", "statement": "dagger() flips only the operator type, dagger().dagger() == self, a.conjugate_of(b) iff b == a.dagger(), conjugate_of is symmetric, same_state holds iff the states are equal, and derive() (also of NumberOperator and SpinOperator) changes exactly the attributes given.", "quantifier": "all operators and all pairs of operators", "why_tests_cant": "relations over all operator pairs", "anchors": [{"file": "HamiltonianPy/quantumoperator/particlesystem.py", "symbols": ["AoC.dagger", "AoC.conjugate_of", "AoC.same_state", "AoC.derive", "NumberOperator.derive"]}, {"file": "HamiltonianPy/quantumoperator/spinsystem.py", "symbols": ["SpinOperator.derive"]}]}
{"id": "C08", "title": "Operator multiplication concatenates components and multiplies coefficients", "statement": "Any product expression of AoCs, NumberOperators, ParticleTerms and numbers that Python can evaluate yields a ParticleTerm whose components are the components of the factors in reading order and whose coefficient is the product of the numeric coefficients; hence the result is independent of how the product is bracketed, and multiplying never mutates the operands.", "quantifier": "every product expression tree over operators, terms and scalars", "why_tests_cant": "expression trees are unbounded", "anchors": [{"file": "HamiltonianPy/quantumoperator/particlesystem.py", "symbols": ["AoC.__mul__", "AoC.__rmul__", "NumberOperator.__mul__", "NumberOperator.__rmul__", "NumberOperator.toterm", "ParticleTerm.__mul__", "ParticleTerm.__rmul__"]}]}
{"id": "C09", "title": "ParticleTerm.dagger is an anti-multiplicative involution", "statement": "dagger() reverses the components, conjugates each and conjugates the coefficient; (term.dagger()).dagger() has the components and coefficient of term, and (s*t).dagger() equals t.dagger()*s.dagger().", "quantifier": "all terms of any length and coefficient", "why_tests_cant": "terms of unbounded length", "anchors": [{"file": "HamiltonianPy/quantumoperator/particlesystem.py", "symbols": ["ParticleTerm.dagger", "ParticleTerm.__mul__"]}]}
{"id": "C10", "title": "ParticleTerm.normalize sorts into normal order and counts inversions", "statement": "If normalize(aocs) returns, the returned list is a permutation of the input in ascending AoC order (creators left, states ascending; annihilators right, states descending) and swap_count is the number of pairs that were out of order.", "quantifier": "all operator sequences of any length", "why_tests_cant": "sequences of unbounded length", "anchors": [{"file": "HamiltonianPy/quantumoperator/particlesystem.py", "symbols": ["ParticleTerm.normalize"]}]}
{"id": "C11", "title": "normalize raises SwapFermionError exactly when an annihilator precedes a creator of the same state", "statement": "normalize raises SwapFermionError if and only if somewhere in the sequence an annihilation operator stands (anywhere) to the left of the creation operator of the same single-particle state; it raises nothing else, and it always terminates.", "quantifier": "all operator sequences of any length", "why_tests_cant": "sequences of unbounded length; the offending pair may be far apart", "anchors": [{"file": "HamiltonianPy/quantumoperator/particlesystem.py", "symbols": ["ParticleTerm.normalize", "SwapFermionError"]}]}
{"id": "C12", "title": "normalize preserves the operator up to the sign (-1)**swap_count", "statement": "Whenever normalize(aocs) returns (norm, n), the operator product of aocs equals (-1)**n times the operator product of norm, as operators on Fock space and therefore in every matrix representation computed by the library.", "quantifier": "all operator sequences, all index tables, all bases", "why_tests_cant": "an operator identity over an infinite-dimensional space", "anchors": [{"file": "HamiltonianPy/quantumoperator/particlesystem.py", "symbols": ["ParticleTerm.normalize"]}, {"file": "HamiltonianPy/quantumoperator/matrixrepr.py", "symbols": ["_core_general"]}]}
{"id": "C13", "title": "check_compatibility accepts exactly the documented shapes", "statement": "check_compatibility() is True for 'hopping' iff the term is c_i^dagger c_j with i != j, for 'number' iff it is c_i^dagger c_i, for 'Coulomb' iff it is c_i^dagger c_i c_j^dagger c_j, and always for 'general'; it never raises.", "quantifier": "all component sequences and classifications", "why_tests_cant": "sequences of unbounded length", "anchors": [{"file": "HamiltonianPy/quantumoperator/particlesystem.py", "symbols": ["ParticleTerm.check_compatibility"]}]}
{"id": "C14", "title": "base_vectors returns exactly the kets allowed by the specifiers", "statement": "For valid disjoint specifiers whose state collections have no repeated state, an integer k is in base_vectors(...) iff every set bit of k is one of the listed states and, for each subspace with M >= 0, exactly M of its states are set in k.", "quantifier": "all lists of subspace specifiers and all integers k", "why_tests_cant": "exponentially many kets and unboundedly many specifiers", "anchors": [{"file": "HamiltonianPy/hilbertspace.py", "symbols": ["base_vectors", "HilbertSpace.base_vectors", "SimpleHilbertSpace.base_vectors"]}]}
{"id": "C15", "title": "base_vectors is strictly ascending and duplicate free", "statement": "With sort=True (duplicate-free states) the returned kets are strictly increasing (so binary search on them is sound), and with sort=False they are the same kets, each once, in some order.", "quantifier": "all valid specifier lists", "why_tests_cant": "all sizes", "anchors": [{"file": "HamiltonianPy/hilbertspace.py", "symbols": ["base_vectors", "HilbertSpace.base_vectors", "SimpleHilbertSpace.base_vectors"]}]}
{"id": "C16", "title": "Hilbert-space dimension is the product of binomials", "statement": "len(base_vectors(...)) is the product over subspaces of binomial(n, M) when M >= 0 and 2**n when M < 0, where n is the number of states of that subspace; base_vectors() with no specifier has dimension 1.", "quantifier": "all valid specifier lists", "why_tests_cant": "all sizes", "anchors": [{"file": "HamiltonianPy/hilbertspace.py", "symbols": ["base_vectors", "HilbertSpace.base_vectors"]}]}
{"id": "C17", "title": "Specifier validation is exact", "statement": "is_valid_subspace_specifier(s) holds iff subspace_specifier_preprocess(s) does not raise; preprocessing yields the documented standard form, is idempotent, and HilbertSpace(...)/base_vectors(...) raise ValueError iff some specifier is invalid or two subspaces share a state.", "quantifier": "all specifiers and specifier lists", "why_tests_cant": "unbounded inputs", "anchors": [{"file": "HamiltonianPy/hilbertspace.py", "symbols": ["is_valid_states_collection", "is_valid_subspace_specifier", "subspace_specifier_preprocess", "HilbertSpace.__init__", "base_vectors"]}]}
{"id": "C18", "title": "The three Hilbert-space interfaces agree and ignore presentation order", "statement": "SimpleHilbertSpace(states, M).base_vectors(), HilbertSpace((states, M)).base_vectors() and base_vectors((states, M)) return the same kets, HilbertSpace(*specs).base_vectors() equals base_vectors(*specs), and with sort=True permuting the specifiers or the states inside a specifier does not change the result.", "quantifier": "all specifiers and permutations", "why_tests_cant": "all permutations of all inputs", "anchors": [{"file": "HamiltonianPy/hilbertspace.py", "symbols": ["SimpleHilbertSpace.base_vectors", "HilbertSpace.base_vectors", "base_vectors"]}]}
{"id": "C19", "title": "uint64 kets never wrap", "statement": "With container='array' base_vectors raises OverflowError iff some ket does not fit in 64 bits (never returns a wrapped value), so all-states-below-64 always succeeds; likewise matrix_function raises rather than wraps for a state index >= 64 or negative.", "quantifier": "all specifiers / all indices", "why_tests_cant": "boundary holds for all inputs around 2**64", "anchors": [{"file": "HamiltonianPy/hilbertspace.py", "symbols": ["base_vectors", "SimpleHilbertSpace.base_vectors"]}, {"file": "HamiltonianPy/quantumoperator/matrixrepr.py", "symbols": ["matrix_function"]}]}
{"id": "C20", "title": "Matrix elements are Fock-space matrix elements with Jordan-Wigner sign", "statement": "When matrix_function(term, right, left_bases=left, coeff=c) (general tag) returns, entry (r, j) equals c times <left[r]| product of the creation/annihilation operators of the term |right[j]> in the fermionic Fock space, where c_i^dagger|S> = (-1)^{#occupied states below i} |S + i>.", "quantifier": "all terms of any length, all right bases, all strictly sorted left bases, all coefficients", "why_tests_cant": "signs depend on all occupation patterns", "anchors": [{"file": "HamiltonianPy/quantumoperator/matrixrepr.py", "symbols": ["_core_general", "matrix_function"]}, {"file": "HamiltonianPy/quantumoperator/particlesystem.py", "symbols": ["ParticleTerm.matrix_repr", "AoC.matrix_repr"]}]}
{"id": "C21", "title": "Canonical anticommutation relations hold for the produced matrices", "statement": "On the full Fock basis of n single-particle states the matrices returned for c_i and c_j^dagger satisfy {c_i, c_j^dagger} = delta_ij * 1, {c_i, c_j} = 0, {c_i^dagger, c_j^dagger} = 0.", "quantifier": "all n <= 63 and all pairs i, j < n", "why_tests_cant": "2**n dimensional identities for every n", "anchors": [{"file": "HamiltonianPy/quantumoperator/matrixrepr.py", "symbols": ["_core_general", "matrix_function"]}, {"file": "HamiltonianPy/quantumoperator/particlesystem.py", "symbols": ["AoC.matrix_repr"]}]}
{"id": "C22", "title": "The matrix of a product term is the product of the matrices", "statement": "On the full Fock basis of n states, the matrix of a term t*u equals matrix(t) times matrix(u) including coefficients.", "quantifier": "all terms and all n <= 63", "why_tests_cant": "unbounded terms", "anchors": [{"file": "HamiltonianPy/quantumoperator/matrixrepr.py", "symbols": ["_core_general", "matrix_function"]}, {"file": "HamiltonianPy/quantumoperator/particlesystem.py", "symbols": ["ParticleTerm.__mul__", "ParticleTerm.matrix_repr"]}]}
{"id": "C23", "title": "Specialised kernels agree with the general kernel", "statement": "A term classified 'hopping', 'number' or 'Coulomb' that passes check_compatibility has the same matrix representation as the same term classified 'general', for every choice of right_bases and left_bases.", "quantifier": "all compatible terms, all bases, all coefficients", "why_tests_cant": "two implementations must agree on every ket", "anchors": [{"file": "HamiltonianPy/quantumoperator/matrixrepr.py", "symbols": ["_core_hopping", "_core_particle_number", "_core_coulomb", "_core_general", "matrix_function"]}]}
{"id": "C24", "title": "The matrix of the dagger is the conjugate transpose", "statement": "For sorted bases L and R (for terms classified 'number' or 'Coulomb' L = R, see C23), if both representations exist, matrix(term.dagger(), right=L, left=R) is the conjugate transpose of matrix(term, right=R, left=L); hence term + term.dagger() is represented by a Hermitian matrix.", "quantifier": "all terms and bases", "why_tests_cant": "all occupation patterns", "anchors": [{"file": "HamiltonianPy/quantumoperator/particlesystem.py", "symbols": ["ParticleTerm.dagger", "ParticleTerm.matrix_repr"]}, {"file": "HamiltonianPy/quantumoperator/matrixrepr.py", "symbols": ["_core_general"]}]}
{"id": "C25", "title": "KeyError exactly when the result leaves the left basis", "statement": "For a sorted left basis, the general and hopping kernels raise KeyError iff some right-basis ket is mapped by the term to a nonzero multiple of a ket outside left_bases; in particular every term that conserves the particle number of each constrained subspace never raises on base_vectors(...).", "quantifier": "all terms, all bases, all specifier lists", "why_tests_cant": "all kets of all spaces", "anchors": [{"file": "HamiltonianPy/quantumoperator/matrixrepr.py", "symbols": ["_core_general", "_core_hopping"]}, {"file": "HamiltonianPy/hilbertspace.py", "symbols": ["base_vectors"]}]}
{"id": "C26", "title": "Sparse and triplet outputs represent the same matrix; columns have at most one entry", "statement": "to_csr=True and to_csr=False return the same matrix for the same arguments; each column has at most one nonzero entry, and for nonzero coeff the triplet form contains no zero entry and lists columns in increasing order.", "quantifier": "all arguments", "why_tests_cant": "all bases and terms", "anchors": [{"file": "HamiltonianPy/quantumoperator/matrixrepr.py", "symbols": ["matrix_function"]}]}
{"id": "C27", "title": "Coefficient passed to matrix_repr sticks; the last one given is used", "statement": "In any sequence of matrix_repr calls and coeff assignments on a ParticleTerm or SpinInteraction, each matrix produced is the unit-coefficient matrix multiplied by the most recently given coefficient (the original one if none was given), and components/classification never change.", "quantifier": "all call histories", "why_tests_cant": "unbounded histories of mutable state", "anchors": [{"file": "HamiltonianPy/quantumoperator/particlesystem.py", "symbols": ["ParticleTerm.matrix_repr", "ParticleTerm.coeff"]}, {"file": "HamiltonianPy/quantumoperator/spinsystem.py", "symbols": ["SpinInteraction.matrix_repr", "SpinInteraction.coeff"]}]}
{"id": "C28", "title": "Number operators are diagonal occupation and sum to N", "statement": "NumberOperator.matrix_repr is the diagonal 0/1 occupation matrix of its state, equals the matrix of toterm(), and on a basis with exactly N particles in a set of states the sum of the number operators of these states is N times the identity.", "quantifier": "all bases, states and particle numbers", "why_tests_cant": "all kets", "anchors": [{"file": "HamiltonianPy/quantumoperator/particlesystem.py", "symbols": ["NumberOperator.matrix_repr", "NumberOperator.toterm"]}, {"file": "HamiltonianPy/quantumoperator/matrixrepr.py", "symbols": ["_core_particle_number"]}]}
{"id": "C29", "title": "Single-spin matrices act on one tensor factor", "statement": "SpinOperator.matrix_function((i, o), n) is the 2**n matrix whose (a, b) entry is S^o[bit_i a, bit_i b] when a and b agree on all other bits and 0 otherwise; it raises iff i is not in [0, n).", "quantifier": "all n, all i, all operator types", "why_tests_cant": "exponential dimension", "anchors": [{"file": "HamiltonianPy/quantumoperator/spinsystem.py", "symbols": ["SpinOperator.matrix_function", "SpinOperator.matrix_repr"]}, {"file": "HamiltonianPy/quantumoperator/constant.py", "symbols": ["SPIN_MATRICES"]}]}
{"id": "C30", "title": "The spin matrices obey the SU(2) algebra", "statement": "For every n and sites i, j: [S_i^x, S_j^y] = i delta_ij S_i^z and cyclic, S^p = S^x + i S^y, S^m = S^x - i S^y, (S_i^x)^2 + (S_i^y)^2 + (S_i^z)^2 = 3/4, and operators on different sites commute.", "quantifier": "all n and all pairs of sites", "why_tests_cant": "matrix identities in dimension 2**n for every n", "anchors": [{"file": "HamiltonianPy/quantumoperator/spinsystem.py", "symbols": ["SpinOperator.matrix_function"]}, {"file": "HamiltonianPy/quantumoperator/constant.py", "symbols": ["SPIN_MATRICES"]}]}
{"id": "C31", "title": "SpinInteraction matrix is the ordered product of single-spin matrices", "statement": "SpinInteraction.matrix_function(ops, n, c) equals c times the product, in the order given, of the single-spin matrices of ops, for any number of operators in any site order; in particular the two-operator fast path agrees with the general path.", "quantifier": "all operator lists, all n", "why_tests_cant": "two code paths, all sizes", "anchors": [{"file": "HamiltonianPy/quantumoperator/spinsystem.py", "symbols": ["SpinInteraction.matrix_function"]}]}
{"id": "C32", "title": "SpinInteraction's site-sorting never changes the operator", "statement": "Constructing SpinInteraction from operators in any order, and multiplying interactions/operators/numbers in any bracketing, gives a term whose matrix is the coefficient product times the ordered product of all factors' single-spin matrices, whether or not the site order agrees with the index-table order.", "quantifier": "all operator sequences, product trees and index tables", "why_tests_cant": "unbounded expression trees", "anchors": [{"file": "HamiltonianPy/quantumoperator/spinsystem.py", "symbols": ["SpinInteraction.__init__", "SpinInteraction.__mul__", "SpinInteraction.__rmul__", "SpinOperator.__mul__", "SpinInteraction.matrix_repr"]}]}
{"id": "C33", "title": "SpinInteraction.dagger is the conjugate transpose", "statement": "matrix_repr of s.dagger() is the conjugate transpose of matrix_repr of s, for spin operators and spin interactions, and dagger is an involution.", "quantifier": "all interactions of any length, several operators per site allowed", "why_tests_cant": "unbounded length", "anchors": [{"file": "HamiltonianPy/quantumoperator/spinsystem.py", "symbols": ["SpinOperator.dagger", "SpinInteraction.dagger"]}]}
{"id": "C34", "title": "Schwinger fermion representation reproduces the spin operator", "statement": "On the space with exactly one fermion per site (up/down adjacent in the index table) the sum of the matrices of the Schwinger() terms of a spin operator or spin interaction equals its spin matrix under the correspondence of bases.", "quantifier": "all numbers of sites, all operators and interactions", "why_tests_cant": "two independent representations in dimension 2**n", "anchors": [{"file": "HamiltonianPy/quantumoperator/spinsystem.py", "symbols": ["SpinOperator.Schwinger", "SpinInteraction.Schwinger"]}]}
{"id": "C35", "title": "Heisenberg and Ising factories build the documented operators", "statement": "The sum of the matrices of the three HeisenbergFactory terms equals J (S_i^x S_j^x + S_i^y S_j^y + S_i^z S_j^z), IsingFactory gives J S_i^a S_j^a, TwoSpinTermFactory gives J S_i^a S_j^b, for every pair of sites including i == j, and Heisenberg is Hermitian for real J.", "quantifier": "all n, all site pairs, all couplings", "why_tests_cant": "all dimensions", "anchors": [{"file": "HamiltonianPy/quantumoperator/factory.py", "symbols": ["HeisenbergFactory", "IsingFactory", "TwoSpinTermFactory"]}]}
{"id": "C36", "title": "Particle factories build compatible, correct terms", "statement": "CPFactory, HoppingFactory, HubbardFactory, CoulombFactory return terms that pass check_compatibility for every argument (HoppingFactory switches to 'number' exactly when both states coincide), PairingFactory returns the pair of requested type, and for real coefficient CP/Hubbard/Coulomb terms are represented by real diagonal matrices.", "quantifier": "all sites, spins, orbits, coefficients", "why_tests_cant": "all arguments", "anchors": [{"file": "HamiltonianPy/quantumoperator/factory.py", "symbols": ["CPFactory", "HoppingFactory", "PairingFactory", "HubbardFactory", "CoulombFactory", "Creator", "Annihilator"]}]}
{"id": "C37", "title": "Total spin matrices are sums of single-spin matrices and obey SU(2)", "statement": "TotalSpinMatrices(n) (and TotalSpin(n)) return sum_i S_i^x, the imaginary part of sum_i S_i^y and sum_i S_i^z; they satisfy the angular-momentum algebra.", "quantifier": "all n >= 1", "why_tests_cant": "all dimensions", "anchors": [{"file": "HamiltonianPy/averages.py", "symbols": ["TotalSpinMatrices"]}, {"file": "HamiltonianPy/tools/TotalSpin.py", "symbols": ["TotalSpin"]}]}
{"id": "C38", "title": "TotalSpinAverages computes genuine expectation values", "statement": "For every nonzero ket the returned tuple is (<S^2>, <S^x>, <S^y>, <S^z>) of the normalised ket; <S^2> is real and non-negative, the averages are real, and all are unchanged when the ket is rescaled.", "quantifier": "all n, all nonzero kets", "why_tests_cant": "continuum of kets", "anchors": [{"file": "HamiltonianPy/averages.py", "symbols": ["TotalSpinAverages", "QuantumAverages"]}]}
{"id": "C39", "title": "Bond equality, hashing and flipping", "statement": "Directional bonds are equal iff both (truncated) endpoints agree in order; non-directional bonds are equal iff the endpoint pairs agree as unordered pairs; a directional and a non-directional bond are never equal; flip is an involution that negates the displacement and keeps the length; b.oppositeTo(c) iff c == b.flip(); flip/oppositeTo/getDisplace/getAzimuth raise NotImplementedError exactly for non-directional bonds.", "quantifier": "all endpoints and bonds", "why_tests_cant": "all coordinate pairs", "anchors": [{"file": "HamiltonianPy/bond.py", "symbols": ["Bond.__init__", "Bond.__eq__", "Bond.flip", "Bond.oppositeTo", "Bond.getDisplace", "Bond.getLength"]}]}
{"id": "C40", "title": "Line2D location classification is exhaustive and orientation independent", "statement": "For lines whose components dx, dy are each zero or larger than tol, LocationRelation returns ON iff the point is within tol of the line (vertically; horizontally for vertical lines), otherwise exactly one of BELOW/ABOVE (LEFT/RIGHT for vertical lines) on the correct side; the answer does not depend on the order of the two defining points. (For lines inside the tolerance gap the answer can depend on the order.) The constructor raises ValueError iff both components are within tol.", "quantifier": "all lines and points", "why_tests_cant": "continuum of inputs", "anchors": [{"file": "HamiltonianPy/line2d.py", "symbols": ["Line2D.__init__", "Line2D.LocationRelation"]}]}
{"id": "C41", "title": "Points produced by Line2D lie on the line", "statement": "Every point returned by PointsFactory or Coordinate is classified ON by LocationRelation of the same line (for PointsFactory: always for ratios in [-1, 1], in particular the default ones, and for all ratios when dx, dy are each zero or larger than tol); Coordinate raises RuntimeError exactly when the unknown coordinate is not determined.", "quantifier": "all lines, ratios and known coordinates", "why_tests_cant": "continuum of inputs", "anchors": [{"file": "HamiltonianPy/line2d.py", "symbols": ["Line2D.PointsFactory", "Line2D.Coordinate", "Line2D.LocationRelation"]}]}
{"id": "C42", "title": "Polygon.LocationRelation classifies points of convex polygons", "statement": "For a convex polygon and an interior reference point, LocationRelation returns CORNER/BOUNDARY/INSIDE/OUTSIDE according to the true position of the point.", "quantifier": "all convex polygons and points", "why_tests_cant": "continuum of inputs", "anchors": [{"file": "HamiltonianPy/polygon.py", "symbols": ["Polygon.LocationRelation"]}]}
{"id": "C43", "title": "Rotation matrices are orthogonal with the right determinant", "statement": "RotationX/Y/Z, RotationGeneral and RotationEuler, whenever they produce a matrix, produce an orthogonal one with determinant 1, or -1 when inversion=True, whatever threshold was set; RotationGeneral produces one for every axis not shorter than the threshold, except for an axis along z when the threshold was set to 0.", "quantifier": "all angles, axes and flags", "why_tests_cant": "continuum of inputs", "anchors": [{"file": "HamiltonianPy/rotation3d.py", "symbols": ["RotationX", "RotationY", "RotationZ", "RotationGeneral", "RotationEuler"]}]}
{"id": "C44", "title": "RotationGeneral fixes its axis and reduces to the axis rotations", "statement": "For axes whose projection on the xy plane is zero or not shorter than the threshold, RotationGeneral(axis, theta) is the rotation by theta about the axis: it leaves the axis invariant, is independent of the axis length, agrees for Cartesian and spherical specification, and equals RotationX/Y/Z for the coordinate axes. (Inside the threshold gap the axis is not preserved.)", "quantifier": "all axes and angles", "why_tests_cant": "continuum of inputs", "anchors": [{"file": "HamiltonianPy/rotation3d.py", "symbols": ["RotationGeneral"]}]}
{"id": "C45", "title": "Rotations compose and the named constants are their values", "statement": "RotationX(a) RotationX(b) = RotationX(a+b) (same for Y, Z, and General about a fixed axis), RotationEuler(a,b,c) = RotationZ(a) RotationY(b) RotationZ(c), and every named constant (RX30 ... R111_300, E) equals the corresponding function value.", "quantifier": "all angles; all constants", "why_tests_cant": "continuum of inputs", "anchors": [{"file": "HamiltonianPy/rotation3d.py", "symbols": ["RotationX", "RotationEuler", "RX30", "R111_60"]}]}
{"id": "C46", "title": "Reciprocal vectors are dual to the translation vectors", "statement": "For every accepted Lattice, bs . vectors^T = 2 pi I and each b lies in the span of the translation vectors.", "quantifier": "all lattices", "why_tests_cant": "continuum of inputs", "anchors": [{"file": "HamiltonianPy/lattice/lattice.py", "symbols": ["Lattice.__init__", "Lattice.bs"]}]}
{"id": "C47", "title": "getIndex and getSite are mutually inverse", "statement": "For every accepted lattice and index i, getIndex(getSite(i)) == i; when getIndex(site) returns i, site is within 10**-precision of getSite(i); otherwise KeyError; in_cluster agrees.", "quantifier": "all lattices and sites", "why_tests_cant": "continuum of inputs", "anchors": [{"file": "HamiltonianPy/lattice/lattice.py", "symbols": ["Lattice.getIndex", "Lattice.getSite", "Lattice.in_cluster"]}]}
{"id": "C48", "title": "decompose is sound", "statement": "Whenever decompose(site) returns (p, dR), p is a cluster point, p + dR == site, and dR is within 10**-precision of an integer combination of the translation vectors.", "quantifier": "all lattices and sites", "why_tests_cant": "continuum of inputs", "anchors": [{"file": "HamiltonianPy/lattice/lattice.py", "symbols": ["Lattice.decompose", "Lattice._searching"]}]}
{"id": "C49", "title": "decompose/getIndex(fold=True) find every translated cluster point", "statement": "For every lattice whose cluster points are pairwise inequivalent modulo translations (with a margin above the tolerance), every integer vector n and every cluster point i, decompose(p_i + n.vectors) returns p_i and getIndex(.., fold=True) returns i.", "quantifier": "all lattices, all integer translations", "why_tests_cant": "infinitely many translations", "anchors": [{"file": "HamiltonianPy/lattice/lattice.py", "symbols": ["Lattice.decompose", "Lattice._guess_scope", "Lattice._searching", "Lattice.getIndex"]}]}
{"id": "C50", "title": "The scope search terminates and half meshes contain one of each +-n", "statement": "_guess_scope's loop terminates for every accepted lattice; the inversion-free translation set contains, for every nonzero n in the mesh, exactly one of n and -n, and the origin exactly once and first.", "quantifier": "all lattices / all scopes and dimensions", "why_tests_cant": "loop with no static bound", "anchors": [{"file": "HamiltonianPy/lattice/lattice.py", "symbols": ["Lattice._guess_scope", "Lattice._sites_factory"]}]}
{"id": "C51", "title": "bonds lists each bond once", "statement": "bonds(nth) returns every pair of cluster points (intra) and every pair cluster point / translated point up to a common translation (inter) of the requested length exactly once, and nothing else, among the translations of the searched scope.", "quantifier": "all lattices and nth", "why_tests_cant": "unbounded sizes", "anchors": [{"file": "HamiltonianPy/lattice/lattice.py", "symbols": ["Lattice.bonds", "Lattice._sites_factory"]}]}
{"id": "C52", "title": "neighbor_distance(n) is the n-th distinct distance of the infinite lattice", "statement": "neighbor_distance(n) returns the n-th smallest distinct distance between points of the infinite lattice, independent of earlier calls.", "quantifier": "all lattices, all n, all call histories", "why_tests_cant": "infinite lattice, unbounded histories", "anchors": [{"file": "HamiltonianPy/lattice/lattice.py", "symbols": ["Lattice.neighbor_distance", "Lattice.__init__"]}]}
{"id": "C53", "title": "lattice_generator builds an exact tiling of the infinite lattice", "statement": "lattice_generator(which, n0, n1, n2) yields n0*n1*n2*cell points, translation vectors scaled by n_i, and every site of the infinite lattice is p + integer combination of the new vectors for exactly one cluster point p and one translation.", "quantifier": "all lattice types and sizes", "why_tests_cant": "unbounded sizes and infinitely many sites", "anchors": [{"file": "HamiltonianPy/lattice/_lattice_database.py", "symbols": ["lattice_generator"]}]}
{"id": "C54", "title": "Special clusters tile their parent lattice exactly", "statement": "For each special cluster (cross, z, s, star, benzene, diphenyl, gear), every site of the parent square/triangle/honeycomb lattice is a cluster point plus an integer combination of the cluster vectors in exactly one way.", "quantifier": "all sites of the infinite lattice, all clusters", "why_tests_cant": "infinitely many sites", "anchors": [{"file": "HamiltonianPy/lattice/_lattice_database.py", "symbols": ["special_cluster", "SQUARE_CROSS_POINTS", "SQUARE_Z_POINTS", "SQUARE_S_POINTS", "TRIANGLE_STAR_POINTS", "HONEYCOMB_BENZENE_POINTS", "HONEYCOMB_DIPHENYL_POINTS", "HONEYCOMB_GEAR_POINTS"]}]}
{"id": "C55", "title": "KPath visits the anchors at the returned indices", "statement": "KPath returns sum(nums)+1 points, indices[i] is the position of anchor i (and of the return to anchor 0 when loop=True), each segment has at least min_num points, the shortest exactly min_num, and the points of a segment are equally spaced on the straight line.", "quantifier": "all anchor sequences and min_num", "why_tests_cant": "unbounded sequences", "anchors": [{"file": "HamiltonianPy/lattice/lattice.py", "symbols": ["KPath"]}]}
{"id": "C56", "title": "Lanczos basis is orthonormal and the projected matrix is V^dagger M V", "statement": "For Hermitian M, in exact arithmetic, the generated kets are orthonormal, the returned matrix is real symmetric tridiagonal and equals V^dagger M V, and projected_vectors[key] = V^dagger vectors[key].", "quantifier": "all Hermitian matrices, start vectors and Krylov dimensions", "why_tests_cant": "all dimensions", "anchors": [{"file": "HamiltonianPy/lanczos.py", "symbols": ["KrylovRepresentation"]}]}
{"id": "C57", "title": "Lanczos dimension bounds and error", "statement": "KrylovRepresentation raises ValueError iff the norm of v0 is at most the threshold; otherwise the dimension d of all returned objects is the same, 1 <= d <= krylov_space_dim, and in exact arithmetic d <= N even if krylov_space_dim > N; the start vector is represented by (norm(v0), 0, ..., 0).", "quantifier": "all inputs", "why_tests_cant": "all dimensions", "anchors": [{"file": "HamiltonianPy/lanczos.py", "symbols": ["KrylovRepresentation", "MultiKrylov"]}]}
{"id": "C58", "title": "Lanczos Green function equals the exact one on an invariant Krylov space", "statement": "If the Krylov iteration ended with an exactly vanishing residual, GFSolverLanczosSingle on the MultiKrylov output equals GFSolverExactSingle for all omega, eta, sign.", "quantifier": "all Hamiltonians, operators, frequencies", "why_tests_cant": "continuum of inputs", "anchors": [{"file": "HamiltonianPy/GreenFunction/_GFSolver.py", "symbols": ["GFSolverLanczosSingle", "GFSolverExactSingle"]}, {"file": "HamiltonianPy/lanczos.py", "symbols": ["MultiKrylov"]}]}
{"id": "C59", "title": "Multiple-frequency solvers agree with the single solvers", "statement": "GFs[i, j, k] of the *Multiple solvers equals the *Single solver for As[i], Bs[j], omegas[k]; the dict structure holds the same values keyed by (A, B); RGF solvers equal GF_AB('-') +/- GF_BA('+').", "quantifier": "all operator lists and frequency lists", "why_tests_cant": "unbounded lists", "anchors": [{"file": "HamiltonianPy/GreenFunction/_GFSolver.py", "symbols": ["GFSolverExactMultiple", "GFSolverLanczosMultiple", "RGFSolverExactSingle", "RGFSolverExactMultiple", "RGFSolverLanczosSingle", "RGFSolverLanczosMultiple"]}]}
{"id": "C60", "title": "Green functions are well defined off the real axis", "statement": "For Hermitian HM, real GE and eta != 0 the linear systems solved are never singular, for both signs.", "quantifier": "all Hermitian matrices and real frequencies", "why_tests_cant": "continuum of inputs", "anchors": [{"file": "HamiltonianPy/GreenFunction/_GFSolver.py", "symbols": ["GFSolverExactSingle", "RGFSolverExactSingle"]}]}
{"id": "C61", "title": "Permutation and Combination count", "statement": "Permutation(n, k) = n!/(n-k)! and Combination(n, k) = n!/(k!(n-k)!) (and the repeat variants n^k and C(n+k-1, k)) for all valid n, k.", "quantifier": "all 0 <= k <= n", "why_tests_cant": "infinitely many inputs; failures start at large n", "anchors": [{"file": "HamiltonianPy/tools/PandC.py", "symbols": ["Permutation", "Combination"]}]}
{"id": "C62", "title": "RunTimeEnv restores stdout", "statement": "For any nesting of with-blocks on distinct RunTimeEnv objects and any exceptions (failing opens of the log file included; the messages RunTimeEnv itself prints are assumed to succeed), sys.stdout after the outermost exit is what it was before, even when the body of a redirecting block assigned it, every log file opened on the way is closed and, if no open failed, the exception is not swallowed.", "quantifier": "all nesting structures and exception points", "why_tests_cant": "unbounded nesting, every crash point", "anchors": [{"file": "HamiltonianPy/tools/runtimeenv.py", "symbols": ["RunTimeEnv.__enter__", "RunTimeEnv.__exit__"]}]}
{"id": "C63", "title": "coloring wraps text reversibly and rejects bad colours", "statement": "coloring(s, ...) is prefix + s + reset where the prefix depends only on the style arguments; it raises ValueError exactly for integer codes, names, RGB triples and schemes outside the supported tables (an argument of any other type, or a sequence not of length three, adds no control sequence); names are case-insensitive and short and long names are equivalent.", "quantifier": "all strings and colour arguments", "why_tests_cant": "all strings", "anchors": [{"file": "HamiltonianPy/tools/colorprint.py", "symbols": ["coloring", "_color_ctrl_seq_4bits", "_color_ctrl_seq_8bits", "_color_ctrl_seq_24bits", "_color_name"]}]}
{"id": "C64", "title": "Bond azimuths are the polar/spherical angles of the displacement", "statement": "For a directional bond getAzimuth returns 0 or -pi in 1D, the polar angle in (-pi, pi] in 2D and the spherical angles in [0, pi] x (-pi, pi] in 3D; together with the length they reconstruct the displacement; in degrees every angle is 180/pi times the one in radians; for a non-directional bond NotImplementedError is raised.", "quantifier": "all displacements in 1, 2 and 3 dimensions", "why_tests_cant": "continuum of inputs", "anchors": [{"file": "HamiltonianPy/bond.py", "symbols": ["Bond.getAzimuth"]}]}
{"id": "C65", "title": "bonds finds every bond of the infinite lattice", "statement": "For every accepted lattice, bonds(nth, only=False) contains every pair (cluster point, lattice site) whose distance is at most neighbor_distance(nth) (up to the tolerance), each once up to a common translation; in particular it is never empty when such pairs exist.", "quantifier": "all lattices, all nth, all translations", "why_tests_cant": "infinitely many translations and a continuum of lattices", "anchors": [{"file": "HamiltonianPy/lattice/lattice.py", "symbols": ["Lattice.bonds", "Lattice._guess_scope", "Lattice.neighbor_distance"]}]}
{"id": "C66", "title": "Every site of a built-in lattice can be folded back", "statement": "On every lattice returned by lattice_generator and special_cluster, Lattice.decompose and getIndex(site, fold=True) succeed for every site of the infinite parent lattice and return the one cluster point (and the one translation) that make it up.", "quantifier": "all sites of the infinite lattice, all built-in lattices, all sizes, all precisions of at least one digit", "why_tests_cant": "infinitely many sites and sizes; the scope search is unbounded", "anchors": [{"file": "HamiltonianPy/lattice/_lattice_database.py", "symbols": ["lattice_generator", "special_cluster"]}, {"file": "HamiltonianPy/lattice/lattice.py", "symbols": ["Lattice.decompose", "Lattice.getIndex"]}]}
{"id": "C67", "title": "The listed high-symmetry points are exactly those of the first Brillouin zone", "statement": "For every entry of the lattice database the listed X/M/K (E) points are exactly the edge middles (face centres) and corners of the first Brillouin zone, and the listed reciprocal vectors are those of the Lattice object.", "quantifier": "all points of k-space, all reciprocal lattice vectors, all accepted lattices", "why_tests_cant": "membership in the zone compares with infinitely many reciprocal vectors", "anchors": [{"file": "HamiltonianPy/lattice/_lattice_database.py", "symbols": ["_BSCalculator", "_SQUARE_XS_COEFF", "_SQUARE_MS_COEFF", "_HEXAGON_MS_COEFF_60", "_HEXAGON_KS_COEFF_60", "CUBIC_CELL_XS", "CUBIC_CELL_MS", "CUBIC_CELL_KS", "CHAIN_CELL_ES"]}]}
{"id": "C68", "title": "Sector matrices are blocks of the full matrix", "statement": "The matrix of a term between two kets does not depend on which base vectors accompany them; when a term can be represented on a set of base vectors, its matrix on any larger set does not connect that set to the rest, so eigenvectors of a sum of terms in a sector, padded with zeros, are eigenvectors of the sum in the larger space with the same eigenvalue.", "quantifier": "all terms passing check_compatibility (number and Coulomb terms on one basis), all sums of them, all ascending bases and sub-bases, all eigenvectors", "why_tests_cant": "the bases, the terms and the eigenvectors are unbounded", "anchors": [{"file": "HamiltonianPy/quantumoperator/particlesystem.py", "symbols": ["ParticleTerm.matrix_repr"]}, {"file": "HamiltonianPy/quantumoperator/matrixrepr.py", "symbols": ["matrix_function"]}]}
{"id": "C69", "title": "Particle-number sectors partition the full Hilbert space", "statement": "For given disjoint groups of single-particle states, base_vectors with fixed particle numbers per group returns, in the same order, exactly the kets of the unrestricted base_vectors that have these numbers; every ket of the unrestricted space lies in exactly one sector.", "quantifier": "all groups of states, all particle numbers, all kets", "why_tests_cant": "the number of states and particles is unbounded", "anchors": [{"file": "HamiltonianPy/hilbertspace.py", "symbols": ["base_vectors", "HilbertSpace.base_vectors"]}]}
{"id": "C70", "title": "The one-particle sector is the hopping matrix", "statement": "base_vectors((n, 1)) is [1, 2, 4, ..., 2**(n-1)], and on it the matrix of c * C^dagger(a) C(b) is c times the matrix unit at (index of a, index of b), with no sign.", "quantifier": "all numbers of states up to 64, all pairs of states, all coefficients, all classifications", "why_tests_cant": "all n, all pairs", "anchors": [{"file": "HamiltonianPy/hilbertspace.py", "symbols": ["base_vectors"]}, {"file": "HamiltonianPy/quantumoperator/particlesystem.py", "symbols": ["ParticleTerm.matrix_repr"]}]}
{"id": "C71", "title": "The order of the states in the index table is only a choice of basis", "statement": "Two index tables built from the same states in different orders give, for every term on the full Fock basis, matrices that differ by one common permutation of the base vectors and one common choice of signs; so a Hamiltonian has the same characteristic polynomial in both.", "quantifier": "all orders of the states, all terms passing check_compatibility and sums of them", "why_tests_cant": "all permutations of up to 64 states and all operator products", "anchors": [{"file": "HamiltonianPy/indextable.py", "symbols": ["IndexTable"]}, {"file": "HamiltonianPy/quantumoperator/particlesystem.py", "symbols": ["ParticleTerm.matrix_repr"]}]}
{"id": "C72", "title": "Commutator with the particle number", "statement": "The matrix of a term connects kets whose numbers of particles in any chosen set of states differ by (creations minus annihilations on these states); equivalently [N, A] = q A for the sum N of the number-operator matrices of the states. In particular terms with as many creations as annihilations commute with N.", "quantifier": "all terms passing check_compatibility (number and Coulomb terms on one basis), all sets of states, all ascending bases on which the term can be represented", "why_tests_cant": "all operator products and all kets", "anchors": [{"file": "HamiltonianPy/quantumoperator/particlesystem.py", "symbols": ["ParticleTerm.matrix_repr", "NumberOperator.matrix_repr"]}]}
{"id": "C73", "title": "Spin symmetry of Heisenberg and Ising Hamiltonians", "statement": "The sum of the matrices of the terms of any number of HeisenbergFactory calls commutes with all three matrices of TotalSpinMatrices (and is Hermitian for real couplings); an IsingFactory term commutes with the total spin along its axis; a term made of z, p and m operators changes the number of up spins by (number of p) minus (number of m), equivalently its commutator with total S^z is that number times itself.", "quantifier": "all tables, all sets of bonds, all couplings, all operator products", "why_tests_cant": "all lattices, sizes and couplings", "anchors": [{"file": "HamiltonianPy/quantumoperator/factory.py", "symbols": ["HeisenbergFactory", "IsingFactory"]}, {"file": "HamiltonianPy/quantumoperator/spinsystem.py", "symbols": ["SpinInteraction.matrix_repr"]}, {"file": "HamiltonianPy/tools/TotalSpin.py", "symbols": ["TotalSpin"]}]}
{"id": "C74", "title": "Lanczos: moments, spectral bounds, nesting", "statement": "For a Hermitian matrix the projected d-dimensional matrix T reproduces |v0|^2 (T^k)_00 = <v0, M^k v0> for all k < 2d and <w, M^k v0> for k < d for the projected vectors w; its quadratic form and eigenvalues stay within the bounds of M; it has an eigenvalue not above <M> in v0; a larger krylov_space_dim extends the result of a smaller one and changes nothing once the iteration has stopped by itself.", "quantifier": "all Hermitian matrices of all dimensions, all start vectors and projected vectors, all krylov_space_dim, all thresholds, all orders", "why_tests_cant": "all matrices and orders", "anchors": [{"file": "HamiltonianPy/lanczos.py", "symbols": ["KrylovRepresentation"]}]}
{"id": "C75", "title": "Green functions: Lehmann representation, causality, sum rule", "statement": "For a Hermitian Hamiltonian GFSolverExactSingle returns sum_n <A+GS|n><n|B GS>/(z +- (E_n - GE)) for any orthonormal eigenbasis; for eta > 0 it is bounded by |A+GS||B GS|/eta, and with B = A+ its imaginary part is negative (unless B GS = 0), as is that of the '+' retarded function; the spectral function integrates to |B GS|^2 for every eta > 0, for the exact solver and for the Lanczos solver with any Krylov dimension; omega G(omega) tends to <A+GS|B GS>; G_{B+A+} at -eta is the conjugate of G_AB at eta.", "quantifier": "all dimensions, Hermitian matrices, excited states, frequencies, broadenings, signs, Krylov dimensions and thresholds", "why_tests_cant": "statements about all frequencies at once (integral, limit) and all Hamiltonians", "anchors": [{"file": "HamiltonianPy/GreenFunction/_GFSolver.py", "symbols": ["GFSolverExactSingle", "RGFSolverExactSingle", "GFSolverLanczosSingle"]}]}
{"id": "C76", "title": "Operators are totally ordered, hashable keys of index tables", "statement": "The six comparisons of SpinOperator (and of NumberOperator) are one total order; == coincides with equality of the hashed tuple; SpinOperators are ordered by type (m < p < x < y < z), then by site.  In an IndexTable built from any of the five classes (SiteID, StateID, AoC, NumberOperator, SpinOperator), getIndex returns the position of the entry that is == to the object, two objects found have equal indices exactly if they are ==; getStateIndex/getSiteIndex return the index of the state/site, so they agree exactly for operators with same_state/same_site; a wrong class raises TypeError, a missing object KeyError (a StateID is accepted as a SiteID by the class check and then raises KeyError).", "quantifier": "all operators, all tables, all start values", "why_tests_cant": "Laws over all pairs and triples of operators and all tables.", "anchors": [{"file": "HamiltonianPy/quantumoperator/spinsystem.py", "symbols": ["SpinOperator.__lt__", "SpinOperator.__eq__", "SpinOperator.__hash__", "SpinOperator.getIndex", "SpinOperator.getSiteIndex"]}, {"file": "HamiltonianPy/quantumoperator/particlesystem.py", "symbols": ["AoC.getIndex", "AoC.getStateIndex", "NumberOperator.getIndex", "NumberOperator.getStateIndex", "NumberOperator.__lt__"]}, {"file": "HamiltonianPy/quantumoperator/quantumstate.py", "symbols": ["SiteID.getIndex"]}]}
{"id": "C77", "title": "repr and str determine the object", "statement": "The official string representations of two objects (SiteID, StateID, AoC, NumberOperator, SpinOperator) are equal exactly if the objects have the same class and the same attributes; hence objects created under the same precision with the same repr are ==.  str of a ParticleTerm or SpinInteraction is determined by and determines the text of the coefficient and the sequence of components.", "quantifier": "all objects of the five classes created under any precisions, all terms", "why_tests_cant": "Injectivity of a text format over all coordinates, spins, orbits and lengths.", "anchors": [{"file": "HamiltonianPy/quantumoperator/quantumstate.py", "symbols": ["SiteID.__repr__", "StateID.__repr__"]}, {"file": "HamiltonianPy/quantumoperator/particlesystem.py", "symbols": ["AoC.__repr__", "NumberOperator.__repr__", "ParticleTerm.__str__"]}, {"file": "HamiltonianPy/quantumoperator/spinsystem.py", "symbols": ["SpinOperator.__repr__", "SpinInteraction.__str__"]}]}
{"id": "C78", "title": "LaTeX forms are well formed and identify the operator", "statement": "Whatever the options, tolatex of AoC, NumberOperator, SpinOperator, ParticleTerm and SpinInteraction is one piece of mathematics: a dollar sign at each end, none inside, balanced braces.  With an IndexTable of sites the LaTeX forms of two operators are equal exactly if the operators are == (up to the orbit when suppressed), and those of two terms exactly if coefficient texts and operators agree one by one; the lookup errors of the table are passed on; int coordinates are shown unchanged and float coordinates within half a unit of the last digit.", "quantifier": "all operators, terms, tables, options and digits", "why_tests_cant": "Injectivity and well-formedness over all inputs.", "anchors": [{"file": "HamiltonianPy/quantumoperator/quantumstate.py", "symbols": ["SiteID.tolatex", "StateID.tolatex"]}, {"file": "HamiltonianPy/quantumoperator/particlesystem.py", "symbols": ["AoC.tolatex", "NumberOperator.tolatex", "ParticleTerm.tolatex"]}, {"file": "HamiltonianPy/quantumoperator/spinsystem.py", "symbols": ["SpinOperator.tolatex", "SpinInteraction.tolatex"]}]}
{"id": "C79", "title": "Drawn 2D lattices: sites and nearest-neighbour bonds", "statement": "Draw2DLattice.show draws, for each of its eight names and sizes num0, num1 >= 0, exactly the sites of the unit cells (a, b) with |a| <= num0 and |b| <= num1, each once; with link=True it joins exactly the pairs of drawn sites whose distance is the nearest-neighbour distance of the infinite lattice, each pair once, and no others. Unknown names raise KeyError; negative sizes, and bonds of a single site, raise ValueError.", "quantifier": "all names, all integer sizes, all iteration orders of the set of pairs", "why_tests_cant": "a drawing is only ever inspected for a few sizes; that the tolerance 1e-4 added to the smallest drawn distance never takes in a second-neighbour pair, for any size, is an arithmetic fact about all squared distances", "anchors": [{"file": "HamiltonianPy/tools/Draw2DLattice.py", "symbols": ["show", "_sites_factory", "_bonds_generator", "_common_cells_info"]}]}
{"id": "C80", "title": "The figure of a drawn lattice is saved in the requested directory", "statement": "Draw2DLattice.show(which, path=P, name=N) saves the figure in the directory P (which it creates) under the name N, or under the full name of the lattice with suffix .pdf when N is None.", "quantifier": "all paths, names and lattice names", "why_tests_cant": "tests use one path, typically the default or one with a trailing slash", "anchors": [{"file": "HamiltonianPy/tools/Draw2DLattice.py", "symbols": ["show"]}]}
{"id": "C81", "title": "ShowFirstBZ draws the perpendicular bisectors", "statement": "For a regular 2x2 array As, ShowFirstBZ marks and labels each of the nine combinations of the reciprocal vectors with coefficients -1, 0, 1 once, and draws for each of them but the origin one segment, which consists of the points equally far from the origin and from the combination, up to |scale| times its length from the middle. An array of another shape raises AssertionError, a singular one LinAlgError, and there is no other error.", "quantifier": "all arrays of every shape, all scales", "why_tests_cant": "the vectors range over the real plane and every point of every segment is meant", "anchors": [{"file": "HamiltonianPy/lattice/lattice.py", "symbols": ["ShowFirstBZ"]}]}
{"id": "C82", "title": "ShowFirstBZ shows the first Brillouin zone", "statement": "The region around the origin bounded by the lines ShowFirstBZ draws is the first Brillouin zone of the given translation vectors (docstring: 'Draw the first Brillouin Zone corresponding to the given real-space translation vectors').", "quantifier": "all regular 2x2 arrays, all non-zero scales, all points of the plane", "why_tests_cant": "the zone is defined by infinitely many reciprocal lattice vectors", "anchors": [{"file": "HamiltonianPy/lattice/lattice.py", "symbols": ["ShowFirstBZ"]}]}
{"id": "C83", "title": "The Brillouin zone script marks the right points", "statement": "In tools/BrillouinZone.py the reciprocal vectors written down are those of the translation vectors, the points marked M are exactly the middles of the edges and the points marked K exactly the corners of the first Brillouin zone, each once, Gamma is the origin, the region bounded by the drawn lines is the first Brillouin zone, and its whole boundary lies on the drawn segments.", "quantifier": "all points of the plane", "why_tests_cant": "the zone and its boundary are infinite sets of points, and the zone is defined by infinitely many lattice vectors", "anchors": [{"file": "HamiltonianPy/tools/BrillouinZone.py", "symbols": ["As", "Bs", "Ks", "Ms", "Gamma"]}]}
{"id": "C84", "title": "The neighbours on a generated chain", "statement": "lattice_generator('chain', num0=n) has, after any sequence of neighbor_distance and bonds calls, nth neighbour distance nth for every nth >= 1, and bonds(nth) returns (up to order) inside the cluster exactly the bonds a -> a+nth and across the boundary exactly one bond for each remaining site a: a -> a+nth or the same bond translated so that its other end lies in the cluster; with fold=True the second endpoint is replaced by the equivalent site of the cluster, so site a is connected with site (a+nth) mod n.", "quantifier": "all chain lengths n >= 1, all nth >= 1 (also beyond the chain), all call histories, all iteration orders of the internal sets", "why_tests_cant": "lengths, nth and the history are unbounded and the cache of distances depends on the history", "anchors": [{"file": "HamiltonianPy/lattice/lattice.py", "symbols": ["Lattice.bonds", "Lattice.neighbor_distance"]}, {"file": "HamiltonianPy/lattice/_lattice_database.py", "symbols": ["lattice_generator"]}]}
{"id": "C85", "title": "The Hamiltonian built by the tight-binding demos", "statement": "The tight-binding scripts (lattice_generator('chain'), bonds(nth=1), decompose of both endpoints, HoppingFactory for each bond and spin, matrix_repr on base_vectors(...), HM += HM.getH()) run without error and HM is the matrix, on the basis returned by base_vectors, of t sum_s sum_i (c_{s,i}^dagger c_{s,i+1} + h.c.) on the ring; the index table numbers site i of species s by s*n+i.", "quantifier": "all chain lengths n and numbers of species S with S*n <= 64, all real t, all base_vectors specifiers whose constrained subspaces contain all or no sites of each species (the full space, a fixed total number, fixed numbers per spin), all iteration orders of the internal sets", "why_tests_cant": "the number of sites, the basis and the set orders vary; a script shows one system", "anchors": [{"file": "HamiltonianPy/GreenFunction/demo/NNTBChain1.py", "symbols": ["terms", "state_indices_table", "HM"]}, {"file": "HamiltonianPy/GreenFunction/demo/NNTBChain2.py", "symbols": ["terms", "HM"]}, {"file": "HamiltonianPy/GreenFunction/demo/NNTBChain3.py", "symbols": ["terms", "HM"]}, {"file": "HamiltonianPy/GreenFunction/demo/NNTBChain4.py", "symbols": ["terms", "HM"]}]}
{"id": "C86", "title": "The spectrum computed by the exact tight-binding demo is the band structure", "statement": "The script NNTBChain1.py (Hamiltonian, ground state, excited states A|GS>, C|GS>, RGFSolverExactMultiple with structure='dict', Fourier sum over the dict divided by site_num, spectrum = -Im/pi) finishes without error; its k-points are 2 pi i/n (i = 0..n), its Green function is S/(omega + i eta - 2 t cos k) and its spectrum S times the normalised Lorentzian of width eta at the band energy 2 t cos k. It depends neither on which eigenstate the diagonaliser returned nor on uninitialised memory nor on set orders.", "quantifier": "all numbers of sites n and species S with S*n <= 64, all real t, all lists of frequencies, all eta != 0, all diagonalisers returning an eigenpair with normalised vector, all contents of uninitialised arrays and all iteration orders of internal sets", "why_tests_cant": "an equality of all the entries of an array with a closed form for every system size, frequency and ground state (which may be degenerate)", "anchors": [{"file": "HamiltonianPy/GreenFunction/demo/NNTBChain1.py", "symbols": ["cluster_gfs", "kspace_gfs", "spectrum"]}]}
{"id": "C87", "title": "The spectra computed by the Lanczos tight-binding demos are the band structure, or they raise", "statement": "The scripts NNTBChain2.py (one Hilbert space), NNTBChain3.py (fixed particle number, sectors N-1 and N+1) and NNTBChain4.py (fixed numbers for both spins, one pass per spin): if in the eigenstate found every single-particle state is neither empty nor full up to the square of the Lanczos threshold, the script finishes and its k-points are 2 pi i/n, its Green function S/(omega + i eta - 2 t cos k) and its spectrum the Lorentzian, within an error proportional to threshold/eta^2; otherwise MultiKrylov raises ValueError.", "quantifier": "all numbers of sites and species with S*n <= 64, all admissible particle numbers, all real t, all nonempty lists of frequencies, all eta != 0, all thresholds >= 0, all krylov_space_dim > n, all diagonalisers returning a normalised eigenpair, all uninitialised memory, all set orders", "why_tests_cant": "the truncated Krylov space must be shown to be exact up to the threshold for every system size and every eigenstate, including degenerate ones; the error bound quantifies over all frequencies", "anchors": [{"file": "HamiltonianPy/GreenFunction/demo/NNTBChain2.py", "symbols": ["projected_matrices", "cluster_gfs"]}, {"file": "HamiltonianPy/GreenFunction/demo/NNTBChain3.py", "symbols": ["basis_h", "basis_p", "HM_H", "HM_P"]}, {"file": "HamiltonianPy/GreenFunction/demo/NNTBChain4.py", "symbols": ["cluster_gfs", "spin_up_state_indices"]}]}
{"id": "C88", "title": "The Hamiltonian of the Heisenberg demos is J sum_i S_i . S_{i+1} on the ring", "statement": "The scripts HeisenbergChain1.py and HeisenbergChain2.py add (J/2) S^z S^z and (J/2) S^+ S^- for each nearest-neighbour bond, with the indices found by cluster.getIndex(site, fold=True), and finally the Hermitian conjugate. The result is exactly the matrix of J sum_i S_i . S_{i+1} on the ring of site_num >= 2 sites; it is Hermitian and commutes with the three components of the total spin.", "quantifier": "all site numbers >= 2, all real J, all precisions >= 1, all set orders, all tie-breaking of the nearest-point query", "why_tests_cant": "the matrices grow exponentially with the number of sites, and the boundary bond may be reported in two ways depending on set order", "anchors": [{"file": "HamiltonianPy/GreenFunction/demo/HeisenbergChain1.py", "symbols": ["HM"]}, {"file": "HamiltonianPy/GreenFunction/demo/HeisenbergChain2.py", "symbols": ["HM"]}]}
{"id": "C89", "title": "The spectra computed by the Heisenberg demos are the Lehmann sums of the spin waves", "statement": "HeisenbergChain1.py finishes for every eigenvector the diagonaliser returns; its k-points are 2 pi i/n, its Green function is sum_l |<l|S_k^-|GS>|^2 / (omega + i eta - (E_l - GE)) over any orthonormal eigenbasis of the ring Hamiltonian, and its spectrum the same sum of Lorentzians. HeisenbergChain2.py (Lanczos) raises ValueError exactly when some S_j^-|GS> is not longer than the threshold; otherwise it gives the same within n threshold / eta^2. For a ground state without total spin all S_j^-|GS> have length 1/sqrt 2, so it cannot fail.", "quantifier": "all site numbers >= 2, all real J, all lists of frequencies, all eta != 0, all thresholds >= 0, all krylov_space_dim > 2^n, all diagonalisers (normalised vectors for the Lanczos script), all uninitialised memory, all set orders", "why_tests_cant": "it must hold at every frequency and momentum, for every system size, against every choice of eigenbasis in degenerate subspaces", "anchors": [{"file": "HamiltonianPy/GreenFunction/demo/HeisenbergChain1.py", "symbols": ["cluster_gfs", "kspace_gfs", "spectrum"]}, {"file": "HamiltonianPy/GreenFunction/demo/HeisenbergChain2.py", "symbols": ["projected_matrices", "cluster_gfs", "spectrum"]}]}
{"id": "C90", "title": "What the operator constructors accept, and the relations between operators they answer", "statement": "SiteID, StateID, AoC and SpinOperator succeed exactly for one to three convertible coordinates, non-negative spin and orbit, otype 0/1 respectively one of x, y, z, p, m, and raise AssertionError for any other otype, spin, orbit or number of coordinates. conjugate_of of spin operators is true exactly for the adjoint type on the same site, same_site exactly for equal sites. AoC.matrix_repr with left_bases gives the matrix elements of the creation or annihilation operator between the two bases.", "quantifier": "all precisions, all coordinates, spins, orbits, operator types, tables and bases without repetition", "why_tests_cant": "the accepted arguments form an infinite set, and the matrices must be right for all bases", "anchors": [{"file": "HamiltonianPy/quantumoperator/quantumstate.py", "symbols": ["SiteID.__init__", "StateID.__init__"]}, {"file": "HamiltonianPy/quantumoperator/particlesystem.py", "symbols": ["AoC.__init__", "AoC.matrix_repr"]}, {"file": "HamiltonianPy/quantumoperator/spinsystem.py", "symbols": ["SpinOperator.__init__", "SpinOperator.conjugate_of", "SpinOperator.same_site"]}]}
{"id": "C91", "title": "The Hamiltonian of HubbardChain.py is the Hubbard Hamiltonian of the open chain", "statement": "HubbardChain.py keeps the intra-cluster bonds, builds Hubbard terms with coefficient U/2 and hopping terms with coefficient t, sums their matrices and adds the Hermitian conjugate of the sum; the index table numbers site i of spin s by s n + i. On the basis returned by base_vectors for Nup and Ndown particles the matrix it builds is that of U sum_i n_up n_down + t sum (c_i^dagger c_{i+1} + h.c.) on the open chain, and it is Hermitian.", "quantifier": "all site numbers with 2 n <= 64, all real t and U, all particle numbers, all precisions >= 1, all set orders, all tie-breaking of the nearest-point query", "why_tests_cant": "the matrices grow exponentially with the number of sites, and the order of the bonds depends on set order", "anchors": [{"file": "HamiltonianPy/GreenFunction/demo/HubbardChain.py", "symbols": ["HM"]}]}
{"id": "C92", "title": "HubbardChain.py computes the Green function of cluster perturbation theory", "statement": "With any exact diagonaliser the script raises ValueError if some single-particle state is empty or full in the eigenstate up to the threshold; otherwise the cluster Green function exists and is unique, the spectral function -Im of cluster perturbation theory is positive at every momentum, no matrix the script inverts is singular, and it returns (G^-1 - V(k))^-1, made translation invariant and traced over the spins, on the grid of momenta, with an error proportional to the threshold of the Lanczos loop.", "quantifier": "all site numbers 2 <= n <= 32, all real t and U, all eta > 0, all frequencies, all steps of the momenta, all krylov_space_dim larger than the sector dimensions (n without interaction), all thresholds small against eta, all diagonalisers, all uninitialised memory, all set orders", "why_tests_cant": "it must hold at every frequency and momentum, for every interaction; singular matrices cannot be excluded by sampling", "anchors": [{"file": "HamiltonianPy/GreenFunction/demo/HubbardChain.py", "symbols": ["cluster_gfs_dict", "cpt_gfs", "final_gfs", "spectrum"]}]}
{"id": "C93", "title": "Without interaction HubbardChain.py reproduces the exact band of the infinite chain", "statement": "For U = 0, as in the script, and any cluster size, cluster perturbation theory started from any normalised eigenstate of the cluster gives exactly the Green function 1/(z - 2 t cos k) of the infinite chain for each spin, independent of the cluster and of the state; the script returns it up to the Lanczos threshold error.", "quantifier": "all cluster sizes, all real t, all eigenstates, all non-real z, all momenta", "why_tests_cant": "an identity of matrix inverses for every size, frequency and momentum", "anchors": [{"file": "HamiltonianPy/GreenFunction/demo/HubbardChain.py", "symbols": ["final_gfs", "spectrum"]}]}
{"id": "C94", "title": "bonds(1) of a built-in lattice lists every nearest-neighbour bond exactly once", "statement": "For every lattice returned by lattice_generator (chain, square, triangle, kagome, cubic, honeycomb) and special_cluster, after any history of neighbor_distance and bonds calls, neighbor_distance(1) is the nearest-neighbour distance d of the infinite lattice rounded to the float precision, and bonds(1) returns the bonds of length d inside the cluster and those that leave it, every nearest-neighbour bond of the infinite lattice exactly once up to translation and reversal; with fold=True the far ends are the equivalent cluster points. This holds whenever rounding does not decrease d (always for d = 1 and d = 1/2; for the honeycomb distance 1/sqrt(3) at the default precision 4). When rounding decreases it (honeycomb, precision 5) bonds(1) returns no bond that leaves the cluster.", "quantifier": "all lattice names and aliases, all sizes >= 1, all float precisions >= 1, all histories of calls, all iteration orders of sets, nth = 1 with any values of only and fold", "why_tests_cant": "it ranges over all cluster sizes, call histories and set orders, and compares with the bonds of an infinite lattice", "anchors": [{"file": "HamiltonianPy/lattice/lattice.py", "symbols": ["Lattice.bonds", "Lattice.neighbor_distance", "Lattice._guess_scope"]}, {"file": "HamiltonianPy/lattice/_lattice_database.py", "symbols": ["lattice_generator", "special_cluster"]}]}
{"id": "C95", "title": "bonds(nth) is exact on clusters wider than the nth distance", "statement": "Let d be the nth smallest distance (nth >= 2) between sites of the infinite chain, square, cubic, triangle, honeycomb or kagome lattice, with 12 d + 1 <= 10^precision, and let every size of the generated cluster exceed d (chain, square, cubic), 2d/sqrt(3) (triangle), 2d/sqrt(3) + 2/3 (honeycomb), 2d/sqrt(3) + 1/2 (kagome). Then after any history of neighbor_distance and bonds calls, neighbor_distance(nth) is d rounded to the float precision; bonds(nth) lists every bond of length d of the infinite lattice exactly once up to translation and reversal, split into those inside the cluster and those that leave it; bonds(nth, only=False) does so for all bonds of length up to d; with fold=True the far ends are the equivalent cluster points.", "quantifier": "all nth >= 2, all sizes above the bound, all float precisions that resolve d, all histories of calls, all iteration orders of sets", "why_tests_cant": "it ranges over all shells, cluster sizes, call histories and set orders, and compares with the bonds of an infinite lattice", "anchors": [{"file": "HamiltonianPy/lattice/lattice.py", "symbols": ["Lattice.bonds", "Lattice.neighbor_distance", "Lattice._guess_scope"]}, {"file": "HamiltonianPy/lattice/_lattice_database.py", "symbols": ["lattice_generator"]}]}
{"id": "C96", "title": "bonds(2) is exact except on straight-line clusters", "statement": "At float precision >= 2, for clusters of all sizes, after any history of calls: neighbor_distance(2) and bonds(2) are right (in the sense of C95) on every generated chain, honeycomb and kagome lattice; on a square or cubic lattice exactly when it is not a straight line of three or more sites; on a triangular lattice exactly when it is not such a line and, if one of the two sizes is 1, sqrt(3) is not rounded down. On the lines neighbor_distance(2) is 2, although the lattice has sites at distance sqrt(2) (sqrt(3)).", "quantifier": "all lattice names, all sizes >= 1, all float precisions >= 2, all histories of calls, all iteration orders of sets", "why_tests_cant": "it ranges over all cluster sizes, call histories and set orders, and compares with the bonds of an infinite lattice", "anchors": [{"file": "HamiltonianPy/lattice/lattice.py", "symbols": ["Lattice.bonds", "Lattice.neighbor_distance", "Lattice._guess_scope"]}, {"file": "HamiltonianPy/lattice/_lattice_database.py", "symbols": ["lattice_generator"]}]}
{"id": "C97", "title": "TotalSpinAverages returns the averages of a physical spin", "statement": "For every n >= 1 and every nonzero ket of n spins the four numbers of TotalSpinAverages(n) are real, the mean spin vector (<Sx>, <Sy>, <Sz>) is at most n/2 long (so every component is between -n/2 and n/2), and <S^2> lies between m (m + 1), m the length of the mean spin vector, and (n/2)(n/2 + 1). The ket with all spins up attains the bounds: (n/2)(n/2 + 1), 0, 0, n/2.", "quantifier": "all numbers of spins, all nonzero state vectors", "why_tests_cant": "it ranges over a continuum of state vectors and over all numbers of spins", "anchors": [{"file": "HamiltonianPy/averages.py", "symbols": ["TotalSpinAverages", "TotalSpinMatrices"]}]}
{"id": "C98", "title": "Free fermions: the many-particle spectrum is the set of sums of one-particle energies", "statement": "Take any list of terms coeff * c_a^dagger c_b (hopping terms, number operators or unclassified ones) over n <= 64 states of an index table. They can be represented on base_vectors((n, 1)) and on base_vectors((n, N)) for every 0 <= N <= n. If the one-particle Hamiltonian (the sum of the matrices on base_vectors((n, 1))) is Hermitian, or after adding the Hermitian conjugates to both sums, the eigenvalues of the N-particle Hamiltonian are, with multiplicities, the sums of N different one-particle eigenvalues.", "quantifier": "all index tables, all numbers of states up to 64, all lists of quadratic terms with arbitrary coefficients, all particle numbers", "why_tests_cant": "it ranges over all Hamiltonians and all sectors, of dimension up to 64 choose 32, and needs exact eigenvalues", "anchors": [{"file": "HamiltonianPy/quantumoperator/particlesystem.py", "symbols": ["ParticleTerm.matrix_repr"]}, {"file": "HamiltonianPy/quantumoperator/matrixrepr.py", "symbols": ["matrix_function"]}, {"file": "HamiltonianPy/hilbertspace.py", "symbols": ["base_vectors"]}]}
{"id": "C99", "title": "Spin-rotation symmetry of Hamiltonians made by the term factories", "statement": "Take any list of different orbitals (site, orbit) and any list of spin-independent parts over them: hopping (HoppingFactory for both spins), on-site repulsion (HubbardFactory), density-density repulsion (CoulombFactory for the four spin pairs), potentials (CPFactory for both spins), singlet pairing of particles or holes (two PairingFactory terms of opposite coefficient). On every ascending basis on which all terms can be represented, the matrices of the total raising operator (HoppingFactory with spin0=1, spin1=0 on each orbital) and lowering operator (spin0=0, spin1=1) are adjoint to each other, their commutator is the number of up particles minus the number of down particles, and the matrix of the parts, its adjoint and their sum commute with all three; so raising or lowering the spin of an eigenvector of the Hamiltonian gives an eigenvector of the same energy, or zero. All terms can be represented on base_vectors((n, N)) (without pairing) and on all 2^n kets.", "quantifier": "all index tables, all lists of orbitals and of parts with arbitrary complex coefficients, all ascending bases on which the terms can be represented", "why_tests_cant": "it relates five different matrices of sizes up to 2^64 for every list of terms", "anchors": [{"file": "HamiltonianPy/quantumoperator/factory.py", "symbols": ["HoppingFactory", "HubbardFactory", "CoulombFactory", "CPFactory", "PairingFactory"]}, {"file": "HamiltonianPy/quantumoperator/particlesystem.py", "symbols": ["ParticleTerm.matrix_repr"]}, {"file": "HamiltonianPy/quantumoperator/matrixrepr.py", "symbols": ["matrix_function"]}, {"file": "HamiltonianPy/hilbertspace.py", "symbols": ["base_vectors"]}]}
{"id": "C100", "title": "Objects own their data: no array is shared with the caller", "statement": "A program that makes arrays, assigns into the arrays it holds (both its own and those returned to it), constructs Bond, Line2D, Polygon and Lattice instances from them, and calls endpoints, getDisplace, flip, ==, PointsFactory, LocationRelation, vertices, points, vectors, bs, getSite, neighbor_distance and SpinOperator.matrix sees exactly what it would see if every array was an independent value: overwriting an argument after construction or a returned array never changes an object, another array or the library's spin matrices.", "quantifier": "all finite programs over these operations, all array contents, all numbers and orders of objects and assignments", "why_tests_cant": "aliasing shows only after a particular history of constructions and assignments; the claim is about all histories", "anchors": [{"file": "HamiltonianPy/bond.py", "symbols": ["Bond.__init__", "Bond.endpoints", "Bond.flip", "Bond.getDisplace"]}, {"file": "HamiltonianPy/line2d.py", "symbols": ["Line2D.__init__", "Line2D.PointsFactory"]}, {"file": "HamiltonianPy/polygon.py", "symbols": ["Polygon.__init__", "Polygon.vertices"]}, {"file": "HamiltonianPy/lattice/lattice.py", "symbols": ["Lattice.__init__", "Lattice.points", "Lattice.vectors", "Lattice.bs", "Lattice.getSite", "Lattice.neighbor_distance"]}, {"file": "HamiltonianPy/quantumoperator/spinsystem.py", "symbols": ["SpinOperator.matrix"]}]}
{"id": "C101", "title": "Coordination numbers: how many nearest-neighbour bonds bonds(1) lists", "statement": "On every lattice made by lattice_generator and special_cluster, bonds(1), after any sequence of neighbor_distance and bonds calls, lists exactly z*N/2 bonds, where N is the number of sites and z the coordination number of the infinite lattice (chain 2, square 4, triangle 6, kagome 4, cubic 6, honeycomb 3); with fold=True every site is an end of exactly z of them. (Honeycomb: at precisions that round 1/sqrt(3) up, e.g. the default.)", "quantifier": "all sizes, all precisions >= 1 digit, all names of special clusters, all call histories, all set iteration orders, only and fold both ways", "why_tests_cant": "the sizes and call histories are unbounded, and the count depends on deduplicating bonds across periodic images", "anchors": [{"file": "HamiltonianPy/lattice/lattice.py", "symbols": ["Lattice.bonds", "Lattice.neighbor_distance"]}, {"file": "HamiltonianPy/lattice/_lattice_database.py", "symbols": ["lattice_generator", "special_cluster"]}]}
{"id": "C102", "title": "Module settings: who reads them, and for how long", "statement": "bond, lattice, quantumstate, rotation3d and lanczos each have one setting. A setter called with an allowed value (a non-negative int, bools included, for precisions; a non-negative float for thresholds) sets the number of its own module and changes nothing else; with anything else it raises AssertionError and changes nothing. After any program the value in force is that of the last accepted call, or the default; no other call changes a setting. Every other call reads the setting of one module only. A distance returned by neighbor_distance is returned again whatever settings are changed in between. Objects made under different settings do not mix: flipping a Bond twice across a change gives an unequal bond, and bonds(1) of a Lattice made at four digits can lose all bonds at six.", "quantifier": "all programs of setter calls, constructors and method calls, all arguments, all set iteration orders", "why_tests_cant": "the effect of a setting depends on the whole history of calls in five modules", "anchors": [{"file": "HamiltonianPy/bond.py", "symbols": ["set_float_point_precision", "Bond.flip"]}, {"file": "HamiltonianPy/lattice/lattice.py", "symbols": ["set_float_point_precision", "Lattice.neighbor_distance", "Lattice.bonds"]}, {"file": "HamiltonianPy/quantumoperator/quantumstate.py", "symbols": ["set_float_point_precision"]}, {"file": "HamiltonianPy/rotation3d.py", "symbols": ["set_threshold", "RotationGeneral"]}, {"file": "HamiltonianPy/lanczos.py", "symbols": ["set_threshold", "KrylovRepresentation"]}]}
{"id": "C103", "title": "The rotation functions reach every rotation, and when two calls make the same one", "statement": "RotationEuler makes exactly the orthogonal 3x3 matrices of determinant 1 (with inversion -1), and every one is reached with the first and last angle within half a turn and the middle one between zero and half a turn; so does RotationGeneral with an axis given by two angles, or, for every threshold, by a vector of suitable length. Two calls of RotationGeneral with Cartesian axes give the same matrix if and only if both angles are full turns, or the axes are parallel and the angles agree modulo a full turn, or the axes are antiparallel and the angles are opposite modulo a full turn.", "quantifier": "all orthogonal matrices, all axes and angles, degrees or radians, with or without inversion, all thresholds", "why_tests_cant": "a statement about all real matrices, axes and angles, including the degenerate ones", "anchors": [{"file": "HamiltonianPy/rotation3d.py", "symbols": ["RotationEuler", "RotationGeneral"]}]}
{"id": "C104", "title": "What the show methods draw", "statement": "Lattice.show(scope) of a one- or two-dimensional lattice with scope >= 0 marks exactly the copies of the cluster moved by the combinations of the translation vectors with coefficients from -scope to scope, every combination once, in a square window; it refuses a negative scope (AssertionError) and three dimensions (RuntimeError). Line2D.ShowLine and ShowLocationRelation draw points of the line from p0 - (p1 - p0) to p1 + (p1 - p0) including both points, and the equation in the title holds at every drawn point. Polygon.ShowPolygon and ShowLocationRelation draw the vertices and exactly the closed boundary. Lattice.show(savefig=True) should save the figure, but always raises NameError because lattice.py never imports Path.", "quantifier": "all lattices, scopes, lines and polygons; every choice of axis limits by matplotlib", "why_tests_cant": "the set of drawn points depends on every lattice, scope and polygon", "anchors": [{"file": "HamiltonianPy/lattice/lattice.py", "symbols": ["Lattice.show"]}, {"file": "HamiltonianPy/line2d.py", "symbols": ["Line2D.ShowLine", "Line2D.ShowLocationRelation"]}, {"file": "HamiltonianPy/polygon.py", "symbols": ["Polygon.ShowPolygon", "Polygon.ShowLocationRelation"]}]}
{"id": "C105", "title": "The listed corner points as a polygon are the first Brillouin zone", "statement": "For the nine two-dimensional built-in clusters that list zone corners (MS of the square ones, KS of the hexagonal ones) Polygon(corners) is convex, its corners, boundary and filled region are the corners, boundary and the whole of the first Brillouin zone (the points at least as close to the origin as to any other reciprocal lattice point). So Polygon(corners).LocationRelation(k, [0, 0]) tells CORNER, BOUNDARY, INSIDE or OUTSIDE of the zone: for the triangle, honeycomb and kagome cells for every k; in general for every k outside the blind spot of C42, where it answers BOUNDARY for points outside the zone (square cell: kx = -pi, |ky| > pi; benzene cluster: kx = -2 pi / 3, ky > 2 pi / (3 sqrt 3)).", "quantifier": "all wave vectors; all pairs of translation vectors of equal length at 90 or 60 degrees", "why_tests_cant": "every real wave vector and infinitely many reciprocal lattice points are compared", "anchors": [{"file": "HamiltonianPy/polygon.py", "symbols": ["Polygon.LocationRelation"]}, {"file": "HamiltonianPy/lattice/_lattice_database.py", "symbols": ["TRIANGLE_CELL_KS", "SQUARE_CELL_MS"]}]}
{"id": "C106", "title": "A lattice behaves alike wherever it is placed", "statement": "After a rigid motion (translation, rotation, reflection, or embedding into a space of more dimensions, at most three) of the points and translation vectors, Lattice is accepted again with turned reciprocal vectors (and refused with the same error when the dimension is unchanged); neighbor_distance returns the same values, decompose the moved cluster point and the turned translation, bonds (for every nth, only, fold) the moved bonds in the same order, in_cluster and getIndex the same answer; errors are the same and the cached distances too.", "quantifier": "all lattices in any state, all length-preserving linear maps and all translations, all orders of the internal sets, all nearest-point searches", "why_tests_cant": "all rigid motions of all lattices", "anchors": [{"file": "HamiltonianPy/lattice/lattice.py", "symbols": ["Lattice.__init__", "Lattice.bonds", "Lattice.neighbor_distance", "Lattice.decompose", "Lattice.in_cluster", "Lattice.getIndex"]}]}
{"id": "C107", "title": "The tight-binding workflow solves the tight-binding model of the infinite periodic lattice", "statement": "Build a built-in cluster, take bonds(nth=1), move both endpoints of each bond into the cluster with decompose, make one hopping term of amplitude t per bond and spin, represent them on the basis of N particles and add the conjugates, as the demo scripts do. For one particle, the matrix applied to any amplitudes with the period of the cluster is t times the sum over all neighbours in the infinite lattice. For the chain, square, triangular and cubic lattices and the cross, Z, S and star clusters, the eigenvalues of the N-particle matrix are, with multiplicities, the sums of N different band energies t sum_y cos(q.y), each band energy taken once per spin; in closed form 2t cos(2 pi x/n) for the chain, and so on.", "quantifier": "all cluster sizes with at most 64 states, precisions >= 1, amplitudes, numbers of spin species, particle numbers, iteration orders of sets and earlier calls on the lattice", "why_tests_cant": "unbounded sizes; the whole spectrum with multiplicities", "anchors": [{"file": "HamiltonianPy/GreenFunction/demo/NNTBChain1.py", "symbols": ["terms", "state_indices_table", "HM"]}, {"file": "HamiltonianPy/GreenFunction/demo/NNTBChain4.py", "symbols": ["terms", "HM"]}, {"file": "HamiltonianPy/lattice/_lattice_database.py", "symbols": ["lattice_generator", "special_cluster"]}, {"file": "HamiltonianPy/lattice/lattice.py", "symbols": ["Lattice.bonds", "Lattice.decompose"]}, {"file": "HamiltonianPy/quantumoperator/factory.py", "symbols": ["HoppingFactory"]}]}
{"id": "C108", "title": "The points of every built-in lattice are accepted as sites and never identified with each other", "statement": "Whatever lattice lattice_generator (sizes up to 30000) or special_cluster returns, with a precision of 2 to 22 digits (default 4) every point, its coordinates rounded to floats, is accepted by SiteID, and the SiteIDs of different points are different.", "quantifier": "all lattice names, sizes up to 30000, precisions, and all roundings of coordinates with an error of at most 1e-6", "why_tests_cant": "all sizes, all roundings; truncation near the zoomed integers", "anchors": [{"file": "HamiltonianPy/quantumoperator/quantumstate.py", "symbols": ["SiteID.__init__", "SiteID.__eq__", "set_float_point_precision"]}, {"file": "HamiltonianPy/lattice/_lattice_database.py", "symbols": ["lattice_generator", "special_cluster"]}]}
{"id": "C109", "title": "The tight-binding workflow reproduces the bands of the honeycomb and kagome lattices", "statement": "The workflow of C107 on a lattice with several points per cell: on a honeycomb lattice the eigenvalues of the N-particle matrix are, with multiplicities, the sums of N of the graphene energies +-t sqrt(3 + 2cos a + 2cos b + 2cos(a-b)), on a kagome lattice of -2t (the flat band) and t(1 +- sqrt(1 + 8 cos(a/2)cos(b/2)cos(a/2-b/2))), each once per spin; a and b run over the multiples of 2 pi/n0 and 2 pi/n1. The benzene, diphenyl and gear clusters have the graphene energies at their 3, 5 and 12 wave vectors.", "quantifier": "all cluster sizes with at most 64 states, precisions >= 1, amplitudes, numbers of spin species, particle numbers, iteration orders of sets and earlier calls on the lattice", "why_tests_cant": "unbounded sizes; the whole spectrum with multiplicities", "anchors": [{"file": "HamiltonianPy/GreenFunction/demo/NNTBChain1.py", "symbols": ["terms", "state_indices_table", "HM"]}, {"file": "HamiltonianPy/lattice/_lattice_database.py", "symbols": ["lattice_generator", "special_cluster"]}, {"file": "HamiltonianPy/lattice/lattice.py", "symbols": ["Lattice.bonds", "Lattice.decompose"]}, {"file": "HamiltonianPy/quantumoperator/factory.py", "symbols": ["HoppingFactory"]}]}
{"id": "C110", "title": "The length of a bond is the Euclidean distance of its endpoints", "statement": "Bond.getLength() is the Euclidean distance of the two endpoints up to a relative error of 2**-49 (and underflow), for directional and non-directional bonds, integer and float coordinates in 1, 2 or 3 dimensions; no overflow and no NaN arises. Bond.getDisplace() of a directional bond is p1 - p0 (not p0 - p1): exact for integer endpoints, each component rounded once otherwise; a non-directional bond raises NotImplementedError.", "quantifier": "all accepted bonds with integer coordinates up to 2**53 or float coordinates up to 2**400; all square root functions with relative error at most 2**-53", "why_tests_cant": "an error bound over all doubles", "anchors": [{"file": "HamiltonianPy/bond.py", "symbols": ["Bond.getLength", "Bond.getDisplace"]}]}
{"id": "C111", "title": "Calls that leave out the optional arguments do what the documented defaults say", "statement": "StateID/AoC/NumberOperator/Creator/Annihilator without spin and orbit are about spin 0 and orbit 0; the particle factories without coefficient build terms with coefficient 1 (HoppingFactory takes the missing second spin/orbit from the first, PairingFactory pairs holes); SpinInteraction and the spin factories without coefficient are represented by the bare products of spin matrices; matrix_function without left basis, coefficient and tag returns the bare matrix elements on the right basis; IndexTable without start counts from 0; base_vectors without options returns a sorted numpy array (OverflowError for kets of more than 64 bits) and SimpleHilbertSpace without a number conserves nothing; Bond without directional is directional; rotations without deg and inversion are proper rotations by radians, with threshold 1e-10; Line2D and Polygon without tol use 1e-10 and Line2D.Coordinate without which takes an x; Lattice.show() draws the cluster once, unmoved, and saves nothing; color_demo() shows no colour and the 256 foreground colours; tolatex without options shows coordinates rounded to four digits, arrows for spins and no orbit.", "quantifier": "all sites, specifiers, object sequences, terms, angles, points; all calls in which the optional arguments are left out", "why_tests_cant": "a default affects every call that omits it, on every input", "anchors": [{"file": "HamiltonianPy/quantumoperator/factory.py", "symbols": ["CPFactory", "HoppingFactory", "PairingFactory", "HubbardFactory", "CoulombFactory", "HeisenbergFactory", "IsingFactory", "TwoSpinTermFactory"]}, {"file": "HamiltonianPy/quantumoperator/quantumstate.py", "symbols": ["StateID.__init__"]}, {"file": "HamiltonianPy/quantumoperator/particlesystem.py", "symbols": ["AoC.__init__", "NumberOperator.__init__"]}, {"file": "HamiltonianPy/quantumoperator/spinsystem.py", "symbols": ["SpinInteraction.__init__"]}, {"file": "HamiltonianPy/quantumoperator/matrixrepr.py", "symbols": ["matrix_function"]}, {"file": "HamiltonianPy/indextable.py", "symbols": ["IndexTable.__init__"]}, {"file": "HamiltonianPy/hilbertspace.py", "symbols": ["base_vectors", "SimpleHilbertSpace.__init__"]}, {"file": "HamiltonianPy/bond.py", "symbols": ["Bond.__init__"]}, {"file": "HamiltonianPy/rotation3d.py", "symbols": ["RotationX", "RotationY", "RotationZ", "RotationGeneral", "RotationEuler", "set_threshold"]}, {"file": "HamiltonianPy/line2d.py", "symbols": ["Line2D"]}, {"file": "HamiltonianPy/polygon.py", "symbols": ["Polygon"]}, {"file": "HamiltonianPy/lattice/lattice.py", "symbols": ["Lattice.show"]}, {"file": "HamiltonianPy/tools/colorprint.py", "symbols": ["color_demo"]}]}
{"id": "C112", "title": "Printed forms of spaces, bonds and index tables", "statement": "repr and str of a SimpleHilbertSpace or HilbertSpace, repr of a Bond and str of an IndexTable determine what they print: two objects have the same text exactly if they agree in states and particle numbers (in order), in end points, number types and direction flag, respectively in all indices and objects. The constructor call that repr shows rebuilds an equal object (for bonds: under the same precision setting).", "quantifier": "all spaces, bonds and tables that can be constructed, all starting indices, including one-element tuples and indices of eight or more characters", "why_tests_cant": "the texts have to be compared for all pairs of objects; a missing separator or a padded column only shows up for particular pairs", "anchors": [{"file": "HamiltonianPy/hilbertspace.py", "symbols": ["SimpleHilbertSpace.__repr__", "SimpleHilbertSpace.__str__", "HilbertSpace.__repr__", "HilbertSpace.__str__"]}, {"file": "HamiltonianPy/bond.py", "symbols": ["Bond.__repr__"]}, {"file": "HamiltonianPy/indextable.py", "symbols": ["IndexTable.__str__"]}]}
{"id": "C113", "title": "color_demo shows every colour it announces", "statement": "color_demo(with_bg, space_num) never fails and writes one line for no colour, one for each of the 256 foreground colours and, with with_bg, one for each background colour and one for each of the 65536 pairs, in this order; every line starts with space_num spaces, names its colours in four-column fields, is shown in exactly these colours (8-bit control sequences) and ends by resetting the style.", "quantifier": "both values of with_bg, all integers space_num (negative ones give no spaces), all colours", "why_tests_cant": "65 thousand lines of control sequences; a test would compare a few", "anchors": [{"file": "HamiltonianPy/tools/colorprint.py", "symbols": ["color_demo", "color_print", "coloring"]}]}
{"id": "C114", "title": "The Heisenberg workflow on every built-in lattice", "statement": "Building a cluster with lattice_generator or special_cluster, listing bonds(1) and adding up the exchange terms as HeisenbergChain1.py and HeisenbergChain2.py do gives the Heisenberg Hamiltonian of the periodic lattice, J times the sum of S_i . S_j over neighbouring sites: hermitian, commuting with the total spin in every direction, with all spins up as an eigenstate of energy J z count / 8 (z neighbours per site), which for J <= 0 is the lowest energy; one spin turned down hops between neighbours with amplitude J/2, so that on Bravais clusters every allowed plane wave is an eigenstate with energy J z count / 8 + (J/2) sum over the neighbour vectors y of (cos(q . y) - 1). This holds for clusters with two or more cells in every direction (kagome, honeycomb and special clusters: always); with one cell in some direction a site is its own neighbour, and the script adds exactly the field J/2 per such neighbour, which breaks the rotation symmetry whenever J is not zero.", "quantifier": "the six generated lattices with any numbers of cells, all special clusters under all their names, all precisions (honeycomb: those that do not round the bond length down), all earlier calls of the lattice's methods, all iteration orders of sets, all real J", "why_tests_cant": "the statement is about the matrix of 2^count dimensions for clusters of every size", "anchors": [{"file": "HamiltonianPy/GreenFunction/demo/HeisenbergChain1.py", "symbols": ["HM"]}, {"file": "HamiltonianPy/GreenFunction/demo/HeisenbergChain2.py", "symbols": ["HM"]}, {"file": "HamiltonianPy/lattice/_lattice_database.py", "symbols": ["lattice_generator", "special_cluster"]}, {"file": "HamiltonianPy/lattice/lattice.py", "symbols": ["Lattice.bonds", "Lattice.getIndex"]}, {"file": "HamiltonianPy/quantumoperator/spinsystem.py", "symbols": ["SpinInteraction"]}]}
{"id": "C115", "title": "The Hubbard model of HubbardChain.py on every built-in cluster", "statement": "Building a cluster with lattice_generator or special_cluster, listing bonds(1) and building the interaction terms from the points, the hopping terms from the intra-cluster bonds, the state table and the spin-resolved basis as the first part of HubbardChain.py does always succeeds for 0 <= Nup, Ndown <= number of points and gives the Hubbard Hamiltonian of the cluster with open boundaries: U sum_i n_{i,up} n_{i,down} + t sum over pairs of points at the nearest-neighbour distance of (c^dagger_i c_j + h.c.) for both spins, on the basis of all states with exactly Nup spin-up and Ndown spin-down particles, in ascending order, once each; the matrix is hermitian.", "quantifier": "the six generated lattices and all special clusters under all their names with at most 32 points, all precisions (honeycomb: those that do not round the bond length down), all earlier calls of the lattice's methods, all iteration orders of sets, all coordinate encodings that distinguish the points, all real t and U, all particle numbers", "why_tests_cant": "the statement is about matrices of dimension C(n,Nup) C(n,Ndown) for clusters of every size and shape", "anchors": [{"file": "HamiltonianPy/GreenFunction/demo/HubbardChain.py", "symbols": ["HM"]}, {"file": "HamiltonianPy/lattice/_lattice_database.py", "symbols": ["lattice_generator", "special_cluster"]}, {"file": "HamiltonianPy/lattice/lattice.py", "symbols": ["Lattice.bonds"]}, {"file": "HamiltonianPy/quantumoperator/factory.py", "symbols": ["HubbardFactory", "HoppingFactory"]}, {"file": "HamiltonianPy/hilbertspace.py", "symbols": ["base_vectors"]}]}
{"id": "C116", "title": "The Hubbard spectra have the symmetries of the model", "statement": "Run the Hubbard script (terms from `bonds(1)` of a cluster, `base_vectors` per spin, `matrix_repr`) on any built-in lattice or special cluster. Without hopping the matrix is diagonal and equals U times the number of doubly occupied points. Exchanging Nup and Ndown leaves the list of energies unchanged. If Nup > Ndown, every energy occurs at (Nup-1, Ndown+1) at least as often as at (Nup, Ndown) (spin multiplets). On chains, square, cubic and honeycomb lattices, cross, z, s, benzene, diphenyl and gear the energies do not depend on the sign of t; replacing Nup by (number of points - Nup) and U by -U shifts all energies by U Ndown; replacing both numbers by their complements shifts them by U (Nup + Ndown - number of points). On a triangular lattice the sign of t is irrelevant exactly if it has one row or one column; on kagome and on the star of David it always matters.", "quantifier": "every lattice size with at most 32 points, every display precision >= 1, previous calls, iteration orders, every real t and U, all particle numbers, every double rounding of the coordinates that separates the points", "why_tests_cant": "Equality of whole spectra for all t, U, sizes and fillings; a test compares a few numerically computed spectra within a tolerance.", "anchors": [{"file": "HamiltonianPy/GreenFunction/demo/HubbardChain.py", "symbols": ["HM"]}, {"file": "HamiltonianPy/lattice/_lattice_database.py", "symbols": ["lattice_generator", "special_cluster"]}, {"file": "HamiltonianPy/lattice/lattice.py", "symbols": ["Lattice.bonds"]}, {"file": "HamiltonianPy/quantumoperator/factory.py", "symbols": ["HubbardFactory", "HoppingFactory"]}, {"file": "HamiltonianPy/hilbertspace.py", "symbols": ["base_vectors"]}]}
{"id": "C117", "title": "The order of the sites in a spin index table is only a choice of basis", "statement": "Build two IndexTables from the same sites in different orders. There is one permutation of the 2**n basis states, namely the one that carries the spin of every site along, such that for every SpinOperator and every SpinInteraction the matrix under the second table is the matrix under the first one with rows and columns permuted by it, and exists whenever the first one does. QuantumAverages and TotalSpinAverages return the same numbers for correspondingly permuted kets and operators. A Hamiltonian given as a list of interactions has the same characteristic polynomial, so the same energies with the same multiplicities, under both tables.", "quantifier": "every non-empty list of distinct sites and every reordering of it, every spin operator, interaction (any number of operators, any coefficient), Hamiltonian and ket", "why_tests_cant": "One permutation must serve all operators at once, for every number of sites and every reordering.", "anchors": [{"file": "HamiltonianPy/quantumoperator/spinsystem.py", "symbols": ["SpinOperator.matrix_repr", "SpinInteraction.matrix_repr"]}, {"file": "HamiltonianPy/indextable.py", "symbols": ["IndexTable"]}, {"file": "HamiltonianPy/averages.py", "symbols": ["QuantumAverages", "TotalSpinAverages"]}]}
{"id": "C118", "title": "Limits and bounds of the Hubbard spectra", "statement": "Run the Hubbard script (terms from `bonds(1)` of a cluster, `base_vectors` per spin, `matrix_repr`) on any built-in lattice or special cluster. With U = 0 the list of energies, with multiplicities, consists of the sums of Nup different plus Ndown different eigenvalues of the matrix with entry t between points at nearest-neighbour distance. For all t and U there is a lowest energy E(t, U) (all eigenvalues are real). Raising U by x >= 0 raises it by at least x max(0, Nup + Ndown - number of points) and at most x min(Nup, Ndown), and E is jointly concave in t and U.", "quantifier": "every lattice size with at most 32 points, every display precision >= 1, previous calls, iteration orders, every real t and U, all particle numbers, every double rounding of the coordinates that separates the points", "why_tests_cant": "Whole spectra for all t, U, sizes and fillings; a test compares a few numerically computed energies within a tolerance.", "anchors": [{"file": "HamiltonianPy/GreenFunction/demo/HubbardChain.py", "symbols": ["HM"]}, {"file": "HamiltonianPy/lattice/_lattice_database.py", "symbols": ["lattice_generator", "special_cluster"]}, {"file": "HamiltonianPy/lattice/lattice.py", "symbols": ["Lattice.bonds"]}, {"file": "HamiltonianPy/quantumoperator/factory.py", "symbols": ["HubbardFactory", "HoppingFactory"]}, {"file": "HamiltonianPy/hilbertspace.py", "symbols": ["base_vectors"]}]}
{"id": "C119", "title": "Rounded lengths, displacements and azimuths of a bond", "statement": "getLength(ndigits), getDisplace(ndigits) and getAzimuth(radian, ndigits) return the unrounded values when ndigits is omitted. For -15 <= n <= 15, getLength(n) and every component of getDisplace(n) between float endpoints is the double nearest to a multiple of 10**-n and at most half a unit 10**-n (up to relative errors 2**-48) from the Euclidean distance, or from the difference of the coordinates. Between integer endpoints getDisplace(n) is exact for n >= 0 and the nearest multiple of 10**-n for n < 0. Rounding does not depend on the direction: the flipped bond has the same rounded length and the negated rounded displacement. getAzimuth(radian, n) is the nearest multiple of 10**-n of the angle in the chosen unit.", "quantifier": "all endpoints with integer coordinates up to 2**53 (2**50 for the integer displacement) or float coordinates up to 2**400, in 1 to 3 dimensions, all ndigits from -15 to 15; for the direction all floats including nan and inf and all ndigits; azimuths for all real displacements and all ndigits", "why_tests_cant": "A test rounds a few lengths; ties, negative ndigits, integer arrays and directions form an unbounded domain of doubles.", "anchors": [{"file": "HamiltonianPy/bond.py", "symbols": ["Bond.getLength", "Bond.getDisplace", "Bond.getAzimuth"]}]}
{"id": "C120", "title": "Bounds on the ground-state energy of the antiferromagnet", "statement": "For J >= 0 the Heisenberg Hamiltonian assembled from bonds(1) of a built-in periodic cluster has a lowest energy E. With z neighbours per site and N sites: E >= -J (z + 2) N / 8 (Anderson's bound) whenever no two neighbours of a site are copies of each other, that is from three cells in every direction on (chain, square, triangle, cubic), from two cells on (kagome, honeycomb) and on all special clusters; E >= -3 J z N / 8 and no state above J z N / 8, the energy of all spins up, from two cells on (kagome, honeycomb: every size); E <= -J z N / 8 whenever the periodic lattice has two sublattices: even sizes of chain, square and cubic, every honeycomb lattice, and the z, s, benzene, diphenyl and gear clusters. On the chain of two sites and the honeycomb lattice of one cell E is exactly -3 J z / 4.", "quantifier": "all precisions, all sizes as stated, all names of special clusters, all J >= 0, all iteration orders of the sets, all previous calls on the lattice, all states", "why_tests_cant": "A test diagonalises a few small clusters; the bounds range over all sizes and a test cannot reach the larger ones at all.", "anchors": [{"file": "HamiltonianPy/GreenFunction/demo/HeisenbergChain1.py", "symbols": ["HM"]}, {"file": "HamiltonianPy/GreenFunction/demo/HeisenbergChain2.py", "symbols": ["HM"]}, {"file": "HamiltonianPy/lattice/_lattice_database.py", "symbols": ["lattice_generator", "special_cluster"]}, {"file": "HamiltonianPy/lattice/lattice.py", "symbols": ["Lattice.bonds", "Lattice.getIndex"]}, {"file": "HamiltonianPy/quantumoperator/spinsystem.py", "symbols": ["SpinInteraction"]}]}
{"id": "C121", "title": "The printed forms of a line", "statement": "str(line) is the equation of the line: 'y = b' for a line that is horizontal up to tol, else 'x = b' for one that is vertical up to tol, else 'y = ax + b'. Every number is printed with four decimals and is at most 0.00005 off, so the printed equation holds at every point of the line up to (|x| + 1) * 0.00005 (horizontal, vertical: at every point between p0 and p1 up to tol + 0.00005). A text is the equation of one kind of line only and its numbers can be read back uniquely; sloped lines with the same text differ at the abscissa x by at most (|x| + 1) * 0.0001. Any two points of one line, in either order, give the same text, except that a line which is horizontal or vertical only up to tol may print differently when its points are exchanged. The titles of ShowLine and ShowLocationRelation are this text. repr(line) determines both points.", "quantifier": "all points, all tolerances >= 0, all pairs of lines", "why_tests_cant": "A test compares the text of a few lines; rounding, signs and the choice of the two points range over all real numbers.", "anchors": [{"file": "HamiltonianPy/line2d.py", "symbols": ["Line2D.__str__", "Line2D.__repr__", "Line2D.ShowLine"]}]}
{"id": "C122", "title": "The symmetries of the lattice are symmetries of the models", "statement": "Every map of the plane (line, space) that maps the sites of the infinite lattice onto the sites, keeps all distances and respects the periodic boundary conditions permutes the points of a built-in periodic cluster, and this permutation is a symmetry of what the workflow assembles from bonds(1): moving the spins along changes no matrix element of the Heisenberg Hamiltonian, and moving the particle along no element of the one-particle hopping matrix. So the Hamiltonians commute with all lattice translations (momentum is conserved) and inversions, whatever the size, and with quarter turns on n x n square clusters and the z and s clusters.", "quantifier": "all precisions, all sizes, all names of special clusters, all symmetries, all J and t, all iteration orders of the sets, all previous calls on the lattice", "why_tests_cant": "A test checks the symmetry of one small cluster under a few maps; a single bond missing at the boundary of some other size, or folded to the wrong point, breaks it.", "anchors": [{"file": "HamiltonianPy/GreenFunction/demo/HeisenbergChain1.py", "symbols": ["HM"]}, {"file": "HamiltonianPy/lattice/_lattice_database.py", "symbols": ["lattice_generator", "special_cluster"]}, {"file": "HamiltonianPy/lattice/lattice.py", "symbols": ["Lattice.bonds", "Lattice.getIndex"]}, {"file": "HamiltonianPy/quantumoperator/spinsystem.py", "symbols": ["SpinInteraction"]}, {"file": "HamiltonianPy/quantumoperator/particlesystem.py", "symbols": ["ParticleTerm"]}]}
{"id": "C123", "title": "The points of a generated lattice are numbered cell by cell, row by row", "statement": "lattice_generator returns its points in a fixed order on which all site indices depend: on a chain point number i is at i; on the square lattice with num1 columns it is at (i // num1, i % num1); on the cubic lattice at (i // (num1 num2), i // num2 % num1, i % num2); on triangle, honeycomb and kagome lattices, with c points per cell, it is point number i % c of the cell number i // c, cells being numbered like the points of the square lattice along the two lattice vectors.", "quantifier": "all six lattices, all sizes >= 1, all precisions >= 1, all point numbers", "why_tests_cant": "A test looks at the order for a few sizes; swapping the loops or repeating cells before points goes unnoticed on square-shaped or one-point-cell examples.", "anchors": [{"file": "HamiltonianPy/lattice/_lattice_database.py", "symbols": ["lattice_generator"]}]}
{"id": "C124", "title": "Free electrons on open chains, rectangles, blocks and the benzene ring in closed form", "statement": "Run the Hubbard script (terms from `bonds(1)` of a cluster, `base_vectors` per spin, `matrix_repr`) with U = 0. On a chain, a square lattice or a cubic lattice of any sizes the energies found are, with multiplicities, exactly the sums of Nup different plus Ndown different levels, where the levels are 2 t cos(pi k / (n + 1)), k = 1..n, on a chain of n points and the sums of one such level per direction on rectangles and blocks; on the benzene cluster the levels are 2 t cos(pi k / 3), k = 0..5.", "quantifier": "all t, all sizes (up to the 64 states an integer holds), all Nup and Ndown, all precisions, all iteration orders of the sets, all previous calls on the lattice", "why_tests_cant": "A test compares some energies of a few small clusters numerically; one hopping lost or doubled at an edge shows up only for some shapes.", "anchors": [{"file": "HamiltonianPy/GreenFunction/demo/HubbardChain.py", "symbols": ["HM"]}, {"file": "HamiltonianPy/lattice/_lattice_database.py", "symbols": ["lattice_generator", "special_cluster"]}, {"file": "HamiltonianPy/lattice/lattice.py", "symbols": ["Lattice.bonds"]}, {"file": "HamiltonianPy/quantumoperator/particlesystem.py", "symbols": ["ParticleTerm"]}]}
{"id": "C125", "title": "What printing a lattice shows", "statement": "str(lattice) consists of 6 + n + 2 k lines: the numbers of points, space dimensions and translation vectors in decimal, then under their headings all points, translation vectors and reciprocal vectors, in their order, one per line, indented by four blanks. Two lattices with the same text have the same numbers and equally printed points and vectors.", "quantifier": "all lattices, all numbers of points and dimensions, all formatters of a row that put it on one line", "why_tests_cant": "A test compares the text of one lattice; a row dropped, repeated or listed under the wrong heading depends on the numbers of points and vectors.", "anchors": [{"file": "HamiltonianPy/lattice/lattice.py", "symbols": ["Lattice.__str__"]}]}
{"id": "C126", "title": "The Hubbard dimer is solved exactly", "statement": "Run the Hubbard script (terms from `bonds(1)` of a cluster, `base_vectors` per spin, `matrix_repr`) on two points: a chain of two points, two neighbouring points of a square, triangular or cubic lattice, or one cell of the honeycomb lattice. For every t and U the energies found are, with multiplicities: 0 without electrons; +-t for one electron; 0 for two of equal spin; 0, U and (U +- sqrt(U^2 + 16 t^2)) / 2 for one of each spin, the last with the minus sign being the lowest; U +- t for three; 2U for four.", "quantifier": "all t and U, all numbers of electrons, all precisions, all iteration orders of the sets, all previous calls on the lattice", "why_tests_cant": "A test diagonalises the dimer for a few values of t and U; a wrong sign of a hopping term across the other spin, or a lost on-site term, keeps many of these values right.", "anchors": [{"file": "HamiltonianPy/GreenFunction/demo/HubbardChain.py", "symbols": ["HM"]}, {"file": "HamiltonianPy/lattice/_lattice_database.py", "symbols": ["lattice_generator"]}, {"file": "HamiltonianPy/lattice/lattice.py", "symbols": ["Lattice.bonds"]}, {"file": "HamiltonianPy/quantumoperator/particlesystem.py", "symbols": ["ParticleTerm"]}]}
{"id": "C127", "title": "Showing an operator or a term displays exactly its LaTeX form", "statement": "show() of a creation or annihilation operator, a number operator, a spin operator, a particle term or a spin interaction opens a figure without axes that contains one text, in the middle: what tolatex returns for the same arguments, which is one well-formed piece of mathematics; and displays it together with the figures that were open before, in the order of their creation. If tolatex raises (e.g. a site missing in the index table), show raises the same exception and displays nothing, but leaves a blank figure open, which the next successful show displays too. So over any sequence of calls, if displayed windows are closed, there is one display per successful call, with one blank figure for every failed call since the previous success.", "quantifier": "all operators, terms, coefficients, index tables and options, all figures open before, all sequences of calls", "why_tests_cant": "A test would have to look at the pixels or at matplotlib's state for some calls; what failed calls leave behind depends on the history.", "anchors": [{"file": "HamiltonianPy/quantumoperator/particlesystem.py", "symbols": ["AoC.show", "NumberOperator.show", "ParticleTerm.show"]}, {"file": "HamiltonianPy/quantumoperator/spinsystem.py", "symbols": ["SpinOperator.show", "SpinInteraction.show"]}]}
{"id": "C128", "title": "How the electrons are distributed over a cluster", "statement": "Run the Hubbard script on any generated lattice or special cluster. In every non-degenerate eigenstate of its matrix, and in traces with every power of the matrix (hence thermal averages), the averages of the occupation numbers and of the products of two of them (densities, double occupancies, density correlations) do not change when the points are permuted so that neighbours stay neighbours, for instance when a chain is reversed; they do not change when up and down are exchanged if there are equally many of both; and if the cluster is a chain, part of a square, cubic or honeycomb lattice, or a strip of one row of the triangular lattice, with as many electrons as points, there is exactly one electron on every point on average, for every t and U.", "quantifier": "all lattice shapes up to 32 points and all special clusters, all t and U, all numbers of electrons, all permutations keeping neighbours, all non-degenerate eigenstates, all powers, all iteration orders of the sets, all previous calls on the lattice", "why_tests_cant": "A test computes the averages on a few small clusters; a bond lost at one end or a term with the wrong sign changes them on other clusters or fillings.", "anchors": [{"file": "HamiltonianPy/GreenFunction/demo/HubbardChain.py", "symbols": ["HM"]}, {"file": "HamiltonianPy/averages.py", "symbols": ["QuantumAverages"]}, {"file": "HamiltonianPy/lattice/_lattice_database.py", "symbols": ["lattice_generator", "special_cluster"]}, {"file": "HamiltonianPy/lattice/lattice.py", "symbols": ["Lattice.bonds"]}, {"file": "HamiltonianPy/quantumoperator/particlesystem.py", "symbols": ["ParticleTerm"]}]}
{"id": "C129", "title": "The octahedron script draws a regular octahedron with exactly the hidden lines dashed", "statement": "The Octahedron script marks the centre and the six corners of a regular octahedron (edges of length 2), and draws each edge and each connection of the centre with a corner exactly once, the latter gray and half as wide. For a distant observer in any direction d, the dashed lines are exactly the lines hidden behind the solid if and only if |d_y| < d_z / sqrt 2 < d_x; at azimuth 0 this means an elevation above 0 whose tangent is below sqrt 2. So it is right for the elevation 20 of the script, displayed and saved under a name that tells the angles, and would be wrong for the elevation -36 in its comment.", "quantifier": "all directions of view, all viewing angles, all points of all lines", "why_tests_cant": "A test can look at the picture from one direction; which lines are hidden is a statement about all points of a line and of the solid.", "anchors": [{"file": "HamiltonianPy/tools/Octahedron.py", "symbols": ["lines", "points", "azimuth", "elevation"]}]}
{"id": "C130", "title": "The ground state of the open Hubbard chain is unique", "statement": "Run the Hubbard script on a chain of any length, one row of a square, triangular or cubic lattice, or a zigzag row of honeycomb cells. For every hopping t other than 0, every U and all numbers of electrons, the lowest energy is not degenerate, and no amplitude of its eigenvector is zero; if t < 0 all amplitudes are positive up to a common factor. Hence in the ground state a point and its mirror image hold equally many electrons of each spin and are doubly occupied equally often; both spins are distributed equally if there are equally many of both; and with as many electrons as points there is one electron on every point on average.", "quantifier": "all lengths up to 32 points, all t other than 0, all U, all numbers of electrons, all precisions, all iteration orders of the sets, all previous calls on the lattice", "why_tests_cant": "A test diagonalises a few short chains; points numbered in another order, a bond lost or a bond too many make the ground state degenerate or its signs change only for some lengths, fillings and interactions.", "anchors": [{"file": "HamiltonianPy/GreenFunction/demo/HubbardChain.py", "symbols": ["HM"]}, {"file": "HamiltonianPy/lattice/_lattice_database.py", "symbols": ["lattice_generator"]}, {"file": "HamiltonianPy/lattice/lattice.py", "symbols": ["Lattice.bonds"]}, {"file": "HamiltonianPy/quantumoperator/particlesystem.py", "symbols": ["ParticleTerm"]}]}
{"id": "C131", "title": "The ground state of the antiferromagnet is a singlet with staggered correlations", "statement": "Run the Heisenberg script on a built-in cluster whose periodic lattice has two sublattices: even sizes of chain, square and cubic, every honeycomb lattice, and the z, s, benzene, diphenyl and gear clusters. For every J > 0 the lowest energy is not degenerate, and its eigenvector has no total spin. It contains all states with as many spins up as down and no others, with the sign given by the number of down spins on one sublattice. Hence in the ground state no spin points anywhere on average; the correlations <S_i^a S_j^a> are the same for a = x, y, z; and <S_i . S_j> is positive for every two points of the same sublattice, negative for every two points of different sublattices, however far apart.", "quantifier": "all precisions, all sizes as stated, all names of special clusters, all J > 0, all pairs of points, all iteration orders of the sets, all previous calls on the lattice", "why_tests_cant": "A test diagonalises a few small clusters and sees some numbers. A bond that joins points of the same sublattice, a bond lost between two halves of the cluster or a wrong sign of one exchange term makes the ground state degenerate, magnetic or its correlations irregular only on some clusters.", "anchors": [{"file": "HamiltonianPy/GreenFunction/demo/HeisenbergChain1.py", "symbols": ["HM"]}, {"file": "HamiltonianPy/GreenFunction/demo/HeisenbergChain2.py", "symbols": ["HM"]}, {"file": "HamiltonianPy/lattice/_lattice_database.py", "symbols": ["lattice_generator", "special_cluster"]}, {"file": "HamiltonianPy/lattice/lattice.py", "symbols": ["Lattice.bonds", "Lattice.getIndex"]}, {"file": "HamiltonianPy/quantumoperator/spinsystem.py", "symbols": ["SpinInteraction"]}]}
{"id": "C132", "title": "The levels of the antiferromagnet are ordered by the total spin", "statement": "Run the Heisenberg script on a built-in cluster of N points whose periodic lattice has two sublattices (the clusters of C131), with J > 0. For every s = N/2, N/2 - 1, ..., 0, among the eigenstates of total S^z equal to s there is a lowest energy E(s); it is not degenerate there, and its state has total spin s, S(S+1) = s(s+1); and no eigenstate of total spin s lies below E(s), whatever its S^z. The energies rise strictly with the spin: E(0) < E(1) < ... < E(N/2), and E(0) is the lowest energy of all. So the ground state is separated by a gap from everything with a magnetic moment, and no magnetisation is skipped when energies are compared.", "quantifier": "all precisions, all sizes as stated, all names of special clusters, all J > 0, all values of the total spin, all eigenstates, all iteration orders of the sets, all previous calls on the lattice", "why_tests_cant": "A test diagonalises a few small clusters. One bond joining the same sublattice, one lost connection or one exchange term of the wrong sign lets levels of different spin cross only on some clusters, and no test of the smaller ones shows it.", "anchors": [{"file": "HamiltonianPy/GreenFunction/demo/HeisenbergChain1.py", "symbols": ["HM"]}, {"file": "HamiltonianPy/GreenFunction/demo/HeisenbergChain2.py", "symbols": ["HM"]}, {"file": "HamiltonianPy/lattice/_lattice_database.py", "symbols": ["lattice_generator", "special_cluster"]}, {"file": "HamiltonianPy/lattice/lattice.py", "symbols": ["Lattice.bonds", "Lattice.getIndex"]}, {"file": "HamiltonianPy/quantumoperator/spinsystem.py", "symbols": ["SpinInteraction"]}]}
{"id": "C133", "title": "The ground states of the ferromagnet are the fully aligned ones", "statement": "Run the Heisenberg script on a built-in cluster of N points with z neighbours per point (chain, square, triangle, cubic with two cells or more in every used direction; kagome and honeycomb of any size; the special clusters), with J < 0. The lowest energy is J z N / 8, and the states of that energy are known completely: H w = (J z N / 8) w holds if and only if every two spins are parallel in w, S_i . S_j w = w/4 for all i != j, neighbours or not; equivalently, if and only if the amplitude of a basis state in w depends only on how many of its spins are down. So there is no other ground state: no domain, no spin that escapes the coupling.", "quantifier": "all precisions, all sizes as stated, all names of special clusters, all J < 0, all vectors, all pairs of points, all iteration orders of the sets, all previous calls on the lattice", "why_tests_cant": "A test checks that the aligned state is an eigenstate. If the bonds that the lattice lists left one point or one part of a cluster unconnected, the energy of the aligned state would look right per bond, while further ground states appear; only a check of every vector on every cluster excludes it.", "anchors": [{"file": "HamiltonianPy/GreenFunction/demo/HeisenbergChain1.py", "symbols": ["HM"]}, {"file": "HamiltonianPy/GreenFunction/demo/HeisenbergChain2.py", "symbols": ["HM"]}, {"file": "HamiltonianPy/lattice/_lattice_database.py", "symbols": ["lattice_generator", "special_cluster"]}, {"file": "HamiltonianPy/lattice/lattice.py", "symbols": ["Lattice.bonds", "Lattice.getIndex"]}, {"file": "HamiltonianPy/quantumoperator/spinsystem.py", "symbols": ["SpinInteraction"]}]}
