import Verif.Props.Factory
import Verif.Props.HilbertSpace
import Verif.Props.IndexTable
import Verif.Props.Rotation3D
import Verif.Props.Line2D
import Verif.Props.Polygon
import Verif.Props.BondLength
/-!
# C111: calls that omit the optional arguments

Each statement is about the call with the optional arguments left out, and says what the documented
default must bring about.
-/

namespace Verif
open Spec Geo

/-- building a state with spin and orbit left out -/
theorem stateInit_default {zoom : ℤ} {site : List Coord} {st : StateID} (h : StateID.init zoom site = .ok st) :
    st.site = site ∧ st.spin = 0 ∧ st.orbit = 0 := by
  have h' : StateID.init zoom site 0 0 = .ok st := h
  unfold StateID.init at h'
  simp only [pyAssert, bind, Except.bind, pure, Except.pure, le_refl, decide_true, if_true] at h'
  cases hs : SiteID.init zoom site with
  | error e => rw [hs] at h'; cases h'
  | ok s =>
    rw [hs] at h'
    cases h'
    refine ⟨?_, rfl, rfl⟩
    unfold SiteID.init at hs
    simp only [bind, Except.bind, pure, Except.pure] at hs
    split at hs
    · cases hs
    · split at hs
      · cases hs
      · cases hs; rfl

/-- **C111** (states and operators).  `StateID(site)`, `AoC(otype, site)`, `NumberOperator(site)`,
`Creator(site)` and `Annihilator(site)` are about spin 0 and orbit 0 of that site. -/
theorem C111_states (zoom : ℤ) (site : List Coord) :
    (∀ st, StateID.init zoom site = .ok st → st.site = site ∧ st.spin = 0 ∧ st.orbit = 0) ∧
    (∀ otype a, AoC.init zoom otype site = .ok a → a.state.site = site ∧ a.state.spin = 0 ∧ a.state.orbit = 0) ∧
    (∀ n, NumberOperator.init zoom site = .ok n → n.state.site = site ∧ n.state.spin = 0 ∧ n.state.orbit = 0) ∧
    (∀ a, creator zoom site = .ok a → a.otype = .creation ∧ a.state.site = site ∧ a.state.spin = 0 ∧
      a.state.orbit = 0) ∧
    (∀ a, annihilator zoom site = .ok a → a.otype = .annihilation ∧ a.state.site = site ∧ a.state.spin = 0 ∧
      a.state.orbit = 0) := by
  have key : ∀ otype a, AoC.init zoom otype site = .ok a → StateID.init zoom site = .ok a.state ∧
      (otype = 1 → a.otype = .creation) ∧ (otype = 0 → a.otype = .annihilation) := by
    intro otype a h
    by_cases h1 : otype = 1
    · subst h1
      rw [(aocInit_eq site 0 0).1] at h
      cases hs : StateID.init zoom site 0 0 with
      | error e => rw [hs] at h; cases h
      | ok st => rw [hs] at h; cases h; exact ⟨rfl, fun _ => rfl, by simp⟩
    · by_cases h0 : otype = 0
      · subst h0
        rw [(aocInit_eq site 0 0).2] at h
        cases hs : StateID.init zoom site 0 0 with
        | error e => rw [hs] at h; cases h
        | ok st => rw [hs] at h; cases h; exact ⟨rfl, by simp, fun _ => rfl⟩
      · exfalso
        unfold AoC.init at h
        simp only [pyAssert, h0, h1, or_self, decide_false] at h
        cases h
  refine ⟨fun st h => stateInit_default h, fun o a h => stateInit_default (key o a h).1, fun n h => ?_,
    fun a h => ⟨(key 1 a h).2.1 rfl, stateInit_default (key 1 a h).1⟩,
    fun a h => ⟨(key 0 a h).2.2 rfl, stateInit_default (key 0 a h).1⟩⟩
  unfold NumberOperator.init at h
  cases hs : StateID.init zoom site 0 0 with
  | error e => rw [hs] at h; cases h
  | ok st => rw [hs] at h; cases h; exact stateInit_default (zoom := zoom) hs

/-- Non-vacuity of C111_states. -/
example : (∃ st, StateID.init 10000 [.int 3, .int (-2)] = .ok st) ∧ (∃ a, creator 10000 [.int 3, .int (-2)] = .ok a) :=
  ⟨⟨_, rfl⟩, ⟨_, rfl⟩⟩

/-- **C111** (particle terms).  With spins, orbits and coefficient left out the factories build
`c^dagger c`, `c_0^dagger c_1`, `c_0 c_1` (holes), `n_up n_down` and `n_0 n_1` of spin 0 and orbit 0 with
coefficient 1. -/
theorem C111_particle_terms (zoom : ℤ) (site0 site1 : List Coord) (st0 st1 up : StateID)
    (h0 : StateID.init zoom site0 0 0 = .ok st0) (h1 : StateID.init zoom site1 0 0 = .ok st1)
    (hu : StateID.init zoom site0 1 0 = .ok up) :
    (∃ t, cpFactory zoom site0 = .ok t ∧ t.aocs = [⟨.creation, st0⟩, ⟨.annihilation, st0⟩] ∧ t.coeff = 1) ∧
    (∃ t, hoppingFactory zoom site0 site1 = .ok t ∧ t.aocs = [⟨.creation, st0⟩, ⟨.annihilation, st1⟩] ∧
      t.coeff = 1) ∧
    (∃ t, pairingFactory zoom site0 site1 = .ok t ∧ t.aocs = [⟨.annihilation, st0⟩, ⟨.annihilation, st1⟩] ∧
      t.coeff = 1) ∧
    (∃ t, hubbardFactory zoom site0 = .ok t ∧
      t.aocs = [⟨.creation, up⟩, ⟨.annihilation, up⟩, ⟨.creation, st0⟩, ⟨.annihilation, st0⟩] ∧ t.coeff = 1) ∧
    (∃ t, coulombFactory zoom site0 site1 = .ok t ∧
      t.aocs = [⟨.creation, st0⟩, ⟨.annihilation, st0⟩, ⟨.creation, st1⟩, ⟨.annihilation, st1⟩] ∧
      t.coeff = 1) := by
  refine ⟨?_, ?_, ?_, ?_, ?_⟩
  · obtain ⟨t, h, ha, hc, -⟩ := (C36_cp_factory zoom site0 0 0 1).2 st0 h0
    exact ⟨t, h, ha, hc⟩
  · obtain ⟨t, h, ha, hc, -⟩ := C36_hopping_factory zoom site0 site1 0 0 none none 1 st0 st1 h0 h1
    exact ⟨t, h, ha, hc⟩
  · exact ⟨_, (C36_pairing_factory zoom site0 site1 0 0 0 0 1 "h" st0 st1 h0 h1).1 (.inl rfl), rfl, rfl⟩
  · obtain ⟨t, h, ha, hc, -⟩ := C36_hubbard_factory zoom site0 0 1 up st0 hu h0
    exact ⟨t, h, ha, hc⟩
  · obtain ⟨t, h, ha, hc, -⟩ := C36_coulomb_factory zoom site0 site1 0 0 0 0 1 st0 st1 h0 h1
    exact ⟨t, h, ha, hc⟩

/-- **C111** (hopping).  A hopping whose second spin or orbit is left out keeps the first one. -/
theorem C111_hopping_second (zoom : ℤ) (site0 site1 : List Coord) (spin orbit : ℤ) (st0 st1 : StateID)
    (h0 : StateID.init zoom site0 spin orbit = .ok st0) (h1 : StateID.init zoom site1 spin orbit = .ok st1) :
    ∃ t, hoppingFactory zoom site0 site1 (spin0 := spin) (orbit0 := orbit) = .ok t ∧
      t.aocs = [⟨.creation, st0⟩, ⟨.annihilation, st1⟩] ∧ t.coeff = 1 := by
  obtain ⟨t, h, ha, hc, -⟩ := C36_hopping_factory zoom site0 site1 spin orbit none none 1 st0 st1 h0 h1
  exact ⟨t, h, ha, hc⟩

/-- Non-vacuity of the two statements on particle terms. -/
example : StateID.init 10000 [.int 3, .int (-2)] 0 0 = .ok ⟨[.int 3, .int (-2)], 0, 0, [30000, -20000]⟩ ∧
    StateID.init 10000 [.int 3, .int (-2)] 1 0 = .ok ⟨[.int 3, .int (-2)], 1, 0, [30000, -20000]⟩ := by
  constructor <;> rfl

/-- **C111** (spin terms).  With the coefficient left out, a product of spin operators built by
`SpinInteraction(...)` or by the spin factories is represented by the plain product of their matrices
(for Heisenberg: by three matrices that add up to `S_i . S_j`). -/
theorem C111_spin_terms {zoom : ℤ} {objs : List SiteID} {table : IndexTable SiteID}
    (hT : IndexTable.init objs = .ok table) (site0 site1 : List Coord) (id0 id1 : SiteID)
    (h0 : SiteID.init zoom site0 = .ok id0) (h1 : SiteID.init zoom site1 = .ok id1) (i j : ℤ)
    (hi : table.queryIndex id0 = .ok i) (hj : table.queryIndex id1 = .ok j) :
    (∀ a b : SpinOtype, Represents table (SpinInteraction.init [⟨a, id0⟩, ⟨b, id1⟩])
      (spinMat table.len a i * spinMat table.len b j)) ∧
    (∃ t0 t1 t2 X0 X1 X2, heisenbergFactory zoom site0 site1 = .ok (t0, t1, t2) ∧
      Represents table t0 X0 ∧ Represents table t1 X1 ∧ Represents table t2 X2 ∧
      X0 + X1 + X2 = spinMat table.len .x i * spinMat table.len .x j +
        spinMat table.len .y i * spinMat table.len .y j + spinMat table.len .z i * spinMat table.len .z j) ∧
    (∀ alpha o, SpinOtype.ofString? alpha = some o → o ∈ [SpinOtype.x, .y, .z] →
      ∃ t, isingFactory zoom site0 site1 alpha = .ok t ∧
        Represents table t (spinMat table.len o i * spinMat table.len o j)) ∧
    (∀ alpha beta o u, SpinOtype.ofString? alpha = some o → o ∈ [SpinOtype.x, .y, .z] →
      SpinOtype.ofString? beta = some u → u ∈ [SpinOtype.x, .y, .z] →
      ∃ t, twoSpinTermFactory zoom site0 site1 alpha beta = .ok t ∧
        Represents table t (spinMat table.len o i * spinMat table.len u j)) := by
  refine ⟨fun a b => ?_, ?_, fun alpha o ho hm => ?_, fun alpha beta o u ho hm hu hm' => ?_⟩
  · simpa using pair_represents hT hi hj a b 1
  · obtain ⟨t0, t1, t2, X0, X1, X2, h, r0, r1, r2, hs, -⟩ :=
      C35_heisenberg hT site0 site1 id0 id1 h0 h1 i j hi hj 1
    exact ⟨t0, t1, t2, X0, X1, X2, h, r0, r1, r2, by rw [hs, one_smul]⟩
  · obtain ⟨t, h, hr⟩ := (C35_ising hT site0 site1 id0 id1 h0 h1 i j hi hj 1 alpha).1 o ho hm
    exact ⟨t, h, by simpa using hr⟩
  · obtain ⟨t, h, hr⟩ := (C35_two_spin hT site0 site1 id0 id1 h0 h1 i j hi hj 1 alpha beta).1 o u ho hm hu hm'
    exact ⟨t, h, by simpa using hr⟩

/-- **C111** (`matrix_function`).  Without left basis, coefficient and tag the matrix is square on the right
basis and holds the bare Fock-space matrix elements, in both output formats; `SpinInteraction`'s static
`matrix_function` without coefficient is the one with coefficient 1. -/
theorem C111_matrix_function (term : List (ℤ × Otype)) (right : List ℕ) (hn : right.Nodup) :
    (∀ M, matrixFunctionCsr term right = .ok M → M.nrow = right.length ∧ M.ncol = right.length ∧
      ∀ (r : ℕ) (hr : r < right.length) (j : ℕ) (hj : j < right.length),
        M.get r j = matrixElement (termOperator term) (occ right[r]) (occ right[j])) ∧
    (∀ M es rs cs, matrixFunctionCsr term right = .ok M → matrixFunctionTriplets term right = .ok (es, rs, cs) →
      ∀ r j, M.get r j =
        (((es.zip (rs.zip cs)).filter (fun t => t.2.1 = r ∧ t.2.2 = j)).map Prod.fst).sum) ∧
    (∀ ops n, SpinInteraction.matrixFunction ops n = SpinInteraction.matrixFunction ops n 1) := by
  refine ⟨fun M h => ?_, fun M es rs cs h h' => ?_, fun _ _ => rfl⟩
  · obtain ⟨h1, h2, h3⟩ := C20_matrix_elements term right none 1 M h hn
    refine ⟨h1, h2, fun r hr j hj => ?_⟩
    simpa using h3 r hr j hj
  · exact ((C26_sparse_and_triplets term right none 1 .general).1 es rs cs h').2.2.2.2 M h

/-- Non-vacuity: the hopping `c_1^dagger c_0` on the two one-particle kets of two states. -/
example : ∃ M, matrixFunctionCsr [(1, .creation), (0, .annihilation)] [0, 1, 2, 3] = .ok M :=
  full_exists 2 (by norm_num) [(1, .creation), (0, .annihilation)] (by simp) (by simp) 1

/-- **C111** (index tables).  A table built without `start` counts from 0. -/
theorem C111_index_table {α : Type} [PyObj α] [LawfulPyObj α] (objs : List α) (t : IndexTable α)
    (h : IndexTable.init objs = .ok t) :
    t.indices = (List.range objs.length).map (fun k : ℕ => (k : ℤ)) ∧
    ∀ (k : ℕ) (o : α), objs[k]? = some o → t.queryIndex o = .ok k ∧ t.queryObject (.int k) = .ok o := by
  obtain ⟨h1, -, -, -, h5, -⟩ := C01_indextable_bijection objs 0 t h
  simp only [zero_add] at h1 h5
  exact ⟨h1, h5⟩

/-- what leaving out `container` and `sort` does to a list of kets -/
theorem finishKets_default {raw kets : List ℕ} (h : finishKets raw .tuple false = .ok kets) :
    ((∃ k ∈ kets, 2 ^ 64 ≤ k) → finishKets raw .array true = .error .overflowError) ∧
    ((∀ k ∈ kets, k < 2 ^ 64) → ∃ l, finishKets raw .array true = .ok l ∧ l.Pairwise (· ≤ ·) ∧ l.Perm kets) := by
  have hk : kets = raw := by simpa using (finishKets_ok h).1
  subst hk
  refine ⟨fun hb => finishKets_error_iff.mpr ⟨rfl, rfl, hb⟩, fun hs => ?_⟩
  cases hf : finishKets kets .array true with
  | error e =>
    obtain ⟨-, -, k, hk, hle⟩ := finishKets_error_iff.mp hf
    exact absurd (hs k hk) (by omega)
  | ok l => exact ⟨l, rfl, finishKets_sorted hf, finishKets_perm hf⟩

/-- **C111** (Hilbert spaces).  The function `base_vectors` and the methods of the same name, called
without options, return a numpy array in ascending order: if some ket needs more than 64 bits they raise
OverflowError, and otherwise the kets of the same call with `container="tuple", sort=False` come in
ascending order. -/
theorem C111_base_vectors (specs : List HVal) (S : SimpleHilbertSpace) (H : HilbertSpace) (kets : List ℕ) :
    (baseVectors specs .tuple false = .ok kets →
      ((∃ k ∈ kets, 2 ^ 64 ≤ k) → baseVectors specs = .error .overflowError) ∧
      ((∀ k ∈ kets, k < 2 ^ 64) → ∃ l, baseVectors specs = .ok l ∧ l.Pairwise (· ≤ ·) ∧ l.Perm kets)) ∧
    (S.baseVectors .tuple false = .ok kets →
      ((∃ k ∈ kets, 2 ^ 64 ≤ k) → S.baseVectors = .error .overflowError) ∧
      ((∀ k ∈ kets, k < 2 ^ 64) → ∃ l, S.baseVectors = .ok l ∧ l.Pairwise (· ≤ ·) ∧ l.Perm kets)) ∧
    (H.baseVectors .tuple false = .ok kets →
      ((∃ k ∈ kets, 2 ^ 64 ≤ k) → H.baseVectors = .error .overflowError) ∧
      ((∀ k ∈ kets, k < 2 ^ 64) → ∃ l, H.baseVectors = .ok l ∧ l.Pairwise (· ≤ ·) ∧ l.Perm kets)) := by
  refine ⟨fun h => ?_, fun h => ?_, fun h => ?_⟩
  · obtain ⟨subs, gens, hs, hd, hg, hf⟩ := baseVectors_ok h
    have heq : baseVectors specs = finishKets (rawKets gens) .array true := by
      change baseVectors specs .array true = _
      unfold baseVectors
      simp only [hs, hg, hd, bind, Except.bind, if_true]
      rfl
    rw [heq]
    exact finishKets_default hf
  · exact finishKets_default h
  · unfold HilbertSpace.baseVectors at h ⊢
    cases hg : H.specifiers.mapM subspaceBases with
    | error e => rw [hg] at h; cases h
    | ok gens =>
      rw [hg] at h
      exact finishKets_default h

/-- Non-vacuity: two subspaces whose kets come unsorted with `sort=False`. -/
example : baseVectors [.tuple [.tuple [.int 2, .int 0], .int (-1)]] .tuple false = .ok [0, 4, 1, 5] ∧
    baseVectors [.tuple [.tuple [.int 2, .int 0], .int (-1)]] = .ok [0, 1, 4, 5] := by
  constructor <;> rfl

/-- **C111** (Hilbert spaces).  `SimpleHilbertSpace(states)` without a particle number conserves nothing:
all `2 ^ n` occupations of its `n` states are base vectors. -/
theorem C111_simple_space (states : HVal) (S : SimpleHilbertSpace) (h : SimpleHilbertSpace.init states = .ok S)
    (kets : List ℕ) (hk : S.baseVectors = .ok kets) : kets.length = 2 ^ S.states.length := by
  have hn : S.number = -1 := by
    unfold SimpleHilbertSpace.init at h
    simp only [bind, Except.bind, raise] at h
    split at h
    · split at h
      · cases h
      · cases h; rfl
    · split at h
      · split at h
        · cases h
        · cases h; rfl
      · cases h
  have hk' : finishKets ((allCombinations S.states).map ketOf) .array true = .ok kets := by
    have : S.baseVectors .array true = .ok kets := hk
    unfold SimpleHilbertSpace.baseVectors at this
    rw [hn] at this
    exact this
  rw [(finishKets_perm hk').length_eq, List.length_map, length_allCombinations]

/-- Non-vacuity: three states, eight kets. -/
example : ∃ S, SimpleHilbertSpace.init (.int 3) = .ok S ∧ S.states.length = 3 ∧
    S.baseVectors = .ok [0, 1, 2, 3, 4, 5, 6, 7] := ⟨_, rfl, rfl, rfl⟩

/-- **C111** (bonds).  A bond built without `directional` is directional: it has a displacement and can
be flipped. -/
theorem C111_bond (zoom : ℤ) (p0 p1 : NpVec) (b : Bond) (h : Bond.init zoom p0 p1 = .ok b) :
    b.directional = true ∧ (∃ d, b.getDisplace = .ok d) ∧ ∃ f, b.flip zoom = .ok f := by
  obtain ⟨f, hf, -, -, -, dr, hd, -⟩ := C39_flip zoom p0 p1 b h
  obtain ⟨-, -, t0, t1, -, -, rfl⟩ := (bond_init_ok_iff zoom p0 p1 true b).mp h
  exact ⟨rfl, ⟨dr, hd⟩, ⟨f, hf⟩⟩

/-- Non-vacuity of C111_bond. -/
example : ∃ b, Bond.init 10000 (.i64 [0, 0]) (.i64 [1, 2]) = .ok b := ⟨_, rfl⟩

/-- **C111** (rotations).  Without `deg` and `inversion` the angles are in radians and the rotations
proper. -/
theorem C111_rotations (a b c : ℝ) :
    Rot.rotationX a = rodrigues 1 0 0 a ∧ Rot.rotationY a = rodrigues 0 1 0 a ∧
    Rot.rotationZ a = rodrigues 0 0 1 a ∧
    Rot.rotationEuler a b c = rodrigues 0 0 1 a * rodrigues 0 1 0 b * rodrigues 0 0 1 c ∧
    Rot.rotationGeneral (some [a, b]) c =
      .ok (rodrigues (Real.sin b * Real.cos a) (Real.sin b * Real.sin a) (Real.cos b) c) ∧
    (∀ x y z : ℝ, √(x ^ 2 + y ^ 2 + z ^ 2) < 1 / 10 ^ 10 →
      Rot.rotationGeneral (some [x, y, z]) a = .error .valueError) ∧
    (∀ x y z : ℝ, 1 / 10 ^ 10 ≤ √(x ^ 2 + y ^ 2 + z ^ 2) → ∃ R, Rot.rotationGeneral (some [x, y, z]) a = .ok R) ∧
    Rot.setThreshold = .ok (1 / 10 ^ 10) := by
  have hz : Rot.viewAsZero = 1 / 10 ^ 10 := rfl
  have hv : (0 : ℝ) < 1 / 10 ^ 10 := by norm_num
  have hX : ∀ t, Rot.rotationX t = rodrigues 1 0 0 t := by
    intro t
    unfold Rot.rotationX rodrigues
    ext i j
    fin_cases i <;> fin_cases j <;> simp [Rot.toRad_false, Rot.withInversion]
  have hY : ∀ t, Rot.rotationY t = rodrigues 0 1 0 t := by
    intro t
    unfold Rot.rotationY rodrigues
    ext i j
    fin_cases i <;> fin_cases j <;> simp [Rot.toRad_false, Rot.withInversion]
  have hZ : ∀ t, Rot.rotationZ t = rodrigues 0 0 1 t := by
    intro t
    unfold Rot.rotationZ rodrigues
    ext i j
    fin_cases i <;> fin_cases j <;> simp [Rot.toRad_false, Rot.withInversion]
  refine ⟨hX a, hY a, hZ a, ?_, ?_, ?_, ?_, ?_⟩
  · rw [← hZ, ← hY, ← hZ]
    exact (Rot.C45_euler a b c false).1
  · exact Rot.C44_spherical a b c (1 / 10 ^ 10) false false
  · intro x y z h
    exact (Rot.C43_general (some [x, y, z]) a false false (1 / 10 ^ 10) hv.le).2.2.2.2.1 x y z rfl h
  · intro x y z h
    exact (Rot.C43_general (some [x, y, z]) a false false (1 / 10 ^ 10) hv.le).2.2.2.2.2.1 x y z rfl h
      (fun h => hv.ne' h.1)
  · unfold Rot.setThreshold
    rw [hz]
    simp only [pyAssert, hv.le, decide_true, if_true]
    rfl

/-- **C111** (lines and polygons).  The default tolerance is `1e-10`: points count as different, as on a
line, or as a vertex from there on; `Coordinate` without `which` takes its argument for an `x`. -/
theorem C111_geometry (p0 p1 : Pt) :
    ((∃ l, Line2D.init p0 p1 = .ok l) ↔ 1 / 10 ^ 10 < |p1.1 - p0.1| ∨ 1 / 10 ^ 10 < |p1.2 - p0.2|) ∧
    (∀ l, Line2D.init p0 p1 = .ok l → Regular (1 / 10 ^ 10) p0 p1 → ∀ p,
      l.locationRelation p = .on ↔ lineGap p0 p1 p ≤ 1 / 10 ^ 10) ∧
    (∀ l known p, Line2D.init p0 p1 = .ok l → l.coordinate known = .ok p → p.1 = known) ∧
    (∀ vs, (∃ g, Polygon.init vs = .ok g) ↔ 3 ≤ vs.length ∧ vs.Pairwise (fun p q => 1 / 10 ^ 10 < euclid p q)) ∧
    (∀ (g : Polygon) (p ref : Pt), (∃ v ∈ g.vertices, euclid v p ≤ 1 / 10 ^ 10) →
      g.locationRelation p ref = .ok .corner) := by
  have hv : (0 : ℝ) ≤ 1 / 10 ^ 10 := by norm_num
  refine ⟨?_, fun l hl hr p => (C40_location p0 p1 _ _ l hv hl hr p).1, ?_, ?_, ?_⟩
  · have := C40_construction p0 p1 (1 / 10 ^ 10)
    constructor
    · rintro ⟨l, hl⟩
      by_contra hc
      push Not at hc
      have he : Line2D.init p0 p1 (1 / 10 ^ 10) = .ok l := hl
      rw [this.1 hc] at he
      cases he
    · intro h
      obtain ⟨l, hl, -⟩ := this.2 (by rintro ⟨h1, h2⟩; rcases h with h | h <;> linarith)
      exact ⟨l, hl⟩
  · intro l known p hl hp
    exact ((C41_coordinate p0 p1 _ l hv hl known).1 .x p hp).2.1 rfl
  · intro vs
    have := C42_construction vs (1 / 10 ^ 10)
    constructor
    · rintro ⟨g, hg⟩
      have hg' : Polygon.init vs (1 / 10 ^ 10) = .ok g := hg
      by_cases h3 : vs.length < 3
      · rw [this.1 h3] at hg'; cases hg'
      · by_cases hp : vs.Pairwise (fun p q => 1 / 10 ^ 10 < euclid p q)
        · exact ⟨by omega, hp⟩
        · rw [this.2.1 (by omega) hp] at hg'; cases hg'
    · rintro ⟨h3, hp⟩
      obtain ⟨g, hg, -⟩ := this.2.2 h3 hp
      exact ⟨g, hg⟩
  · intro g p ref h
    change g.locationRelation p ref (1 / 10 ^ 10) = _
    unfold Polygon.locationRelation
    rw [if_pos h]

/-- Non-vacuity: a line and a point on it. -/
example : ∃ l, Line2D.init (0, 0) (2, 1) = .ok l :=
  (C111_geometry (0, 0) (2, 1)).1.mpr (.inl (by norm_num))

end Verif
