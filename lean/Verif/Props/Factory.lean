import Verif.Model.Factory
import Verif.Props.Spin
import Verif.Props.MatrixTerm
/-!
# C35, C36: the factory functions
-/

namespace Verif
open Spec

/-! ### C36 -/

theorem aocInit_eq {zoom : ℤ} (site : List Coord) (spin orbit : ℤ) :
    AoC.init zoom 1 site spin orbit =
      (StateID.init zoom site spin orbit).map (fun st => ⟨.creation, st⟩) ∧
    AoC.init zoom 0 site spin orbit =
      (StateID.init zoom site spin orbit).map (fun st => ⟨.annihilation, st⟩) := by
  unfold AoC.init
  constructor <;> cases StateID.init zoom site spin orbit <;> rfl

theorem stateEq_self (st : StateID) : st.rich .eq st = true := by
  have := (stateEq_iff st st).mpr rfl
  exact this

theorem stateNe_iff (a b : StateID) : a.rich .ne b = true ↔ a.hashKey ≠ b.hashKey := by
  simp [stateRich_eq, linRich, stateKey_eq_iff]

/-- **C36** (`CPFactory`).  The call raises exactly what building the state raises; otherwise the
term is `coeff * c^dagger c` of that state, passes `check_compatibility`, and is represented on every
duplicate-free basis by the diagonal matrix `coeff * n` (so a real one for a real coefficient). -/
theorem C36_cp_factory (zoom : ℤ) (site : List Coord) (spin orbit : ℤ) (coeff : ℂ) :
    (∀ e, StateID.init zoom site spin orbit = .error e →
      cpFactory zoom site spin orbit coeff = .error e) ∧
    ∀ st, StateID.init zoom site spin orbit = .ok st → ∃ t,
      cpFactory zoom site spin orbit coeff = .ok t ∧ t.aocs = [⟨.creation, st⟩, ⟨.annihilation, st⟩] ∧
      t.coeff = coeff ∧ t.checkCompatibility = true ∧
      ∀ (table : IndexTable StateID) (bases : List ℕ) (M : Csr), bases.Nodup →
        (t.matrixRepr table bases).2 = .ok M → ∃ i : ℤ, table.queryIndex st = .ok i ∧
          M.toMatrix bases.length bases.length =
            Matrix.diagonal (fun j => if bases[j].testBit i.toNat then coeff else 0) := by
  constructor
  · intro e he
    unfold cpFactory
    rw [(aocInit_eq site spin orbit).1, he]
    rfl
  · intro st hst
    refine ⟨⟨[⟨.creation, st⟩, ⟨.annihilation, st⟩], coeff, .number⟩, ?_, rfl, rfl, ?_, ?_⟩
    · unfold cpFactory
      rw [(aocInit_eq site spin orbit).1, (aocInit_eq site spin orbit).2, hst]
      rfl
    · simp [ParticleTerm.checkCompatibility, stateEq_self]
    · intro table bases M hn hM
      rw [matrixRepr_none, bind_ok_iff] at hM
      obtain ⟨term, hterm, hM⟩ := hM
      obtain ⟨hq, rfl⟩ := indexed_ok_iff.mp hterm
      obtain ⟨i, hi⟩ := hq ⟨.creation, st⟩ (by simp)
      simp only [List.map_cons, List.map_nil, indexedAoC, hi, Except.toOption, Option.getD_some] at hM
      obtain ⟨-, -, -, hget⟩ := number_csr hM hn
      refine ⟨i, hi, ?_⟩
      ext r j
      rw [Csr.toMatrix, Matrix.of_apply, hget r r.2 j j.2, Matrix.diagonal_apply]
      by_cases hrj : r = j
      · subst hrj; simp [mem_occ]
      · rw [if_neg hrj, if_neg]
        rintro ⟨h, -⟩
        exact hrj (Fin.ext h)

/-- **C36** (`HoppingFactory`).  The term is `coeff * c_0^dagger c_1`, a missing second spin/orbit
meaning the first one; it passes `check_compatibility`, and its classification is "number" exactly
when both states coincide and "hopping" otherwise. -/
theorem C36_hopping_factory (zoom : ℤ) (site0 site1 : List Coord) (spin0 orbit0 : ℤ)
    (spin1 orbit1 : Option ℤ) (coeff : ℂ) (st0 st1 : StateID)
    (h0 : StateID.init zoom site0 spin0 orbit0 = .ok st0)
    (h1 : StateID.init zoom site1 (spin1.getD spin0) (orbit1.getD orbit0) = .ok st1) :
    ∃ t, hoppingFactory zoom site0 site1 spin0 spin1 orbit0 orbit1 coeff = .ok t ∧
      t.aocs = [⟨.creation, st0⟩, ⟨.annihilation, st1⟩] ∧ t.coeff = coeff ∧
      t.checkCompatibility = true ∧
      (st0.hashKey = st1.hashKey → t.classification = .number) ∧
      (st0.hashKey ≠ st1.hashKey → t.classification = .hopping) := by
  have hne := stateNe_iff st0 st1
  have heq := stateEq_iff st0 st1
  refine ⟨⟨[⟨.creation, st0⟩, ⟨.annihilation, st1⟩], coeff,
    if st0.rich .ne st1 then .hopping else .number⟩, ?_, rfl, rfl, ?_, ?_, ?_⟩
  · unfold hoppingFactory
    simp only [(aocInit_eq site0 spin0 orbit0).1, (aocInit_eq site1 _ _).2, h0, h1]
    rfl
  · by_cases h : st0.rich .ne st1 = true
    · simp [ParticleTerm.checkCompatibility, h]
    · have : st0.rich .eq st1 = true := by
        rw [hne, not_not] at h
        exact heq.mpr h
      simp [ParticleTerm.checkCompatibility, h, this]
  · intro h
    have : ¬ st0.rich .ne st1 = true := fun h' => hne.mp h' h
    simp [this]
  · intro h
    simp [hne.mpr h]

/-- **C36** (`PairingFactory`).  "h"/"hole" give `c_0 c_1`, "p"/"particle" give
`c_0^dagger c_1^dagger`; every other string raises AssertionError. -/
theorem C36_pairing_factory (zoom : ℤ) (site0 site1 : List Coord) (spin0 spin1 orbit0 orbit1 : ℤ)
    (coeff : ℂ) (which : String) (st0 st1 : StateID)
    (h0 : StateID.init zoom site0 spin0 orbit0 = .ok st0)
    (h1 : StateID.init zoom site1 spin1 orbit1 = .ok st1) :
    (which = "h" ∨ which = "hole" →
      pairingFactory zoom site0 site1 spin0 spin1 orbit0 orbit1 coeff which =
        .ok ⟨[⟨.annihilation, st0⟩, ⟨.annihilation, st1⟩], coeff, .general⟩) ∧
    (which = "p" ∨ which = "particle" →
      pairingFactory zoom site0 site1 spin0 spin1 orbit0 orbit1 coeff which =
        .ok ⟨[⟨.creation, st0⟩, ⟨.creation, st1⟩], coeff, .general⟩) ∧
    (which ∉ ["h", "hole", "p", "particle"] →
      pairingFactory zoom site0 site1 spin0 spin1 orbit0 orbit1 coeff which =
        .error .assertionError) := by
  refine ⟨?_, ?_, ?_⟩
  · rintro (rfl | rfl) <;> unfold pairingFactory <;>
      simp only [pyAssert, List.mem_cons, true_or, or_true, decide_true, if_true,
        (aocInit_eq site0 spin0 orbit0).2, (aocInit_eq site1 spin1 orbit1).2, h0, h1] <;> rfl
  · rintro (rfl | rfl) <;> unfold pairingFactory <;>
      simp only [pyAssert, List.mem_cons, true_or, or_true, decide_true, if_true] <;>
      rw [if_neg (by decide)] <;>
      simp only [(aocInit_eq site0 spin0 orbit0).1, (aocInit_eq site1 spin1 orbit1).1, h0, h1] <;> rfl
  · intro hw
    unfold pairingFactory
    simp only [pyAssert, hw, decide_false]
    rfl

theorem coulomb_csr {i j : ℤ} {bases : List ℕ} {c : ℂ} {M : Csr}
    (h : matrixFunctionCsr [(i, .creation), (i, .annihilation), (j, .creation), (j, .annihilation)]
      bases none c .coulomb = .ok M) (hn : bases.Nodup) :
    ∀ (r : ℕ) (_ : r < bases.length) (k : ℕ) (hk : k < bases.length),
      M.get r k = if r = k ∧ (i.toNat ∈ occ bases[k] ∧ j.toNat ∈ occ bases[k]) then c else 0 := by
  obtain ⟨data, hd, hb, h1, h2, hget, -⟩ := csr_ok_iff.mp h
  unfold matrixData at hd
  rw [bind_ok_iff] at hd
  obtain ⟨rows, hrows, hd⟩ := hd
  obtain ⟨rfl, -, hv⟩ := termArray_ok hrows
  intro r hr k hk
  refine diag_get (fun k => i.toNat ∈ occ k ∧ j.toNat ∈ occ k) (data := data) ?_ hget hn r k hr hk
  have : coreCoulomb [mkRow (i.toNat, .creation), mkRow (i.toNat, .annihilation),
    mkRow (j.toNat, .creation), mkRow (j.toNat, .annihilation)] bases = .ok data := hd
  unfold coreCoulomb at this
  simp only [and_mask_ne_zero, show (mkRow (i.toNat, .creation)).mask = 1 <<< i.toNat from rfl,
    show (mkRow (j.toNat, .creation)).mask = 1 <<< j.toNat from rfl, Except.ok.injEq] at this
  exact this.symm

/-- the diagonal matrix of a density-density term -/
theorem coulomb_term_matrix (st0 st1 : StateID) (coeff : ℂ) (table : IndexTable StateID)
    (bases : List ℕ) (M : Csr) (hn : bases.Nodup)
    (hM : ((⟨[⟨.creation, st0⟩, ⟨.annihilation, st0⟩, ⟨.creation, st1⟩, ⟨.annihilation, st1⟩], coeff,
      .coulomb⟩ : ParticleTerm).matrixRepr table bases).2 = .ok M) :
    ∃ i j : ℤ, table.queryIndex st0 = .ok i ∧ table.queryIndex st1 = .ok j ∧
      M.toMatrix bases.length bases.length =
        Matrix.diagonal (fun k => if bases[k].testBit i.toNat ∧ bases[k].testBit j.toNat then coeff else 0) := by
  rw [matrixRepr_none, bind_ok_iff] at hM
  obtain ⟨term, hterm, hM⟩ := hM
  obtain ⟨hq, rfl⟩ := indexed_ok_iff.mp hterm
  obtain ⟨i, hi⟩ := hq ⟨.creation, st0⟩ (by simp)
  obtain ⟨j, hj⟩ := hq ⟨.creation, st1⟩ (by simp)
  simp only [List.map_cons, List.map_nil, indexedAoC, hi, hj, Except.toOption, Option.getD_some] at hM
  have hget := coulomb_csr hM hn
  refine ⟨i, j, hi, hj, ?_⟩
  ext r k
  rw [Csr.toMatrix, Matrix.of_apply, hget r r.2 k k.2, Matrix.diagonal_apply]
  by_cases hrk : r = k
  · subst hrk; simp [mem_occ]
  · rw [if_neg hrk, if_neg]
    rintro ⟨h, -⟩
    exact hrk (Fin.ext h)

/-- **C36** (`CoulombFactory`).  The term is `coeff * n_0 n_1`; it passes `check_compatibility` and is
represented by the corresponding diagonal matrix. -/
theorem C36_coulomb_factory (zoom : ℤ) (site0 site1 : List Coord) (spin0 spin1 orbit0 orbit1 : ℤ)
    (coeff : ℂ) (st0 st1 : StateID)
    (h0 : StateID.init zoom site0 spin0 orbit0 = .ok st0)
    (h1 : StateID.init zoom site1 spin1 orbit1 = .ok st1) :
    ∃ t, coulombFactory zoom site0 site1 spin0 spin1 orbit0 orbit1 coeff = .ok t ∧
      t.aocs = [⟨.creation, st0⟩, ⟨.annihilation, st0⟩, ⟨.creation, st1⟩, ⟨.annihilation, st1⟩] ∧
      t.coeff = coeff ∧ t.checkCompatibility = true ∧
      ∀ (table : IndexTable StateID) (bases : List ℕ) (M : Csr), bases.Nodup →
        (t.matrixRepr table bases).2 = .ok M → ∃ i j : ℤ, table.queryIndex st0 = .ok i ∧
          table.queryIndex st1 = .ok j ∧ M.toMatrix bases.length bases.length = Matrix.diagonal
            (fun k => if bases[k].testBit i.toNat ∧ bases[k].testBit j.toNat then coeff else 0) := by
  refine ⟨⟨[⟨.creation, st0⟩, ⟨.annihilation, st0⟩, ⟨.creation, st1⟩, ⟨.annihilation, st1⟩], coeff,
    .coulomb⟩, ?_, rfl, rfl, ?_, fun table bases M hn hM => coulomb_term_matrix _ _ _ _ _ _ hn hM⟩
  · unfold coulombFactory
    simp only [(aocInit_eq site0 spin0 orbit0).1, (aocInit_eq site1 spin1 orbit1).1,
      (aocInit_eq site0 spin0 orbit0).2, (aocInit_eq site1 spin1 orbit1).2, h0, h1]
    rfl
  · simp [ParticleTerm.checkCompatibility, stateEq_self]

/-- **C36** (`HubbardFactory`).  The term is `coeff * n_up n_down` of the site and orbit. -/
theorem C36_hubbard_factory (zoom : ℤ) (site : List Coord) (orbit : ℤ) (coeff : ℂ)
    (up down : StateID) (h0 : StateID.init zoom site 1 orbit = .ok up)
    (h1 : StateID.init zoom site 0 orbit = .ok down) :
    ∃ t, hubbardFactory zoom site orbit coeff = .ok t ∧
      t.aocs = [⟨.creation, up⟩, ⟨.annihilation, up⟩, ⟨.creation, down⟩, ⟨.annihilation, down⟩] ∧
      t.coeff = coeff ∧ t.checkCompatibility = true ∧
      ∀ (table : IndexTable StateID) (bases : List ℕ) (M : Csr), bases.Nodup →
        (t.matrixRepr table bases).2 = .ok M → ∃ i j : ℤ, table.queryIndex up = .ok i ∧
          table.queryIndex down = .ok j ∧ M.toMatrix bases.length bases.length = Matrix.diagonal
            (fun k => if bases[k].testBit i.toNat ∧ bases[k].testBit j.toNat then coeff else 0) := by
  refine ⟨⟨[⟨.creation, up⟩, ⟨.annihilation, up⟩, ⟨.creation, down⟩, ⟨.annihilation, down⟩], coeff,
    .coulomb⟩, ?_, rfl, rfl, ?_, fun table bases M hn hM => coulomb_term_matrix _ _ _ _ _ _ hn hM⟩
  · unfold hubbardFactory
    simp only [(aocInit_eq site 1 orbit).1, (aocInit_eq site 0 orbit).1,
      (aocInit_eq site 1 orbit).2, (aocInit_eq site 0 orbit).2, h0, h1]
    rfl
  · simp [ParticleTerm.checkCompatibility, stateEq_self]

/-- **C36** (`Creator`, `Annihilator`). -/
theorem C36_creator_annihilator (zoom : ℤ) (site : List Coord) (spin orbit : ℤ) (st : StateID)
    (h : StateID.init zoom site spin orbit = .ok st) :
    creator zoom site spin orbit = .ok ⟨.creation, st⟩ ∧
    annihilator zoom site spin orbit = .ok ⟨.annihilation, st⟩ := by
  unfold creator annihilator
  rw [(aocInit_eq site spin orbit).1, (aocInit_eq site spin orbit).2, h]
  exact ⟨rfl, rfl⟩

/-- Non-vacuity of C36: states of a square lattice site with an orbit. -/
example : StateID.init 10000 [.int 3, .int (-2)] 1 2 = .ok ⟨[.int 3, .int (-2)], 1, 2, [30000, -20000]⟩ ∧
    StateID.init 10000 [.int 3, .int (-2)] 0 2 = .ok ⟨[.int 3, .int (-2)], 0, 2, [30000, -20000]⟩ := by
  constructor <;> rfl

/-! ### C35 -/

/-- `term.matrix_repr(table)` succeeds with the matrix `X`. -/
def Represents (table : IndexTable SiteID) (t : SpinInteraction)
    (X : Matrix (Fin (2 ^ table.len)) (Fin (2 ^ table.len)) ℂ) : Prop :=
  ∃ M, (t.matrixRepr table).2 = .ok M ∧ M.toMatrix (2 ^ table.len) = X

theorem spinInit_eq (zoom : ℤ) (s : String) (o : SpinOtype) (hs : SpinOtype.ofString? s = some o)
    (site : List Coord) :
    SpinOperator.init zoom s site = (SiteID.init zoom site).map (fun id => ⟨o, id⟩) := by
  unfold SpinOperator.init
  rw [hs]
  cases SiteID.init zoom site <;> rfl

theorem pair_represents {objs : List SiteID} {table : IndexTable SiteID}
    (hT : IndexTable.init objs 0 = .ok table) {id0 id1 : SiteID} {i j : ℤ}
    (hi : table.queryIndex id0 = .ok i) (hj : table.queryIndex id1 = .ok j) (a b : SpinOtype) (c : ℂ) :
    Represents table (SpinInteraction.init [⟨a, id0⟩, ⟨b, id1⟩] c)
      (c • (spinMat table.len a i * spinMat table.len b j)) := by
  have hk : Known table [⟨a, id0⟩, ⟨b, id1⟩] := by
    intro s hs
    simp only [List.mem_cons, List.not_mem_nil, or_false] at hs
    rcases hs with rfl | rfl
    · exact ⟨i, hi⟩
    · exact ⟨j, hj⟩
  obtain ⟨M, hM, -, h⟩ := C32_constructor_sorting hT _ hk c
  refine ⟨M, hM, ?_⟩
  rw [h]
  simp only [List.map_cons, List.map_nil, List.prod_cons, List.prod_nil, mul_one]
  rw [(opMat_eq (s := ⟨a, id0⟩) hT hi).1, (opMat_eq (s := ⟨b, id1⟩) hT hj).1,
    spinMat_eq (siteIndex_range hT hi), spinMat_eq (siteIndex_range hT hj)]
  rfl

/-- **C35** (Heisenberg).  For any two sites of the table (equal ones included) the three terms of
`HeisenbergFactory(site0, site1, coeff=J)` have matrices whose sum is
`J (S_i^x S_j^x + S_i^y S_j^y + S_i^z S_j^z)`, Hermitian for real `J`. -/
theorem C35_heisenberg {zoom : ℤ} {objs : List SiteID} {table : IndexTable SiteID}
    (hT : IndexTable.init objs 0 = .ok table) (site0 site1 : List Coord) (id0 id1 : SiteID)
    (h0 : SiteID.init zoom site0 = .ok id0) (h1 : SiteID.init zoom site1 = .ok id1) (i j : ℤ)
    (hi : table.queryIndex id0 = .ok i) (hj : table.queryIndex id1 = .ok j) (J : ℂ) :
    ∃ t0 t1 t2 X0 X1 X2, heisenbergFactory zoom site0 site1 J = .ok (t0, t1, t2) ∧
      Represents table t0 X0 ∧ Represents table t1 X1 ∧ Represents table t2 X2 ∧
      X0 + X1 + X2 = J • (spinMat table.len .x i * spinMat table.len .x j +
        spinMat table.len .y i * spinMat table.len .y j +
        spinMat table.len .z i * spinMat table.len .z j) ∧
      ((starRingEnd ℂ) J = J → (X0 + X1 + X2).conjTranspose = X0 + X1 + X2) := by
  have hri := siteIndex_range hT hi
  have hrj := siteIndex_range hT hj
  have hsum : J • (spinMat table.len .z i * spinMat table.len .z j) +
      (J / 2) • (spinMat table.len .p i * spinMat table.len .m j) +
      (J / 2) • (spinMat table.len .m i * spinMat table.len .p j) =
      J • (spinMat table.len .x i * spinMat table.len .x j +
        spinMat table.len .y i * spinMat table.len .y j +
        spinMat table.len .z i * spinMat table.len .z j) := by
    obtain ⟨-, -, -, hp, hm, -, -⟩ := C30_su2_algebra table.len i i hri hri
    obtain ⟨-, -, -, hp', hm', -, -⟩ := C30_su2_algebra table.len j j hrj hrj
    rw [hp, hm, hp', hm']
    have hII : Complex.I * Complex.I = -1 := Complex.I_mul_I
    simp only [add_mul, sub_mul, mul_add, mul_sub, smul_mul_assoc, mul_smul_comm]
    match_scalars <;> first | ring1 | linear_combination (-J) * hII
  refine ⟨_, _, _, _, _, _, ?_, pair_represents hT hi hj .z .z J, pair_represents hT hi hj .p .m (J / 2),
    pair_represents hT hi hj .m .p (J / 2), hsum, ?_⟩
  · unfold heisenbergFactory
    rw [spinInit_eq zoom "z" .z rfl, spinInit_eq zoom "p" .p rfl, spinInit_eq zoom "m" .m rfl,
      spinInit_eq zoom "z" .z rfl, spinInit_eq zoom "p" .p rfl, spinInit_eq zoom "m" .m rfl, h0, h1]
    rfl
  · intro hJ
    rw [hsum]
    simp only [spinMat_eq hri, spinMat_eq hrj, Matrix.conjTranspose_smul, Matrix.conjTranspose_add,
      Matrix.conjTranspose_mul, siteOp_conjTranspose]
    have hx : (spinHalf .x).conjTranspose = spinHalf .x := (spinHalf_adj .x).symm
    have hy : (spinHalf .y).conjTranspose = spinHalf .y := (spinHalf_adj .y).symm
    have hz : (spinHalf .z).conjTranspose = spinHalf .z := (spinHalf_adj .z).symm
    rw [hx, hy, hz]
    have hcomm : ∀ A, siteOp table.len j.toNat A * siteOp table.len i.toNat A =
        siteOp table.len i.toNat A * siteOp table.len j.toNat A := by
      intro A
      by_cases hij : i = j
      · subst hij; rfl
      · exact (siteOp_comm _ _ _ (by omega) (by omega) (by omega) A A).eq
    have hJ' : star J = J := hJ
    simp only [Int.toNat_natCast, hcomm, hJ']

/-- **C35** (Ising). -/
theorem C35_ising {zoom : ℤ} {objs : List SiteID} {table : IndexTable SiteID}
    (hT : IndexTable.init objs 0 = .ok table) (site0 site1 : List Coord) (id0 id1 : SiteID)
    (h0 : SiteID.init zoom site0 = .ok id0) (h1 : SiteID.init zoom site1 = .ok id1) (i j : ℤ)
    (hi : table.queryIndex id0 = .ok i) (hj : table.queryIndex id1 = .ok j) (J : ℂ) (alpha : String) :
    (∀ o, SpinOtype.ofString? alpha = some o → o ∈ [SpinOtype.x, .y, .z] →
      ∃ t, isingFactory zoom site0 site1 alpha J = .ok t ∧
        Represents table t (J • (spinMat table.len o i * spinMat table.len o j))) ∧
    (alpha ∉ ["x", "y", "z"] → isingFactory zoom site0 site1 alpha J = .error .assertionError) := by
  constructor
  · intro o ho hmem
    refine ⟨_, ?_, pair_represents hT hi hj o o J⟩
    have ha : alpha ∈ ["x", "y", "z"] := by
      unfold SpinOtype.ofString? at ho
      split at ho <;> cases ho <;> simp at hmem ⊢
    unfold isingFactory
    rw [spinInit_eq zoom alpha o ho, spinInit_eq zoom alpha o ho, h0, h1]
    simp only [pyAssert, ha, decide_true, if_true]
    rfl
  · intro ha
    unfold isingFactory
    simp only [pyAssert, ha, decide_false]
    rfl

/-- **C35** (general two-spin term). -/
theorem C35_two_spin {zoom : ℤ} {objs : List SiteID} {table : IndexTable SiteID}
    (hT : IndexTable.init objs 0 = .ok table) (site0 site1 : List Coord) (id0 id1 : SiteID)
    (h0 : SiteID.init zoom site0 = .ok id0) (h1 : SiteID.init zoom site1 = .ok id1) (i j : ℤ)
    (hi : table.queryIndex id0 = .ok i) (hj : table.queryIndex id1 = .ok j) (J : ℂ)
    (alpha beta : String) :
    (∀ o o', SpinOtype.ofString? alpha = some o → o ∈ [SpinOtype.x, .y, .z] →
      SpinOtype.ofString? beta = some o' → o' ∈ [SpinOtype.x, .y, .z] →
      ∃ t, twoSpinTermFactory zoom site0 site1 alpha beta J = .ok t ∧
        Represents table t (J • (spinMat table.len o i * spinMat table.len o' j))) ∧
    (alpha ∉ ["x", "y", "z"] ∨ beta ∉ ["x", "y", "z"] →
      twoSpinTermFactory zoom site0 site1 alpha beta J = .error .assertionError) := by
  have key : ∀ (s : String) o, SpinOtype.ofString? s = some o → o ∈ [SpinOtype.x, .y, .z] →
      s ∈ ["x", "y", "z"] := by
    intro s o ho hmem
    unfold SpinOtype.ofString? at ho
    split at ho <;> cases ho <;> simp at hmem ⊢
  constructor
  · intro o o' ho hmem ho' hmem'
    refine ⟨_, ?_, pair_represents hT hi hj o o' J⟩
    have ha := key _ _ ho hmem
    have hb := key _ _ ho' hmem'
    unfold twoSpinTermFactory
    rw [spinInit_eq zoom alpha o ho, spinInit_eq zoom beta o' ho', h0, h1]
    simp only [pyAssert, ha, hb, decide_true, if_true]
    rfl
  · intro h
    unfold twoSpinTermFactory
    by_cases ha : alpha ∈ ["x", "y", "z"]
    · have hb : beta ∉ ["x", "y", "z"] := by
        rcases h with h | h
        · exact absurd ha h
        · exact h
      simp only [pyAssert, ha, hb, decide_true, decide_false, if_true]
      rfl
    · simp only [pyAssert, ha, decide_false]
      rfl

/-- Non-vacuity of C35: a two-site table whose order differs from the order of the arguments. -/
example : ∃ table : IndexTable SiteID,
    IndexTable.init [⟨[.int 1], [10000]⟩, ⟨[.int 0], [0]⟩] 0 = .ok table ∧
    SiteID.init 10000 [.int 0] = .ok ⟨[.int 0], [0]⟩ ∧ SiteID.init 10000 [.int 1] = .ok ⟨[.int 1], [10000]⟩ ∧
    table.queryIndex ⟨[.int 0], [0]⟩ = .ok 1 ∧ table.queryIndex ⟨[.int 1], [10000]⟩ = .ok 0 :=
  ⟨_, rfl, rfl, rfl, rfl, rfl⟩

end Verif
