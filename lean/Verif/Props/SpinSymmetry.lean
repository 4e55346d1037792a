import Verif.Props.Averages
import Verif.Props.Factory
/-!
# C73: spin symmetries of the Hamiltonians built by the factory functions
-/

namespace Verif
open Spec

/-- The matrix of `sum(term.matrix_repr(table) for term in terms)`. -/
def RepresentsSum (table : IndexTable SiteID) (terms : List SpinInteraction)
    (X : Matrix (Fin (2 ^ table.len)) (Fin (2 ^ table.len)) ℂ) : Prop :=
  ∃ Xs, List.Forall₂ (Represents table) terms Xs ∧ X = Xs.sum

/-- The number of spins that are up in the basis state `a`. -/
def upSpins (n a : ℕ) : ℕ := ((List.range n).filter (fun j => digit a j = 0)).length

/-- By how much an operator raises the number of up spins (`z`, `p`, `m` only). -/
def raisedBy : SpinOtype → ℤ
  | .p => 1
  | .m => -1
  | _ => 0

/-- The total spin of `n` spins (`totalSpin` with a natural number). -/
noncomputable def totalSpinN (n : ℕ) (o : SpinOtype) : Matrix (Fin (2 ^ n)) (Fin (2 ^ n)) ℂ := totalSpin n o

theorem totalSpin_site (n : ℤ) (a : SpinOtype) (j : ℕ) (hj : j < n.toNat) (B : Matrix (Fin 2) (Fin 2) ℂ) :
    totalSpin n a * siteOp n.toNat j B - siteOp n.toNat j B * totalSpin n a =
      siteOp n.toNat j (spinHalf a * B - B * spinHalf a) := by
  rw [totalSpin_eq, Finset.sum_mul, Finset.mul_sum, ← Finset.sum_sub_distrib, Finset.sum_eq_single j]
  · rw [siteOp_mul _ _ hj, siteOp_mul _ _ hj, siteOp_sub]
  · intro i hi hne
    rw [(siteOp_comm n.toNat i j (Finset.mem_range.mp hi) hj hne (spinHalf a) B).eq, sub_self]
  · intro h
    exact absurd (Finset.mem_range.mpr hj) h

theorem half_xy : spinHalf .x * spinHalf .y - spinHalf .y * spinHalf .x = Complex.I • spinHalf .z := by
  ext r c; fin_cases r <;> fin_cases c <;> simp [spinHalf] <;> ring
theorem half_yz : spinHalf .y * spinHalf .z - spinHalf .z * spinHalf .y = Complex.I • spinHalf .x := by
  ext r c; fin_cases r <;> fin_cases c <;> simp [spinHalf] <;> ring
theorem half_zx : spinHalf .z * spinHalf .x - spinHalf .x * spinHalf .z = Complex.I • spinHalf .y := by
  have h : Complex.I * Complex.I = -1 := Complex.I_mul_I
  ext r c; fin_cases r <;> fin_cases c <;> simp [spinHalf] <;>
    first | linear_combination (-1/2 : ℂ) * h | linear_combination (1/2 : ℂ) * h | linear_combination (-1 : ℂ) * h
theorem half_z_zpm (o : SpinOtype) (ho : o ∈ [SpinOtype.z, .p, .m]) :
    spinHalf .z * spinHalf o - spinHalf o * spinHalf .z = (raisedBy o : ℂ) • spinHalf o := by
  simp only [List.mem_cons, List.not_mem_nil, or_false] at ho
  rcases ho with rfl | rfl | rfl <;> ext r c <;> fin_cases r <;> fin_cases c <;>
    simp [spinHalf, raisedBy] <;> norm_num

theorem flip_comm (a b : SpinOtype) (X : Matrix (Fin 2) (Fin 2) ℂ)
    (h : spinHalf a * spinHalf b - spinHalf b * spinHalf a = X) :
    spinHalf b * spinHalf a - spinHalf a * spinHalf b = -X := by
  rw [← h]; abel

theorem derivation {m : Type*} [Fintype m] (T X Y : Matrix m m ℂ) :
    T * (X * Y) - X * Y * T = (T * X - X * T) * Y + X * (T * Y - Y * T) := by
  noncomm_ring

theorem represents_known {objs : List SiteID} {table : IndexTable SiteID}
    (hT : IndexTable.init objs 0 = .ok table) {t : SpinInteraction}
    {X : Matrix (Fin (2 ^ table.len)) (Fin (2 ^ table.len)) ℂ} (h : Represents table t X) :
    Known table t.operators ∧ X = t.coeff • (t.operators.map (fun s => s.opMat table)).prod := by
  obtain ⟨M, hM, rfl⟩ := h
  have hk : Known table t.operators := by
    cases hi : t.indexed table with
    | error e =>
      unfold SpinInteraction.matrixRepr at hM
      simp [hi, bind, Except.bind] at hM
    | ok ops => exact (spinIndexed_ok_iff.mp hi).1
  obtain ⟨M', hM', -, h2⟩ := interaction_matrixRepr hT t hk
  rw [hM] at hM'
  cases hM'
  exact ⟨hk, h2⟩

theorem heis_siteOp (n : ℤ) (a : SpinOtype) (ha : a ∈ [SpinOtype.x, .y, .z]) (i j : ℕ) (hi : i < n.toNat)
    (hj : j < n.toNat) :
    Commute (totalSpin n a) (siteOp n.toNat i (spinHalf .x) * siteOp n.toNat j (spinHalf .x) +
      siteOp n.toNat i (spinHalf .y) * siteOp n.toNat j (spinHalf .y) +
      siteOp n.toNat i (spinHalf .z) * siteOp n.toNat j (spinHalf .z)) := by
  apply sub_eq_zero.mp
  have key : ∀ b, totalSpin n a * (siteOp n.toNat i (spinHalf b) * siteOp n.toNat j (spinHalf b)) -
      siteOp n.toNat i (spinHalf b) * siteOp n.toNat j (spinHalf b) * totalSpin n a =
      siteOp n.toNat i (spinHalf a * spinHalf b - spinHalf b * spinHalf a) * siteOp n.toNat j (spinHalf b) +
      siteOp n.toNat i (spinHalf b) * siteOp n.toNat j (spinHalf a * spinHalf b - spinHalf b * spinHalf a) := by
    intro b
    rw [derivation, totalSpin_site n a i hi, totalSpin_site n a j hj]
  have hz : ∀ k, siteOp n.toNat k (0 : Matrix (Fin 2) (Fin 2) ℂ) = 0 := by
    intro k
    have := siteOp_smul n.toNat k 0 (0 : Matrix (Fin 2) (Fin 2) ℂ)
    simpa using this
  have hneg : ∀ k A, siteOp n.toNat k (-A) = -siteOp n.toNat k A := by
    intro k A
    have := siteOp_smul n.toNat k (-1) A
    simpa using this
  rw [mul_add, mul_add, add_mul, add_mul]
  rw [show ∀ (p q r p' q' r' : Matrix (Fin (2 ^ n.toNat)) (Fin (2 ^ n.toNat)) ℂ),
    p + q + r - (p' + q' + r') = (p - p') + (q - q') + (r - r') by intros; abel]
  rw [key, key, key]
  simp only [List.mem_cons, List.not_mem_nil, or_false] at ha
  rcases ha with rfl | rfl | rfl
  · rw [half_xy, flip_comm _ _ _ half_zx, sub_self, hz, hz, hneg, hneg]
    simp only [siteOp_smul, smul_mul_assoc, mul_smul_comm, neg_mul, mul_neg, zero_mul, mul_zero]
    abel
  · rw [half_yz, flip_comm _ _ _ half_xy, sub_self, hz, hz, hneg, hneg]
    simp only [siteOp_smul, smul_mul_assoc, mul_smul_comm, neg_mul, mul_neg, zero_mul, mul_zero]
    abel
  · rw [half_zx, flip_comm _ _ _ half_yz, sub_self, hz, hz, hneg, hneg]
    simp only [siteOp_smul, smul_mul_assoc, mul_smul_comm, neg_mul, mul_neg, zero_mul, mul_zero]
    abel

/-- What a successful `HeisenbergFactory` call whose three terms are representable gives. -/
theorem heis_terms {zoom : ℤ} {objs : List SiteID} {table : IndexTable SiteID}
    (hT : IndexTable.init objs 0 = .ok table) {site0 site1 : List Coord} {J : ℂ}
    {t0 t1 t2 : SpinInteraction} (h : heisenbergFactory zoom site0 site1 J = .ok (t0, t1, t2))
    {X0 X1 X2 : Matrix (Fin (2 ^ table.len)) (Fin (2 ^ table.len)) ℂ} (r0 : Represents table t0 X0)
    (r1 : Represents table t1 X1) (r2 : Represents table t2 X2) :
    ∃ i j : ℕ, i < table.len ∧ j < table.len ∧
      X0 + X1 + X2 = J • (siteOp table.len i (spinHalf .x) * siteOp table.len j (spinHalf .x) +
        siteOp table.len i (spinHalf .y) * siteOp table.len j (spinHalf .y) +
        siteOp table.len i (spinHalf .z) * siteOp table.len j (spinHalf .z)) ∧
      ((starRingEnd ℂ) J = J → (X0 + X1 + X2).conjTranspose = X0 + X1 + X2) := by
  cases h0 : SiteID.init zoom site0 with
  | error e =>
    unfold heisenbergFactory at h
    rw [spinInit_eq zoom "z" .z rfl, h0] at h
    simp [Except.map, bind, Except.bind] at h
  | ok id0 =>
  cases h1 : SiteID.init zoom site1 with
  | error e =>
    unfold heisenbergFactory at h
    rw [spinInit_eq zoom "z" .z rfl, spinInit_eq zoom "p" .p rfl, spinInit_eq zoom "m" .m rfl,
      spinInit_eq zoom "z" .z rfl, h0, h1] at h
    simp [Except.map, bind, Except.bind] at h
  | ok id1 =>
  have ht0 : t0 = SpinInteraction.init [⟨.z, id0⟩, ⟨.z, id1⟩] J := by
    unfold heisenbergFactory at h
    rw [spinInit_eq zoom "z" .z rfl, spinInit_eq zoom "p" .p rfl, spinInit_eq zoom "m" .m rfl,
      spinInit_eq zoom "z" .z rfl, spinInit_eq zoom "p" .p rfl, spinInit_eq zoom "m" .m rfl, h0, h1] at h
    simp only [Except.map, bind, Except.bind, pure, Except.pure] at h
    cases h
    rfl
  have hk := (represents_known hT r0).1
  rw [ht0] at hk
  have hk' : Known table [⟨.z, id0⟩, ⟨.z, id1⟩] := by
    intro s hs
    exact hk s ((mem_pySorted _ _ _ _).mpr hs)
  obtain ⟨i, hi⟩ := hk' ⟨.z, id0⟩ (by simp)
  obtain ⟨j, hj⟩ := hk' ⟨.z, id1⟩ (by simp)
  have hri := siteIndex_range hT hi
  have hrj := siteIndex_range hT hj
  obtain ⟨t0', t1', t2', Y0, Y1, Y2, hf, q0, q1, q2, hsum, hherm⟩ :=
    C35_heisenberg hT site0 site1 id0 id1 h0 h1 i j hi hj J
  rw [h] at hf
  cases hf
  have func : ∀ {t : SpinInteraction} {A B}, Represents table t A → Represents table t B → A = B := by
    rintro t A B ⟨M, hM, rfl⟩ ⟨N, hN, rfl⟩
    rw [hM] at hN; cases hN; rfl
  rw [func r0 q0, func r1 q1, func r2 q2]
  refine ⟨i.toNat, j.toNat, by omega, by omega, ?_, hherm⟩
  rw [hsum]
  simp only [spinMat_eq hri, spinMat_eq hrj, Int.toNat_natCast]

/-- **C73** (Heisenberg).  The Hamiltonian obtained by adding up the matrices of all the terms returned by
any number of `HeisenbergFactory` calls commutes with the three matrices returned by
`TotalSpinMatrices` for as many spins as the table has sites; it is Hermitian if all coefficients are real. -/
theorem C73_heisenberg_su2 {zoom : ℤ} {objs : List SiteID} {table : IndexTable SiteID}
    (hT : IndexTable.init objs 0 = .ok table) (bonds : List (List Coord × List Coord × ℂ))
    (triples : List (SpinInteraction × SpinInteraction × SpinInteraction))
    (hb : bonds.mapM (fun b => heisenbergFactory zoom b.1 b.2.1 b.2.2) = .ok triples)
    (H : Matrix (Fin (2 ^ table.len)) (Fin (2 ^ table.len)) ℂ)
    (hH : RepresentsSum table (triples.flatMap (fun t => [t.1, t.2.1, t.2.2])) H) :
    (∀ sx sy sz, totalSpinMatrices table.len = .ok (sx, sy, sz) →
      Commute H (sx.toMatrix (2 ^ table.len)) ∧ Commute H (sy.toMatrix (2 ^ table.len)) ∧
      Commute H (sz.toMatrix (2 ^ table.len))) ∧
    ((∀ b ∈ bonds, (starRingEnd ℂ) b.2.2 = b.2.2) → H.conjTranspose = H) := by
  have main : (∀ a ∈ [SpinOtype.x, .y, .z], Commute (totalSpin (table.len : ℤ) a) H) ∧
      ((∀ b ∈ bonds, (starRingEnd ℂ) b.2.2 = b.2.2) → H.conjTranspose = H) := by
    rw [mapM_ok_iff] at hb
    induction hb generalizing H with
    | nil =>
      obtain ⟨Xs, hX, rfl⟩ := hH
      cases hX
      exact ⟨fun a _ => by simp, fun _ => by simp⟩
    | @cons b t bonds triples hbt _ ih =>
      obtain ⟨Xs, hX, rfl⟩ := hH
      obtain ⟨t0, t1, t2⟩ := t
      cases hX with
      | @cons _ X0 _ Xs r0 hX =>
      cases hX with
      | @cons _ X1 _ Xs r1 hX =>
      cases hX with
      | @cons _ X2 _ Xs r2 hX =>
      obtain ⟨ih1, ih2⟩ := ih Xs.sum ⟨Xs, hX, rfl⟩
      obtain ⟨i, j, hi, hj, hsum, hherm⟩ := heis_terms hT hbt r0 r1 r2
      have hs : (X0 :: X1 :: X2 :: Xs).sum = (X0 + X1 + X2) + Xs.sum := by
        simp only [List.sum_cons]; abel
      rw [hs]
      refine ⟨fun a ha => Commute.add_right ?_ (ih1 a ha), fun hr => ?_⟩
      · rw [hsum]
        exact (heis_siteOp (table.len : ℤ) a ha i j (by omega) (by omega)).smul_right _
      · rw [Matrix.conjTranspose_add, hherm (hr b (by simp)),
          ih2 (fun b' hb' => hr b' (List.mem_cons_of_mem _ hb'))]
  refine ⟨?_, main.2⟩
  intro sx sy sz hs
  have hlen : 1 ≤ (table.len : ℤ) := by
    by_contra hlt
    rw [(C37_total_spin_matrices table.len).2 (by omega)] at hs
    cases hs
  obtain ⟨sx', sy', sz', hs', ⟨-, hx⟩, ⟨-, hy, -⟩, -, hz⟩ := (C37_total_spin_matrices table.len).1 hlen
  rw [hs] at hs'
  cases hs'
  simp only [Int.toNat_natCast] at hx hy hz
  refine ⟨?_, ?_, ?_⟩
  · rw [hx]; exact (main.1 .x (by simp)).symm
  · have h1 := (main.1 .y (by simp)).symm
    rw [← hy] at h1
    have h2 := h1.smul_right (-Complex.I)
    rw [smul_smul] at h2
    simpa using h2
  · rw [hz]; exact (main.1 .z (by simp)).symm

theorem half_sum (n : ℕ) (p : ℕ → Prop) [DecidablePred p] :
    (∑ i ∈ Finset.range n, if p i then (1 / 2 : ℂ) else -1 / 2) =
      (((List.range n).filter (fun j => p j)).length : ℂ) - n / 2 := by
  induction n with
  | zero => simp
  | succ n ih =>
    rw [Finset.sum_range_succ, ih, List.range_succ, List.filter_append, List.length_append]
    by_cases h : p n
    · simp [h]; ring
    · simp [h]; ring

theorem totalSpinN_site (n : ℕ) (a : SpinOtype) (j : ℕ) (hj : j < n) (B : Matrix (Fin 2) (Fin 2) ℂ) :
    totalSpinN n a * siteOp n j B - siteOp n j B * totalSpinN n a =
      siteOp n j (spinHalf a * B - B * spinHalf a) :=
  totalSpin_site (n : ℤ) a j hj B

theorem totalSpin_z_diagonal (n : ℕ) :
    totalSpinN n .z = Matrix.diagonal (fun (a : Fin (2 ^ n)) => ((upSpins n a : ℂ) - n / 2)) := by
  have e : totalSpinN n .z = ∑ i ∈ Finset.range n, siteOp n i (spinHalf .z) := totalSpin_eq n .z
  rw [e]
  ext a b
  rw [Matrix.sum_apply, Matrix.diagonal_apply]
  by_cases hab : a = b
  · subst hab
    rw [if_pos rfl]
    have : ∀ i, siteOp n i (spinHalf .z) a a = if digit a i = 0 then 1 / 2 else -1 / 2 := by
      intro i
      simp only [siteOp, Matrix.of_apply]
      rw [if_pos (by intros; trivial)]
      generalize digit a i = d
      fin_cases d <;> simp [spinHalf]
    rw [Finset.sum_congr rfl (fun i _ => this i)]
    exact half_sum n (fun i => digit a i = 0)
  · rw [if_neg hab]
    apply Finset.sum_eq_zero
    intro i hi
    simp only [siteOp, Matrix.of_apply]
    split
    · next h =>
      have hd : digit a i ≠ digit b i := by
        intro he
        apply hab
        apply Fin.ext
        apply eq_of_digits n _ _ a.2 b.2
        intro j hj
        by_cases hji : j = i
        · subst hji; exact he
        · exact h j hj hji
      revert hd
      generalize digit a i = d
      generalize digit b i = e
      fin_cases d <;> fin_cases e <;> simp [spinHalf]
    · rfl

/-- **C73** (commutator with total S^z).  For every interaction term made of `z`, `p` and `m` operators the
commutator of its matrix with the total `S^z` is the matrix times (number of `p`) minus (number of `m`). -/
theorem C73_sz_commutator {objs : List SiteID} {table : IndexTable SiteID}
    (hT : IndexTable.init objs 0 = .ok table) (t : SpinInteraction)
    (hz : ∀ s ∈ t.operators, s.otype ∈ [SpinOtype.z, .p, .m])
    (X : Matrix (Fin (2 ^ table.len)) (Fin (2 ^ table.len)) ℂ) (hX : Represents table t X) :
    totalSpinN table.len .z * X - X * totalSpinN table.len .z =
      (((t.operators.map (fun s => raisedBy s.otype)).sum : ℤ) : ℂ) • X := by
  obtain ⟨hk, rfl⟩ := represents_known hT hX
  generalize t.coeff = c
  generalize t.operators = ops at hk hz
  have : totalSpinN table.len .z * (ops.map (fun s => s.opMat table)).prod -
      (ops.map (fun s => s.opMat table)).prod * totalSpinN table.len .z =
      (((ops.map (fun s => raisedBy s.otype)).sum : ℤ) : ℂ) • (ops.map (fun s => s.opMat table)).prod := by
    induction ops with
    | nil => simp
    | cons s ops ih =>
      have ih := ih (fun u hu => hk u (List.mem_cons_of_mem _ hu)) (fun u hu => hz u (List.mem_cons_of_mem _ hu))
      obtain ⟨i, hi⟩ := hk s (by simp)
      have hr := siteIndex_range hT hi
      have hs := totalSpinN_site table.len .z i.toNat (by omega) (spinHalf s.otype)
      rw [half_z_zpm _ (hz s (by simp)), siteOp_smul, ← (opMat_eq hT hi).1] at hs
      simp only [List.map_cons, List.prod_cons, List.sum_cons]
      rw [derivation, hs, ih, smul_mul_assoc, mul_smul_comm, ← add_smul]
      push_cast
      rfl
  rw [mul_smul_comm, smul_mul_assoc, ← smul_sub, this, smul_comm]

/-- **C73** (selection rule).  A nonzero matrix element of such a term connects basis states whose numbers of
up spins differ by (number of `p`) minus (number of `m`); in particular terms with as many `p` as `m` have a
block-diagonal matrix. -/
theorem C73_sz_selection {objs : List SiteID} {table : IndexTable SiteID}
    (hT : IndexTable.init objs 0 = .ok table) (t : SpinInteraction)
    (hz : ∀ s ∈ t.operators, s.otype ∈ [SpinOtype.z, .p, .m])
    (X : Matrix (Fin (2 ^ table.len)) (Fin (2 ^ table.len)) ℂ) (hX : Represents table t X)
    (a b : Fin (2 ^ table.len)) (hne : X a b ≠ 0) :
    (upSpins table.len a : ℤ) = upSpins table.len b + (t.operators.map (fun s => raisedBy s.otype)).sum := by
  have h := C73_sz_commutator hT t hz X hX
  generalize (t.operators.map (fun s => raisedBy s.otype)).sum = q at h ⊢
  rw [totalSpin_z_diagonal] at h
  have h := congrFun (congrFun h a) b
  rw [Matrix.sub_apply, Matrix.diagonal_mul, Matrix.mul_diagonal, Matrix.smul_apply, smul_eq_mul] at h
  have h2 : ((upSpins table.len a : ℂ) - upSpins table.len b - (q : ℂ)) * X a b = 0 := by
    linear_combination h
  rcases mul_eq_zero.mp h2 with h3 | h3
  · have : ((upSpins table.len a : ℤ) : ℂ) =
      ((upSpins table.len b + q : ℤ) : ℂ) := by
      push_cast
      linear_combination h3
    exact_mod_cast this
  · exact absurd h3 hne

/-- **C73** (Ising).  The term of `IsingFactory` commutes with the total spin along its axis. -/
theorem C73_ising {zoom : ℤ} {objs : List SiteID} {table : IndexTable SiteID}
    (hT : IndexTable.init objs 0 = .ok table) (site0 site1 : List Coord) (alpha : String) (o : SpinOtype)
    (ho : SpinOtype.ofString? alpha = some o) (J : ℂ) (t : SpinInteraction)
    (ht : isingFactory zoom site0 site1 alpha J = .ok t)
    (X : Matrix (Fin (2 ^ table.len)) (Fin (2 ^ table.len)) ℂ) (hX : Represents table t X) :
    Commute X (totalSpinN table.len o) := by
  have hall : ∀ s ∈ t.operators, s.otype = o := by
    unfold isingFactory at ht
    rw [spinInit_eq zoom alpha o ho, spinInit_eq zoom alpha o ho] at ht
    cases h0 : SiteID.init zoom site0 with
    | error e => rw [h0] at ht; simp only [pyAssert] at ht; split at ht <;> cases ht
    | ok id0 =>
    cases h1 : SiteID.init zoom site1 with
    | error e => rw [h0, h1] at ht; simp only [pyAssert] at ht; split at ht <;> cases ht
    | ok id1 =>
      rw [h0, h1] at ht
      simp only [pyAssert] at ht
      split at ht
      · cases ht
        intro s hs
        have := (mem_pySorted _ _ _ _).mp hs
        simp only [List.mem_cons, List.not_mem_nil, or_false] at this
        rcases this with rfl | rfl <;> rfl
      · cases ht
  obtain ⟨hk, rfl⟩ := represents_known hT hX
  apply Commute.smul_left
  apply Commute.symm
  apply Commute.list_prod_right
  intro Y hY
  obtain ⟨s, hs, rfl⟩ := List.mem_map.mp hY
  obtain ⟨i, hi⟩ := hk s hs
  have hr := siteIndex_range hT hi
  have h := totalSpinN_site table.len o i.toNat (by omega) (spinHalf s.otype)
  rw [hall s hs, sub_self] at h
  rw [(opMat_eq hT hi).1, hall s hs]
  apply sub_eq_zero.mp
  rw [h]
  have := siteOp_smul table.len i.toNat 0 (0 : Matrix (Fin 2) (Fin 2) ℂ)
  simpa using this

/-- Non-vacuity of C73: an antiferromagnetic triangle (three bonds, sites in an order different from the
table's) has a representable Heisenberg Hamiltonian, on which all hypotheses hold. -/
example : ∃ (table : IndexTable SiteID) (triples : _) (H : _),
    IndexTable.init [⟨[.int 1], [10000]⟩, ⟨[.int 0], [0]⟩, ⟨[.int 2], [20000]⟩] 0 = .ok table ∧
    List.mapM (fun b : List Coord × List Coord × ℂ => heisenbergFactory 10000 b.1 b.2.1 b.2.2)
      [([.int 0], [.int 1], 1), ([.int 1], [.int 2], 1), ([.int 2], [.int 0], 1)] = .ok triples ∧
    RepresentsSum table (triples.flatMap (fun t => [t.1, t.2.1, t.2.2])) H := by
  have hT : IndexTable.init [(⟨[.int 1], [10000]⟩ : SiteID), ⟨[.int 0], [0]⟩, ⟨[.int 2], [20000]⟩] 0 = .ok _ := rfl
  obtain ⟨a0, a1, a2, A0, A1, A2, ha, p0, p1, p2, -⟩ := C35_heisenberg hT [.int 0] [.int 1] ⟨[.int 0], [0]⟩
    ⟨[.int 1], [10000]⟩ (zoom := 10000) rfl rfl 1 0 rfl rfl 1
  obtain ⟨b0, b1, b2, B0, B1, B2, hb, q0, q1, q2, -⟩ := C35_heisenberg hT [.int 1] [.int 2] ⟨[.int 1], [10000]⟩
    ⟨[.int 2], [20000]⟩ (zoom := 10000) rfl rfl 0 2 rfl rfl 1
  obtain ⟨c0, c1, c2, C0, C1, C2, hc, r0, r1, r2, -⟩ := C35_heisenberg hT [.int 2] [.int 0] ⟨[.int 2], [20000]⟩
    ⟨[.int 0], [0]⟩ (zoom := 10000) rfl rfl 2 1 rfl rfl 1
  refine ⟨_, [(a0, a1, a2), (b0, b1, b2), (c0, c1, c2)], _, hT, ?_, [A0, A1, A2, B0, B1, B2, C0, C1, C2], ?_, rfl⟩
  · rw [mapM_ok_iff]
    exact .cons ha (.cons hb (.cons hc .nil))
  · exact .cons p0 (.cons p1 (.cons p2 (.cons q0 (.cons q1 (.cons q2 (.cons r0 (.cons r1 (.cons r2 .nil))))))))

end Verif
