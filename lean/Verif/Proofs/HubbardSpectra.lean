import Verif.Proofs.HubbardSectors
import Verif.Spec.HubbardSymmetry
import Verif.Proofs.FockState
import Mathlib.LinearAlgebra.Dimension.StrongRankCondition
/-!
# Lemmas for C116: the spectra of related runs
-/

namespace Verif.LDB

open Verif.Latt Verif.Spec Demo Matrix

local notation "Op" => Module.End ℂ Fock

variable {n m Nup Ndown Nup' Ndown' : ℕ} {B B' : List ℕ} {d : ℝ} {points : Fin n → Pt m}

open Classical in
/-- The neighbouring pairs. -/
noncomputable def pairsAt (d : ℝ) (points : Fin n → Pt m) : Finset (Fin n × Fin n) :=
  Finset.univ.filter fun p => p.1 < p.2 ∧ ndist (points p.1) (points p.2) = d

theorem clusterHubbard_eq (d : ℝ) (points : Fin n → Pt m) (t U : ℝ) : clusterHubbard d points t U =
    (U : ℂ) • ringPairs (R := Op) create annihilate n + (t : ℂ) • (ringHop (R := Op) create annihilate n (pairsAt d points) 0 +
      ringHop (R := Op) create annihilate n (pairsAt d points) 1) := by
  have h : (∑ p ∈ pairsAt d points, hopPair n 2 p.1 p.2) = ringHop (R := Op) create annihilate n (pairsAt d points) 0 +
      ringHop (R := Op) create annihilate n (pairsAt d points) 1 := by
    unfold ringHop
    rw [← Finset.sum_add_distrib]
    refine Finset.sum_congr rfl fun p _ => ?_
    unfold hopPair
    rw [Finset.sum_range_succ, Finset.sum_range_one]
  rw [← h]
  rfl

theorem op_smul {W x y : Op} (h : SemiconjBy W x y) (z : ℂ) : SemiconjBy W (z • x) (z • y) := semiconj_smul (R := Op) h z

theorem op_sum {ι : Type*} {s : Finset ι} {W : Op} {f g : ι → Op} (h : ∀ i ∈ s, SemiconjBy W (f i) (g i)) :
    SemiconjBy W (∑ i ∈ s, f i) (∑ i ∈ s, g i) := semiconj_sum (R := Op) h

theorem op_add {W x y x' y' : Op} (h : SemiconjBy W x y) (h' : SemiconjBy W x' y') : SemiconjBy W (x + x') (y + y') :=
  SemiconjBy.add_right (R := Op) h h'

theorem op_sub {W x y x' y' : Op} (h : SemiconjBy W x y) (h' : SemiconjBy W x' y') : SemiconjBy W (x - x') (y - y') :=
  SemiconjBy.sub_right (R := Op) h h'

theorem semiconj_neg {R : Type*} [Ring R] {W x y : R} (h : SemiconjBy W x y) : SemiconjBy W (-x) (-y) := h.neg_right

theorem op_neg {W x y : Op} (h : SemiconjBy W x y) : SemiconjBy W (-x) (-y) := semiconj_neg (R := Op) h

theorem sum_one_sub {R : Type*} [Ring R] [Algebra ℂ R] (f : Fin n → R) : (n : ℂ) • 1 - ∑ i, f i = ∑ i, (1 - f i) := by
  rw [Finset.sum_sub_distrib, Finset.sum_const, Finset.card_univ, Fintype.card_fin, ← Nat.cast_smul_eq_nsmul ℂ]

theorem flip_sign {R : Type*} [Ring R] [Algebra ℂ R] (U : ℝ) (X Y Z : R) :
    (U : ℂ) • (X - Y) + Z = ((-U : ℝ) : ℂ) • Y + Z + (U : ℂ) • X := by
  rw [Complex.ofReal_neg, neg_smul, smul_sub]
  abel

theorem op_number {W : Op} {s : ℕ} {f : Fin n → Op}
    (h : ∀ i : Fin n, SemiconjBy W (numberOp (s * n + i)) (f i)) : SemiconjBy W (spinNumber n s) (∑ i, f i) := by
  unfold spinNumber
  exact op_sum fun i _ => h i

theorem spin_exchange (hB : SpinSector n Nup Ndown B) (hB' : SpinSector n Ndown Nup B') (t U : ℝ) :
    (opMat B (clusterHubbard d points t U)).charpoly = (opMat B' (clusterHubbard d points t U)).charpoly := by
  obtain ⟨W, W', hW⟩ := carFock.acts_swap (n := n) (E := pairsAt d points)
  have e0 : ∀ i : Fin n, swapMode n n (0 * n + i) = 1 * n + i := fun i => by
    unfold swapMode
    have := i.2
    split_ifs <;> omega
  have e1 : ∀ i : Fin n, swapMode n n (1 * n + i) = 0 * n + i := fun i => by
    unfold swapMode
    have := i.2
    split_ifs <;> omega
  have hu : SemiconjBy W (spinNumber n 1) (spinNumber n 0) := by
    refine op_number fun i => ?_
    have := hW.number (1 * n + i)
    rw [e1] at this
    exact this
  have hd : SemiconjBy W (spinNumber n 0) (spinNumber n 1) := by
    refine op_number fun i => ?_
    have := hW.number (0 * n + i)
    rw [e0] at this
    exact this
  refine charpoly_sectors hB hB' hW.right hW.left hd hu hu hd ?_ (fun k hk => sector_down hB hk)
    (fun k hk => sector_up hB hk) (fun k hk => sector_down hB' hk) (fun k hk => sector_up hB' hk)
    (mapsTo_clusterHubbard hB d points t U) ?_
  · intro q hq
    have := hW.number q
    rw [show swapMode n n q = q by unfold swapMode; split_ifs <;> omega] at this
    exact this
  · rw [clusterHubbard_eq]
    have := op_add (op_smul hW.pairs (U : ℂ)) (op_smul (op_add hW.hop0 hW.hop1) (t : ℂ))
    rwa [add_comm (ringHop (R := Op) create annihilate n (pairsAt d points) 1)] at this

theorem pairs_colour {colour : Fin n → Bool} (hc : ∀ i j, ndist (points i) (points j) = d → colour i ≠ colour j) :
    ∀ p ∈ pairsAt d points, colour p.1 ≠ colour p.2 := fun p hp => by
  classical
  exact hc _ _ (Finset.mem_filter.1 hp).2.2

theorem hopping_sign {colour : Fin n → Bool} (hc : ∀ i j, ndist (points i) (points j) = d → colour i ≠ colour j)
    (hB : SpinSector n Nup Ndown B) (t U : ℝ) :
    (opMat B (clusterHubbard d points t U)).charpoly = (opMat B (clusterHubbard d points (-t) U)).charpoly := by
  obtain ⟨W, W', hW⟩ := carFock.acts_sign (n := n) (pairs_colour hc) true
  rw [if_pos rfl] at hW
  have hn : ∀ s, SemiconjBy W (spinNumber n s) (spinNumber n s) := fun s => op_number fun i => hW.number _
  refine charpoly_sectors hB hB hW.right hW.left (hn 1) (hn 1) (hn 0) (hn 0) (fun q _ => hW.number q)
    (fun k hk => sector_up hB hk) (fun k hk => sector_down hB hk) (fun k hk => sector_up hB hk)
    (fun k hk => sector_down hB hk) (mapsTo_clusterHubbard hB d points t U) ?_
  rw [clusterHubbard_eq, clusterHubbard_eq]
  have := op_add (op_smul hW.pairs (U : ℂ)) (op_smul (op_add hW.hop0 hW.hop1) (t : ℂ))
  rwa [← neg_add, smul_neg, ← neg_smul, ← Complex.ofReal_neg] at this

theorem opMat_shift {H : Op} (hB : SpinSector n Nup Ndown B) (z : ℂ) :
    opMat B (H + z • spinNumber n 0) = opMat B H + (z * Ndown) • 1 := by
  rw [map_add, map_smul]
  congr 1
  have : opMat B (spinNumber n 0) = (Ndown : ℂ) • 1 := by
    have e : (1 : Matrix (Fin B.length) (Fin B.length) ℂ) = opMat B 1 := (opMat2_one hB.nodup).symm
    rw [e]
    ext r c
    have h := sector_down hB (k := B[c]) (List.getElem_mem _)
    exact congrArg (fun v : Fock => v (occ B[r])) h
  rw [this, smul_smul]

theorem particle_hole {colour : Fin n → Bool}
    (hc : ∀ i j, ndist (points i) (points j) = d → colour i ≠ colour j)
    (hup : Nup ≤ n) (hB : SpinSector n Nup Ndown B) (hB' : SpinSector n (n - Nup) Ndown B') (t U : ℝ) :
    (opMat B (clusterHubbard d points t U)).charpoly =
      (opMat B' (clusterHubbard d points t (-U)) + ((U * Ndown : ℝ) : ℂ) • 1).charpoly := by
  obtain ⟨W1, W1', h1⟩ := carFock.acts_sign (n := n) (pairs_colour hc) false
  obtain ⟨W2, W2', h2⟩ := carFock.acts_hole (n := n) (E := pairsAt d points) fun p hp e => by
    exact pairs_colour hc p hp (by rw [e])
  rw [if_neg (by simp)] at h1
  have hr : W2 * W1 * (W1' * W2') = 1 := by
    rw [mul_assoc, ← mul_assoc W1, h1.right, one_mul, h2.right]
  have hl : W1' * W2' * (W2 * W1) = 1 := by
    rw [mul_assoc, ← mul_assoc W2', h2.left, one_mul, h1.left]
  have hnum : ∀ q, SemiconjBy (W2 * W1) (numberOp q)
      (if n ≤ q ∧ q < 2 * n then 1 - create q * annihilate q else create q * annihilate q) := fun q =>
    (h2.number q).mul_left (h1.number q)
  have hlow : ∀ q, ¬ (n ≤ q ∧ q < 2 * n) → SemiconjBy (W2 * W1) (numberOp q) (numberOp q) := fun q hq => by
    have := hnum q
    rw [if_neg hq] at this
    exact this
  have hdn : SemiconjBy (W2 * W1) (spinNumber n 0) (spinNumber n 0) := op_number fun i => hlow _ (by
    have := i.2
    omega)
  have hupn : SemiconjBy (W2 * W1) (spinNumber n 1) ((n : ℂ) • 1 - spinNumber n 1) := by
    have e : ((n : ℂ) • 1 - spinNumber n 1 : Op) = ∑ i : Fin n, (1 - numberOp (1 * n + i)) :=
      sum_one_sub (R := Op) fun i : Fin n => numberOp (1 * n + i)
    rw [e]
    refine op_number fun i => ?_
    have := hnum (1 * n + i)
    rw [if_pos (by have := i.2; omega)] at this
    exact this
  have hone : SemiconjBy (W2 * W1) ((n : ℂ) • 1) ((n : ℂ) • 1 : Op) := op_smul (SemiconjBy.one_right _) _
  have hupn' : SemiconjBy (W2 * W1) ((n : ℂ) • 1 - spinNumber n 1) (spinNumber n 1) := by
    have := op_sub hone hupn
    rwa [sub_sub_cancel (G := Op)] at this
  have ku : ∀ {N N' : ℕ} {L : List ℕ}, SpinSector n N N' L → N ≤ n → ∀ k ∈ L,
      ((n : ℂ) • 1 - spinNumber n 1 : Op) (ket (occ k)) = ((n - N : ℕ) : ℂ) • ket (occ k) := by
    intro N N' L hL hN k hk
    rw [LinearMap.sub_apply, LinearMap.smul_apply, Module.End.one_apply, sector_up hL hk, ← sub_smul, Nat.cast_sub hN]
  have hH : SemiconjBy (W2 * W1) (clusterHubbard d points t U)
      (clusterHubbard d points t (-U) + (U : ℂ) • spinNumber n 0) := by
    have p := h2.pairs.mul_left h1.pairs
    have q0 := h2.hop0.mul_left h1.hop0
    have q1 : SemiconjBy (W2 * W1) (ringHop (R := Op) create annihilate n (pairsAt d points) 1)
        (ringHop (R := Op) create annihilate n (pairsAt d points) 1) := by
      have := (op_neg h2.hop1).mul_left h1.hop1
      rwa [neg_neg (G := Op)] at this
    have := op_add (op_smul p (U : ℂ)) (op_smul (op_add q0 q1) (t : ℂ))
    rw [clusterHubbard_eq, clusterHubbard_eq]
    have e : (spinNumber n 0 : Op) = ∑ i : Fin n, create i * annihilate i := by
      unfold spinNumber numberOp
      simp only [zero_mul, zero_add]
    rw [← e] at this
    rw [flip_sign (R := Op)] at this
    exact this
  rw [charpoly_sectors hB hB' hr hl hupn' hupn hdn hdn (fun q hq => hlow q (by omega)) (ku hB hup)
    (fun k hk => sector_down hB hk) (fun k hk => by
      have := ku hB' (Nat.sub_le n Nup) k hk
      rwa [Nat.sub_sub_self hup] at this)
    (fun k hk => sector_down hB' hk) (mapsTo_clusterHubbard hB d points t U) hH, opMat_shift hB']
  push_cast
  rfl

/-! ### No hopping -/

theorem atomic_limit (hB : B.Nodup) (U : ℝ) (r c : Fin B.length) :
    matrixElement (clusterHubbard d points 0 U) (occ B[r]) (occ B[c]) = if r = c then (U : ℂ) *
      (Finset.univ.filter fun i : Fin n => (i : ℕ) ∈ occ B[r] ∧ n + (i : ℕ) ∈ occ B[r]).card else 0 := by
  have e : clusterHubbard d points 0 U = (U : ℂ) • ∑ i : Fin n, doubly n i := by
    unfold clusterHubbard
    rw [Complex.ofReal_zero, zero_smul, add_zero]
    rfl
  rw [e]
  unfold matrixElement
  rw [LinearMap.smul_apply, LinearMap.sum_apply, Finsupp.smul_apply, Finsupp.finsetSum_apply, smul_eq_mul]
  simp only [doubly_ket]
  by_cases h : r = c
  · subst h
    rw [if_pos rfl]
    congr 1
    rw [Finset.card_filter]
    push_cast
    refine Finset.sum_congr rfl fun i _ => ?_
    by_cases h1 : (i : ℕ) ∈ occ B[r] ∧ n + (i : ℕ) ∈ occ B[r]
    · rw [if_pos h1, if_pos h1.symm, ket, Finsupp.single_eq_same]
    · rw [if_neg h1, if_neg (fun h => h1 h.symm), Finsupp.zero_apply]
  · rw [if_neg h, Finset.sum_eq_zero, mul_zero]
    intro i _
    split
    · refine ket_zero fun e => h ?_
      exact Fin.ext ((List.Nodup.getElem_inj_iff hB).1 (occ_injective e)).symm
    · rfl

/-! ### Multiplets -/

/-- The modes of spin up and down. -/
def upMode (n : ℕ) (i : Fin n) : ℕ := 1 * n + i

/-- The modes of spin down. -/
def downMode (n : ℕ) (i : Fin n) : ℕ := 0 * n + i

theorem lowering_comm (t U : ℝ) :
    Commute (clusterHubbard d points t U) (Su2.flip (downMode n) (upMode n)) := by
  have hu : Function.Injective (upMode n) := fun i j e => Fin.ext (by unfold upMode at e; omega)
  have hd : Function.Injective (downMode n) := fun i j e => Fin.ext (by unfold downMode at e; omega)
  have hdu : ∀ i j, downMode n i ≠ upMode n j := fun i j => by
    have := i.2
    unfold upMode downMode
    omega
  rw [clusterHubbard_eq]
  have key : ∀ x y : Op, Commute x y ↔ SemiconjBy y x x := fun x y => ⟨fun h => h.symm, fun h => Commute.symm h⟩
  rw [key]
  refine op_add (op_smul (op_sum fun i _ => ?_) _) (op_smul ?_ _)
  · have h := Su2.flip_hubbard hd hu hdu i
    rw [key] at h
    have e : create (downMode n i) * annihilate (downMode n i) * (create (upMode n i) * annihilate (upMode n i)) =
        create (n + i) * annihilate (n + i) * (create i * annihilate i) := by
      have := Su2.number_comm (a := downMode n i) (b := upMode n i) (hdu i i)
      rw [this]
      unfold upMode downMode
      rw [one_mul, zero_mul, zero_add]
    rwa [e] at h
  · have h : ∀ i j : Fin n, SemiconjBy (Su2.flip (downMode n) (upMode n)) (create (0 * n + i) * annihilate (0 * n + j) +
        create (1 * n + i) * annihilate (1 * n + j)) (create (0 * n + i) * annihilate (0 * n + j) +
        create (1 * n + i) * annihilate (1 * n + j)) := fun i j => (key _ _).1 (Su2.flip_hop hd hu hdu i j)
    unfold ringHop
    rw [← Finset.sum_add_distrib]
    refine op_sum fun p _ => ?_
    have := op_add (h p.1 p.2) (h p.2 p.1)
    rwa [add_add_add_comm] at this

theorem mapsTo_lowering (hB : SpinSector n Nup Ndown B) (hB' : SpinSector n (Nup - 1) (Ndown + 1) B') :
    MapsTo (Su2.flip (downMode n) (upMode n)) B B' := by
  unfold Su2.flip
  refine MapsTo.sum fun i _ => ?_
  intro k hk U hU
  obtain ⟨h1, h2, rfl⟩ := hop_support hU
  obtain ⟨l, hl⟩ := Free.exists_occ (insert (downMode n i) ((occ k).erase (upMode n i)))
  refine ⟨l, (hB'.2 l).2 ?_, hl.symm⟩
  rw [hl]
  obtain ⟨k1, k2, k3⟩ := (hB.2 k).1 hk
  have hi := i.2
  have hlow : downMode n i < n := by unfold downMode; omega
  have hhigh : n ≤ upMode n i := by unfold upMode; omega
  refine ⟨?_, ?_, ?_⟩
  · intro x hx
    rcases Finset.mem_insert.1 hx with rfl | hx
    · exact Finset.mem_range.2 (by omega)
    · exact k1 (Finset.mem_of_mem_erase hx)
  · rw [← k2, Finset.filter_insert, if_neg (by omega), Finset.filter_erase, Finset.card_erase_of_mem]
    exact Finset.mem_filter.2 ⟨h1, hhigh⟩
  · rw [← k3, Finset.filter_insert, if_pos hlow, Finset.filter_erase, Finset.erase_eq_of_notMem, Finset.card_insert_of_notMem]
    · intro h
      have hne : downMode n i ≠ upMode n i := by omega
      exact h2 (Finset.mem_erase.2 ⟨hne, (Finset.mem_filter.1 h).1⟩)
    · intro h
      have := (Finset.mem_filter.1 h).2
      omega

theorem fockInner_self_re (f : Fock) : 0 ≤ (fockInner f f).re := by
  rw [fockInner_eq f (Finset.Subset.refl f.support), Complex.re_sum]
  refine Finset.sum_nonneg fun S _ => ?_
  have : star (f S) * f S = ((Complex.normSq (f S) : ℝ) : ℂ) := by
    rw [mul_comm]
    exact Complex.mul_conj (f S)
  rw [this, Complex.ofReal_re]
  exact Complex.normSq_nonneg _

theorem spinNumber_state (hB : SpinSector n Nup Ndown B) (v : Fin B.length → ℂ) :
    spinNumber n 1 (stateOf B v) = (Nup : ℂ) • stateOf B v ∧ spinNumber n 0 (stateOf B v) = (Ndown : ℂ) • stateOf B v := by
  unfold stateOf
  constructor
  · rw [map_sum, Finset.smul_sum]
    refine Finset.sum_congr rfl fun r _ => ?_
    rw [map_smul]
    have := sector_up hB (k := B[r]) (List.getElem_mem _)
    exact (congrArg (v r • ·) this).trans (smul_comm _ _ _)
  · rw [map_sum, Finset.smul_sum]
    refine Finset.sum_congr rfl fun r _ => ?_
    rw [map_smul]
    have := sector_down hB (k := B[r]) (List.getElem_mem _)
    exact (congrArg (v r • ·) this).trans (smul_comm _ _ _)

theorem lowering_injective (hB : SpinSector n Nup Ndown B) (hlt : Ndown < Nup) (v : Fin B.length → ℂ)
    (h : Su2.flip (downMode n) (upMode n) (stateOf B v) = 0) : v = 0 := by
  have hu : Function.Injective (upMode n) := fun i j e => Fin.ext (by unfold upMode at e; omega)
  have hd : Function.Injective (downMode n) := fun i j e => Fin.ext (by unfold downMode at e; omega)
  obtain ⟨n1, n0⟩ := spinNumber_state hB v
  set f := stateOf B v with hf
  have hff := Su2.flip_flip hu hd
  have h1 := congrArg (fun O : Op => fockInner f (O f)) hff
  have e1 : (∑ o, create (downMode n o) * annihilate (downMode n o) : Op) = spinNumber n 0 := rfl
  have e2 : (∑ o, create (upMode n o) * annihilate (upMode n o) : Op) = spinNumber n 1 := rfl
  rw [e1, e2] at h1
  simp only [LinearMap.add_apply, Module.End.mul_apply, h, map_zero, zero_add, n1, n0, fockInner_add_right,
    fockInner_smul_right] at h1
  rw [fockInner_adj (Su2.isAdj_flip (u := downMode n) (d := upMode n))] at h1
  have h2 := fockInner_self_re (Su2.flip (upMode n) (downMode n) f)
  have h3 := congrArg Complex.re h1
  simp only [Complex.add_re, Complex.mul_re, Complex.natCast_re, Complex.natCast_im, zero_mul, sub_zero] at h3
  have h4 : (fockInner f f).re = 0 := by
    have h5 := fockInner_self_re f
    have h6 : ((Ndown : ℝ) + 1) ≤ Nup := by exact_mod_cast hlt
    nlinarith
  have h5 : fockInner f f = 0 := by
    apply Complex.ext
    · exact h4
    · have := congrArg Complex.im (fockInner_conj f f)
      change -(fockInner f f).im = _ at this
      rw [Complex.zero_im]
      linarith
  have h6 := fockInner_self_eq_zero h5
  funext r
  have := stateOf_apply hB.nodup v r
  rw [← hf, h6] at this
  exact this.symm

theorem multiplets (hB : SpinSector n Nup Ndown B) (hB' : SpinSector n (Nup - 1) (Ndown + 1) B') (hlt : Ndown < Nup)
    (t U : ℝ) (E : ℂ) :
    Module.finrank ℂ (Module.End.eigenspace (Matrix.toLin' (opMat B (clusterHubbard d points t U))) E) ≤
      Module.finrank ℂ (Module.End.eigenspace (Matrix.toLin' (opMat B' (clusterHubbard d points t U))) E) := by
  set H := clusterHubbard d points t U with hH
  set L := Su2.flip (downMode n) (upMode n) with hL
  have hm := mapsTo_lowering hB hB'
  have hint : opMat B' H * opMat2 B' B L = opMat2 B' B L * opMat B H := by
    have e1 : opMat2 B' B' H * opMat2 B' B L = opMat2 B' B (H * L) := opMat2_mul hB'.nodup hm
    have e2 : opMat2 B' B L * opMat2 B B H = opMat2 B' B (L * H) := opMat2_mul hB.nodup (mapsTo_clusterHubbard hB d points t U)
    have e3 : H * L = L * H := (lowering_comm t U).eq
    change opMat2 B' B' H * opMat2 B' B L = opMat2 B' B L * opMat2 B B H
    rw [e1, e2, e3]
  have hinj : Function.Injective (Matrix.toLin' (opMat2 B' B L)) := by
    rw [injective_iff_map_eq_zero]
    intro v hv
    refine lowering_injective hB hlt v ?_
    rw [apply_stateOf hB.nodup hB'.nodup hm]
    rw [Matrix.toLin'_apply] at hv
    rw [hv]
    unfold stateOf
    simp
  have hmaps : ∀ x ∈ Module.End.eigenspace (Matrix.toLin' (opMat B H)) E,
      Matrix.toLin' (opMat2 B' B L) x ∈ Module.End.eigenspace (Matrix.toLin' (opMat B' H)) E := by
    intro x hx
    rw [Module.End.mem_eigenspace_iff, Matrix.toLin'_apply] at hx ⊢
    rw [Matrix.toLin'_apply, Matrix.mulVec_mulVec, hint, ← Matrix.mulVec_mulVec, hx, Matrix.mulVec_smul]
  refine LinearMap.finrank_le_finrank_of_injective (f := (Matrix.toLin' (opMat2 B' B L)).restrict hmaps) ?_
  intro x y hxy
  exact Subtype.ext (hinj (congrArg Subtype.val hxy))

end Verif.LDB
