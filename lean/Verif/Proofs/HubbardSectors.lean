import Verif.Proofs.HubbardSymmetry
/-!
# Lemmas for C116: symmetries and sectors
-/

namespace Verif.LDB

open Verif.Latt Verif.Spec Demo Matrix

local notation "Op" => Module.End ℂ Fock

theorem carFock : Car (R := Op) create annihilate where
  cc := create_create
  aa := annihilate_annihilate
  ac := annihilate_create

/-! ### Occupation numbers -/

theorem numberOp_ket (q : ℕ) (T : Finset ℕ) : numberOp q (ket T) = if q ∈ T then ket T else 0 := number_ket q T

theorem numberOp_apply (q : ℕ) (v : Fock) (U : Finset ℕ) : numberOp q v U = if q ∈ U then v U else 0 := by
  induction v using Finsupp.induction_linear with
  | zero => simp
  | add f g hf hg =>
    rw [map_add, Finsupp.add_apply, hf, hg, Finsupp.add_apply]
    split
    · rfl
    · exact add_zero _
  | single T z =>
    have : (Finsupp.single T z : Fock) = z • ket T := by rw [ket, Finsupp.smul_single, smul_eq_mul, mul_one]
    rw [this, map_smul, numberOp_ket]
    by_cases hq : q ∈ T
    · rw [if_pos hq]
      by_cases hU : q ∈ U
      · rw [if_pos hU]
      · rw [if_neg hU, ket, Finsupp.smul_apply, Finsupp.single_apply, if_neg (fun e : T = U => hU (e ▸ hq)), smul_zero]
    · rw [if_neg hq, smul_zero, Finsupp.zero_apply]
      by_cases hU : q ∈ U
      · rw [if_pos hU, ket, Finsupp.smul_apply, Finsupp.single_apply, if_neg (fun e : T = U => hq (e ▸ hU)), smul_zero]
      · rw [if_neg hU]

/-- The number of particles of spin `s`. -/
noncomputable def spinNumber (n s : ℕ) : Op := ∑ i : Fin n, numberOp (s * n + i)

theorem spinNumber_apply (n s : ℕ) (v : Fock) (U : Finset ℕ) :
    spinNumber n s v U = ((U.filter fun q => s * n ≤ q ∧ q < s * n + n).card : ℂ) * v U := by
  unfold spinNumber
  rw [LinearMap.sum_apply, Finsupp.finsetSum_apply]
  simp only [numberOp_apply]
  rw [Finset.sum_ite, Finset.sum_const_zero, add_zero, Finset.sum_const, nsmul_eq_mul]
  congr 2
  refine Finset.card_bij (fun (i : Fin n) _ => s * n + (i : ℕ)) ?_ ?_ ?_
  · intro i hi
    have := i.2
    exact Finset.mem_filter.2 ⟨(Finset.mem_filter.1 hi).2, by omega, by omega⟩
  · intro i _ j _ e
    exact Fin.ext (by omega)
  · intro q hq
    obtain ⟨h1, h2, h3⟩ := Finset.mem_filter.1 hq
    refine ⟨⟨q - s * n, by omega⟩, Finset.mem_filter.2 ⟨Finset.mem_univ _, ?_⟩, ?_⟩ <;> dsimp only
    · rwa [show s * n + (q - s * n) = q by omega]
    · omega

variable {n Nup Ndown Nup' Ndown' : ℕ} {B B' : List ℕ}

theorem filter_up {U : Finset ℕ} (h : U ⊆ Finset.range (2 * n)) :
    (U.filter fun q => 1 * n ≤ q ∧ q < 1 * n + n) = U.filter (n ≤ ·) :=
  Finset.filter_congr fun q hq => by
    have := Finset.mem_range.1 (h hq)
    omega

theorem filter_down (U : Finset ℕ) : (U.filter fun q => 0 * n ≤ q ∧ q < 0 * n + n) = U.filter (· < n) :=
  Finset.filter_congr fun q _ => by omega

/-- The sector in terms of the operators. -/
theorem mapsTo_sector (hB' : SpinSector n Nup' Ndown' B') {W : Op}
    (hq : ∀ k ∈ B, ∀ q, 2 * n ≤ q → numberOp q (W (ket (occ k))) = 0)
    (hu : ∀ k ∈ B, spinNumber n 1 (W (ket (occ k))) = (Nup' : ℂ) • W (ket (occ k)))
    (hd : ∀ k ∈ B, spinNumber n 0 (W (ket (occ k))) = (Ndown' : ℂ) • W (ket (occ k))) : MapsTo W B B' := by
  intro k hk U hU
  obtain ⟨l, rfl⟩ := Free.exists_occ U
  refine ⟨l, (hB'.2 l).2 ?_, rfl⟩
  have h1 : occ l ⊆ Finset.range (2 * n) := by
    intro q hq'
    rw [Finset.mem_range]
    by_contra hlt
    have := congrArg (fun v : Fock => v (occ l)) (hq k hk q (by omega))
    simp only [numberOp_apply, if_pos hq', Finsupp.zero_apply] at this
    exact hU this
  have h2 := congrArg (fun v : Fock => v (occ l)) (hu k hk)
  have h3 := congrArg (fun v : Fock => v (occ l)) (hd k hk)
  simp only [spinNumber_apply, Finsupp.smul_apply, smul_eq_mul] at h2 h3
  rw [filter_up h1] at h2
  rw [filter_down] at h3
  exact ⟨h1, by exact_mod_cast mul_right_cancel₀ hU h2, by exact_mod_cast mul_right_cancel₀ hU h3⟩

theorem ket_zero {S T : Finset ℕ} (h : S ≠ T) : (ket S) T = 0 := by
  rw [ket, Finsupp.single_apply, if_neg h]

theorem sector_up (hB : SpinSector n Nup Ndown B) {k : ℕ} (hk : k ∈ B) :
    spinNumber n 1 (ket (occ k)) = (Nup : ℂ) • ket (occ k) := by
  ext U
  rw [spinNumber_apply, Finsupp.smul_apply, smul_eq_mul]
  by_cases h : occ k = U
  · subst h
    obtain ⟨h1, h2, -⟩ := (hB.2 k).1 hk
    rw [filter_up h1, h2]
  · rw [ket_zero h, mul_zero, mul_zero]

theorem sector_down (hB : SpinSector n Nup Ndown B) {k : ℕ} (hk : k ∈ B) :
    spinNumber n 0 (ket (occ k)) = (Ndown : ℂ) • ket (occ k) := by
  ext U
  rw [spinNumber_apply, Finsupp.smul_apply, smul_eq_mul]
  by_cases h : occ k = U
  · subst h
    rw [filter_down, ((hB.2 k).1 hk).2.2]
  · rw [ket_zero h, mul_zero, mul_zero]

theorem sector_high (hB : SpinSector n Nup Ndown B) {k : ℕ} (hk : k ∈ B) {q : ℕ} (hq : 2 * n ≤ q) :
    numberOp q (ket (occ k)) = 0 := by
  rw [numberOp_ket, if_neg]
  intro h
  have := Finset.mem_range.1 (((hB.2 k).1 hk).1 h)
  omega

theorem SpinSector.nodup (hB : SpinSector n Nup Ndown B) : B.Nodup := hB.1.imp fun h => Nat.ne_of_lt h

theorem SpinSector.unique (hB : SpinSector n Nup Ndown B) (hB' : SpinSector n Nup Ndown B') : B = B' :=
  List.Perm.eq_of_pairwise (le := (· ≤ ·)) (fun a b _ _ h h' => le_antisymm h h') (hB.1.imp le_of_lt) (hB'.1.imp le_of_lt)
    ((List.perm_ext_iff_of_nodup hB.nodup hB'.nodup).2 fun k => by rw [hB.2, hB'.2])

/-- One electron moves. -/
theorem hop_support {p q : ℕ} {S U : Finset ℕ} (h : (create p * annihilate q) (ket S) U ≠ 0) :
    q ∈ S ∧ p ∉ S.erase q ∧ U = insert p (S.erase q) := by
  rw [Module.End.mul_apply, annihilate_ket] at h
  split at h
  · rename_i hq
    rw [map_smul, create_ket] at h
    split at h
    · simp at h
    · rename_i hp
      refine ⟨hq, hp, ?_⟩
      by_contra hne
      rw [Finsupp.smul_apply, Finsupp.smul_apply, ket_zero (fun e => hne e.symm)] at h
      simp at h
  · simp at h

theorem mapsTo_hop (hB : SpinSector n Nup Ndown B) (i j : Fin n) {s : ℕ} (hs : s < 2) :
    MapsTo (create (s * n + i) * annihilate (s * n + j)) B B := by
  intro k hk U hU
  obtain ⟨h1, h2, rfl⟩ := hop_support hU
  obtain ⟨l, hl⟩ := Free.exists_occ (insert (s * n + i) ((occ k).erase (s * n + j)))
  refine ⟨l, (hB.2 l).2 ?_, hl.symm⟩
  rw [hl]
  obtain ⟨k1, k2, k3⟩ := (hB.2 k).1 hk
  have hlt := site_lt (S := 2) hs i.2
  refine ⟨?_, ?_, ?_⟩
  · intro x hx
    rcases Finset.mem_insert.1 hx with rfl | hx
    · exact Finset.mem_range.2 hlt
    · exact k1 (Finset.mem_of_mem_erase hx)
  · rw [← k2, Finset.filter_insert, Finset.filter_erase]
    by_cases hs1 : s = 1
    · subst hs1
      rw [if_pos (by omega), Finset.card_insert_of_notMem, Finset.card_erase_add_one]
      · exact Finset.mem_filter.2 ⟨h1, by omega⟩
      · rw [← Finset.filter_erase]
        exact fun h => h2 (Finset.mem_filter.1 h).1
    · obtain rfl : s = 0 := by omega
      have := i.2
      have := j.2
      rw [if_neg (by omega), Finset.erase_eq_of_notMem]
      intro h
      have := (Finset.mem_filter.1 h).2
      omega
  · rw [← k3, Finset.filter_insert, Finset.filter_erase]
    by_cases hs1 : s = 1
    · subst hs1
      have := i.2
      have := j.2
      rw [if_neg (by omega), Finset.erase_eq_of_notMem]
      intro h
      have := (Finset.mem_filter.1 h).2
      omega
    · obtain rfl : s = 0 := by omega
      have := i.2
      have := j.2
      rw [if_pos (by omega), Finset.card_insert_of_notMem, Finset.card_erase_add_one]
      · exact Finset.mem_filter.2 ⟨h1, by omega⟩
      · rw [← Finset.filter_erase]
        exact fun h => h2 (Finset.mem_filter.1 h).1

theorem mapsTo_clusterHubbard {m : ℕ} (hB : SpinSector n Nup Ndown B) (d : ℝ) (points : Fin n → Pt m) (t U : ℝ) :
    MapsTo (clusterHubbard d points t U) B B := by
  classical
  have h1 : MapsTo (∑ i : Fin n, numberOp (n + i) * numberOp i) B B := by
    refine MapsTo.sum fun i _ => ?_
    exact mapsTo_doubly n i B
  have h2 : MapsTo (∑ p : Fin n × Fin n with p.1 < p.2 ∧ ndist (points p.1) (points p.2) = d, hopPair n 2 p.1 p.2) B B := by
    refine MapsTo.sum fun p _ => ?_
    unfold hopPair
    exact MapsTo.sum fun s hs =>
      (mapsTo_hop hB _ _ (Finset.mem_range.1 hs)).add (mapsTo_hop hB _ _ (Finset.mem_range.1 hs))
  have h3 := (h1.smul (U : ℂ)).add (h2.smul (t : ℂ))
  unfold clusterHubbard
  convert h3

/-! ### Equal spectra -/

theorem MapsTo.mul {O P : Op} {A C D : List ℕ} (hC : C.Nodup) (h : MapsTo O C D) (h' : MapsTo P A C) :
    MapsTo (O * P) A D := by
  intro k hk U hU
  rw [Module.End.mul_apply, apply_eq_sum O _ C hC (h' k hk) U] at hU
  obtain ⟨b, -, hb⟩ := Finset.exists_ne_zero_of_sum_ne_zero hU
  exact h _ (List.getElem_mem _) U (left_ne_zero_of_mul hb)

theorem charpoly_transform (hB : B.Nodup) (hB' : B'.Nodup) {W W' H H' : Op} (hr : W * W' = 1) (hl : W' * W = 1)
    (m : MapsTo W B B') (m' : MapsTo W' B' B) (mH : MapsTo H B B) (hs : SemiconjBy W H H') :
    (opMat B H).charpoly = (opMat B' H').charpoly := by
  have e1 : opMat2 B' B W * opMat2 B B' W' = 1 := by rw [opMat2_mul hB m', hr, opMat2_one hB']
  have e2 : opMat2 B B' W' * opMat2 B' B W = 1 := by rw [opMat2_mul hB' m, hl, opMat2_one hB]
  have hlen : B.length = B'.length := by
    have := Matrix.trace_mul_comm (opMat2 B' B W) (opMat2 B B' W')
    rw [e1, e2, Matrix.trace_one, Matrix.trace_one, Fintype.card_fin, Fintype.card_fin] at this
    exact_mod_cast this.symm
  have e3 : H' = W * (H * W') := by rw [← mul_assoc, hs.eq, mul_assoc, hr, mul_one]
  have e4 : opMat B' H' = opMat2 B' B W * opMat2 B B' (H * W') := by
    rw [opMat2_mul hB (MapsTo.mul hB mH m'), ← e3]
    rfl
  have e5 : opMat B H = opMat2 B B' (H * W') * opMat2 B' B W := by
    rw [opMat2_mul hB' m, mul_assoc, hl, mul_one]
    rfl
  have := Matrix.charpoly_mul_comm' (opMat2 B' B W) (opMat2 B B' (H * W'))
  rw [← e4, ← e5, Fintype.card_fin, Fintype.card_fin, show (Polynomial.X : Polynomial ℂ) ^ B.length =
    Polynomial.X ^ B'.length by rw [hlen]] at this
  exact ((Polynomial.isRegular_X_pow _).left.eq_iff.1 this).symm

/-- A symmetry that maps the particle numbers of the sector. -/
theorem charpoly_sectors (hB : SpinSector n Nup Ndown B) (hB' : SpinSector n Nup' Ndown' B') {W W' H H' xu xd : Op}
    (hr : W * W' = 1) (hl : W' * W = 1) (hu : SemiconjBy W xu (spinNumber n 1)) (hu' : SemiconjBy W (spinNumber n 1) xu)
    (hd : SemiconjBy W xd (spinNumber n 0)) (hd' : SemiconjBy W (spinNumber n 0) xd)
    (hq : ∀ q, 2 * n ≤ q → SemiconjBy W (numberOp q) (numberOp q))
    (ku : ∀ k ∈ B, xu (ket (occ k)) = (Nup' : ℂ) • ket (occ k)) (kd : ∀ k ∈ B, xd (ket (occ k)) = (Ndown' : ℂ) • ket (occ k))
    (ku' : ∀ k ∈ B', xu (ket (occ k)) = (Nup : ℂ) • ket (occ k))
    (kd' : ∀ k ∈ B', xd (ket (occ k)) = (Ndown : ℂ) • ket (occ k))
    (mH : MapsTo H B B) (hs : SemiconjBy W H H') : (opMat B H).charpoly = (opMat B' H').charpoly := by
  have inv : ∀ x y : Op, SemiconjBy W x y → SemiconjBy W' y x := fun x y h => by
    change W' * y = x * W'
    rw [← mul_one (W' * y), ← hr, mul_assoc, ← mul_assoc y, ← h.eq, ← mul_assoc, ← mul_assoc, hl, one_mul]
  have ap : ∀ {x y Z : Op} {f : Fock}, SemiconjBy Z x y → y (Z f) = Z (x f) := fun {x y Z f} h => by
    rw [← Module.End.mul_apply, ← Module.End.mul_apply, h.eq]
  refine charpoly_transform hB.nodup hB'.nodup hr hl (mapsTo_sector hB' ?_ ?_ ?_) (mapsTo_sector hB ?_ ?_ ?_) mH hs
  · intro k hk q h
    rw [ap (hq q h), sector_high hB hk h, map_zero]
  · intro k hk
    rw [ap hu, ku k hk, map_smul]
  · intro k hk
    rw [ap hd, kd k hk, map_smul]
  · intro k hk q h
    rw [ap (inv _ _ (hq q h)), sector_high hB' hk h, map_zero]
  · intro k hk
    rw [ap (inv _ _ hu'), ku' k hk, map_smul]
  · intro k hk
    rw [ap (inv _ _ hd'), kd' k hk, map_smul]

end Verif.LDB
