import Verif.Proofs.HubbardH
import Verif.Proofs.DemoBases
import Verif.Props.Demo
/-!
# Lemmas for C91: the Hilbert spaces of HubbardChain.py
-/

namespace Verif.Demo

open Latt LDB Spec Matrix Lanczos GF

variable {zoom : ℤ} {coordOf : ℝ → Coord} {n : ℕ} {st : ℕ → ℕ → StateID}

theorem spinIndices_ok (h : States zoom coordOf n st) {L : Lat n 1 1} (hL : ∀ i, L.points i = ![((i : ℕ) : ℝ)])
    {table : IndexTable StateID} (hq : ∀ s < 2, ∀ i < n, table.queryIndex (st s i) = .ok ((s * n + i : ℕ) : ℤ))
    {s : ℕ} (hs : s < 2) :
    spinIndices zoom coordOf L table (s : ℤ) = .ok ((List.range n).map fun i : ℕ => ((s * n + i : ℕ) : ℤ)) := by
  unfold spinIndices
  rw [mapM_ok_map (g := fun i : Fin n => ((s * n + (i : ℕ) : ℕ) : ℤ))]
  · rw [← List.map_coe_finRange_eq_range, List.map_map]
    rfl
  · intro i _
    rw [hL, siteOf_pt, h.init_eq s i i.2]
    simp only [bind, Except.bind]
    exact hq s hs i i.2

/-- One Hilbert space of the script. -/
theorem hubbardSpace_ok (h : States zoom coordOf n st) (hn : 1 ≤ n) (h64 : 2 * n ≤ 64) {L : Lat n 1 1}
    (hL : ∀ i, L.points i = ![((i : ℕ) : ℝ)])
    {table : IndexTable StateID} (hq : ∀ s < 2, ∀ i < n, table.queryIndex (st s i) = .ok ((s * n + i : ℕ) : ℤ))
    {terms : List ParticleTerm} {H : Module.End ℂ Fock} (hH : ∀ B : List ℕ, B.Pairwise (· < ·) → HopClosed n 2 B →
      hamiltonian table B terms = .ok (opMat B H)) {Nup Ndown : ℕ} (hup : Nup ≤ n) (hdown : Ndown ≤ n) :
    ∃ kets, hubbardSpace zoom coordOf L table terms Nup Ndown = .ok ⟨table, kets, opMat kets H⟩ ∧
      baseVectors (spinSpecs n Nup Ndown) = .ok kets ∧ kets ≠ [] ∧ kets.Pairwise (· < ·) ∧ HopClosed n 2 kets ∧
      (spinSpecs n Nup Ndown).mapM preprocess =
        .ok [((List.range n).map fun i : ℕ => n + i, HNum.int Nup), (List.range n, HNum.int Ndown)] ∧
      NoRepeats [((List.range n).map fun i : ℕ => n + i, HNum.int Nup), (List.range n, HNum.int Ndown)] := by
  obtain ⟨hpre, hrep, hsp, kets, hk, hne⟩ := spin_base hn h64 hup hdown
  have hasc := (C15_base_vectors_ascending _ .array kets hk _ hpre hrep).1
  have hcl := hopClosed_of_speciesWise h64 hk hpre hrep hsp
  refine ⟨kets, ?_, hk, hne, hasc, hcl, hpre, hrep⟩
  unfold hubbardSpace
  have u1 := spinIndices_ok h hL hq (s := 1) (by norm_num)
  have u0 := spinIndices_ok h hL hq (s := 0) (by norm_num)
  rw [Nat.cast_one] at u1
  rw [Nat.cast_zero] at u0
  rw [u1, u0]
  simp only [bind, Except.bind]
  have e : [HVal.list [.list (((List.range n).map fun i : ℕ => ((1 * n + i : ℕ) : ℤ)).map .int), .int (Nup : ℤ)],
      .list [.list (((List.range n).map fun i : ℕ => ((0 * n + i : ℕ) : ℤ)).map .int), .int (Ndown : ℤ)]] =
      spinSpecs n Nup Ndown := by
    unfold spinSpecs
    rw [List.map_map, List.map_map]
    have e1 : ((HVal.int ∘ fun i : ℕ => ((1 * n + i : ℕ) : ℤ))) = fun i : ℕ => HVal.int ((n + i : ℕ) : ℤ) := by
      funext i
      dsimp only [Function.comp]
      rw [one_mul]
    have e0 : ((HVal.int ∘ fun i : ℕ => ((0 * n + i : ℕ) : ℤ))) = fun i : ℕ => HVal.int (i : ℤ) := by
      funext i
      dsimp only [Function.comp]
      rw [zero_mul, zero_add]
    rw [e1, e0]
  rw [e, hk]
  dsimp only
  rw [hH kets hasc hcl]
  rfl

end Verif.Demo
