import Verif.Props.LatticeNeighbor
import Verif.Props.LatticeDecompose
/-!
# Concrete cases of C51 and C52

The square lattice with one point in the cluster, precision 4, and every `nth ≥ 1`.
-/

namespace Verif.Latt

theorem square_first (nth : ℤ) (hnth : 1 ≤ nth) {L : Lat 1 2 2} (h : init 4 sqPoints sqVectors = .ok L) :
    ∃ z : ℤ, (neighborDistance id 4 L nth).2 = .ok (z / 10 ^ 4) := by
  have g01 : ∀ i j, i ≠ j → gram sqVectors i j = 0 := by
    intro i j hij
    fin_cases i <;> fin_cases j <;> simp [gram, sqVectors, Fin.sum_univ_two] at hij ⊢
  have gii : ∀ i, gram sqVectors i i = 1 := by
    intro i; fin_cases i <;> simp [gram, sqVectors, Fin.sum_univ_two]
  obtain ⟨z, h1, _⟩ := C52_single_point_fresh_partial id (fun l => List.Perm.refl l) h 0
    (by simp [nnorm, sqVectors, tol, Fin.sum_univ_two]; norm_num)
    (notOblique_of_orthogonal g01 0 fun i => by rw [gii, gii]) nth hnth
  exact ⟨z, h1⟩

/-- `C51_bonds_succeed`, `C51_bonds_exact`, `C51_bonds_fold` on the square lattice: `bonds(nth)` returns (with
and without folding), there is no bond inside the cluster of one point, and after folding every intercluster
bond ends where it starts. -/
example (nth : ℤ) (hnth : 1 ≤ nth) (only : Bool) : ∃ L, init 4 sqPoints sqVectors = .ok L ∧
    (∃ L' intra inter,
      bonds id (fun _ => id) 4 L nth only false = some (L', .ok (intra, some inter)) ∧ intra = []) ∧
    ∃ L' intra inter,
      bonds id (fun _ => id) 4 L nth only true = some (L', .ok (intra, some inter)) ∧
      ∀ b ∈ inter, b = (![0, 0], ![0, 0]) := by
  obtain ⟨L, h⟩ := sq_accepted
  obtain ⟨h1, h2, _⟩ := C46_reciprocal_dual h
  have hi : Inequivalent 4 sqPoints sqVectors := fun i j hij => absurd (Subsingleton.elim i j) hij
  have hw : WideAngle sqVectors := by simp [WideAngle, gram, sqVectors, Fin.sum_univ_two]
  have hf := fun i c => C49_finds_wideAngle_partial h hi hw i c
  obtain ⟨z, hz⟩ := square_first nth hnth h
  have hid : ∀ l : List (Fin 2 → ℤ), (id l).Perm l := fun l => List.Perm.refl l
  have hidp : ∀ (N : ℕ) (l : List (Fin N × Fin N)), (id l).Perm l := fun N l => List.Perm.refl l
  refine ⟨L, h, ?_, ?_⟩
  · obtain ⟨L', intra, inter, hb⟩ := C51_bonds_succeed id hid (fun _ => id) h rfl rfl (by norm_num) le_rfl hf
      hnth only false hz
    refine ⟨L', intra, inter, hb, ?_⟩
    obtain ⟨hi, P, s, H, -, -, -, -, hintra, -⟩ := C51_bonds_exact id hid (fun _ => id) hidp hb
    have : intraBonds L.points P = [] := by
      unfold intraBonds
      rw [List.map_eq_nil_iff, List.filter_eq_nil_iff]
      rintro ⟨i, j⟩ -
      simp [Subsingleton.elim i j]
    rw [this] at hintra
    exact hintra.eq_nil
  · obtain ⟨L', intra, inter, hb⟩ := C51_bonds_succeed id hid (fun _ => id) h rfl rfl (by norm_num) le_rfl hf
      hnth only true hz
    refine ⟨L', intra, inter, hb, ?_⟩
    obtain ⟨hi, P, s, H, -, -, -, -, -, hinter⟩ := C51_bonds_fold id hid (fun _ => id) hidp hf hb
    intro b hb
    have := hinter.mem_iff.1 hb
    have hp : ∀ i, L.points i = ![0, 0] := by
      intro i; rw [h1]; fin_cases i; rfl
    unfold interBonds at this
    obtain ⟨p, -, rfl⟩ := List.mem_map.1 this
    simp only [hp]

/-- `C52_neighbor_distance_partial` on the square lattice after the calls `bonds(2)` and
`neighbor_distance(3)`: the theorem applies and `neighbor_distance(0)` is 0. -/
example : ∃ L, init 4 sqPoints sqVectors = .ok L ∧
    (neighborDistance id 4 ([Call.bonds 2 true false, .neighborDistance 3].foldl
      (after id (fun _ => id) 4) L) 0).2 = .ok 0 := by
  obtain ⟨L, h⟩ := sq_accepted
  exact ⟨L, h, (C52_neighbor_distance_partial id (fun l => List.Perm.refl l) (fun _ => id) h
    [.bonds 2 true false, .neighborDistance 3] 1).1⟩

end Verif.Latt
