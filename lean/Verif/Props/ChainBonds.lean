import Verif.Proofs.ChainLengths
import Verif.Spec.Chain
/-!
# C84: the bonds of a generated chain
-/

namespace Verif.LDB

open Verif.Latt

variable {prec : ℕ}

open Classical in
/-- **C84 (neighbours on a chain).** `lattice_generator("chain", num0=n)` followed by any history of
`neighbor_distance` and `bonds` calls, any iteration orders of the sets: the `nth` neighbour distance
is `nth`, and `bonds(nth)` returns: inside the cluster exactly the bonds `a -> a + nth`, and across the
boundary exactly one bond for each of the other sites `a`, either `a -> a + nth` or the same bond
translated so that its far end is in the cluster.  With `fold=True` the second endpoint is replaced by
the equivalent cluster point. -/
theorem C84_chain_bonds (order : List (Fin 1 → ℤ) → List (Fin 1 → ℤ))
    (horder : ∀ l, (order l).Perm l)
    (porder : ∀ N : ℕ, List (Fin N × Fin N) → List (Fin N × Fin N))
    (hporder : ∀ N l, (porder N l).Perm l) (hp : 1 ≤ prec) {n : ℕ} (hn : 1 ≤ n) {n1 n2 : ℤ}
    (h1 : 1 ≤ n1) (h2 : 1 ≤ n2) :
    ∃ L0 : Lat n 1 1, latticeGenerator prec "chain" n n1 n2 = .ok ⟨n, 1, 1, L0⟩ ∧
      ∀ (calls : List Call) (nth : ℕ), 1 ≤ nth →
        let L := calls.foldl (after order porder prec) L0
        (neighborDistance order prec L nth).2 = .ok nth ∧
        (∃ L' intra inter, ∃ back : ℕ → Prop,
          bonds order porder prec L nth true false = some (L', .ok (intra, some inter)) ∧
          intra.Perm ((List.range (n - nth)).map (forward nth)) ∧
          inter.Perm (((List.range n).filter (n ≤ · + nth)).map fun a =>
            if back a then backward n nth a else forward nth a)) ∧
        ∃ L' intra inter, ∃ back : ℕ → Prop,
          bonds order porder prec L nth true true = some (L', .ok (intra, some inter)) ∧
          intra.Perm ((List.range (n - nth)).map (forward nth)) ∧
          inter.Perm (((List.range n).filter (n ≤ · + nth)).map fun a =>
            if back a then backwardFolded n nth a else forwardFolded n nth a) := by
  obtain ⟨L0, e1, e2, e3, e4, e5⟩ := chain_lat (prec := prec) hp hn h1 h2
  refine ⟨L0, e1, fun calls nth hnth => ?_⟩
  intro L
  have hinv : ChainInv n L := chainInv_history horder hn (chainInv_init hn e2 e3 e4) calls
  have hd := (chainInv_neighbor (prec := prec) horder hn hinv nth).2 (by omega)
  have hd' : (neighborDistance order prec L nth).2 = .ok (nth : ℝ) := by rw [hd]; simp
  refine ⟨hd', ?_⟩
  have hpe : L.points = L0.points := by funext i; rw [hinv.points_eq, e2]
  have hve : L.vectors = L0.vectors := by rw [hinv.vectors_eq, e3]
  have hbs : L.bs = L0.bs := bs_history order porder calls L0
  have hfind : ∀ i c, FindsTranslate prec L i c := by
    intro i c
    have := e5 i c
    refine ⟨?_, ?_⟩
    · rw [decompose_congr hpe hve, hpe, hve]; exact this.1
    · intro near hnear
      have h3 := this.2 near hnear
      unfold getIndexFold at h3 ⊢
      rw [decompose_congr hpe hve, hpe, hve]
      have hg : ∀ s, getIndex near prec L s = getIndex near prec L0 s := by
        intro s; unfold getIndex; rw [hpe]
      simp only [hg]
      exact h3
  obtain ⟨L1, intra1, inter1, hb1⟩ := C51_bonds_succeed order horder porder e4 hve hbs le_rfl hn hfind
    (nth := nth) (by omega) true false hd'
  obtain ⟨L2, intra2, inter2, hb2⟩ := C51_bonds_succeed order horder porder e4 hve hbs le_rfl hn hfind
    (nth := nth) (by omega) true true hd'
  have hw : ∀ a r : Fin n, (r : ℕ) = ((a : ℕ) + nth) % n →
      ((((a : ℕ) + nth) / n : ℕ) : ℝ) * n = ((a : ℕ) : ℝ) + nth - ((r : ℕ) : ℝ) := by
    intro a r hr
    rw [hr]; exact wrap_eq n nth a
  constructor
  · obtain ⟨hi, P, s, H, g1, g2, g3, g4, g5, g6, -⟩ := C51_bonds_exact order horder porder hporder hb1
    obtain ⟨rfl, hP⟩ := chain_lengths horder hn hp hinv hnth g1 g2
    rw [hinv.vectors_eq] at g4 g6
    obtain ⟨back, hback⟩ := chain_inter_nat hnth hP hinv.points_eq g3 g4
      (fun c j => L.points j + comb ![![(n : ℝ)]] c) (forward nth) (backward n nth)
      (fun a r hr => by
        rw [hinv.points_eq, hinv.points_eq, comb_chain, pt_add, forward]
        rw [Int.cast_natCast, hw a r hr,
          show ((r : ℕ) : ℝ) + (((a : ℕ) : ℝ) + nth - ((r : ℕ) : ℝ)) = ((a : ℕ) : ℝ) + nth by ring])
      (fun a r hr => by
        rw [hinv.points_eq, hinv.points_eq, comb_chain, pt_add, backward, ← hr]
        dsimp only [Pi.neg_apply]
        rw [Int.cast_neg, Int.cast_natCast, neg_mul, hw a r hr,
          show ((a : ℕ) : ℝ) + -(((a : ℕ) : ℝ) + nth - ((r : ℕ) : ℝ)) = ((r : ℕ) : ℝ) - nth by ring])
    refine ⟨L1, intra1, inter1, back, hb1, g5.trans (chain_intra hnth hP hinv.points_eq), ?_⟩
    exact (by simpa using g6 : inter1.Perm _).trans hback
  · obtain ⟨hi, P, s, H, g1, g2, g3, g4, g5, g6⟩ := C51_bonds_fold order horder porder hporder hfind hb2
    obtain ⟨rfl, hP⟩ := chain_lengths horder hn hp hinv hnth g1 g2
    rw [hinv.vectors_eq] at g4 g6
    obtain ⟨back, hback⟩ := chain_inter_nat hnth hP hinv.points_eq g3 g4
      (fun _ j => L.points j) (forwardFolded n nth) (backwardFolded n nth)
      (fun a r hr => by
        rw [hinv.points_eq, hinv.points_eq, forwardFolded, ← hr])
      (fun a r hr => by
        rw [hinv.points_eq, hinv.points_eq, backwardFolded, ← hr])
    exact ⟨L2, intra2, inter2, back, hb2, g5.trans (chain_intra hnth hP hinv.points_eq), g6.trans hback⟩

open Classical in
/-- The chain of three sites meets the hypotheses, after a call of `bonds(2)`: its first neighbours are
the two bonds inside and one bond across the boundary. -/
example : ∃ L0 : Lat 3 1 1, latticeGenerator 4 "chain" 3 1 1 = .ok ⟨3, 1, 1, L0⟩ ∧
    ∃ L' intra inter, ∃ back : ℕ → Prop,
      bonds id (fun _ => id) 4 (after id (fun _ => id) 4 L0 (.bonds 2 true true)) 1 true false =
        some (L', .ok (intra, some inter)) ∧
      intra.Perm [(![0], ![1]), (![1], ![2])] ∧
      inter.Perm [if back 2 then (![0], ![-1]) else (![2], ![3])] := by
  obtain ⟨L0, h0, h⟩ := C84_chain_bonds (prec := 4) id (fun l => List.Perm.refl l) (fun _ => id)
    (fun _ l => List.Perm.refl l) (by norm_num) (n := 3) (by norm_num) (n1 := 1) (n2 := 1) le_rfl le_rfl
  obtain ⟨-, ⟨L', intra, inter, back, h1, h2, h3⟩, -⟩ := h [.bonds 2 true true] 1 le_rfl
  have e1 : List.range (3 - 1) = [0, 1] := rfl
  have e2 : (List.range 3).filter (3 ≤ · + 1) = [2] := rfl
  rw [e1] at h2
  rw [e2] at h3
  refine ⟨L0, h0, L', intra, inter, back, h1, h2.trans (List.Perm.of_eq ?_), h3.trans (List.Perm.of_eq ?_)⟩
  · simp [forward]; norm_num
  · simp [forward, backward]; norm_num

end Verif.LDB
