import Verif.Proofs.HubbardRuns
import Verif.Props.FreeFermion
import Mathlib.Combinatorics.SimpleGraph.AdjMatrix
import Mathlib.Combinatorics.SimpleGraph.Coloring.Constructions
import Mathlib.Analysis.Matrix.Spectrum
/-!
# Lemmas for C116: the sign of the hopping matters unless the cluster is bipartite
-/

namespace Verif.LDB

open Verif.Latt Verif.Spec Demo Matrix Free

variable {n m : ℕ} {d : ℝ}

theorem trace_pow_of_charpoly {ι : Type*} [Fintype ι] [DecidableEq ι] {A B : Matrix ι ι ℂ} (hA : A.IsHermitian)
    (hB : B.IsHermitian) (h : A.charpoly = B.charpoly) (k : ℕ) : (A ^ k).trace = (B ^ k).trace := by
  have key : ∀ {A : Matrix ι ι ℂ} (hA : A.IsHermitian), (A ^ k).trace =
      (Matrix.diagonal (RCLike.ofReal ∘ hA.eigenvalues : ι → ℂ) ^ k).trace := by
    intro A hA
    conv_lhs => rw [hA.spectral_theorem, ← map_pow, Unitary.conjStarAlgAut_apply, Matrix.trace_mul_comm, ← mul_assoc]
    simp
  rw [key hA, key hB, (hA.eigenvalues_eq_eigenvalues_iff hB).2 h]

/-- The graph of the neighbouring points. -/
def pointGraph (d : ℝ) (points : Fin n → Pt m) : SimpleGraph (Fin n) where
  Adj i j := i ≠ j ∧ ndist (points i) (points j) = d
  symm := ⟨fun i j h => ⟨h.1.symm, by rw [← h.2]; exact ndist_comm _ _⟩⟩
  loopless := ⟨fun i h => h.1 rfl⟩

open Classical in
theorem twoColourable_iff (hd : d ≠ 0) (points : Fin n → Pt m) :
    TwoColourable d points ↔ (pointGraph d points).Colorable 2 := by
  constructor
  · rintro ⟨c, hc⟩
    exact (SimpleGraph.Coloring.mk (G := pointGraph d points) (α := Bool) c fun {i j} h => hc i j h.2).colorable
  · intro h
    obtain ⟨C⟩ := h
    refine ⟨fun i => decide (C i = 0), fun i j e he => ?_⟩
    have hij : i ≠ j := by
      rintro rfl
      exact hd (by rw [← e]; simp [ndist])
    have hne : C i ≠ C j := C.valid ⟨hij, e⟩
    simp only [decide_eq_decide] at he
    generalize C i = a at *
    generalize C j = b at *
    revert he hne
    fin_cases a <;> fin_cases b <;> simp

open Classical in
theorem matrixElement_one (d t : ℝ) (points : Fin n → Pt m) (i j : Fin n) :
    matrixElement (clusterHubbard d points t 0) {n + (i : ℕ)} {n + (j : ℕ)} =
      t * (pointGraph d points).adjMatrix ℂ i j := by
  unfold clusterHubbard matrixElement
  simp only [Complex.ofReal_zero, zero_smul, zero_add, LinearMap.smul_apply, Finsupp.smul_apply, smul_eq_mul,
    LinearMap.sum_apply, Finsupp.finsetSum_apply]
  congr 1
  have hp : ∀ p : Fin n × Fin n, (hopPair n 2 p.1 p.2 (ket {n + (j : ℕ)})) {n + (i : ℕ)} =
      (if p = (i, j) then (1 : ℂ) else 0) + if p = (j, i) then (1 : ℂ) else 0 := by
    intro p
    obtain ⟨a, b⟩ := p
    unfold hopPair
    rw [Finset.sum_range_succ, Finset.sum_range_one]
    simp only [LinearMap.add_apply, Finsupp.add_apply, hop_single, Prod.mk.injEq, Fin.ext_iff]
    have ha := a.2
    have hb := b.2
    have e1 : ¬ (0 * n + (a : ℕ) = n + (i : ℕ) ∧ 0 * n + (b : ℕ) = n + (j : ℕ)) := by omega
    have e2 : ¬ (0 * n + (b : ℕ) = n + (i : ℕ) ∧ 0 * n + (a : ℕ) = n + (j : ℕ)) := by omega
    have e3 : (1 * n + (a : ℕ) = n + (i : ℕ) ∧ 1 * n + (b : ℕ) = n + (j : ℕ)) ↔ ((a : ℕ) = i ∧ (b : ℕ) = j) := by omega
    have e4 : (1 * n + (b : ℕ) = n + (i : ℕ) ∧ 1 * n + (a : ℕ) = n + (j : ℕ)) ↔ ((a : ℕ) = j ∧ (b : ℕ) = i) := by omega
    rw [if_neg e1, if_neg e2, if_congr e3 rfl rfl, if_congr e4 rfl rfl]
    ring
  refine (Finset.sum_congr rfl fun p _ => hp p).trans ?_
  rw [Finset.sum_add_distrib, Finset.sum_ite_eq', Finset.sum_ite_eq', SimpleGraph.adjMatrix_apply]
  simp only [Finset.mem_filter, Finset.mem_univ, true_and, pointGraph]
  rw [ndist_comm (points j) (points i)]
  by_cases h : ndist (points i) (points j) = d
  · rcases lt_trichotomy i j with e | e | e
    · simp [h, e, e.ne, e.not_gt]
    · simp [e]
    · simp [h, e, e.ne', e.not_gt]
  · simp [h]

theorem colourable_of_sign {L : Lat n m m} {zoom : ℤ} {coordOf : ℝ → Coord} {run : ℝ → ℝ → ℕ → ℕ → Option (Py Setup)}
    (hd : d ≠ 0) (hn : 1 ≤ n) (h : HubbardModel d L zoom coordOf run) (hs : HoppingSign n run) :
    TwoColourable d L.points := by
  classical
  obtain ⟨V, V', hV, hV', hc⟩ := hs 1 0 1 0 hn (Nat.zero_le _)
  obtain ⟨X, hX, -, hsec, hm, -⟩ := h 1 0 1 0 hn (Nat.zero_le _)
  obtain ⟨X', hX', -, hsec', hm', -⟩ := h (-1) 0 1 0 hn (Nat.zero_le _)
  obtain rfl : V = X := by rw [hV] at hX; injection hX with e; injection e
  obtain rfl : V' = X' := by rw [hV'] at hX'; injection hX' with e; injection e
  set G := pointGraph d L.points with hG
  have one : ∀ (s : ℝ) (W : Setup), SpinSector n 1 0 W.basis →
      (∀ r c, W.HM r c = matrixElement (clusterHubbard d L.points s 0) (occ W.basis[r]) (occ W.basis[c])) →
      W.HM.charpoly = ((s : ℂ) • G.adjMatrix ℂ).charpoly := by
    intro s W hW hM
    have hex : ∀ k ∈ W.basis, ∃ i : Fin n, occ k = {n + (i : ℕ)} := by
      intro k hk
      obtain ⟨h1, h2, h3⟩ := (hW.2 k).1 hk
      obtain ⟨q, hq⟩ := Finset.card_eq_one.1 h2
      have hqm : q ∈ (occ k).filter (n ≤ ·) := by rw [hq]; exact Finset.mem_singleton_self q
      obtain ⟨hq1, hq2⟩ := Finset.mem_filter.1 hqm
      have hq3 := Finset.mem_range.1 (h1 hq1)
      refine ⟨⟨q - n, by omega⟩, ?_⟩
      have e : n + (q - n) = q := by omega
      simp only [e]
      ext x
      rw [← hq, Finset.mem_filter]
      refine ⟨fun hx => ⟨hx, ?_⟩, fun hx => hx.1⟩
      by_contra hlt
      have : x ∈ (occ k).filter (· < n) := Finset.mem_filter.2 ⟨hx, by omega⟩
      rw [Finset.card_eq_zero.1 h3] at this
      exact absurd this (Finset.notMem_empty x)
    haveI : Nonempty (Fin n) := ⟨⟨0, hn⟩⟩
    choose! f hf using hex
    have hbij : Function.Bijective fun r : Fin W.basis.length => f W.basis[r] := by
      constructor
      · intro r r' e
        have h1 := hf W.basis[r] (List.getElem_mem _)
        have h2 := hf W.basis[r'] (List.getElem_mem _)
        have e' : f W.basis[r] = f W.basis[r'] := e
        rw [e', ← h2] at h1
        have := occ_injective h1
        exact Fin.ext ((hW.nodup.getElem_inj_iff).1 this)
      · intro i
        have hmem : 2 ^ (n + (i : ℕ)) ∈ W.basis := by
          refine (hW.2 _).2 ?_
          rw [occ_two_pow]
          have hi := i.2
          refine ⟨Finset.singleton_subset_iff.2 (Finset.mem_range.2 (by omega)), ?_, ?_⟩
          · rw [Finset.filter_singleton, if_pos (by omega), Finset.card_singleton]
          · rw [Finset.filter_singleton, if_neg (by omega), Finset.card_empty]
        obtain ⟨r, hr, e⟩ := List.getElem_of_mem hmem
        refine ⟨⟨r, hr⟩, ?_⟩
        have h1 := hf _ hmem
        rw [occ_two_pow, Finset.singleton_inj] at h1
        have h2 : f W.basis[(⟨r, hr⟩ : Fin W.basis.length)] = f (2 ^ (n + (i : ℕ))) := by
          rw [Fin.getElem_fin, e]
        refine h2.trans (Fin.ext ?_)
        omega
    have hre : W.HM = Matrix.reindex (Equiv.ofBijective _ hbij).symm (Equiv.ofBijective _ hbij).symm
        ((s : ℂ) • G.adjMatrix ℂ) := by
      ext r c
      rw [hM, hf W.basis[r] (List.getElem_mem _), hf W.basis[c] (List.getElem_mem _), matrixElement_one]
      rfl
    rw [hre, Matrix.charpoly_reindex]
  have e1 := one 1 V hsec hm
  have e2 := one (-1) V' hsec' hm'
  rw [hc, e2] at e1
  have hA : ∀ s : ℝ, ((s : ℂ) • G.adjMatrix ℂ).IsHermitian := by
    intro s
    ext i j
    simp only [Matrix.conjTranspose_apply, Matrix.smul_apply, SimpleGraph.adjMatrix_apply, smul_eq_mul, star_mul']
    rw [G.adj_comm]
    split <;> simp
  rw [twoColourable_iff hd, SimpleGraph.two_colorable_iff_forall_loop_even]
  intro u w
  by_contra hodd
  rw [Nat.not_even_iff_odd] at hodd
  have ht := trace_pow_of_charpoly (hA (-1)) (hA 1) e1 w.length
  simp only [smul_pow, Matrix.trace_smul, smul_eq_mul] at ht
  rw [Complex.ofReal_neg, Complex.ofReal_one, hodd.neg_one_pow, one_pow] at ht
  have h0 : (G.adjMatrix ℂ ^ w.length).trace = 0 := by linear_combination -ht / 2
  rw [Matrix.trace] at h0
  simp only [Matrix.diag_apply, SimpleGraph.adjMatrix_pow_apply_eq_card_walk] at h0
  have h1 : ∑ v, Fintype.card { p : G.Walk v v | p.length = w.length } = 0 := by exact_mod_cast h0
  have h2 := Finset.sum_eq_zero_iff.1 h1 u (Finset.mem_univ u)
  rw [Fintype.card_eq_zero_iff] at h2
  exact h2.false ⟨w, rfl⟩

theorem sign_iff_colourable {L : Lat n m m} {zoom : ℤ} {coordOf : ℝ → Coord}
    {run : ℝ → ℝ → ℕ → ℕ → Option (Py Setup)} (hd : d ≠ 0) (hn : 1 ≤ n) (h : HubbardModel d L zoom coordOf run) :
    HoppingSign n run ↔ TwoColourable d L.points :=
  ⟨colourable_of_sign hd hn h, fun hc => (bipartiteCluster h hc).1⟩

end Verif.LDB
