import Verif.Proofs.ChainTriples
/-!
# Lengths and crossing bonds on a chain (for C84)
-/

namespace Verif.LDB

open Verif.Latt

variable {prec : ℕ}

theorem compact_chain {n : ℕ} {points : Fin n → Pt 1} (hp : ∀ i, points i = ![((i : ℕ) : ℝ)]) :
    CompactCluster points ![![(n : ℝ)]] := by
  intro i j q
  have hq : q = 0 := Subsingleton.elim _ _
  subst hq
  have hi : ((i : ℕ) : ℝ) ≤ n := by exact_mod_cast i.2.le
  have hj : ((j : ℕ) : ℝ) ≤ n := by exact_mod_cast j.2.le
  have hi0 : (0 : ℝ) ≤ ((i : ℕ) : ℝ) := by positivity
  have hj0 : (0 : ℝ) ≤ ((j : ℕ) : ℝ) := by positivity
  have hn0 : (0 : ℝ) ≤ n := by positivity
  have he : Finset.univ.erase (0 : Fin 1) = ∅ := by decide
  rw [he, Finset.sum_empty, hp, hp]
  simp only [gram, Finset.univ_unique, Fin.default_eq_zero, Finset.sum_singleton,
    Matrix.cons_val_fin_one, sub_zero]
  rw [abs_mul, abs_of_nonneg hn0]
  have : |((i : ℕ) : ℝ) - ((j : ℕ) : ℝ)| ≤ n := by rw [abs_le]; constructor <;> linarith
  nlinarith [mul_le_mul_of_nonneg_right this hn0]

/-- Which lengths `bonds(nth)` selects on a chain. -/
theorem chain_lengths {order : List (Fin 1 → ℤ) → List (Fin 1 → ℤ)}
    (horder : ∀ l, (order l).Perm l) {n nth : ℕ} (hn : 1 ≤ n) (hprec : 1 ≤ prec) {L : Lat n 1 1}
    (h : ChainInv n L) {P : ℝ → Prop} {hi : ℝ} (hnth : 1 ≤ nth)
    (hhi : (neighborDistance order prec L nth).2 = .ok hi)
    (hP : LengthRange order prec L nth true hi P) :
    hi = nth ∧ ∀ z : ℤ, z ≠ 0 → (P |(z : ℝ)| ↔ |z| = nth) := by
  have hk := chainInv_neighbor (prec := prec) horder hn h nth
  have e := hk.2 (by omega)
  rw [hhi] at e
  have e' : hi = nth := by have := Except.ok.inj e; simpa using this
  refine ⟨e', fun z hz => ?_⟩
  have ht : tol prec ≤ 1 / 10 := tol_le hprec
  have ht0 := tol_pos prec
  have hz1 : (1 : ℤ) ≤ |z| := Int.one_le_abs hz
  rw [← Int.cast_abs]
  generalize |z| = y at *
  have up : ((y : ℝ) ≤ (nth : ℝ) + tol prec) ↔ y ≤ nth := by
    constructor
    · intro hy
      by_contra hc
      have : ((nth : ℤ) : ℝ) + 1 ≤ y := by exact_mod_cast (not_le.1 hc)
      push_cast at this
      linarith
    · intro hy
      have : (y : ℝ) ≤ ((nth : ℤ) : ℝ) := by exact_mod_cast hy
      push_cast at this
      linarith
  unfold LengthRange at hP
  by_cases h1 : (1 : ℤ) < nth
  · rw [if_pos ⟨rfl, h1⟩] at hP
    obtain ⟨lo, hlo, hP⟩ := hP
    have := (chainInv_neighbor (prec := prec) horder hn hk.1 ((nth : ℤ) - 1)).2 (by omega)
    rw [hlo] at this
    have hlo' : lo = (nth : ℝ) - 1 := by have := Except.ok.inj this; push_cast at this; exact this
    rw [hP, e', up, hlo']
    constructor
    · rintro ⟨h2, h3⟩
      have : ((nth - 1 : ℤ) : ℝ) < y := by push_cast; linarith
      have : (nth - 1 : ℤ) < y := by exact_mod_cast this
      omega
    · rintro rfl
      refine ⟨?_, le_rfl⟩
      push_cast; linarith
  · rw [if_neg (fun h => h1 h.2)] at hP
    rw [hP, e', up]
    omega

/-- `c n = a + nth - (a + nth) % n` for the number of cells `c` between the ends. -/
theorem wrap_eq (n nth a : ℕ) :
    (((a + nth) / n : ℕ) : ℝ) * n = (a : ℝ) + nth - (((a + nth) % n : ℕ) : ℝ) := by
  have h : ((n * ((a + nth) / n) + (a + nth) % n : ℕ) : ℝ) = ((a + nth : ℕ) : ℝ) := by
    exact_mod_cast Nat.div_add_mod (a + nth) n
  rw [Nat.cast_add, Nat.cast_mul, Nat.cast_add a nth] at h
  linarith


/-- No call changes the reciprocal vectors. -/
theorem bs_history {n : ℕ} (order : List (Fin 1 → ℤ) → List (Fin 1 → ℤ))
    (porder : ∀ N : ℕ, List (Fin N × Fin N) → List (Fin N × Fin N)) (calls : List Call)
    (M : Lat n 1 1) : (calls.foldl (after order porder prec) M).bs = M.bs := by
  induction calls generalizing M with
  | nil => rfl
  | cons c calls ih =>
    rw [List.foldl_cons, ih]
    cases c with
    | neighborDistance q => exact (neighborDistance_state order prec M q).2.2
    | bonds q only fold =>
      unfold after
      dsimp only
      split
      · rename_i L' r hb
        rcases bonds_state hb with rfl | rfl | rfl
        · rfl
        · exact (neighborDistance_state order prec M q).2.2
        · rw [(neighborDistance_state order prec _ _).2.2, (neighborDistance_state order prec M q).2.2]
      · rfl

theorem half_of_scope {n m k : ℕ} {points : Fin n → Pt m} {v : Fin k → Pt m} (hv : CompactCluster points v)
    {hi : ℝ} {s : ℤ} {H : List (Fin k → ℤ)} (h3 : IsHalfBox H s) (h4 : IsScope points v hi s) (hhi : 0 ≤ hi)
    (i j : Fin n) (c : Fin k → ℤ) (hc : c ≠ 0) (hd : ndist (points i + comb v c) (points j) ≤ hi) :
    (c ∈ H ∧ -c ∉ H) ∨ (c ∉ H ∧ -c ∈ H) := by
  refine h3.half c hc (scope_complete hv h4 ?_ c i j hd)
  by_contra hneg
  have hs : s = -1 := by have := h4.ge; omega
  obtain ⟨q, _⟩ := Function.ne_iff.1 hc
  have := h4.far 0 ⟨fun i => by simp [hs], q, by simp [hs]⟩ i i
  rw [comb_zero, add_zero, ndist_self] at this
  linarith

theorem filter_range (n nth : ℕ) :
    ((List.finRange n).filter fun a : Fin n => decide (n ≤ (a : ℕ) + nth)).map
      (fun a : Fin n => (a : ℕ)) = (List.range n).filter (n ≤ · + nth) := by
  rw [← List.map_coe_finRange_eq_range, List.filter_map]
  rfl

open Classical in
/-- The crossing bonds of a chain, in terms of the site numbers. -/
theorem chain_inter_nat {n nth : ℕ} (hnth : 1 ≤ nth) {P : ℝ → Prop}
    (hP : ∀ z : ℤ, z ≠ 0 → (P |(z : ℝ)| ↔ |z| = nth)) {points : Fin n → Pt 1}
    (hp : ∀ i, points i = ![((i : ℕ) : ℝ)]) {H : List (Fin 1 → ℤ)} {s : ℤ} (hH : IsHalfBox H s)
    (hs : IsScope points ![![(n : ℝ)]] nth s) (g : (Fin 1 → ℤ) → Fin n → Pt 1)
    (f b : ℕ → Pt 1 × Pt 1)
    (hf : ∀ a : Fin n, ∀ r : Fin n, (r : ℕ) = ((a : ℕ) + nth) % n →
      (points a, g (fun _ => (((a : ℕ) + nth) / n : ℕ)) r) = f a)
    (hb : ∀ a : Fin n, ∀ r : Fin n, (r : ℕ) = ((a : ℕ) + nth) % n →
      (points r, g (-(fun _ => ((((a : ℕ) + nth) / n : ℕ) : ℤ))) a) = b a) :
    ∃ back : ℕ → Prop, (interBonds points ![![(n : ℝ)]] H P g).Perm
      (((List.range n).filter (n ≤ · + nth)).map fun a => if back a then b a else f a) := by
  refine ⟨fun a => ¬ ((fun _ => (((a + nth) / n : ℕ) : ℤ)) : Fin 1 → ℤ) ∈ H, ?_⟩
  refine (chain_inter hnth hP hp hH.nodup (fun c hc => (hH.inBox c hc).1)
    (fun i j c hc hd => half_of_scope (compact_chain hp) hH hs (by positivity) i j c hc hd) g).trans ?_
  rw [← filter_range, List.map_map]
  refine List.Perm.of_eq (List.map_congr_left fun a _ => ?_)
  dsimp only [Function.comp]
  split <;> rename_i h
  · exact hf a _ rfl
  · exact hb a _ rfl

end Verif.LDB
