import Verif.Proofs.DistanceExact
import Verif.Proofs.ShellStrips
/-!
Helper lemmas: the distances seen on chains (for C52).
-/

namespace Verif.Latt

open Verif.LDB

variable {n : ℕ} {prec : ℕ} {points : Fin n → Pt 1} {v : Fin 1 → Pt 1} {n0 : ℤ}

theorem ndist_pt1 (a b : ℝ) : ndist ![a] ![b] = |a - b| := by
  unfold ndist
  simp [Real.sqrt_sq_eq_abs]

theorem comb_one (v : Fin 1 → Pt 1) (c : Fin 1 → ℤ) : comb v c = ![(c 0 : ℝ) * v 0 0] := by
  funext a; fin_cases a; simp [comb]

/-- The points are the integers `0 … n0 - 1`, the vector has length `n0`. -/
structure ChainCluster (points : Fin n → Pt 1) (v : Fin 1 → Pt 1) (n0 : ℤ) : Prop where
  pos : 1 ≤ n0
  tiling : ExactTiling chainSites points v
  vec : v 0 0 = n0
  cell : ∀ i, ∃ r : ℤ, 0 ≤ r ∧ r < n0 ∧ points i = ![(r : ℝ)]

theorem ChainCluster.box (h : ChainCluster points v n0) (s : ℕ) (x : ℝ) :
    x ∈ BoxDistances points v s ↔ ∃ z : ℤ, 1 ≤ z ∧ z < (2 * s + 1) * n0 ∧ x = z := by
  have hpos := h.pos
  have site : ∀ i (c : Fin 1 → ℤ), ∃ r : ℤ, 0 ≤ r ∧ r < n0 ∧ points i + comb v c = ![((r + c 0 * n0 : ℤ) : ℝ)] := by
    intro i c
    obtain ⟨r, h1, h2, e⟩ := h.cell i
    refine ⟨r, h1, h2, ?_⟩
    rw [e, comb_one, h.vec]
    funext a; fin_cases a; simp
  constructor
  · intro hx
    have hx0 := dist_pos (box_sub h.tiling hx)
    obtain ⟨i, j, c, c', hc, hc', -, rfl⟩ := hx
    obtain ⟨r, h1, h2, e⟩ := site i c
    obtain ⟨r', h1', h2', e'⟩ := site j c'
    rw [e, e', ndist_pt1] at hx0 ⊢
    have e3 : |((r + c 0 * n0 : ℤ) : ℝ) - ((r' + c' 0 * n0 : ℤ) : ℝ)| =
        ((|(r + c 0 * n0) - (r' + c' 0 * n0)| : ℤ) : ℝ) := by push_cast; rfl
    rw [e3] at hx0 ⊢
    refine ⟨_, by have : (0 : ℤ) < |(r + c 0 * n0) - (r' + c' 0 * n0)| := by exact_mod_cast hx0
                  omega, ?_, rfl⟩
    have a1 := abs_le.1 (hc 0)
    have a2 := abs_le.1 (hc' 0)
    rw [abs_lt]
    constructor <;> nlinarith
  · rintro ⟨z, h1, h2, rfl⟩
    have find : ∀ w : ℤ, -s * n0 ≤ w → w < s * n0 + n0 → ∃ i c, (∀ q, |c q| ≤ (s : ℤ)) ∧
        points i + comb v c = ![(w : ℝ)] := by
      intro w hw1 hw2
      obtain ⟨⟨i, c⟩, e, -⟩ := h.tiling.covers ![(w : ℝ)] ⟨w, rfl⟩
      dsimp only at e
      refine ⟨i, c, fun q => ?_, e.symm⟩
      obtain ⟨r, g1, g2, e'⟩ := site i c
      rw [e'] at e
      have e2 : w = r + c 0 * n0 := by
        have := congrFun e 0
        simp only [Matrix.cons_val_fin_one] at this
        exact_mod_cast this
      have : q = 0 := Subsingleton.elim _ _
      subst this
      rw [abs_le]
      constructor
      · by_contra hc
        push Not at hc
        nlinarith
      · by_contra hc
        push Not at hc
        nlinarith
    obtain ⟨i, c, hc, e⟩ := find (-s * n0) le_rfl (by nlinarith)
    obtain ⟨j, c', hc', e'⟩ := find (-s * n0 + z) (by omega) (by nlinarith)
    refine ⟨i, j, c, c', hc, hc', ?_, ?_⟩
    · by_contra hcon
      push Not at hcon
      rw [hcon.1, hcon.2, e'] at e
      have := congrFun e 0
      simp only [Matrix.cons_val_fin_one] at this
      have : -s * n0 + z = -s * n0 := by exact_mod_cast this
      omega
    · rw [e, e', ndist_pt1]
      push_cast
      rw [show (-(s : ℝ) * n0 - (-(s : ℝ) * n0 + z)) = -(z : ℝ) by ring, abs_neg, abs_of_nonneg]
      exact_mod_cast (by omega : 0 ≤ z)

theorem roundTo_intCast (prec : ℕ) (z : ℤ) : roundTo prec (z : ℝ) = z := by
  have hp : (10 : ℝ) ^ prec ≠ 0 := by positivity
  have e : (z : ℝ) * 10 ^ prec = ((z * 10 ^ prec : ℤ) : ℝ) := by push_cast; ring
  unfold roundTo
  rw [e, rint_intCast]
  push_cast
  field_simp

theorem ChainCluster.seen (h : ChainCluster points v n0) (s : ℕ) :
    (distancesSeen prec points v s : ℤ) = (2 * s + 1) * n0 - 1 := by
  have hpos := h.pos
  have e : roundTo prec '' BoxDistances points v s =
      (fun z : ℤ => (z : ℝ)) '' (Finset.Icc 1 ((2 * s + 1) * n0 - 1) : Finset ℤ) := by
    ext x
    constructor
    · rintro ⟨y, hy, rfl⟩
      obtain ⟨z, h1, h2, rfl⟩ := (h.box s y).1 hy
      exact ⟨z, by simp; omega, (roundTo_intCast _ _).symm⟩
    · rintro ⟨z, hz, rfl⟩
      rw [Finset.coe_Icc, Set.mem_Icc] at hz
      exact ⟨z, (h.box s z).2 ⟨z, hz.1, by omega, rfl⟩, roundTo_intCast _ _⟩
  unfold distancesSeen
  rw [e, Set.ncard_image_of_injective _ Int.cast_injective, Set.ncard_coe_finset, Int.card_Icc]
  have : 0 ≤ (2 * (s : ℤ) + 1) * n0 - 1 := by nlinarith
  omega

theorem chain_isNth (nth : ℕ) (hn : 1 ≤ nth) : IsNthDistance chainSites nth nth := by
  refine ⟨chain_distances.2 ⟨nth, by omega, by simp⟩, ?_⟩
  have e : {x ∈ Distances chainSites | x ≤ (nth : ℝ)} =
      (fun z : ℤ => (z : ℝ)) '' (Finset.Icc 1 (nth : ℤ) : Finset ℤ) := by
    ext x
    constructor
    · rintro ⟨hx, hle⟩
      obtain ⟨z, h1, rfl⟩ := chain_distances.1 hx
      have : z ≤ nth := by exact_mod_cast hle
      exact ⟨z, by simp; omega, rfl⟩
    · rintro ⟨z, hz, rfl⟩
      rw [Finset.coe_Icc, Set.mem_Icc] at hz
      exact ⟨chain_distances.2 ⟨z, by omega, rfl⟩, by change (z : ℝ) ≤ nth; exact_mod_cast hz.2⟩
  rw [e, Set.ncard_image_of_injective _ Int.cast_injective, Set.ncard_coe_finset, Int.card_Icc]
  omega

theorem chain_wellSpaced (hp : 1 ≤ prec) (d : ℝ) : WellSpaced prec chainSites d := by
  intro x hx y hy hxy _
  obtain ⟨z, _, rfl⟩ := chain_distances.1 hx
  obtain ⟨w, _, rfl⟩ := chain_distances.1 hy
  have h1 : z + 1 ≤ w := by exact_mod_cast hxy
  have h2 : (z : ℝ) + 1 ≤ w := by exact_mod_cast h1
  have h3 : (10 : ℝ) ≤ 10 ^ prec := by
    calc (10 : ℝ) = 10 ^ 1 := by norm_num
      _ ≤ 10 ^ prec := pow_le_pow_right₀ (by norm_num) hp
  have h4 : (3 : ℝ) / 2 / 10 ^ prec < 1 := by rw [div_lt_one (by linarith)]; linarith
  linarith

/-- The chain that `lattice_generator` returns. -/
theorem chain_lattice {n1 n2 : ℤ} (hp : 1 ≤ prec) (h0 : 1 ≤ n0) (h1 : 1 ≤ n1) (h2 : 1 ≤ n2) :
    ∃ L : Lat n0.toNat 1 1, latticeGenerator prec "chain" n0 n1 n2 = .ok ⟨n0.toNat, 1, 1, L⟩ ∧
      init prec L.points L.vectors = .ok L ∧ ChainCluster L.points L.vectors n0 ∧
      Inequivalent prec L.points L.vectors := by
  obtain ⟨L, hL, hv, hinit, ht, hin⟩ := good_chain hp h0 h1 h2
  refine ⟨L, hL, hinit, ⟨h0, ht, ?_, fun i => ?_⟩, hin⟩
  · rw [hv]; simp [scaleVectors, chainCell]
  · obtain ⟨u, hu, r, hr, e⟩ := cell_1d h0 h1 h2 hL i
    refine ⟨r 0, (hr 0).1, (hr 0).2, ?_⟩
    simp only [chainCell, List.mem_singleton] at hu
    rw [e, hu]
    funext a; fin_cases a; simp [comb, chainCell]

/-- On a chain the shells are reached. -/
theorem ChainCluster.shells (h : ChainCluster points v n0) {nth : ℤ} {tl : ℝ} (ht : tl < 1)
    (i j : Fin n) (c : Fin 1 → ℤ) (hd : ndist (points i) (points j + comb v c) ≤ (nth : ℝ) + tl) (t : ℤ)
    (ht1 : 1 ≤ t) (q : Fin 1) (hq : t ≤ |c q|) :
    ∃ c' : Fin 1 → ℤ, (∀ q, |c' q| ≤ t) ∧ (∃ q, |c' q| = t) ∧
      ∃ i j, ndist (points i + comb v c') (points j) ≤ nth := by
  have hpos := h.pos
  have hq0 : q = 0 := Subsingleton.elim _ _
  subst hq0
  have find : ∀ w : ℤ, 0 ≤ w → w < n0 → ∃ i, points i = ![(w : ℝ)] := by
    intro w hw1 hw2
    obtain ⟨⟨i, c⟩, e, -⟩ := h.tiling.covers ![(w : ℝ)] ⟨w, rfl⟩
    dsimp only at e
    obtain ⟨r, g1, g2, e'⟩ := h.cell i
    rw [e', comb_one, h.vec] at e
    have e2 : w = r + c 0 * n0 := by
      have := congrFun e 0
      simp only [Matrix.cons_val_fin_one, Pi.add_apply] at this
      exact_mod_cast this
    have hc0 : c 0 = 0 := by
      have h1 : c 0 < 1 := by by_contra hc; push Not at hc; nlinarith
      have h2 : -1 < c 0 := by by_contra hc; push Not at hc; nlinarith
      omega
    refine ⟨i, ?_⟩
    rw [e', e2, hc0]; simp
  obtain ⟨a, ha⟩ := find 0 le_rfl (by omega)
  obtain ⟨b, hb⟩ := find (n0 - 1) (by omega) (by omega)
  refine ⟨![t], fun q => by fin_cases q; simp [abs_of_nonneg (by omega : 0 ≤ t)],
    ⟨0, by simp [abs_of_nonneg (by omega : 0 ≤ t)]⟩, a, b, ?_⟩
  obtain ⟨r, g1, g2, e⟩ := h.cell i
  obtain ⟨r', g1', g2', e'⟩ := h.cell j
  have h1 : ndist (points i) (points j + comb v c) = ((|r - (r' + c 0 * n0)| : ℤ) : ℝ) := by
    rw [e, e', comb_one, h.vec, show (![(r' : ℝ)] + ![(c 0 : ℝ) * (n0 : ℝ)] : Pt 1) = ![(r' : ℝ) + c 0 * n0] by
      funext a; fin_cases a; simp, ndist_pt1]
    simp
  rw [h1] at hd
  have h2 : |r - (r' + c 0 * n0)| ≤ nth := by
    have : ((|r - (r' + c 0 * n0)| : ℤ) : ℝ) < ((nth + 1 : ℤ) : ℝ) := by push_cast at hd ⊢; linarith
    have : |r - (r' + c 0 * n0)| < nth + 1 := by exact_mod_cast this
    omega
  have h3 : (t - 1) * n0 + 1 ≤ nth := by
    refine le_trans ?_ h2
    rcases le_abs.1 hq with h | h
    · refine le_trans ?_ (neg_le_abs _)
      nlinarith
    · refine le_trans ?_ (le_abs_self _)
      nlinarith
  rw [ha, hb, comb_one, h.vec, show (![((0 : ℤ) : ℝ)] + ![((![t] : Fin 1 → ℤ) 0 : ℝ) * (n0 : ℝ)] : Pt 1) =
    ![(t : ℝ) * n0] by funext a; fin_cases a; simp, ndist_pt1]
  have e4 : |![(t : ℝ) * n0] 0 - ![((n0 - 1 : ℤ) : ℝ)] 0| = (((t - 1) * n0 + 1 : ℤ) : ℝ) := by
    simp only [Matrix.cons_val_fin_one]
    push_cast
    rw [abs_of_nonneg]
    · ring
    · have : 0 ≤ t * n0 - (n0 - 1) := by nlinarith
      exact_mod_cast this
  simp only [Matrix.cons_val_fin_one] at e4
  rw [e4]; exact_mod_cast h3

end Verif.Latt
