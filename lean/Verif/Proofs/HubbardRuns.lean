import Verif.Proofs.HubbardSpectra
import Verif.Proofs.Coordination
import Mathlib.LinearAlgebra.Matrix.Charpoly.Eigs
/-!
# Lemmas for C116: from the Hubbard model to the runs of the script; two-coloured lattices
-/

namespace Verif.LDB

open Verif.Latt Verif.Spec Demo Matrix

variable {m count : ℕ} {d : ℝ}

theorem charpoly_shift {N : ℕ} (A : Matrix (Fin N) (Fin N) ℂ) (z : ℂ) :
    (A + z • 1).charpoly = A.charpoly.comp (Polynomial.X - Polynomial.C z) := by
  have h := Matrix.charpoly_sub_scalar A (-z)
  rw [Polynomial.C_neg, ← sub_eq_add_neg] at h
  rw [← h]
  congr 1
  ext i j
  by_cases e : i = j
  · subst e; simp
  · simp [e]

theorem setup_matrix {V : Setup} {d t U : ℝ} {points : Fin count → Pt m}
    (h : ∀ r c, V.HM r c = matrixElement (clusterHubbard d points t U) (occ V.basis[r]) (occ V.basis[c])) :
    V.HM = opMat V.basis (clusterHubbard d points t U) := by
  ext r c
  exact h r c

section
variable {L : Lat count m m} {zoom : ℤ} {coordOf : ℝ → Coord} {run : ℝ → ℝ → ℕ → ℕ → Option (Py Setup)}

theorem anyCluster (h : HubbardModel d L zoom coordOf run) : AnyCluster count run := by
  refine ⟨fun U a b ha hb => ?_, fun t U a b ha hb => ?_, fun t U a b ha hb => ?_⟩
  · obtain ⟨V, hV, -, hs, hm, -⟩ := h 0 U a b ha hb
    exact ⟨V, hV, fun r c => (hm r c).trans (atomic_limit hs.nodup U r c)⟩
  · obtain ⟨V, hV, -, hs, hm, -⟩ := h t U a b ha hb
    obtain ⟨V', hV', -, hs', hm', -⟩ := h t U b a hb ha
    refine ⟨V, V', hV, hV', ?_⟩
    rw [setup_matrix hm, setup_matrix hm']
    exact spin_exchange hs hs' t U
  · obtain ⟨V, hV, -, hs, hm, -⟩ := h t U a b ha (by omega)
    obtain ⟨V', hV', -, hs', hm', -⟩ := h t U (a - 1) (b + 1) (by omega) (by omega)
    refine ⟨V, V', hV, hV', fun E => ?_⟩
    rw [setup_matrix hm, setup_matrix hm']
    exact multiplets hs hs' hb t U E

theorem bipartiteCluster (h : HubbardModel d L zoom coordOf run) (hc : TwoColourable d L.points) :
    BipartiteCluster count run := by
  obtain ⟨colour, hc⟩ := hc
  refine ⟨fun t U a b ha hb => ?_, fun t U a b ha hb => ?_, fun t U a b ha hb => ?_⟩
  · obtain ⟨V, hV, -, hs, hm, -⟩ := h t U a b ha hb
    obtain ⟨V', hV', -, hs', hm', -⟩ := h (-t) U a b ha hb
    refine ⟨V, V', hV, hV', ?_⟩
    rw [setup_matrix hm, setup_matrix hm']
    have hu := hs.unique hs'
    rw [hopping_sign hc hs t U, hu]
  · obtain ⟨V, hV, -, hs, hm, -⟩ := h t U a b ha hb
    obtain ⟨V', hV', -, hs', hm', -⟩ := h t (-U) (count - a) b (by omega) hb
    refine ⟨V, V', hV, hV', ?_⟩
    rw [setup_matrix hm, setup_matrix hm']
    exact particle_hole hc ha hs hs' t U
  · obtain ⟨V, hV, -, hs, hm, -⟩ := h t U a b ha hb
    obtain ⟨V', hV', -, hs', hm', -⟩ := h t U (count - a) (count - b) (by omega) (by omega)
    obtain ⟨W, -, -, hw, -, -⟩ := h t (-U) (count - a) b (by omega) hb
    obtain ⟨X, -, -, hx, -, -⟩ := h t (-U) b (count - a) hb (by omega)
    obtain ⟨Y, -, -, hy, -, -⟩ := h t U (count - b) (count - a) (by omega) (by omega)
    refine ⟨V, V', hV, hV', ?_⟩
    rw [setup_matrix hm, setup_matrix hm', particle_hole hc ha hs hw t U, charpoly_shift, spin_exchange hw hx t (-U),
      particle_hole hc hb hx hy t (-U), charpoly_shift, spin_exchange hy hs' t (- -U), neg_neg, charpoly_shift,
      Polynomial.comp_assoc]
    congr 1
    have e : ((count - a : ℕ) : ℝ) = count - a := by rw [Nat.cast_sub ha]
    rw [e]
    simp only [Polynomial.sub_comp, Polynomial.X_comp, Polynomial.C_comp]
    rw [sub_sub, ← Polynomial.C_add, ← Complex.ofReal_add]
    congr 3
    ring

end

theorem EveryHubbardRun.mono {prec : ℕ} {r : Py Built}
    {Q Q' : Lat count m m → ℤ → (ℝ → Coord) → (ℝ → ℝ → ℕ → ℕ → Option (Py Setup)) → Prop}
    (h : EveryHubbardRun prec count r Q)
    (hQ : ∀ L, r = .ok ⟨count, m, m, L⟩ → ∀ zoom coordOf run, Q L zoom coordOf run → Q' L zoom coordOf run) :
    EveryHubbardRun prec count r Q' := by
  obtain ⟨L, h1, h2⟩ := h
  exact ⟨L, h1, fun o ho p hp calls z c hd => hQ L h1 _ _ _ (h2 o ho p hp calls z c hd)⟩

/-! ### Two-coloured sets of sites -/

/-- The sites can be coloured such that sites at distance `d` have different colours. -/
def Coloured (S : Set (Pt m)) (d : ℝ) : Prop :=
  ∃ colour : Pt m → Bool, ∀ x ∈ S, ∀ y ∈ S, ndist x y = d → colour x ≠ colour y

theorem Coloured.shift {S : Set (Pt m)} (h : Coloured S d) (t : Pt m) : Coloured (shifted t S) d := by
  obtain ⟨c, hc⟩ := h
  refine ⟨fun x => c (x - t), fun x hx y hy e => hc _ hx _ hy ?_⟩
  rw [← e]
  unfold ndist
  congr 1
  refine Finset.sum_congr rfl fun i _ => ?_
  simp

theorem Coloured.of_class {S T : Set (Pt m)} (h1 : ∀ x ∈ S, ∀ y ∈ S, x ∈ T → y ∈ T → ndist x y ≠ d)
    (h2 : ∀ x ∈ S, ∀ y ∈ S, x ∉ T → y ∉ T → ndist x y ≠ d) : Coloured S d := by
  classical
  refine ⟨fun x => decide (x ∈ T), fun x hx y hy e h => ?_⟩
  by_cases hT : x ∈ T
  · exact h1 x hx y hy hT (by simpa [hT] using h) e
  · exact h2 x hx y hy hT (by simpa [hT] using h) e

theorem coloured_parity {S : Set (Pt m)} (hS : ∀ x ∈ S, ∃ a : Fin m → ℤ, ∀ i, x i = a i) : Coloured S 1 := by
  have key : ∀ a b : Fin m → ℤ, ∀ x y : Pt m, (∀ i, x i = a i) → (∀ i, y i = b i) → ndist x y = 1 →
      ∃ k, ∑ i, a i - ∑ i, b i = 2 * k + 1 := by
    intro a b x y hx hy h
    rw [ndist_eq_iff zero_le_one] at h
    simp only [hx, hy] at h
    have h' : ∑ i, (a i - b i) ^ 2 = 1 := by
      have : ((∑ i, (a i - b i) ^ 2 : ℤ) : ℝ) = 1 := by push_cast; linarith
      exact_mod_cast this
    have e : ∀ i, ∃ p, (a i - b i) ^ 2 = (a i - b i) + 2 * p := fun i => by
      obtain ⟨p, hp⟩ := Int.even_mul_pred_self (a i - b i)
      exact ⟨p, by linear_combination hp⟩
    choose p hp using e
    refine ⟨-∑ i, p i, ?_⟩
    simp only [hp, Finset.sum_add_distrib, ← Finset.mul_sum, Finset.sum_sub_distrib] at h'
    linarith
  refine .of_class (T := {x | ∃ k : ℤ, ∑ i, x i = 2 * k}) ?_ ?_
  · rintro x hx y hy ⟨k, hk⟩ ⟨l, hl⟩ h
    obtain ⟨a, ha⟩ := hS x hx
    obtain ⟨b, hb⟩ := hS y hy
    obtain ⟨q, hq⟩ := key a b x y ha hb h
    simp only [ha] at hk
    simp only [hb] at hl
    have hk' : ∑ i, a i = 2 * k := by exact_mod_cast hk
    have hl' : ∑ i, b i = 2 * l := by exact_mod_cast hl
    omega
  · rintro x hx y hy hk hl h
    obtain ⟨a, ha⟩ := hS x hx
    obtain ⟨b, hb⟩ := hS y hy
    obtain ⟨q, hq⟩ := key a b x y ha hb h
    have hk' : ∀ k, ∑ i, a i ≠ 2 * k := fun k e => hk ⟨k, by simp only [ha]; exact_mod_cast e⟩
    have hl' : ∀ k, ∑ i, b i ≠ 2 * k := fun k e => hl ⟨k, by simp only [hb]; exact_mod_cast e⟩
    rcases Int.even_or_odd' (∑ i, a i) with ⟨k, e | e⟩
    · exact hk' k e
    · exact hl' (k - q) (by linarith)

theorem coloured_chain : Coloured chainSites 1 := coloured_parity fun x ⟨a, hx⟩ => ⟨![a], fun i => by
  subst hx; fin_cases i; simp⟩

theorem coloured_square : Coloured squareSites 1 := coloured_parity fun x ⟨a, b, hx⟩ => ⟨![a, b], fun i => by
  subst hx; fin_cases i <;> simp⟩

theorem coloured_cubic : Coloured cubicSites 1 := coloured_parity fun x ⟨a, b, c, hx⟩ => ⟨![a, b, c], fun i => by
  subst hx; fin_cases i <;> simp⟩

theorem coloured_honeycomb : Coloured honeycombSites (1 / Real.sqrt 3) := by
  have h3 : r3 * r3 = 3 := r3_sq
  have key : ∀ (s t : Pt 2) (a b c f e : ℤ), s 0 = a + b / 2 → s 1 = b * (r3 / 2) + e * (r3 / 6) →
      t 0 = c + f / 2 → t 1 = f * (r3 / 2) + e * (r3 / 6) → ndist s t ≠ 1 / Real.sqrt 3 := by
    intro s t a b c f e hs0 hs1 h0 h1 h
    rw [ndist_eq_iff inv_sqrt3_pos.le, inv_sqrt3_sq, Fin.sum_univ_two, hs0, hs1, h0, h1] at h
    have h' : 3 * ((c - a) ^ 2 + (c - a) * (f - b) + (f - b) ^ 2) = 1 := by
      rw [← @Int.cast_inj ℝ]
      push_cast
      linear_combination 3 * h - (3 * ((f : ℝ) - b) ^ 2) / 4 * h3
    omega
  refine .of_class (T := {x | ∃ a b : ℤ, x 0 = a + b / 2 ∧ x 1 = b * (r3 / 2) + (-1 : ℤ) * (r3 / 6)}) ?_ ?_
  · rintro x hx y hy ⟨a, b, h0, h1⟩ ⟨c, f, h2, h3⟩
    exact key x y a b c f (-1) h0 h1 h2 h3
  · rintro x hx y hy hX hY
    obtain ⟨a, b, e, he, hs0, hs1⟩ := (honeycomb_iff x).1 hx
    obtain ⟨c, f, g, hg, ht0, ht1⟩ := (honeycomb_iff y).1 hy
    rcases he with rfl | rfl
    · exact absurd ⟨a, b, hs0, hs1⟩ hX
    · rcases hg with rfl | rfl
      · exact absurd ⟨c, f, ht0, ht1⟩ hY
      · exact key x y a b c f 1 hs0 hs1 ht0 ht1

theorem twoColourable_of {S : Set (Pt m)} (h : Coloured S d) {points : Fin count → Pt m} {vectors : Fin m → Pt m}
    (ht : ExactTiling S points vectors) : TwoColourable d points := by
  obtain ⟨c, hc⟩ := h
  have hin : ∀ i, points i ∈ S := fun i => by
    have := ht.inside i 0
    rwa [comb_zero, add_zero] at this
  exact ⟨fun i => c (points i), fun i j e => hc _ (hin i) _ (hin j) e⟩

end Verif.LDB
