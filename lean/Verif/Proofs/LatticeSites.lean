import Verif.Spec.LatticeBand
import Verif.Props.Precision
import Verif.Proofs.NearestCells
/-!
# Points of a lattice give different sites
-/

set_option exponentiation.threshold 1100

namespace Verif.LDB

open Verif.Latt Demo

variable {n m p : ℕ}

theorem zoom_ok (hp : p ≤ 22) {c : ℚ} (hc : |c| ≤ 100001) :
    ∃ k, Coord.zoomInt (10 ^ p) (.flt (.fin c)) = .ok k := by
  have hZ : (1 : ℤ) ≤ 10 ^ p := one_le_pow₀ (by norm_num)
  have h1 := product_error (10 ^ p) hZ c
  have e := pow_ten_exact p hp
  have hp' : (10 : ℚ) ^ p ≤ 10 ^ 22 := pow_le_pow_right₀ (by norm_num) hp
  have hbig : (10 : ℚ) ^ 40 < 2 ^ 1024 :=
    lt_of_lt_of_le (by norm_num : (10 : ℚ) ^ 40 < 2 ^ 200) (pow_le_pow_right₀ (by norm_num) (by norm_num))
  have hsmall : (1 : ℚ) / 2 ^ 1075 ≤ 1 := by
    rw [div_le_one (by positivity)]
    exact one_le_pow₀ (by norm_num)
  have hpos : (0 : ℚ) ≤ 1 / 2 ^ 1075 := by positivity
  have hm : |((10 ^ p : ℤ) : ℚ) * c| ≤ 10 ^ 22 * 100001 := by
    push_cast
    rw [abs_mul, abs_of_pos (by positivity)]
    exact mul_le_mul hp' hc (abs_nonneg _) (by positivity)
  have hm2 : |c| / 2 ^ 1075 * 2 ≤ 200002 := by
    rw [show |c| / 2 ^ 1075 * 2 = (1 / 2 ^ 1075) * (|c| * 2) by ring]
    nlinarith [abs_nonneg c]
  have hfin : |flRat (flRat ((10 ^ p : ℤ) : ℚ) * c)| < 2 ^ 1024 := by
    refine lt_of_le_of_lt ?_ hbig
    have := abs_sub_abs_le_abs_sub (flRat (flRat ((10 ^ p : ℤ) : ℚ) * c)) (((10 ^ p : ℤ) : ℚ) * c)
    have h51 : |((10 ^ p : ℤ) : ℚ) * c| / 2 ^ 51 ≤ |((10 ^ p : ℤ) : ℚ) * c| := div_le_self (abs_nonneg _) (by norm_num)
    have : |flRat (flRat ((10 ^ p : ℤ) : ℚ) * c)| ≤ 10 ^ 22 * 100001 + 10 ^ 22 * 100001 + 1 + 200002 := by linarith
    refine this.trans (by norm_num)
  have hz : |flRat ((10 ^ p : ℤ) : ℚ)| < 2 ^ 1024 := by
    rw [e, abs_of_pos (by positivity)]
    exact hp'.trans_lt (lt_trans (by norm_num) hbig)
  unfold Coord.zoomInt intToFloat
  simp only [fl, if_neg (not_le.2 hz), bind, Except.bind, fmul, if_neg (not_le.2 hfin), floatToInt]
  exact ⟨_, rfl⟩

theorem mapM_zoom {coordOf : ℝ → Coord} (hp : p ≤ 22) (hf : NearFloats coordOf) {x : Pt m}
    (hb : ∀ a, |x a| ≤ 100000) :
    ∃ z : Fin m → ℤ, (siteOf coordOf x).mapM (Coord.zoomInt (10 ^ p)) = .ok (List.ofFn z) ∧
      ∀ a, Coord.zoomInt (10 ^ p) (coordOf (x a)) = .ok (z a) := by
  have : ∀ a, ∃ k, Coord.zoomInt (10 ^ p) (coordOf (x a)) = .ok k := by
    intro a
    obtain ⟨c, e, hc⟩ := hf _ (hb a)
    rw [e]
    refine zoom_ok hp ?_
    have h1 := abs_sub_abs_le_abs_sub (c : ℝ) (x a)
    have h2 := hb a
    have : |(c : ℝ)| ≤ 100001 := by linarith
    exact_mod_cast this
  choose z hz using this
  refine ⟨z, ?_, hz⟩
  have key : ∀ l : List (Fin m), (l.map fun a => coordOf (x a)).mapM (Coord.zoomInt (10 ^ p)) = .ok (l.map z) := by
    intro l
    induction l with
    | nil => rfl
    | cons a l ih => rw [List.map_cons, List.mapM_cons, hz a, ih]; rfl
  rw [siteOf, key, List.ofFn_eq_map]

theorem distinguishes_of_separated (hm1 : 1 ≤ m) (hm3 : m ≤ 3) (hp2 : 2 ≤ p) (hp : p ≤ 22) {coordOf : ℝ → Coord}
    (hf : NearFloats coordOf) {points : Fin n → Pt m} (hb : ∀ i a, |points i a| ≤ 100000)
    (hsep : ∀ i j, i ≠ j → 1 / 10 ≤ ndist (points i) (points j)) : Distinguishes (10 ^ p) coordOf points := by
  choose z hz hza using fun i => mapM_zoom (p := p) hp hf (hb i)
  refine ⟨fun i => ⟨siteOf coordOf (points i), List.ofFn (z i)⟩, fun i => ?_, fun i j hij => ?_⟩
  · unfold SiteID.init
    have hl : (siteOf coordOf (points i)).length = m := by simp [siteOf]
    rw [hl, hz i]
    have : m = 1 ∨ m = 2 ∨ m = 3 := by omega
    simp only [this, pyAssert, decide_true, if_true, bind, Except.bind]
    rfl
  · by_contra hne
    have hzij : z i = z j := by
      have : List.ofFn (z i) = List.ofFn (z j) := by
        have h := hij
        unfold SiteID.rich at h
        rw [tupleRich_eq] at h
        simpa [linRich] using h
      exact List.ofFn_injective this
    have hclose : ∀ a, |points i a - points j a| < 1 / 20 := by
      intro a
      obtain ⟨c, e, hc⟩ := hf _ (hb i a)
      obtain ⟨c', e', hc'⟩ := hf _ (hb j a)
      have h1 := hza i a
      have h2 := hza j a
      rw [e] at h1
      rw [e', ← hzij] at h2
      have h := C04_float_soundness p c c' _ h1 h2
      have hr : |(c : ℝ) - c'| < 2 / 10 ^ p + (|(c : ℝ)| + |(c' : ℝ)|) / 2 ^ 50 + 1 / 2 ^ 1000 := by
        have := (Rat.cast_lt (K := ℝ)).2 h
        push_cast at this
        exact this
      have hp' : (100 : ℝ) ≤ 10 ^ p := by
        have := pow_le_pow_right₀ (a := (10 : ℝ)) (by norm_num) hp2
        linarith
      have hd : (2 : ℝ) / 10 ^ p ≤ 2 / 100 := div_le_div_of_nonneg_left (by norm_num) (by norm_num) hp'
      have hu : (1 : ℝ) / 2 ^ 1000 ≤ 1 / 1000 :=
        div_le_div_of_nonneg_left (by norm_num) (by norm_num)
          ((by norm_num : (1000 : ℝ) ≤ 2 ^ 10).trans (pow_le_pow_right₀ (by norm_num) (by norm_num)))
      have b1 := abs_sub_abs_le_abs_sub (c : ℝ) (points i a)
      have b2 := abs_sub_abs_le_abs_sub (c' : ℝ) (points j a)
      have b3 := hb i a
      have b4 := hb j a
      have hs : (|(c : ℝ)| + |(c' : ℝ)|) / 2 ^ 50 ≤ 1 / 1000 := by
        rw [div_le_div_iff₀ (by positivity) (by norm_num)]
        have : |(c : ℝ)| + |(c' : ℝ)| ≤ 200002 := by linarith
        norm_num
        linarith
      rw [abs_le] at hc hc'
      rw [abs_lt] at hr ⊢
      constructor <;> linarith [hc.1, hc.2, hc'.1, hc'.2, hr.1, hr.2]
    have h := hsep i j hne
    have : ndist (points i) (points j) < 1 / 10 := by
      unfold ndist
      rw [show (1 : ℝ) / 10 = Real.sqrt ((1 / 10) ^ 2) from (Real.sqrt_sq (by norm_num)).symm]
      refine Real.sqrt_lt_sqrt (Finset.sum_nonneg fun _ _ => sq_nonneg _) ?_
      calc ∑ a, (points i a - points j a) ^ 2 ≤ ∑ _a : Fin m, ((1 : ℝ) / 20) ^ 2 := by
            refine Finset.sum_le_sum fun a _ => ?_
            rw [← sq_abs]
            exact pow_le_pow_left₀ (abs_nonneg _) (hclose a).le 2
        _ = m * (1 / 20) ^ 2 := by simp
        _ ≤ 3 * (1 / 20) ^ 2 := by
            have : (m : ℝ) ≤ 3 := by exact_mod_cast hm3
            nlinarith
        _ < _ := by norm_num
    linarith

end Verif.LDB
