import Verif.Proofs.SpinBounds
/-!
# C97: the numbers returned by `TotalSpinAverages` are those of a physical spin
-/

namespace Verif
open Spec

/-- Four numbers `⟨S^2⟩, ⟨S^x⟩, ⟨S^y⟩, ⟨S^z⟩` are *physical* for `n` spins one half: with `m` the length of the
mean spin vector, `m (m + 1) <= ⟨S^2⟩ <= (n/2)(n/2 + 1)`. -/
structure PhysicalSpin (n s2 sx sy sz : ℝ) : Prop where
  lower : Real.sqrt (sx ^ 2 + sy ^ 2 + sz ^ 2) * (Real.sqrt (sx ^ 2 + sy ^ 2 + sz ^ 2) + 1) ≤ s2
  upper : s2 ≤ n / 2 * (n / 2 + 1)

/-- The mean spin vector of a physical answer is at most `n / 2` long; in particular every component is. -/
theorem PhysicalSpin.length {n s2 sx sy sz : ℝ} (hn : 0 ≤ n) (h : PhysicalSpin n s2 sx sy sz) :
    Real.sqrt (sx ^ 2 + sy ^ 2 + sz ^ 2) ≤ n / 2 ∧ |sx| ≤ n / 2 ∧ |sy| ≤ n / 2 ∧ |sz| ≤ n / 2 := by
  obtain ⟨h1, h2⟩ := h
  have hr := Real.sqrt_nonneg (sx ^ 2 + sy ^ 2 + sz ^ 2)
  have hle : Real.sqrt (sx ^ 2 + sy ^ 2 + sz ^ 2) ≤ n / 2 := by nlinarith
  have hc : ∀ t, t ^ 2 ≤ sx ^ 2 + sy ^ 2 + sz ^ 2 → |t| ≤ n / 2 := by
    intro t ht
    exact (Real.abs_le_sqrt ht).trans hle
  exact ⟨hle, hc _ (by nlinarith [sq_nonneg sy, sq_nonneg sz]), hc _ (by nlinarith [sq_nonneg sx, sq_nonneg sz]),
    hc _ (by nlinarith [sq_nonneg sx, sq_nonneg sy])⟩

/-- **C97.** For every `n >= 1` and every nonzero ket of `n` spins `TotalSpinAverages(n)` returns four real
numbers which are physical: the mean spin vector is at most `n/2` long, and `⟨S^2⟩` lies between `m (m + 1)`,
`m` the length of the mean spin vector, and `(n/2)(n/2 + 1)`. -/
theorem C97_spin_bounds (n : ℤ) (hn : 1 ≤ n) (ket : Ket) (hd : ket.dim = 2 ^ n.toNat)
    (hne : ∃ k < ket.dim, ket.get k ≠ 0) :
    ∃ s2 sx sy sz : ℝ, totalSpinAverages n ket = .ok ((s2 : ℂ), (sx : ℂ), (sy : ℂ), (sz : ℂ)) ∧
      PhysicalSpin n s2 sx sy sz ∧ Real.sqrt (sx ^ 2 + sy ^ 2 + sz ^ 2) ≤ n / 2 ∧
      |sx| ≤ (n : ℝ) / 2 ∧ |sy| ≤ (n : ℝ) / 2 ∧ |sz| ≤ (n : ℝ) / 2 := by
  have hv : ket.toVec (2 ^ n.toNat) ≠ 0 := by
    obtain ⟨k, hk, h⟩ := hne
    intro e
    exact h (congrFun e ⟨k, hd ▸ hk⟩)
  obtain ⟨s2, sx, sy, sz, h, e2, ex, ey, ez, -, i2, ix, iy, iz⟩ := C38_averages n hn ket hd hv
  have hre : ∀ c : ℂ, c.im = 0 → ((c.re : ℝ) : ℂ) = c := fun c hc => Complex.ext rfl (by simp [hc])
  obtain ⟨cxy, cyz, czx, ax, ay, az⟩ := C37_angular_momentum n
  have hp : PhysicalSpin n s2.re sx.re sy.re sz.re := by
    refine ⟨?_, ?_⟩
    · rw [e2]
      refine moment_lower ax ay az cxy cyz czx _ hv _ (Real.sqrt_nonneg _) ?_
      rw [Real.sq_sqrt (by positivity), ex, ey, ez]
    · rw [e2]
      exact moment_upper n (by omega) _ hv
  refine ⟨s2.re, sx.re, sy.re, sz.re, ?_, hp, hp.length (by exact_mod_cast (by omega : 0 ≤ n))⟩
  rw [h, hre s2 i2, hre sx ix, hre sy iy, hre sz iz]

/-- The ket with all spins up. -/
def allUp (n : ℤ) : Ket := ⟨2 ^ n.toNat, fun k => if k = 0 then 1 else 0⟩

/-- **C97** (the bounds are attained). For the ket with all `n` spins up `TotalSpinAverages(n)` returns
`((n/2)(n/2 + 1), 0, 0, n/2)`. -/
theorem C97_all_up (n : ℤ) (hn : 1 ≤ n) :
    totalSpinAverages n (allUp n) = .ok ((n : ℂ) / 2 * (n / 2 + 1), 0, 0, (n : ℂ) / 2) := by
  obtain ⟨s2, sx, sy, sz, h, hp, h1, -, -, h4⟩ := C97_spin_bounds n hn (allUp n) rfl ⟨0, by simp [allUp], by simp [allUp]⟩
  have hz : sz = n / 2 := by
    rw [averages_eq n hn _ rfl] at h
    have hz := congrArg (fun t : ℂ × ℂ × ℂ × ℂ => t.2.2.2) (Except.ok.inj h)
    simp only at hz
    obtain ⟨N, rfl⟩ : ∃ N : ℕ, n = N := ⟨n.toNat, by omega⟩
    have hdiag : totalSpin (N : ℤ) .z = Matrix.diagonal
        (fun (a : Fin (2 ^ (N : ℤ).toNat)) => ((upSpins N a : ℂ) - N / 2)) := totalSpin_z_diagonal N
    have h0 : upSpins N 0 = N := by
      unfold upSpins
      rw [List.filter_eq_self.mpr (by intro j _; simp [digit]), List.length_range]
    have hd : (0 : ℕ) < 2 ^ (N : ℤ).toNat := by positivity
    have hvec : (allUp N).toVec (2 ^ (N : ℤ).toNat) = Pi.single ⟨0, hd⟩ 1 := by
      funext k
      by_cases hk : k = ⟨0, hd⟩
      · subst hk
        simp [allUp, Ket.toVec]
      · rw [Pi.single_eq_of_ne hk]
        have : (k : ℕ) ≠ 0 := fun e => hk (Fin.ext e)
        simp [allUp, Ket.toVec, this]
    have hstar : star (Pi.single ⟨0, hd⟩ (1 : ℂ) : Fin (2 ^ (N : ℤ).toNat) → ℂ) = Pi.single ⟨0, hd⟩ 1 := by
      rw [← Pi.single_star, star_one]
    have : expectation (totalSpin (N : ℤ) .z) ((allUp N).toVec (2 ^ (N : ℤ).toNat)) = (N : ℂ) / 2 := by
      rw [hdiag, hvec, expectation, hstar]
      simp only [single_one_dotProduct, Matrix.mulVec_diagonal, Pi.single_eq_same, div_one, mul_one]
      rw [h0]
      ring
    rw [this] at hz
    have := congrArg Complex.re hz
    simpa using this.symm
  obtain ⟨hl, hu⟩ := hp
  have hn' : (0 : ℝ) ≤ n := by exact_mod_cast (by omega : 0 ≤ n)
  have hr0 := Real.sqrt_nonneg (sx ^ 2 + sy ^ 2 + sz ^ 2)
  have hrge : (n : ℝ) / 2 ≤ Real.sqrt (sx ^ 2 + sy ^ 2 + sz ^ 2) := by
    apply Real.le_sqrt_of_sq_le
    rw [hz]
    nlinarith [sq_nonneg sx, sq_nonneg sy]
  have hr : Real.sqrt (sx ^ 2 + sy ^ 2 + sz ^ 2) = n / 2 := le_antisymm h1 hrge
  have hsq : sx ^ 2 + sy ^ 2 + sz ^ 2 = ((n : ℝ) / 2) ^ 2 := by
    rw [← hr, Real.sq_sqrt (by positivity)]
  rw [hz] at hsq
  have hx : sx = 0 := by
    have : sx ^ 2 = 0 := by nlinarith [sq_nonneg sx, sq_nonneg sy]
    exact pow_eq_zero_iff (two_ne_zero) |>.mp this
  have hy : sy = 0 := by
    have : sy ^ 2 = 0 := by nlinarith [sq_nonneg sx, sq_nonneg sy]
    exact pow_eq_zero_iff (two_ne_zero) |>.mp this
  have hs : s2 = n / 2 * (n / 2 + 1) := by
    rw [hr] at hl
    linarith
  rw [h, hs, hx, hy, hz]
  push_cast
  rfl

/-- Non-vacuity of C97: a superposition of three-spin states meets the hypotheses. -/
example : ∃ ket : Ket, ket.dim = 2 ^ (3 : ℤ).toNat ∧ ∃ k < ket.dim, ket.get k ≠ 0 :=
  ⟨⟨8, fun k => if k = 3 then Complex.I else 1⟩, rfl, 3, by norm_num, by simp⟩

end Verif
