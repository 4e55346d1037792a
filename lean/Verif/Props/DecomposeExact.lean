import Verif.Proofs.DecomposeExact
import Verif.Props.LatticeDecompose
/-!
# C49: exactly which translates are found

For every accepted lattice whose cluster points are inequivalent and whose non-zero translations are not
shorter than the tolerance.
-/

namespace Verif.Latt

variable {n m k : ℕ}

/-- **C49 (exactly when).** Let `ref` be the distance of the translate by `c` of point `i` from the farthest
cluster point.  The translate is found if and only if each shell of cells closer (in cells) than `c` has a
translate of a cluster point not farther than `ref` from a cluster point; if not, `decompose` raises
RuntimeError. -/
theorem C49_exactly_when {prec : ℕ} {points : Fin n → Pt m} {vectors : Fin k → Pt m}
    {L : Lat n m k} (h : init prec points vectors = .ok L) (hi : Inequivalent prec points vectors)
    (hsep : ∀ d : Fin k → ℤ, d ≠ 0 → tol prec ≤ nnorm (comb vectors d)) (i : Fin n) (c : Fin k → ℤ) (ref : ℝ)
    (href : IsGreatest {x | ∃ j, x = ndist (points i + comb vectors c) (points j)} ref) :
    (FindsTranslate prec L i c ↔
      ∀ (t : ℤ) (q : Fin k), 1 ≤ t → t < |c q| → ∃ d, OnShell d t ∧ ∃ j l,
        ndist (points j + comb vectors d) (points l) ≤ ref) ∧
    (¬ FindsTranslate prec L i c →
      decompose prec L (points i + comb vectors c) = some (.error .runtimeError)) := by
  obtain ⟨h1, h2, h3, _⟩ := C46_reciprocal_dual h
  subst h1 h2
  obtain ⟨hf, he⟩ := decompose_exact h3 hi hsep i c ref href.1 fun j => href.2 ⟨j, rfl⟩
  by_cases hall : ∀ (t : ℤ) (q : Fin k), 1 ≤ t → t < |c q| → ∃ d, OnShell d t ∧ ∃ j l,
        ndist (L.points j + comb L.vectors d) (L.points l) ≤ ref
  · have := findsTranslate_of_decompose h (hf hall)
    exact ⟨⟨fun _ => hall, fun _ => this⟩, fun h => absurd this h⟩
  · have herr := he (by
      push Not at hall
      obtain ⟨t, q, a1, a2, a3⟩ := hall
      exact ⟨t, q, a1, a2, fun d hd j l => a3 d hd j l⟩)
    refine ⟨⟨fun hfind => ?_, fun h => absurd h hall⟩, fun _ => herr⟩
    rw [hfind.1] at herr
    simp at herr

/-- **C49 (clusters of one point).** All translates are found if and only if the shortest translation of a
shell never gets shorter from one shell to a later one. -/
theorem C49_one_point_exactly_when {prec : ℕ} {points : Fin 1 → Pt m} {vectors : Fin k → Pt m}
    {L : Lat 1 m k} (h : init prec points vectors = .ok L)
    (hsep : ∀ d : Fin k → ℤ, d ≠ 0 → tol prec ≤ nnorm (comb vectors d)) :
    (∀ i c, FindsTranslate prec L i c) ↔ ShellMonotone vectors := by
  have hi : Inequivalent prec points vectors := fun i j hij => absurd (Subsingleton.elim i j) hij
  have hd : ∀ (i j : Fin 1) (c : Fin k → ℤ), ndist (points i + comb vectors c) (points j) =
      nnorm (comb vectors c) := by
    intro i j c
    rw [Subsingleton.elim i j, ndist_eq, add_sub_cancel_left]
  have key : ∀ (i : Fin 1) (c : Fin k → ℤ), FindsTranslate prec L i c ↔
      ∀ (t : ℤ) (q : Fin k), 1 ≤ t → t < |c q| → ∃ d, OnShell d t ∧
        nnorm (comb vectors d) ≤ nnorm (comb vectors c) := by
    intro i c
    rw [(C49_exactly_when h hi hsep i c (nnorm (comb vectors c)) ⟨⟨0, (hd _ _ _).symm⟩, by
      rintro x ⟨j, rfl⟩; rw [hd]⟩).1]
    simp only [hd]
    exact forall_congr' fun t => forall_congr' fun q => forall_congr' fun _ => forall_congr' fun _ =>
      exists_congr fun d => and_congr_right fun _ => ⟨fun ⟨_, _, h⟩ => h, fun h => ⟨0, 0, h⟩⟩
  constructor
  · intro hall c t s hct h1 hst
    obtain ⟨hle, q, hq⟩ := hct
    rcases lt_or_eq_of_le hst with hlt | rfl
    · exact (key 0 c).1 (hall 0 c) s q h1 (by rw [hq]; exact hlt)
    · exact ⟨c, ⟨hle, q, hq⟩, le_rfl⟩
  · intro hm i c
    rw [key]
    intro t q h1 hlt
    obtain ⟨q', hq'⟩ : ∃ q', ∀ r, |c r| ≤ |c q'| := by
      have : Nonempty (Fin k) := ⟨q⟩
      exact Finite.exists_max fun q => |c q|
    exact hm c |c q'| t ⟨hq', q', rfl⟩ h1 (le_trans hlt.le (hq' q))

/-- The theorem decides the counterexample: with the vectors (1, 0) and (5/2, 1/100) (whose translations are
all longer than the tolerance), the shortest translations do get shorter. -/
example : ¬ ShellMonotone obVectors := by
  obtain ⟨L, h⟩ := ob_accepted
  have hsep : ∀ d : Fin 2 → ℤ, d ≠ 0 → tol 4 ≤ nnorm (comb obVectors d) := by
    intro d hd
    rw [comb_ob]
    unfold nnorm tol
    apply Real.le_sqrt_of_sq_le
    rw [Fin.sum_univ_two]
    simp only [Matrix.cons_val_zero, Matrix.cons_val_one, Matrix.cons_val_fin_one]
    by_cases h1 : d 1 = 0
    · have h0 : d 0 ≠ 0 := fun h0 => hd (by funext q; fin_cases q <;> [exact h0; exact h1])
      have : (1 : ℝ) ≤ (d 0 : ℝ) ^ 2 := by
        have : 1 ≤ (d 0) ^ 2 := by have := sq_nonneg (d 0); have : (d 0) ^ 2 ≠ 0 := pow_ne_zero _ h0; omega
        exact_mod_cast this
      rw [h1]; norm_num; linarith
    · have : (1 : ℝ) ≤ (d 1 : ℝ) ^ 2 := by
        have : 1 ≤ (d 1) ^ 2 := by have := sq_nonneg (d 1); have : (d 1) ^ 2 ≠ 0 := pow_ne_zero _ h1; omega
        exact_mod_cast this
      nlinarith [sq_nonneg ((d 0 : ℝ) + d 1 * (5 / 2))]
  rw [← C49_one_point_exactly_when h hsep]
  intro hall
  obtain ⟨L', h', -, he⟩ := C49_violated_oblique
  rw [h] at h'
  obtain rfl := Except.ok.inj h'
  have := (hall 0 ![-5, 2]).1
  rw [he] at this
  simp at this

end Verif.Latt
