import Verif.Proofs.ShellStrips
import Verif.Props.NearestBonds
/-!
# C95, C96: the further neighbours of the built-in lattices

C95: when the `nth` distance is smaller than the width of the cluster in every direction, `bonds(nth)` is
exact.  C96: the second neighbours, for clusters of all sizes; it says on which clusters
`neighbor_distance(2)` and `bonds(2)` are wrong.
-/

namespace Verif.LDB

open Verif.Latt

variable {m : ℕ} {prec nth : ℕ} {n0 n1 n2 : ℤ} {d : ℝ}

/-- **C95.** `d` is the `nth` distance of the infinite lattice, small enough for the float precision to
tell it from the next one, and the cluster is wider than `d`. -/
theorem C95_shells (hp : 1 ≤ prec) (h0 : 1 ≤ n0) (h1 : 1 ≤ n1) (h2 : 1 ≤ n2) (htwo : 2 ≤ nth)
    (hd : 12 * d + 1 ≤ 10 ^ prec) :
    (IsNthDistance chainSites nth d → d < n0 →
      FindsShell prec chainSites nth d (latticeGenerator prec "chain" n0 n1 n2)) ∧
    (IsNthDistance squareSites nth d → d < n0 → d < n1 →
      FindsShell prec squareSites nth d (latticeGenerator prec "square" n0 n1 n2)) ∧
    (IsNthDistance cubicSites nth d → d < n0 → d < n1 → d < n2 →
      FindsShell prec cubicSites nth d (latticeGenerator prec "cubic" n0 n1 n2)) ∧
    (IsNthDistance triangleSites nth d → 2 / Real.sqrt 3 * d < n0 → 2 / Real.sqrt 3 * d < n1 →
      FindsShell prec triangleSites nth d (latticeGenerator prec "triangle" n0 n1 n2)) ∧
    (IsNthDistance honeycombSites nth d → 2 / Real.sqrt 3 * d + 2 / 3 < n0 →
      2 / Real.sqrt 3 * d + 2 / 3 < n1 →
      FindsShell prec honeycombSites nth d (latticeGenerator prec "honeycomb" n0 n1 n2)) ∧
    (IsNthDistance kagomeSites nth d → 2 / Real.sqrt 3 * d + 1 / 2 < n0 → 2 / Real.sqrt 3 * d + 1 / 2 < n1 →
      FindsShell prec kagomeSites nth d (latticeGenerator prec "kagome" n0 n1 n2)) :=
  ⟨fun h w0 => shell_chain hp h0 h1 h2 htwo h hd w0,
    fun h w0 w1 => shell_square hp h0 h1 h2 htwo h hd w0 w1,
    fun h w0 w1 w2 => shell_cubic hp h0 h1 h2 htwo h hd w0 w1 w2,
    fun h w0 w1 => shell_triangle hp h0 h1 h2 htwo h hd w0 w1,
    fun h w0 w1 => shell_honeycomb hp h0 h1 h2 htwo h hd w0 w1,
    fun h w0 w1 => shell_kagome hp h0 h1 h2 htwo h hd w0 w1⟩

/-- **C96 (the second distances).** -/
theorem C96_second_distance :
    IsNthDistance chainSites 2 2 ∧ IsNthDistance squareSites 2 (Real.sqrt 2) ∧
    IsNthDistance cubicSites 2 (Real.sqrt 2) ∧ IsNthDistance triangleSites 2 (Real.sqrt 3) ∧
    IsNthDistance honeycombSites 2 1 ∧ IsNthDistance kagomeSites 2 (Real.sqrt 3 / 2) :=
  ⟨chain_second.isNth, square_second.isNth, cubic_second.isNth, triangle_second.isNth,
    honeycomb_second.isNth, kagome_second.isNth⟩

theorem half_tol_lt (hp : 2 ≤ prec) : tol prec / 2 < 1 / 100 := by
  have h1 : (100 : ℝ) ≤ 10 ^ prec := by
    calc (100 : ℝ) = 10 ^ 2 := by norm_num
      _ ≤ 10 ^ prec := pow_le_pow_right₀ (by norm_num) hp
  have e : (10 : ℝ) ^ prec * tol prec = 1 := by unfold tol; field_simp
  have := tol_pos prec
  nlinarith

theorem sqrt3_lt' : Real.sqrt 3 < 19 / 10 := by
  rw [Real.sqrt_lt' (by norm_num)]; norm_num

/-- **C96 (second neighbours).** On chain, honeycomb and kagome clusters of every size, and on square and
cubic clusters exactly when they are not a straight line of three or more sites, `bonds(2)` is exact.  A
triangular cluster must not be a line of three or more sites, and if one of its sizes is one, `√3` must
not be rounded down. -/
theorem C96_second (hp : 2 ≤ prec) (h0 : 1 ≤ n0) (h1 : 1 ≤ n1) (h2 : 1 ≤ n2) :
    FindsShell prec chainSites 2 2 (latticeGenerator prec "chain" n0 n1 n2) ∧
    FindsShell prec honeycombSites 2 1 (latticeGenerator prec "honeycomb" n0 n1 n2) ∧
    FindsShell prec kagomeSites 2 (Real.sqrt 3 / 2) (latticeGenerator prec "kagome" n0 n1 n2) ∧
    (FindsShell prec squareSites 2 (Real.sqrt 2) (latticeGenerator prec "square" n0 n1 n2) ↔
      ¬ ((n0 = 1 ∧ 3 ≤ n1) ∨ (n1 = 1 ∧ 3 ≤ n0))) ∧
    (FindsShell prec cubicSites 2 (Real.sqrt 2) (latticeGenerator prec "cubic" n0 n1 n2) ↔
      ¬ ((n0 = 1 ∧ n1 = 1 ∧ 3 ≤ n2) ∨ (n1 = 1 ∧ n2 = 1 ∧ 3 ≤ n0) ∨ (n2 = 1 ∧ n0 = 1 ∧ 3 ≤ n1))) ∧
    (FindsShell prec triangleSites 2 (Real.sqrt 3) (latticeGenerator prec "triangle" n0 n1 n2) ↔
      ¬ ((n0 = 1 ∧ 3 ≤ n1) ∨ (n1 = 1 ∧ 3 ≤ n0)) ∧
        (2 ≤ n0 ∧ 2 ≤ n1 ∨ Real.sqrt 3 ≤ roundTo prec (Real.sqrt 3))) := by
  have ht := half_tol_lt hp
  have s2 := sqrt2_lt
  have s3 := sqrt3_lt'
  refine ⟨second_chain hp h0 h1 h2, second_honeycomb hp h0 h1 h2, second_kagome hp h0 h1 h2,
    ⟨fun h hn => ?_, second_square hp h0 h1 h2⟩, ⟨fun h hn => ?_, second_cubic hp h0 h1 h2⟩,
    ⟨fun h => ⟨fun hn => ?_, ?_⟩, fun h => second_triangle hp h0 h1 h2 h.1 h.2⟩⟩
  · exact not_finds_of_two (strip_square hp h0 h1 h2 hn) (by linarith) h
  · exact not_finds_of_two (strip_cubic hp h0 h1 h2 hn) (by linarith) h
  · exact not_finds_of_two (strip_triangle hp h0 h1 h2 hn) (by linarith) h
  · by_contra hc
    push Not at hc
    exact triangle_down hp h0 h1 h2 (by
      by_contra h'
      push Not at h'
      exact absurd (hc.1 (by omega)) (by omega)) hc.2 h

/-- **C96 (lines).** On a square, cubic or triangular lattice generated as a straight line of three or more
sites, `neighbor_distance(2)` is `2`, the distance of second neighbours along the line, although the
lattice has sites at distance `√2` (`√3`). -/
theorem C96_lines (hp : 2 ≤ prec) (h0 : 1 ≤ n0) (h1 : 1 ≤ n1) (h2 : 1 ≤ n2) :
    ((n0 = 1 ∧ 3 ≤ n1) ∨ (n1 = 1 ∧ 3 ≤ n0) →
      ReportsTwo 2 prec (latticeGenerator prec "square" n0 n1 n2) ∧
      ReportsTwo 2 prec (latticeGenerator prec "triangle" n0 n1 n2)) ∧
    ((n0 = 1 ∧ n1 = 1 ∧ 3 ≤ n2) ∨ (n1 = 1 ∧ n2 = 1 ∧ 3 ≤ n0) ∨ (n2 = 1 ∧ n0 = 1 ∧ 3 ≤ n1) →
      ReportsTwo 3 prec (latticeGenerator prec "cubic" n0 n1 n2)) :=
  ⟨fun h => ⟨strip_square hp h0 h1 h2 h, strip_triangle hp h0 h1 h2 h⟩, strip_cubic hp h0 h1 h2⟩

theorem sqrt3_bounds : (173205 : ℝ) / 100000 < Real.sqrt 3 ∧ Real.sqrt 3 < 1732051 / 1000000 := by
  constructor
  · rw [Real.lt_sqrt (by norm_num)]; norm_num
  · rw [Real.sqrt_lt' (by norm_num)]; norm_num

/-- **C96 (which precisions).** The default precision of four digits rounds `√3` up, five digits round it
down. -/
theorem C96_precision : Real.sqrt 3 ≤ roundTo 4 (Real.sqrt 3) ∧ roundTo 5 (Real.sqrt 3) < Real.sqrt 3 := by
  obtain ⟨h1, h2⟩ := sqrt3_bounds
  constructor
  · have : rint (Real.sqrt 3 * 10 ^ 4) = 17321 := rint_of_near (by
      rw [abs_lt]; push_cast; constructor <;> linarith)
    rw [roundTo, this]
    push_cast
    linarith
  · have : rint (Real.sqrt 3 * 10 ^ 5) = 173205 := rint_of_near (by
      rw [abs_lt]; push_cast; constructor <;> linarith)
    rw [roundTo, this]
    push_cast
    linarith

/-- C95 on a 2 by 3 square cluster: the diagonals, at the default precision, after `neighbor_distance(7)`. -/
example : ∃ (n : ℕ) (L0 : Lat n 2 2), latticeGenerator 4 "square" 2 3 1 = .ok ⟨n, 2, 2, L0⟩ ∧
    ∃ L' intra inter, bonds id (fun _ => id) 4 (after id (fun _ => id) 4 L0 (.neighborDistance 7)) 2 true false =
      some (L', .ok (intra, some inter)) ∧
    ∃! b, b ∈ intra ++ inter ∧ SameBond L0.vectors b (![0, 0], ![-1, 1]) := by
  have s2 := sqrt2_lt
  obtain ⟨n, L0, h1, h2⟩ := (C95_shells (prec := 4) (nth := 2) (n0 := 2) (n1 := 3) (n2 := 1) (by norm_num)
    (by norm_num) (by norm_num) (by norm_num) le_rfl (d := Real.sqrt 2) (by norm_num; linarith)).2.1
    C96_second_distance.2.1 (by push_cast; linarith) (by push_cast; linarith)
  obtain ⟨-, ⟨L', intra, inter, h3, h4⟩, -⟩ := h2 id (fun l => List.Perm.refl l) (fun _ => id)
    (fun _ l => List.Perm.refl l) [.neighborDistance 7] true
  refine ⟨n, L0, h1, L', intra, inter, h3, h4.each _ ⟨0, 0, by simp⟩ _ ⟨-1, 1, by simp⟩ ?_⟩
  change ndist _ _ = Real.sqrt 2
  rw [ndist_eq_iff (Real.sqrt_nonneg _), Fin.sum_univ_two, two_sq]
  norm_num

/-- C96 on a line: `lattice_generator("square", num0=3)` reports the second distance as two. -/
example : ReportsTwo 2 4 (latticeGenerator 4 "square" 3 1 1) ∧
    ¬ FindsShell 4 squareSites 2 (Real.sqrt 2) (latticeGenerator 4 "square" 3 1 1) := by
  refine ⟨((C96_lines (by norm_num) (by norm_num) le_rfl le_rfl).1 (by norm_num)).1, fun h => ?_⟩
  exact (C96_second (by norm_num) (by norm_num) le_rfl le_rfl).2.2.2.1.1 h (by norm_num)

/-- C96 on a triangular cell: exact with four digits, not with five. -/
example : FindsShell 4 triangleSites 2 (Real.sqrt 3) (latticeGenerator 4 "triangle" 1 1 1) ∧
    ¬ FindsShell 5 triangleSites 2 (Real.sqrt 3) (latticeGenerator 5 "triangle" 1 1 1) := by
  refine ⟨(C96_second (by norm_num) le_rfl le_rfl le_rfl).2.2.2.2.2.2
    ⟨by norm_num, Or.inr C96_precision.1⟩, fun h => ?_⟩
  rcases ((C96_second (by norm_num) le_rfl le_rfl le_rfl).2.2.2.2.2.1 h).2 with h' | h'
  · norm_num at h'
  · exact absurd h' (not_le.2 C96_precision.2)

end Verif.LDB
