import Verif.Proofs.KPath
import Verif.Proofs.PandC
import Mathlib.Algebra.BigOperators.Fin
import Mathlib.Tactic.NormNum
import Mathlib.Tactic.IntervalCases
/-!
# C55: `KPath`
-/

namespace Verif.KP

variable {m : ℕ}

/-- C55, errors.  AssertionError for `min_num < 1`, fewer than two points or points that are not
two- or three-dimensional; ValueError if two neighbouring anchors are closer than 1e-4 (for a loop
also the last and the first); otherwise the call returns. -/
theorem C55_errors (count : ℤ → ℝ → ℝ → ℕ) (points : List (KPoint m)) (minNum : ℤ) (loop : Bool) :
    (kpath count points minNum loop = .error .assertionError ↔
      ¬ (1 ≤ minNum ∧ 2 ≤ points.length ∧ (m = 2 ∨ m = 3))) ∧
    (kpath count points minNum loop = .error .valueError ↔
      (1 ≤ minNum ∧ 2 ≤ points.length ∧ (m = 2 ∨ m = 3)) ∧
      ∃ i < segments points loop, segLen points i < 1 / 10000) ∧
    ((∃ r, kpath count points minNum loop = .ok r) ↔
      (1 ≤ minNum ∧ 2 ≤ points.length ∧ (m = 2 ∨ m = 3)) ∧
      ∀ i < segments points loop, 1 / 10000 ≤ segLen points i) := by
  by_cases h1 : 1 ≤ minNum
  swap
  · have : kpath count points minNum loop = .error .assertionError := by
      simp [kpath, pyAssert, h1, bind, Except.bind]
    rw [this]; simp [h1]
  by_cases h2 : 1 < points.length
  swap
  · have : kpath count points minNum loop = .error .assertionError := by
      simp [kpath, pyAssert, h1, h2, bind, Except.bind]
    rw [this]
    have h2' : ¬ 2 ≤ points.length := by omega
    simp [h2']
  by_cases h3 : m = 2 ∨ m = 3
  swap
  · have : kpath count points minNum loop = .error .assertionError := by
      simp [kpath, pyAssert, h1, h2, h3, bind, Except.bind]
    rw [this]
    simp [h3]
  have hP : (1 ≤ minNum ∧ 2 ≤ points.length ∧ (m = 2 ∨ m = 3)) := ⟨h1, h2, h3⟩
  obtain ⟨hlen, hget⟩ := dRs_get points loop h2
  set pts := points ++ points with hpts
  set e := (if loop then points.length + 1 else points.length) with he
  set dRs := List.zipWith (fun a b : KPoint m => a - b) ((pts.take e).drop 1) (pts.take (e - 1))
    with hdRs
  have hseg : 0 < segments points loop := by unfold segments; split_ifs <;> omega
  have hne : dRs.map len ≠ [] := by
    intro h0
    have := congrArg List.length h0
    simp [hlen] at this
    omega
  have hmemL : ∀ x, x ∈ dRs.map len ↔ ∃ i < segments points loop, x = segLen points i := by
    intro x
    constructor
    · intro hx
      obtain ⟨v, hv, rfl⟩ := List.mem_map.mp hx
      obtain ⟨i, hi, rfl⟩ := List.mem_iff_getElem.mp hv
      have hi' : i < segments points loop := hlen ▸ hi
      have := (hget i hi').1
      rw [List.getElem?_eq_getElem hi] at this
      exact ⟨i, hi', by rw [Option.some.inj this]; rfl⟩
    · rintro ⟨i, hi, rfl⟩
      exact List.mem_map.mpr ⟨_, List.mem_of_getElem? (hget i hi).1, rfl⟩
  have hlast : ∃ p, pts[e - 1]? = some p := by
    have hlt : e - 1 < pts.length := by
      simp only [he, hpts, List.length_append]; split_ifs <;> omega
    exact ⟨_, List.getElem?_eq_getElem hlt⟩
  obtain ⟨last, hlast⟩ := hlast
  by_cases hm : listMin (dRs.map len) < 1 / 10000
  · have : kpath count points minNum loop = .error .valueError := by
      simp only [kpath, pyAssert, h1, h2, h3, decide_true, if_true, bind, Except.bind]
      rw [if_pos hm]
    have hex : ∃ i < segments points loop, segLen points i < 1 / 10000 := by
      obtain ⟨i, hi, h⟩ := (hmemL _).mp (listMin_mem _ hne)
      exact ⟨i, hi, by rw [← h]; exact hm⟩
    rw [this]
    refine ⟨by simp [hP], by simpa [hP] using hex, ?_⟩
    constructor
    · rintro ⟨r, hr⟩; cases hr
    · rintro ⟨-, hall⟩
      obtain ⟨i, hi, h⟩ := hex
      have := hall i hi
      linarith
  · have hall : ∀ i < segments points loop, 1 / 10000 ≤ segLen points i := by
      intro i hi
      have := listMin_le _ _ ((hmemL _).mpr ⟨i, hi, rfl⟩)
      linarith
    have : ∃ r, kpath count points minNum loop = .ok r := by
      simp only [kpath, pyAssert, h1, h2, h3, decide_true, if_true, bind, Except.bind]
      rw [if_neg hm]
      simp only [pure, Except.pure]
      rw [← hpts, ← he, hlast]
      exact ⟨_, rfl⟩
    refine ⟨?_, ?_, ⟨fun _ => ⟨hP, hall⟩, fun _ => this⟩⟩
    · obtain ⟨r, hr⟩ := this
      rw [hr]; simp [hP]
    · obtain ⟨r, hr⟩ := this
      rw [hr]
      constructor
      · intro h; cases h
      · rintro ⟨-, i, hi, h⟩
        have := hall i hi
        linarith

/-- C55, the path.  Whatever way of computing the sample counts (provided they are positive): the
returned points run straight and equally spaced through the anchors, and the indices are the
positions of the anchors, including the return to the first one of a loop. -/
theorem C55_path (count : ℤ → ℝ → ℝ → ℕ) {points : List (KPoint m)} {minNum : ℤ} {loop : Bool}
    {ks : List (KPoint m)} {idx : List ℕ} (h : kpath count points minNum loop = .ok (ks, idx)) :
    ∃ minLength, (∃ i < segments points loop, segLen points i = minLength) ∧
      (∀ i < segments points loop, minLength ≤ segLen points i) ∧ 1 / 10000 ≤ minLength ∧
      ((∀ i < segments points loop, 1 ≤ count minNum (segLen points i) minLength) →
        IsSampledPath (anchor points) (segments points loop)
          (fun i => count minNum (segLen points i) minLength) ks idx) := by
  obtain ⟨⟨h1, h2, h3⟩, hall⟩ := (C55_errors count points minNum loop).2.2.mp ⟨_, h⟩
  obtain ⟨hlen, hget⟩ := dRs_get points loop h2
  set pts := points ++ points with hpts
  set e := (if loop then points.length + 1 else points.length) with he
  set dRs := List.zipWith (fun a b : KPoint m => a - b) ((pts.take e).drop 1) (pts.take (e - 1))
    with hdRs
  have h2' : 1 < points.length := h2
  have hseg : 0 < segments points loop := by unfold segments; split_ifs <;> omega
  have he1 : e - 1 = segments points loop := by
    simp only [he, segments]; split_ifs <;> omega
  have hne : dRs.map len ≠ [] := by
    intro h0
    have := congrArg List.length h0
    simp [hlen] at this
    omega
  have hL : ∀ i < segments points loop, (dRs.map len)[i]? = some (segLen points i) := by
    intro i hi
    rw [List.getElem?_map, (hget i hi).1]
    rfl
  have hmemL : ∀ x, x ∈ dRs.map len → ∃ i < segments points loop, segLen points i = x := by
    intro x hx
    obtain ⟨i, hi, rfl⟩ := List.mem_iff_getElem.mp hx
    have hi' : i < segments points loop := by simpa [hlen] using hi
    have := hL i hi'
    rw [List.getElem?_eq_getElem hi] at this
    exact ⟨i, hi', (Option.some.inj this).symm⟩
  set minL := listMin (dRs.map len) with hminL
  obtain ⟨i0, hi0, hi0e⟩ := hmemL _ (listMin_mem _ hne)
  refine ⟨minL, ⟨i0, hi0, hi0e⟩, ?_, ?_, ?_⟩
  · intro i hi
    exact listMin_le _ _ (List.mem_of_getElem? (hL i hi))
  · rw [hminL, ← hi0e]; exact hall i0 hi0
  intro hpos
  have hm : ¬ minL < 1 / 10000 := by
    rw [hminL, ← hi0e]; exact not_lt.mpr (hall i0 hi0)
  have hlast : pts[e - 1]? = some (anchor points (segments points loop)) := by
    have := (hget (segments points loop - 1) (by omega)).2.2
    rw [he1]
    rwa [show segments points loop - 1 + 1 = segments points loop by omega] at this
  simp only [kpath, pyAssert, h1, h2', h3, decide_true, if_true, bind, Except.bind] at h
  rw [if_neg hm] at h
  simp only [pure, Except.pure] at h
  rw [← hpts, ← he, hlast] at h
  simp only [Except.ok.injEq, Prod.mk.injEq] at h
  obtain ⟨hks, hidx⟩ := h
  set nums := (dRs.map len).map (fun l => count minNum l minL) with hnums
  set segs := (nums.zip (dRs.zip pts)).map (fun p => segment p.1 p.2.1 p.2.2) with hsegs
  have hnlen : nums.length = segments points loop := by simp [hnums, hlen]
  have hnget : ∀ i < segments points loop,
      nums[i]? = some (count minNum (segLen points i) minL) := by
    intro i hi
    rw [hnums, List.getElem?_map, hL i hi]
    rfl
  have hsget : ∀ i < segments points loop, segs[i]? =
      some (segment (count minNum (segLen points i) minL)
        (anchor points (i + 1) - anchor points i) (anchor points i)) := by
    intro i hi
    rw [hsegs, List.getElem?_map, List.zip, List.getElem?_zipWith, hnget i hi, List.zip,
      List.getElem?_zipWith, (hget i hi).1, (hget i hi).2.1]
    rfl
  have hple : segments points loop ≤ pts.length := by
    have : segments points loop ≤ points.length := by unfold segments; split_ifs <;> omega
    simp only [hpts, List.length_append]; omega
  have hslen : segs.length = segments points loop := by
    simp only [hsegs, List.length_map, List.length_zip, hnlen, hlen]
    omega
  have hmapnum : segs.map List.length = nums := by
    apply List.ext_getElem?
    intro i
    by_cases hi : i < segments points loop
    · rw [List.getElem?_map, hsget i hi, hnget i hi]
      simp [segment]
    · rw [List.getElem?_eq_none (by simp [hslen]; omega),
        List.getElem?_eq_none (by omega)]
  have htake : ∀ i, ((segs.take i).map List.length).sum = (nums.take i).sum := by
    intro i
    rw [List.map_take, hmapnum]
  have hidxget : ∀ i ≤ segments points loop, idx[i]? = some (nums.take i).sum := by
    intro i hi
    rw [← hidx]
    exact indices_get nums i (by omega)
  have hflen : segs.flatten.length = nums.sum := by
    rw [List.length_flatten, hmapnum]
  have hfull : nums.take (segments points loop) = nums := List.take_of_length_le (by omega)
  -- the start of segment i (also for the end of the path)
  have hstart : ∀ i ≤ segments points loop,
      ks[(nums.take i).sum]? = some (anchor points i) := by
    intro i hi
    rw [← hks]
    rcases Nat.lt_or_eq_of_le hi with hlt | rfl
    · have h0 : (nums.take i).sum < segs.flatten.length := by
        rw [hflen]
        have h5 : nums.sum = (nums.take i).sum + (nums.drop i).sum := by
          rw [← List.sum_append, List.take_append_drop]
        have h6 : nums.drop i = count minNum (segLen points i) minL :: nums.drop (i + 1) := by
          have hi' : i < nums.length := by omega
          rw [List.drop_eq_getElem_cons hi']
          congr 1
          have := hnget i hlt
          rw [List.getElem?_eq_getElem hi'] at this
          exact Option.some.inj this
        rw [h6, List.sum_cons] at h5
        have := hpos i hlt
        omega
      rw [List.getElem?_append_left h0]
      have h7 := flatten_get segs i 0 _ (hsget i hlt) (by simp only [segment, List.length_map, List.length_range]; exact hpos i hlt)
      rw [add_zero, htake] at h7
      rw [h7]
      have := hpos i hlt
      simp only [segment, List.getElem?_map]
      rw [List.getElem?_range (by omega)]
      simp
    · rw [hfull, List.getElem?_append_right (by omega), hflen]
      simp
  refine ⟨?_, ?_, ?_, ?_, ?_⟩
  · rw [← hidx]; simp [cumsum_length, hnlen]
  · rw [hidxget 0 (by omega)]; simp
  · intro i hi
    refine ⟨_, hidxget i (by omega), ?_⟩
    rw [hidxget (i + 1) (by omega)]
    congr 1
    rw [List.take_add_one, hnget i hi]
    simp
  · intro a ha
    rw [hidxget _ (le_refl _), hfull] at ha
    rw [← Option.some.inj ha, ← hks]
    simp only [List.length_append, List.length_singleton]
    rw [hflen]
  · intro i hi a ha q hq
    rw [hidxget i (by omega)] at ha
    rw [← Option.some.inj ha]
    rcases Nat.lt_or_eq_of_le hq with hlt | rfl
    · rw [← hks]
      have h7 := flatten_get segs i q _ (hsget i hi) (by simpa [segment] using hlt)
      rw [htake] at h7
      have hsome : segs.flatten[(nums.take i).sum + q]? =
          some (fun c => anchor points i c + (q : ℝ) / (count minNum (segLen points i) minL : ℕ) *
            (anchor points (i + 1) c - anchor points i c)) := by
        rw [h7]
        simp only [segment, List.getElem?_map]
        rw [List.getElem?_range hlt]
        simp only [Option.map_some, Option.some.injEq]
        funext c
        rw [Pi.sub_apply]
        ring
      rw [List.getElem?_append_left]
      · exact hsome
      · by_contra hc
        rw [List.getElem?_eq_none (by omega)] at hsome
        cases hsome
    · have h8 := hstart (i + 1) (by omega)
      rw [List.take_add_one, hnget i hi] at h8
      simp only [Option.toList_some, List.sum_append, List.sum_singleton] at h8
      rw [h8]
      congr 1
      funext c
      have hne0 : ((count minNum (segLen points i) minL : ℕ) : ℝ) ≠ 0 := by
        have := hpos i hi
        have h9 : count minNum (segLen points i) minL ≠ 0 := by omega
        exact_mod_cast h9
      rw [div_self hne0]
      ring

/-- C55, sample counts in exact arithmetic: every segment gets at least `min_num` steps, the
shortest ones exactly `min_num`, and the number is proportional to the length up to rounding
down. -/
theorem C55_counts {minNum : ℤ} (hn : 1 ≤ minNum) {l minL : ℝ} (hmin : 0 < minL) (hl : minL ≤ l) :
    minNum ≤ countExact minNum l minL ∧ 1 ≤ countExact minNum l minL ∧
    (l = minL → (countExact minNum l minL : ℤ) = minNum) ∧
    (countExact minNum l minL : ℝ) ≤ minNum * l / minL ∧
    minNum * l / minL < countExact minNum l minL + 1 := by
  have hn' : (1 : ℝ) ≤ minNum := by exact_mod_cast hn
  have hge : (minNum : ℝ) ≤ minNum * l / minL := by
    rw [le_div_iff₀ hmin]
    nlinarith
  have hfl : minNum ≤ ⌊minNum * l / minL⌋ := Int.le_floor.mpr hge
  have hcast : (countExact minNum l minL : ℤ) = ⌊minNum * l / minL⌋ := by
    unfold countExact
    exact Int.toNat_of_nonneg (by omega)
  have hcastR : (countExact minNum l minL : ℝ) = (⌊minNum * l / minL⌋ : ℝ) := by
    exact_mod_cast hcast
  refine ⟨by rw [hcast]; exact hfl, by omega, ?_, ?_, ?_⟩
  · rintro rfl
    rw [hcast, mul_div_assoc, div_self hmin.ne', mul_one]
    exact Int.floor_intCast _
  · rw [hcastR]; exact Int.floor_le _
  · rw [hcastR]; exact Int.lt_floor_add_one _

/-- C55 in exact arithmetic, put together. -/
theorem C55_exact {points : List (KPoint m)} {minNum : ℤ} {loop : Bool}
    {ks : List (KPoint m)} {idx : List ℕ}
    (h : kpath countExact points minNum loop = .ok (ks, idx)) :
    ∃ nums : ℕ → ℕ, IsSampledPath (anchor points) (segments points loop) nums ks idx ∧
      (∀ i < segments points loop, minNum ≤ nums i) ∧
      (∀ i < segments points loop, (∀ j < segments points loop, segLen points i ≤ segLen points j) →
        (nums i : ℤ) = minNum) := by
  have hn := ((C55_errors countExact points minNum loop).2.2.mp ⟨_, h⟩).1.1
  obtain ⟨minL, ⟨i0, hi0, hi0e⟩, hle, hpos, hpath⟩ := C55_path countExact h
  have hm : 0 < minL := by linarith [show (0 : ℝ) < 1 / 10000 by norm_num]
  refine ⟨_, hpath fun i hi => (C55_counts hn hm (hle i hi)).2.1,
    fun i hi => (C55_counts hn hm (hle i hi)).1, ?_⟩
  intro i hi hmin
  refine (C55_counts hn hm (hle i hi)).2.2.1 ?_
  have := hmin i0 hi0
  rw [hi0e] at this
  exact le_antisymm this (hle i hi)

/-- Non-vacuity: a triangle. -/
example : ∃ r, kpath countExact [![0, 0], ![1, 0], ![0, 2]] 100 true = .ok r := by
  rw [(C55_errors countExact _ 100 true).2.2]
  refine ⟨by norm_num, ?_⟩
  intro i hi
  have h01 : (1 / 10000 : ℝ) ≤ 1 := by norm_num
  have hi' : i < 3 := hi
  interval_cases i
  · simp only [segLen, anchor, len]
    apply le_trans h01
    apply Real.le_sqrt_of_sq_le
    simp [Fin.sum_univ_two]
  · simp only [segLen, anchor, len]
    apply le_trans h01
    apply Real.le_sqrt_of_sq_le
    simp [Fin.sum_univ_two]
  · simp only [segLen, anchor, len]
    apply le_trans h01
    apply Real.le_sqrt_of_sq_le
    simp [Fin.sum_univ_two]

/-- C55 in double arithmetic, what is left of the count bound: with `min_num ≤ 2^50` and lengths
that are doubles not below the accepted 1e-4, the shortest segment gets `min_num` or
`min_num - 1` steps, and every other segment at least `min_num - 1`. -/
theorem C55_float_counts_partial {minNum : ℤ} (hn : 1 ≤ minNum) (hn' : minNum ≤ 2 ^ 50)
    {l minL : ℚ} (hmin : 1 / 10000 ≤ minL) (hl : minL ≤ l) :
    minNum - 1 ≤ countFloat minNum l minL ∧
    (l = minL → countFloat minNum l minL ≤ minNum) := by
  have hnq : (1 : ℚ) ≤ minNum := by exact_mod_cast hn
  have hnq' : (minNum : ℚ) ≤ 2 ^ 50 := by exact_mod_cast hn'
  have hmpos : 0 < minL := by linarith [show (0 : ℚ) < 1 / 10000 by norm_num]
  have hnl : (0 : ℚ) < minNum * minL := by positivity
  have hsmall : (1 : ℚ) / 2 ^ 1075 ≤ (1 / 10000) / 2 ^ 53 := by
    have h1075 : (2 : ℚ) ^ 1075 = 2 ^ 53 * 2 ^ 1022 := (pow_add 2 53 1022)
    rw [h1075, ← div_div, div_right_comm]
    apply div_le_div_of_nonneg_right _ (by positivity)
    have h14 : (2 : ℚ) ^ 14 ≤ 2 ^ 1022 := pow_le_pow_right₀ (by norm_num) (by norm_num)
    apply one_div_le_one_div_of_le (by norm_num)
    exact le_trans (by norm_num) h14
  have herr := flRat_error (minNum * minL)
  rw [abs_of_pos hnl] at herr
  have herr' : |flRat (minNum * minL) - minNum * minL| ≤ 2 * (minNum * minL) / 2 ^ 53 := by
    refine le_trans herr ?_
    have : (1 / 10000 : ℚ) ≤ minNum * minL := by nlinarith
    have h2 : (1 / 10000 : ℚ) / 2 ^ 53 ≤ minNum * minL / 2 ^ 53 :=
      div_le_div_of_nonneg_right this (by positivity)
    have h3 : 2 * (minNum * minL) / 2 ^ 53 = minNum * minL / 2 ^ 53 + minNum * minL / 2 ^ 53 := by
      ring
    rw [h3]
    linarith
  obtain ⟨hlo, hhi⟩ := abs_le.mp herr'
  have hq1 : (minNum : ℚ) - 1 / 2 ≤ flRat (minNum * minL) / minL := by
    rw [le_div_iff₀ hmpos]
    have h4 : 2 * (minNum * minL) / 2 ^ 53 ≤ minL / 2 := by
      rw [div_le_iff₀ (by positivity)]
      have h5 : 2 * (minNum : ℚ) ≤ 1 / 2 * 2 ^ 53 := by
        refine le_trans (mul_le_mul_of_nonneg_left hnq' (by norm_num)) (by norm_num)
      nlinarith
    nlinarith
  have hq2 : flRat (minNum * minL) / minL ≤ (minNum : ℚ) + 1 / 2 := by
    rw [div_le_iff₀ hmpos]
    have h4 : 2 * (minNum * minL) / 2 ^ 53 ≤ minL / 2 := by
      rw [div_le_iff₀ (by positivity)]
      have h5 : 2 * (minNum : ℚ) ≤ 1 / 2 * 2 ^ 53 := by
        refine le_trans (mul_le_mul_of_nonneg_left hnq' (by norm_num)) (by norm_num)
      nlinarith
    nlinarith
  have hhalf : ∀ z : ℤ, |z| ≤ 2 ^ 53 → flRat ((z : ℚ) / 2) = (z : ℚ) / 2 := by
    intro z hz
    have := flRat_exact z (-1) hz (by norm_num)
    rw [zpow_neg_one] at this
    rwa [div_eq_mul_inv]
  have hb1 : |2 * minNum - 1| ≤ 2 ^ 53 := by
    rw [abs_le]; constructor <;> omega
  have hb2 : |2 * minNum + 1| ≤ 2 ^ 53 := by
    rw [abs_le]; constructor <;> omega
  have hf1 : flRat ((minNum : ℚ) - 1 / 2) = (minNum : ℚ) - 1 / 2 := by
    have := hhalf _ hb1
    have e : ((2 * minNum - 1 : ℤ) : ℚ) / 2 = (minNum : ℚ) - 1 / 2 := by push_cast; ring
    rwa [e] at this
  have hf2 : flRat ((minNum : ℚ) + 1 / 2) = (minNum : ℚ) + 1 / 2 := by
    have := hhalf _ hb2
    have e : ((2 * minNum + 1 : ℤ) : ℚ) / 2 = (minNum : ℚ) + 1 / 2 := by push_cast; ring
    rwa [e] at this
  constructor
  · have hmono : flRat (minNum * minL) / minL ≤ flRat (minNum * l) / minL :=
      div_le_div_of_nonneg_right (flRat_mono (by nlinarith)) hmpos.le
    have h6 : (minNum : ℚ) - 1 / 2 ≤ flRat (flRat (minNum * l) / minL) := by
      rw [← hf1]; exact flRat_mono (le_trans hq1 hmono)
    have h7 := truncRat_mono h6
    unfold countFloat
    refine le_trans ?_ h7
    unfold truncRat
    rw [if_pos (by linarith)]
    rw [Int.le_floor]
    push_cast
    linarith
  · rintro rfl
    have h6 : flRat (flRat (minNum * l) / l) ≤ (minNum : ℚ) + 1 / 2 := by
      rw [← hf2]; exact flRat_mono hq2
    have h7 := truncRat_mono h6
    unfold countFloat
    refine le_trans h7 ?_
    unfold truncRat
    rw [if_pos (by linarith)]
    have : ⌊(minNum : ℚ) + 1 / 2⌋ < minNum + 1 := by
      rw [Int.floor_lt]; push_cast; linarith
    omega

/-- C55 does not hold in double arithmetic as stated: the length `0.081` (the double nearest to it)
and the default `min_num = 100` give `int(100 * 0.081 / 0.081) = 99` samples on the shortest
segment. -/
theorem C55_float_violation :
    IsDouble (5836665117072163 / 2 ^ 56) ∧ |(5836665117072163 / 2 ^ 56 : ℚ) - 81 / 1000| < 1 / 10 ^ 17 ∧
    countFloat 100 (5836665117072163 / 2 ^ 56) (5836665117072163 / 2 ^ 56) = 99 := by
  refine ⟨⟨?_, ?_⟩, ?_, ?_⟩
  · have := flRat_exact 5836665117072163 (-56) (by norm_num) (by norm_num)
    have e : ((5836665117072163 : ℤ) : ℚ) * 2 ^ (-56 : ℤ) = 5836665117072163 / 2 ^ 56 := by
      norm_num
    rwa [e] at this
  · have big : (2 : ℚ) ^ 1 ≤ 2 ^ 1024 := pow_le_pow_right₀ (by norm_num) (by norm_num)
    refine lt_of_lt_of_le ?_ big
    rw [abs_of_pos (by norm_num)]
    norm_num
  · rw [abs_lt]; constructor <;> norm_num
  · unfold countFloat
    have f1 : flRat ((100 : ℤ) * (5836665117072163 / 2 ^ 56)) = 4559894622712627 / 2 ^ 49 := by
      rw [flRat_eval _ (-49) 4559894622712627 (by norm_num) (by norm_num) (by norm_num)]
      · norm_num
      · unfold roundHalfEven
        have : ⌊(((100 : ℤ) : ℚ) * (5836665117072163 / 2 ^ 56)) / 2 ^ (-49 : ℤ)⌋ =
            4559894622712627 := by
          rw [Int.floor_eq_iff]; norm_num
        rw [this]; norm_num
    have f2 : flRat ((4559894622712627 / 2 ^ 49 : ℚ) / (5836665117072163 / 2 ^ 56)) =
        7036874417766399 * 2 ^ (-46 : ℤ) := by
      rw [flRat_eval _ (-46) 7036874417766399 (by norm_num) (by norm_num) (by norm_num)]
      · norm_num
      · unfold roundHalfEven
        have : ⌊((4559894622712627 / 2 ^ 49 : ℚ) / (5836665117072163 / 2 ^ 56)) / 2 ^ (-46 : ℤ)⌋ =
            7036874417766399 := by
          rw [Int.floor_eq_iff]; norm_num
        rw [this]; norm_num
    rw [f1, f2]
    unfold truncRat
    rw [if_pos (by norm_num), Int.floor_eq_iff]
    norm_num

end Verif.KP
