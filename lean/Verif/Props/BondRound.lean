import Verif.Proofs.BondRound
/-!
# C119: lengths, displacements and azimuths rounded to `ndigits` digits
-/

set_option exponentiation.threshold 1100

namespace Verif

/-- **C119** (no rounding).  Without `ndigits` the methods return the unrounded values. -/
theorem C119_none (sqrt : F64 → F64) (b : Bond) (directional radian : Bool) (dr : List ℝ) :
    b.getLengthRound sqrt = b.getLength sqrt ∧ b.getDisplaceRound = b.getDisplace ∧
    exactAzimuthRound directional dr radian = exactAzimuth directional radian dr ∧
    exactAzimuthRound directional dr = exactAzimuth directional false dr := by
  have h : ∀ radian, exactAzimuthRound directional dr radian = exactAzimuth directional radian dr := by
    intro radian
    simp only [exactAzimuthRound]
    cases exactAzimuth directional radian dr with
    | error e => rfl
    | ok t => cases t <;> rfl
  refine ⟨rfl, ?_, h radian, h false⟩
  simp only [Bond.getDisplaceRound]
  cases b.getDisplace <;> rfl

/-- **C119** (length).  `getLength(n)`, for `-15 <= n <= 15`, is the double nearest to a multiple of `10**-n`, at most
half a unit `10**-n` away from the Euclidean distance (plus a relative error of `2**-48`). -/
theorem C119_length (zoom : ℤ) (p0 p1 : NpVec) (d : Bool) (b : Bond) (hb : Bond.init zoom p0 p1 d = .ok b)
    (xs ys : List ℚ) (h0 : p0.Holds xs) (h1 : p1.Holds ys) (sqrt : F64 → F64) (hs : RoundedSqrt sqrt)
    (n : ℤ) (hn : |n| ≤ 15) :
    ∃ (r : ℚ) (m : ℤ), b.getLengthRound sqrt (some n) = .fin r ∧ .fin r = fl (m * 10 ^ (-n)) ∧
      |(r : ℝ) - distance xs ys| ≤ (1 / 2 + 1 / 2 ^ 40) * 10 ^ (-n) + distance xs ys / 2 ^ 48 := by
  obtain ⟨q, hq, hq2⟩ := C110_length zoom p0 p1 d b hb xs ys h0 h1 sqrt hs
  have hd : distance xs ys ≤ 2 ^ 402 := by
    have hle : xs.length ≤ 3 := by
      have := (bond_init_ok_iff _ _ _ _ _).mp hb
      rw [holds_len h0]; omega
    have hx := holds_bound h0
    have hy := holds_bound h1
    rw [distance]
    refine Real.sqrt_le_iff.2 ⟨by positivity, ?_⟩
    have hb : ∀ z ∈ List.zipWith (fun x y : ℚ => ((x : ℝ) - y) ^ 2) xs ys, z ≤ 2 ^ 802 := by
      intro z hz
      rw [zipWith_as_map] at hz
      obtain ⟨⟨x, y⟩, hxy, rfl⟩ := List.mem_map.1 hz
      have a1 := hx x (List.of_mem_zip hxy).1
      have a2 := hy y (List.of_mem_zip hxy).2
      have a3 : |x - y| ≤ 2 ^ 401 := by
        have := abs_sub x y
        have e : (2 : ℚ) ^ 401 = 2 ^ 400 + 2 ^ 400 := by norm_num
        linarith
      have a4 : |(x : ℝ) - y| ≤ 2 ^ 401 := by exact_mod_cast a3
      have e : (2 : ℝ) ^ 802 = (2 ^ 401) ^ 2 := by norm_num
      rw [e]
      exact sq_le_sq' (by have := neg_abs_le ((x : ℝ) - y); linarith) ((le_abs_self _).trans a4)
    have h2 := List.sum_le_card_nsmul _ _ hb
    refine h2.trans ?_
    rw [List.length_zipWith, nsmul_eq_mul]
    have : ((min xs.length ys.length : ℕ) : ℝ) ≤ 3 := by
      have : min xs.length ys.length ≤ 3 := by omega
      exact_mod_cast this
    calc _ ≤ (3 : ℝ) * 2 ^ 802 := mul_le_mul_of_nonneg_right this (by positivity)
      _ ≤ (2 ^ 402) ^ 2 := by norm_num
  have hd0 : 0 ≤ distance xs ys := Real.sqrt_nonneg _
  have hqa : |(q : ℝ)| ≤ distance xs ys + (distance xs ys / 2 ^ 49 + 1 / 2 ^ 332) := by
    have := abs_sub_abs_le_abs_sub (q : ℝ) (distance xs ys)
    rw [abs_of_nonneg hd0] at this
    linarith
  have hqb : |q| ≤ 2 ^ 500 := by
    have : |(q : ℝ)| ≤ 2 ^ 500 := by
      refine hqa.trans ?_
      have : distance xs ys / 2 ^ 49 ≤ 2 ^ 402 := (div_le_self hd0 (by norm_num)).trans hd
      have e : (2 : ℝ) ^ 402 + (2 ^ 402 + 1 / 2 ^ 332) ≤ 2 ^ 500 := by norm_num
      linarith
    exact_mod_cast this
  refine ⟨_, unit n q, ?_, (fl_finite ((multiple_small hn hqb).trans (by norm_num))).symm, ?_⟩
  · simp only [Bond.getLengthRound, hq]
    exact around_fin hn hqb
  have h3 := around_near hn hqb
  have h4 : |((flRat (unit n q * 10 ^ (-n)) : ℚ) : ℝ) - q| ≤ (1 / 2 + 1 / 2 ^ 50) * 10 ^ (-n) + |(q : ℝ)| / 2 ^ 51 := by
    have := (Rat.cast_le (K := ℝ)).2 h3
    push_cast at this
    exact this
  have h5 := abs_sub_le ((flRat (unit n q * 10 ^ (-n)) : ℚ) : ℝ) q (distance xs ys)
  have hz : (1 / 2 ^ 50 : ℝ) ≤ 10 ^ (-n) := by
    have := (zpow_cases (n := -n) (by rwa [abs_neg])).1
    have := (Rat.cast_le (K := ℝ)).2 this
    push_cast at this
    exact this
  have h6 : |(q : ℝ)| / 2 ^ 51 ≤ (distance xs ys + (distance xs ys / 2 ^ 49 + 1 / 2 ^ 332)) / 2 ^ 51 :=
    div_le_div_of_nonneg_right hqa (by norm_num)
  generalize ((flRat (unit n q * 10 ^ (-n)) : ℚ) : ℝ) = R at *
  generalize (10 : ℝ) ^ (-n) = f at *
  generalize distance xs ys = D at *
  have h7 : (1 / 2 ^ 332 : ℝ) + 1 / 2 ^ 332 / 2 ^ 51 ≤ 1 / 2 ^ 200 * f := by
    calc (1 / 2 ^ 332 : ℝ) + 1 / 2 ^ 332 / 2 ^ 51 ≤ 1 / 2 ^ 200 * (1 / 2 ^ 50) := by norm_num
      _ ≤ _ := mul_le_mul_of_nonneg_left hz (by norm_num)
  have hf : 0 < f := lt_of_lt_of_le (by norm_num) hz
  have h8 : 1 / 2 ^ 50 * f + 1 / 2 ^ 200 * f ≤ 1 / 2 ^ 40 * f := by
    rw [← add_mul]
    exact mul_le_mul_of_nonneg_right (by norm_num) hf.le
  have h9 : D / 2 ^ 49 + (D / 2 ^ 51 + D / 2 ^ 49 / 2 ^ 51) ≤ D / 2 ^ 48 := by
    have : D / 2 ^ 48 - (D / 2 ^ 49 + (D / 2 ^ 51 + D / 2 ^ 49 / 2 ^ 51)) =
        D * (1 / 2 ^ 48 - 1 / 2 ^ 49 - 1 / 2 ^ 51 - 1 / 2 ^ 100) := by ring
    have h' : 0 ≤ D * (1 / 2 ^ 48 - 1 / 2 ^ 49 - 1 / 2 ^ 51 - 1 / 2 ^ 100 : ℝ) := mul_nonneg hd0 (by norm_num)
    linarith
  have h10 : (D + (D / 2 ^ 49 + 1 / 2 ^ 332)) / 2 ^ 51 = D / 2 ^ 51 + D / 2 ^ 49 / 2 ^ 51 + 1 / 2 ^ 332 / 2 ^ 51 := by ring
  rw [h10] at h6
  rw [add_mul] at h4 ⊢
  linarith

/-- **C119** (displacement, floats).  `getDisplace(n)` of a directional bond, one of whose endpoints is a float array,
is component by component the double nearest to a multiple of `10**-n`, at most half a unit away from the difference of
the coordinates (plus a relative error of `2**-50`); a non-directional bond has no displacement. -/
theorem C119_displace (zoom : ℤ) (p0 p1 : NpVec) (d : Bool) (b : Bond) (hb : Bond.init zoom p0 p1 d = .ok b)
    (xs ys : List ℚ) (h0 : p0.Holds xs) (h1 : p1.Holds ys) (n : ℤ) (hn : |n| ≤ 15)
    (hf : (∃ l, p0 = .f64 l) ∨ ∃ l, p1 = .f64 l) :
    (d = false → b.getDisplaceRound (some n) = raise .notImplementedError) ∧
    (d = true → ∃ zs : List ℚ, b.getDisplaceRound (some n) = .ok (.f64 (zs.map .fin)) ∧
      List.Forall₂ (fun z δ => (∃ m : ℤ, .fin z = fl (m * 10 ^ (-n))) ∧
        |z - δ| ≤ (1 / 2 + 1 / 2 ^ 40) * 10 ^ (-n) + |δ| / 2 ^ 50) zs (List.zipWith (fun x y => y - x) xs ys)) := by
  obtain ⟨hl, hl', t0, t1, -, -, rfl⟩ := (bond_init_ok_iff _ _ _ _ _).mp hb
  refine ⟨by rintro rfl; rfl, ?_⟩
  rintro rfl
  have hx := holds_bound h0
  have hy := holds_bound h1
  have hδ : ∀ x ∈ xs, ∀ y ∈ ys, |y - x| ≤ 2 ^ 401 := by
    intro x hx' y hy'
    have := abs_sub y x
    have := hx x hx'
    have := hy y hy'
    have e : (2 : ℚ) ^ 400 + 2 ^ 400 = 2 ^ 401 := by norm_num
    linarith
  have he : p1.sub p0 = .f64 (p1.sub p0).toF64 := by
    rcases hf with ⟨l, rfl⟩ | ⟨l, rfl⟩
    · cases p1 <;> rfl
    · cases p0 <;> rfl
  have hv : (p1.sub p0).toF64 = ((List.zipWith (fun x y => y - x) xs ys).map flRat).map .fin := by
    rw [sub_float h1 h0, List.zipWith_comm]
    simp only [zipWith_as_map, List.map_map]
    refine List.map_congr_left fun q hq => ?_
    have := hδ q.1 (List.of_mem_zip hq).1 q.2 (List.of_mem_zip hq).2
    exact fl_finite (this.trans (by norm_num))
  refine ⟨(List.zipWith (fun x y => y - x) xs ys).map (fun δ => flRat (unit n (flRat δ) * 10 ^ (-n))), ?_, ?_⟩
  · have : Bond.getDisplaceRound ⟨p0, p1, true, if (!true && tupleRich .lt t1 t0) = true then (t1, t0, true)
        else (t0, t1, true)⟩ (some n) = .ok ((p1.sub p0).around n) := rfl
    rw [this, he, hv]
    simp only [NpVec.around, List.map_map]
    congr 2
    refine List.map_congr_left fun δ hd => ?_
    rw [zipWith_as_map] at hd
    obtain ⟨⟨x, y⟩, hxy, rfl⟩ := List.mem_map.1 hd
    refine around_fin hn ?_
    have h2 := hδ x (List.of_mem_zip hxy).1 y (List.of_mem_zip hxy).2
    have h3 := flRat_error (y - x)
    have h4 := abs_sub_abs_le_abs_sub (flRat (y - x)) (y - x)
    have h5 : |y - x| / 2 ^ 53 ≤ 2 ^ 401 := (div_le_self (abs_nonneg _) (by norm_num)).trans h2
    have e : (2 : ℚ) ^ 401 + (2 ^ 401 + 1 / 2 ^ 1075) ≤ 2 ^ 500 := by norm_num
    dsimp only [Function.comp]
    linarith
  · rw [List.forall₂_map_left_iff, List.forall₂_same]
    intro δ hd
    rw [zipWith_as_map] at hd
    obtain ⟨⟨x, y⟩, hxy, rfl⟩ := List.mem_map.1 hd
    have h2 := hδ x (List.of_mem_zip hxy).1 y (List.of_mem_zip hxy).2
    dsimp only
    have h3 := flRat_error (y - x)
    generalize y - x = δ at *
    have h4 := abs_sub_abs_le_abs_sub (flRat δ) δ
    have h5 : |δ| / 2 ^ 53 ≤ 2 ^ 401 := (div_le_self (abs_nonneg _) (by norm_num)).trans h2
    have hq : |flRat δ| ≤ 2 ^ 500 := by
      have e : (2 : ℚ) ^ 401 + (2 ^ 401 + 1 / 2 ^ 1075) ≤ 2 ^ 500 := by norm_num
      linarith
    refine ⟨⟨_, (fl_finite ((multiple_small hn hq).trans (by norm_num))).symm⟩, ?_⟩
    have h6 := around_near hn hq
    have h7 := abs_sub_le (flRat (unit n (flRat δ) * 10 ^ (-n))) (flRat δ) δ
    have hz := (zpow_cases (n := -n) (by rwa [abs_neg])).1
    generalize flRat (unit n (flRat δ) * 10 ^ (-n)) = R at *
    generalize (10 : ℚ) ^ (-n) = f at *
    have hf0 : 0 < f := lt_of_lt_of_le (by norm_num) hz
    have h8 : |flRat δ| / 2 ^ 51 ≤ (|δ| + (|δ| / 2 ^ 53 + 1 / 2 ^ 1075)) / 2 ^ 51 :=
      div_le_div_of_nonneg_right (by linarith) (by norm_num)
    have h9 : (1 / 2 ^ 1075 : ℚ) + 1 / 2 ^ 1075 / 2 ^ 51 ≤ 1 / 2 ^ 900 * f := by
      calc (1 / 2 ^ 1075 : ℚ) + 1 / 2 ^ 1075 / 2 ^ 51 ≤ 1 / 2 ^ 900 * (1 / 2 ^ 50) := by norm_num
        _ ≤ _ := mul_le_mul_of_nonneg_left hz (by norm_num)
    have h10 : 1 / 2 ^ 50 * f + 1 / 2 ^ 900 * f ≤ 1 / 2 ^ 40 * f := by
      rw [← add_mul]
      exact mul_le_mul_of_nonneg_right (by norm_num) hf0.le
    have h0 := abs_nonneg δ
    have h11 : |δ| / 2 ^ 53 + (|δ| / 2 ^ 51 + |δ| / 2 ^ 53 / 2 ^ 51) ≤ |δ| / 2 ^ 50 := by
      have : |δ| / 2 ^ 50 - (|δ| / 2 ^ 53 + (|δ| / 2 ^ 51 + |δ| / 2 ^ 53 / 2 ^ 51)) =
          |δ| * (1 / 2 ^ 50 - 1 / 2 ^ 53 - 1 / 2 ^ 51 - 1 / 2 ^ 104) := by ring
      have h' : 0 ≤ |δ| * (1 / 2 ^ 50 - 1 / 2 ^ 53 - 1 / 2 ^ 51 - 1 / 2 ^ 104 : ℚ) := mul_nonneg h0 (by norm_num)
      linarith
    have h12 : (|δ| + (|δ| / 2 ^ 53 + 1 / 2 ^ 1075)) / 2 ^ 51 =
        |δ| / 2 ^ 51 + |δ| / 2 ^ 53 / 2 ^ 51 + 1 / 2 ^ 1075 / 2 ^ 51 := by ring
    rw [h12] at h8
    rw [add_mul] at h6 ⊢
    linarith

/-- **C119** (displacement, integers).  Between integer endpoints `getDisplace(n)` is the exact difference for
`n >= 0`; for `n < 0` each component is the multiple of `10**-n` nearest to the difference. -/
theorem C119_displace_int (zoom : ℤ) (k l : List ℤ) (b : Bond)
    (hb : Bond.init zoom (.i64 k) (.i64 l) true = .ok b) (hk : ∀ x ∈ k, |x| ≤ 2 ^ 50) (hl : ∀ x ∈ l, |x| ≤ 2 ^ 50)
    (n : ℤ) (hn : -15 ≤ n) :
    ∃ zs : List ℤ, b.getDisplaceRound (some n) = .ok (.i64 zs) ∧
      (0 ≤ n → zs = List.zipWith (fun x y => y - x) k l) ∧
      (n < 0 → List.Forall₂ (fun z δ => (10 ^ (-n).toNat ∣ z) ∧ 2 * |z - δ| ≤ 10 ^ (-n).toNat) zs
        (List.zipWith (fun x y => y - x) k l)) := by
  obtain ⟨-, -, t0, t1, -, -, rfl⟩ := (bond_init_ok_iff _ _ _ _ _).mp hb
  have hsub : NpVec.sub (.i64 l) (.i64 k) = .i64 (List.zipWith (fun x y => y - x) k l) := by
    simp only [NpVec.sub]
    rw [List.zipWith_comm]
    congr 1
    simp only [zipWith_as_map]
    refine List.map_congr_left fun q hq => ?_
    have a1 := abs_le.1 (hk q.1 (List.of_mem_zip hq).1)
    have a2 := abs_le.1 (hl q.2 (List.of_mem_zip hq).2)
    exact wrap64_fits (by omega) (by omega)
  have hδ : ∀ δ ∈ List.zipWith (fun x y => y - x) k l, |δ| ≤ 2 ^ 51 := by
    intro δ hd
    rw [zipWith_as_map] at hd
    obtain ⟨⟨x, y⟩, hxy, rfl⟩ := List.mem_map.1 hd
    have a1 := abs_le.1 (hk x (List.of_mem_zip hxy).1)
    have a2 := abs_le.1 (hl y (List.of_mem_zip hxy).2)
    exact abs_le.2 (by dsimp only; omega)
  have e : ∀ t, Bond.getDisplaceRound ⟨.i64 k, .i64 l, true, t⟩ (some n) =
      .ok ((NpVec.sub (.i64 l) (.i64 k)).around n) := fun _ => rfl
  refine ⟨(List.zipWith (fun x y => y - x) k l).map (aroundInt n), ?_, ?_, ?_⟩
  · rw [e, hsub]
    rfl
  · intro h
    refine (List.map_congr_left fun δ _ => ?_).trans (List.map_id _)
    simp [aroundInt, h]
  · intro h
    rw [List.forall₂_map_left_iff, List.forall₂_same]
    intro δ hd
    have hn' : |n| ≤ 15 := abs_le.2 ⟨hn, by omega⟩
    have h2 := hδ δ hd
    rw [aroundInt_neg hn' h h2]
    refine ⟨Dvd.intro_left _ rfl, ?_⟩
    have h3 := unit_int hn' h h2
    have e2 : ((-n).toNat : ℤ) = -n := Int.toNat_of_nonneg (by omega)
    rw [← e2, zpow_natCast] at h3
    have : ((2 * |unit n δ * 10 ^ (-n).toNat - δ| : ℤ) : ℚ) ≤ ((10 ^ (-n).toNat : ℤ) : ℚ) := by
      push_cast
      linarith
    exact_mod_cast this

/-- **C119** (direction).  The rounded length does not depend on the direction, and the rounded displacement of the
flipped bond is the negated one: for all float endpoints, finite or not, and for all `n`. -/
theorem C119_flip (sqrt : F64 → F64) (zoom : ℤ) (p0 p1 : NpVec) (b f : Bond)
    (hb : Bond.init zoom p0 p1 true = .ok b) (hf : b.flip zoom = .ok f) (n : ℤ) :
    f.getLengthRound sqrt (some n) = b.getLengthRound sqrt (some n) ∧
    ((∃ l, p0 = .f64 l) ∨ (∃ l, p1 = .f64 l) → ∃ v, b.getDisplaceRound (some n) = .ok v ∧
      f.getDisplaceRound (some n) = .ok v.neg) := by
  refine ⟨?_, fun h => ?_⟩
  · simp only [Bond.getLengthRound]
    rw [C39_flip_keeps_length sqrt zoom p0 p1 b f hb hf]
  · obtain ⟨f', hf', -, -, -, dr, h1, h2, h3⟩ := C39_flip zoom p0 p1 b hb
    rw [hf] at hf'
    cases hf'
    obtain ⟨-, -, t0, t1, -, -, rfl⟩ := (bond_init_ok_iff _ _ _ _ _).mp hb
    have he : ∃ w, dr = .f64 w := by
      rw [h2]
      rcases h with ⟨l, rfl⟩ | ⟨l, rfl⟩
      · cases p1 <;> exact ⟨_, rfl⟩
      · cases p0 <;> exact ⟨_, rfl⟩
    obtain ⟨w, hw⟩ := he
    refine ⟨dr.around n, ?_, ?_⟩
    · simp only [Bond.getDisplaceRound, h1]
      rfl
    · simp only [Bond.getDisplaceRound, h3]
      rw [hw]
      simp only [NpVec.neg, NpVec.around, bind, Except.bind, pure, Except.pure, List.map_map]
      congr 2
      exact List.map_congr_left fun x _ => around_fneg n x

theorem aroundReal_spec (n : ℤ) (x : ℝ) :
    (∃ m : ℤ, aroundReal n x = m * 10 ^ (-n)) ∧ |aroundReal n x - x| ≤ 10 ^ (-n) / 2 := by
  have hp : (0 : ℝ) < 10 ^ n := by positivity
  have key : ∀ (m : ℤ), |(m : ℝ) - x * 10 ^ n| ≤ 1 / 2 → |(m : ℝ) / 10 ^ n - x| ≤ 10 ^ (-n) / 2 := by
    intro m hm
    have : (m : ℝ) / 10 ^ n - x = (m - x * 10 ^ n) / 10 ^ n := by field_simp
    rw [this, abs_div, abs_of_pos hp, zpow_neg, div_le_iff₀ hp]
    calc _ ≤ (1 : ℝ) / 2 := hm
      _ = _ := by field_simp
  have h1 := Int.floor_le (x * 10 ^ n)
  have h2 := Int.lt_floor_add_one (x * 10 ^ n)
  have main : ∃ m : ℤ, aroundReal n x = m / 10 ^ n ∧ |(m : ℝ) - x * 10 ^ n| ≤ 1 / 2 := by
    simp only [aroundReal]
    generalize x * 10 ^ n = y at *
    split
    · rename_i h
      exact ⟨⌊y⌋, rfl, abs_le.2 ⟨by linarith, by linarith⟩⟩
    · split
      · exact ⟨⌊y⌋ + 1, by push_cast; rfl, by push_cast; exact abs_le.2 ⟨by linarith, by linarith⟩⟩
      · split
        · exact ⟨⌊y⌋, rfl, abs_le.2 ⟨by linarith, by linarith⟩⟩
        · exact ⟨⌊y⌋ + 1, by push_cast; rfl, by push_cast; exact abs_le.2 ⟨by linarith, by linarith⟩⟩
  obtain ⟨m, e, hm⟩ := main
  refine ⟨⟨m, by rw [e, zpow_neg, div_eq_mul_inv]⟩, ?_⟩
  rw [e]
  exact key m hm

/-- **C119** (azimuth, exact arithmetic).  `getAzimuth(radian, n)` is angle by angle the multiple of `10**-n` nearest to
the unrounded angle in the chosen unit; it fails when `getAzimuth(radian)` fails. -/
theorem C119_azimuth (directional radian : Bool) (dr : List ℝ) (n : ℤ) :
    match exactAzimuth directional radian dr with
    | .error e => exactAzimuthRound directional dr radian (some n) = .error e
    | .ok (.angle t) => ∃ m : ℤ, exactAzimuthRound directional dr radian (some n) = .ok (.angle (m * 10 ^ (-n))) ∧
        |m * 10 ^ (-n) - t| ≤ (10 : ℝ) ^ (-n) / 2
    | .ok (.angles a b) => ∃ m k : ℤ,
        exactAzimuthRound directional dr radian (some n) = .ok (.angles (m * 10 ^ (-n)) (k * 10 ^ (-n))) ∧
        |m * 10 ^ (-n) - a| ≤ (10 : ℝ) ^ (-n) / 2 ∧ |k * 10 ^ (-n) - b| ≤ (10 : ℝ) ^ (-n) / 2 := by
  simp only [exactAzimuthRound]
  cases exactAzimuth directional radian dr with
  | error e => rfl
  | ok t =>
    cases t with
    | angle t =>
      obtain ⟨⟨m, e⟩, h⟩ := aroundReal_spec n t
      rw [e] at h
      exact ⟨m, by rw [← e]; rfl, h⟩
    | angles a b =>
      obtain ⟨⟨m, e⟩, h⟩ := aroundReal_spec n a
      obtain ⟨⟨k, e'⟩, h'⟩ := aroundReal_spec n b
      rw [e] at h
      rw [e'] at h'
      exact ⟨m, k, by rw [← e, ← e']; rfl, h, h'⟩

/-! ### The hypotheses are met -/

/-- Rounding of 1.41421356... to four digits, of 2.5 and 3.5 to none, of 1250 to hundreds, as in the docstring. -/
example : around 4 (fl (141421356237 / 100000000000)) = fl (14142 / 10000) ∧ around 0 (.fin (5 / 2)) = .fin 2 ∧
    around 0 (.fin (7 / 2)) = .fin 4 ∧ around (-2) (.fin 1250) = .fin 1200 ∧ aroundInt (-2) 1350 = 1400 := by
  decide +kernel

/-- Why the coordinates are bounded: `np.around` of a huge finite number overflows. -/
example : around 4 (.fin (2 ^ 1020)) = .inf false := by decide +kernel

/-- A bond between a point with integer coordinates and one with floats. -/
example : ∃ b, Bond.init (10 ^ 4) (.i64 [0, 1]) (.f64 [.fin (13 / 4), .fin 5]) true = .ok b ∧
    NpVec.Holds (.i64 [0, 1]) [0, 1] ∧ NpVec.Holds (.f64 [.fin (13 / 4), .fin 5]) [13 / 4, 5] ∧
    b.getDisplaceRound (some 1) = .ok (.f64 [fl (32 / 10), .fin 4]) := by
  refine ⟨⟨.i64 [0, 1], .f64 [.fin (13 / 4), .fin 5], true, ([0, 10000], [32500, 50000], true)⟩, by decide +kernel,
    Or.inl ⟨[0, 1], rfl, by norm_num, by intro n hn; fin_cases hn <;> norm_num⟩,
    Or.inr ⟨rfl, by intro n hn; fin_cases hn <;> norm_num [abs_le]⟩, by decide +kernel⟩

end Verif
