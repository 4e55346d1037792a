import Verif.Proofs.BondLength
/-!
# C110: length and displacement of a bond
-/

set_option exponentiation.threshold 1100

namespace Verif

/-- **C110** (length).  For every accepted bond with integer coordinates up to `2**53` or float coordinates up to
`2**400`, directional or not, `getLength()` is the Euclidean distance of the endpoints up to a relative error `2**-49`
(and underflow). -/
theorem C110_length (zoom : ℤ) (p0 p1 : NpVec) (d : Bool) (b : Bond) (hb : Bond.init zoom p0 p1 d = .ok b)
    (xs ys : List ℚ) (h0 : p0.Holds xs) (h1 : p1.Holds ys) (sqrt : F64 → F64) (hs : RoundedSqrt sqrt) :
    ∃ r : ℚ, b.getLength sqrt = .fin r ∧ |(r : ℝ) - distance xs ys| ≤ distance xs ys / 2 ^ 49 + 1 / 2 ^ 332 := by
  obtain ⟨hl, hl', t0, t1, -, -, rfl⟩ := (bond_init_ok_iff _ _ _ _ _).mp hb
  have hle : xs.length ≤ 3 := by rw [holds_len h0]; omega
  have hlen : ys.length = xs.length := by rw [holds_len h0, holds_len h1, hl']
  simp only [Bond.getLength, NpVec.norm]
  rw [sub_float h0 h1, List.map_zipWith]
  have hx := holds_bound h0
  have hy := holds_bound h1
  let D : List (ℚ × ℚ) := List.zipWith (fun x y => (flRat (flRat (x - y) * flRat (x - y)), (x - y) ^ 2)) xs ys
  have hδ : ∀ x ∈ xs, ∀ y ∈ ys, |x - y| ≤ 2 ^ 401 := by
    intro x hx' y hy'
    have := abs_sub x y
    have := hx x hx'
    have := hy y hy'
    have e : (2 : ℚ) ^ 401 = 2 ^ 400 + 2 ^ 400 := by norm_num
    rw [e]; linarith
  have hD : ∀ p ∈ D, 0 ≤ p.1 ∧ 0 ≤ p.2 ∧ |p.1 - p.2| ≤ 4 / 2 ^ 53 * p.2 + 1 / 2 ^ 670 ∧ p.2 ≤ 2 ^ 802 := by
    intro p hp
    simp only [D, zipWith_as_map] at hp
    obtain ⟨⟨x, y⟩, hxy, rfl⟩ := List.mem_map.1 hp
    have h := hδ x (List.of_mem_zip hxy).1 y (List.of_mem_zip hxy).2
    obtain ⟨a, -, c⟩ := square_err h
    refine ⟨a, sq_nonneg _, c, ?_⟩
    have e : (2 : ℚ) ^ 802 = (2 ^ 401) ^ 2 := by norm_num
    rw [e]
    exact sq_le_sq' (by have := neg_abs_le (x - y); simp only; linarith) ((le_abs_self _).trans h)
  have hmap : List.zipWith (fun x y : ℚ => fmul (fl (x - y)) (fl (x - y))) xs ys = D.map fun p => F64.fin p.1 := by
    simp only [D, List.map_zipWith, zipWith_as_map, List.map_map]
    refine List.map_congr_left fun q hq => ?_
    exact (square_err (hδ q.1 (List.of_mem_zip hq).1 q.2 (List.of_mem_zip hq).2)).2.1
  obtain ⟨S, e1, e2, e3⟩ := sum_err D 0 0 0 hD le_rfl le_rfl (by norm_num) (by norm_num)
    (by simp only [D, List.length_zipWith]; omega)
  obtain ⟨r, hr1, hr2⟩ := hs S e2
  refine ⟨r, ?_, ?_⟩
  · rw [← hr1, ← e1, hmap]
  have hEq : (((D.map Prod.snd).sum : ℚ) : ℝ) = (List.zipWith (fun x y : ℚ => ((x : ℝ) - y) ^ 2) xs ys).sum := by
    simp only [D, List.map_zipWith, zipWith_as_map, Rat.cast_list_sum, List.map_map]
    congr 1
    refine List.map_congr_left fun q _ => ?_
    simp only [Function.comp_apply]
    push_cast
    rfl
  have hE0 : (0 : ℝ) ≤ ((D.map Prod.snd).sum : ℚ) := by
    have : (0 : ℚ) ≤ (D.map Prod.snd).sum := List.sum_nonneg (by
      intro x hx
      obtain ⟨p, hp, rfl⟩ := List.mem_map.1 hx
      exact (hD p hp).2.1)
    exact_mod_cast this
  simp only [zero_add] at e3
  have e3' : |(S : ℝ) - ((D.map Prod.snd).sum : ℚ)| ≤ 10 / 2 ^ 53 * ((D.map Prod.snd).sum : ℚ) + (1 / 2 ^ 333) ^ 2 := by
    have h : ((|S - (D.map Prod.snd).sum| : ℚ) : ℝ) ≤ ((10 * (1 / 2 ^ 53 * (D.map Prod.snd).sum + 1 / 2 ^ 670) : ℚ) : ℝ) :=
      by exact_mod_cast e3
    rw [Rat.cast_abs, Rat.cast_sub, Rat.cast_mul, Rat.cast_add, Rat.cast_mul] at h
    generalize (((D.map Prod.snd).sum : ℚ) : ℝ) = E at *
    refine h.trans ?_
    have : (10 : ℝ) * (1 / 2 ^ 670) ≤ (1 / 2 ^ 333) ^ 2 := by norm_num
    have e : (((1 : ℚ) / 2 ^ 53 : ℚ) : ℝ) = 1 / 2 ^ 53 := by push_cast; rfl
    have e' : (((1 : ℚ) / 2 ^ 670 : ℚ) : ℝ) = 1 / 2 ^ 670 := by push_cast; rfl
    rw [e, e']
    push_cast
    linarith
  have fin := sqrt_err (u := 10 / 2 ^ 53) (θ := 1 / 2 ^ 333) hE0 (by exact_mod_cast e2) (by norm_num) (by norm_num) (by norm_num) e3' hr2
  rw [distance, ← hEq]
  have hd := Real.sqrt_nonneg (((D.map Prod.snd).sum : ℚ) : ℝ)
  generalize Real.sqrt (((D.map Prod.snd).sum : ℚ) : ℝ) = s at *
  refine fin.trans ?_
  have : (2 : ℝ) * (1 / 2 ^ 333) = 1 / 2 ^ 332 := by norm_num
  rw [this]
  have : (10 / 2 ^ 53 + 1 / 2 ^ 52 : ℝ) * s ≤ s / 2 ^ 49 := by
    rw [div_eq_mul_inv s, mul_comm s]
    exact mul_le_mul_of_nonneg_right (by norm_num) hd
  linarith

/-- **C110** (displacement).  `getDisplace()` of a directional bond is `p1 - p0`: exact for integer endpoints, otherwise
each component is rounded once; a non-directional bond has none. -/
theorem C110_displace (zoom : ℤ) (p0 p1 : NpVec) (d : Bool) (b : Bond) (hb : Bond.init zoom p0 p1 d = .ok b)
    (xs ys : List ℚ) (h0 : p0.Holds xs) (h1 : p1.Holds ys) :
    (d = false → b.getDisplace = raise .notImplementedError) ∧
    (d = true → ∃ v zs, b.getDisplace = .ok v ∧ v.coords.map Coord.value? = zs.map some ∧
      List.Forall₂ (fun z δ => |z - δ| ≤ |δ| / 2 ^ 53 + 1 / 2 ^ 1075) zs (List.zipWith (fun x y => y - x) xs ys) ∧
      ((∃ l k, p0 = .i64 l ∧ p1 = .i64 k) → zs = List.zipWith (fun x y => y - x) xs ys)) := by
  obtain ⟨hl, hl', t0, t1, -, -, rfl⟩ := (bond_init_ok_iff _ _ _ _ _).mp hb
  refine ⟨by rintro rfl; rfl, ?_⟩
  rintro rfl
  refine ⟨p1.sub p0, ?_⟩
  have hx := holds_bound h0
  have hy := holds_bound h1
  have hfin : ∀ x ∈ xs, ∀ y ∈ ys, fl (y - x) = .fin (flRat (y - x)) := by
    intro x hx' y hy'
    refine fl_finite ?_
    have := abs_sub y x
    have := hx x hx'
    have := hy y hy'
    have e : (2 : ℚ) ^ 400 + 2 ^ 400 ≤ 2 ^ 1000 := by norm_num
    linarith
  have hfs : ∀ l : List F64, (NpVec.f64 l).coords = l.map Coord.flt := fun l => rfl
  have other : (p1.sub p0) = .f64 (p1.sub p0).toF64 → ∃ zs, Bond.getDisplace ⟨p0, p1, true, if (!true && tupleRich .lt t1 t0) = true then (t1, t0, true) else (t0, t1, true)⟩ = .ok (p1.sub p0) ∧
      (p1.sub p0).coords.map Coord.value? = zs.map some ∧
      List.Forall₂ (fun z δ => |z - δ| ≤ |δ| / 2 ^ 53 + 1 / 2 ^ 1075) zs (List.zipWith (fun x y => y - x) xs ys) ∧
      ((∃ l k, p0 = .i64 l ∧ p1 = .i64 k) → zs = List.zipWith (fun x y => y - x) xs ys) := by
    intro he
    refine ⟨(List.zipWith (fun x y => y - x) xs ys).map flRat, rfl, ?_, ?_, ?_⟩
    · rw [he, sub_float h1 h0, hfs]
      simp only [List.map_map, List.map_zipWith]
      rw [List.zipWith_comm]
      simp only [zipWith_as_map, List.map_map]
      refine List.map_congr_left fun q hq => ?_
      rw [hfin q.1 (List.of_mem_zip hq).1 q.2 (List.of_mem_zip hq).2]
      rfl
    · rw [List.forall₂_map_left_iff, List.forall₂_same]
      exact fun q _ => flRat_error q
    · rintro ⟨l, k, rfl, rfl⟩
      cases he
  rcases h0 with ⟨l, rfl, rfl, hl0⟩ | ⟨rfl, hx0⟩
  · rcases h1 with ⟨k, rfl, rfl, hk0⟩ | ⟨rfl, hy0⟩
    · refine ⟨List.zipWith (fun x y => y - x) (l.map fun n : ℤ => (n : ℚ)) (k.map fun n : ℤ => (n : ℚ)), rfl, ?_, ?_, fun _ => rfl⟩
      · simp only [NpVec.sub, NpVec.coords, List.map_map, List.map_zipWith, List.zipWith_map]
        rw [List.zipWith_comm]
        simp only [zipWith_as_map]
        refine List.map_congr_left fun q hq => ?_
        have a1 := abs_le.1 (hl0 q.1 (List.of_mem_zip hq).1)
        have a2 := abs_le.1 (hk0 q.2 (List.of_mem_zip hq).2)
        simp only [Function.comp_apply, Coord.value?]
        rw [wrap64_fits (by omega) (by omega)]
        push_cast
        rfl
      · rw [List.forall₂_same]
        intro q _
        rw [sub_self, abs_zero]
        positivity
    · exact other rfl
  · refine other ?_
    cases p1 <;> rfl

/-- There is such a square root function. -/
example : ∃ sqrt, RoundedSqrt sqrt := by
  have h : ∀ q : ℚ, 0 ≤ q → ∃ r : ℚ, |(r : ℝ) - Real.sqrt q| ≤ Real.sqrt q / 2 ^ 53 := by
    intro q hq
    rcases hq.eq_or_lt with rfl | hq
    · exact ⟨0, by simp⟩
    · have hp : 0 < Real.sqrt q := Real.sqrt_pos.2 (by exact_mod_cast hq)
      obtain ⟨r, h1, h2⟩ := exists_rat_btwn (show Real.sqrt q < Real.sqrt q + Real.sqrt q / 2 ^ 53 by
        have : 0 < Real.sqrt q / 2 ^ 53 := by positivity
        linarith)
      exact ⟨r, by rw [abs_of_pos (by linarith)]; linarith⟩
  choose f hf using h
  refine ⟨fun x => match x with
    | .fin q => if h : 0 ≤ q then .fin (f q h) else .nan
    | x => x, fun q hq => ⟨f q hq, by simp [hq], hf q hq⟩⟩

/-- The bond from (0, 1) to (3.0, 5.0): both points are accepted, and their distance is 5. -/
example : ∃ b, Bond.init (10 ^ 4) (.i64 [0, 1]) (.f64 [.fin 3, .fin 5]) true = .ok b ∧
    NpVec.Holds (.i64 [0, 1]) [0, 1] ∧ NpVec.Holds (.f64 [.fin 3, .fin 5]) [3, 5] ∧ distance [0, 1] [3, 5] = 5 ∧
    b.getDisplace = .ok (.f64 [.fin 3, .fin 4]) := by
  refine ⟨⟨.i64 [0, 1], .f64 [.fin 3, .fin 5], true, ([0, 10000], [30000, 50000], true)⟩, by decide +kernel,
    Or.inl ⟨[0, 1], rfl, by norm_num, by intro n hn; fin_cases hn <;> norm_num⟩,
    Or.inr ⟨rfl, by intro n hn; fin_cases hn <;> norm_num⟩, ?_, by decide +kernel⟩
  simp only [distance, List.zipWith_cons_cons, List.zipWith_nil_right, List.sum_cons, List.sum_nil]
  rw [show (((0 : ℚ) : ℝ) - ((3 : ℚ) : ℝ)) ^ 2 + ((((1 : ℚ) : ℝ) - ((5 : ℚ) : ℝ)) ^ 2 + 0) = 5 ^ 2 by push_cast; norm_num]
  exact Real.sqrt_sq (by norm_num)

end Verif
