import Verif.Spec.Bond
import Verif.Props.Float64
import Verif.Props.BondSites
/-!
Rounding errors of `Bond.getLength`.
-/

set_option exponentiation.threshold 1100

namespace Verif

theorem zipWith_as_map {α β γ : Type} (f : α → β → γ) : ∀ (l : List α) (r : List β),
    List.zipWith f l r = (l.zip r).map fun p => f p.1 p.2
  | [], _ => rfl
  | _ :: _, [] => rfl
  | a :: l, b :: r => by simp [zipWith_as_map f l r]

theorem fl_finite {q : ℚ} (h : |q| ≤ 2 ^ 1000) : fl q = .fin (flRat q) := by
  rcases fl_cases q with ⟨-, h2⟩ | ⟨h1, -⟩
  · exact h2
  · have := (overflow_iff q).1 h1
    have h3 : (2 : ℚ) ^ 1000 < 2 ^ 1024 - 2 ^ 970 := by norm_num
    linarith

theorem flRat_err (q : ℚ) : |flRat q - q| ≤ 1 / 2 ^ 53 * |q| + 1 / 2 ^ 1075 := by
  have := flRat_error q
  rwa [show |q| / 2 ^ 53 = 1 / 2 ^ 53 * |q| by ring] at this

theorem holds_float {v : NpVec} {xs : List ℚ} (h : v.Holds xs) : v.toF64 = xs.map .fin := by
  rcases h with ⟨l, rfl, rfl, hl⟩ | ⟨rfl, -⟩
  · simp only [NpVec.toF64, List.map_map]
    refine List.map_congr_left fun n hn => ?_
    have h1 : |(n : ℚ)| ≤ 2 ^ 1000 := by
      have : |(n : ℚ)| ≤ 2 ^ 53 := by exact_mod_cast hl n hn
      exact this.trans (by norm_num)
    simp only [Function.comp_apply]
    rw [fl_finite h1, flRat_int n (hl n hn)]
  · rfl

theorem holds_bound {v : NpVec} {xs : List ℚ} (h : v.Holds xs) : ∀ x ∈ xs, |x| ≤ 2 ^ 400 := by
  rcases h with ⟨l, rfl, rfl, hl⟩ | ⟨-, hx⟩
  · intro x hx
    obtain ⟨n, hn, rfl⟩ := List.mem_map.1 hx
    have : |(n : ℚ)| ≤ 2 ^ 53 := by exact_mod_cast hl n hn
    exact this.trans (by norm_num)
  · exact hx

theorem holds_len {v : NpVec} {xs : List ℚ} (h : v.Holds xs) : xs.length = v.len := by
  rcases h with ⟨l, rfl, rfl, -⟩ | ⟨rfl, -⟩ <;> simp [NpVec.len]

theorem zip_fsub (xs ys : List ℚ) : List.zipWith fsub (xs.map F64.fin) (ys.map F64.fin) =
    List.zipWith (fun x y => fl (x - y)) xs ys := by
  rw [List.zipWith_map]
  congr 1
  funext x y
  simp only [fsub, fneg, fadd]
  rw [sub_eq_add_neg]

/-- Subtraction of arrays, converted to floats. -/
theorem sub_float {v w : NpVec} {xs ys : List ℚ} (hv : v.Holds xs) (hw : w.Holds ys) :
    (v.sub w).toF64 = List.zipWith (fun x y => fl (x - y)) xs ys := by
  have ev := holds_float hv
  have ew := holds_float hw
  have key : List.zipWith fsub v.toF64 w.toF64 = List.zipWith (fun x y => fl (x - y)) xs ys := by
    rw [ev, ew, zip_fsub]
  rcases hv with ⟨l, rfl, rfl, hl⟩ | ⟨rfl, hx⟩
  · rcases hw with ⟨k, rfl, rfl, hk⟩ | ⟨rfl, hy⟩
    · simp only [NpVec.sub, NpVec.toF64]
      rw [List.map_zipWith, List.zipWith_map]
      clear ev ew key
      induction l generalizing k with
      | nil => simp
      | cons a l ih =>
        cases k with
        | nil => simp
        | cons b k =>
          simp only [List.zipWith_cons_cons, List.cons.injEq]
          refine ⟨?_, ih (fun n hn => hl n (List.mem_cons_of_mem _ hn)) k fun n hn => hk n (List.mem_cons_of_mem _ hn)⟩
          have h1 := abs_le.1 (hl a (by simp))
          have h2 := abs_le.1 (hk b (by simp))
          rw [wrap64_fits (by omega) (by omega)]
          push_cast
          rfl
    · exact key
  · cases w with
    | i64 k => exact key
    | f64 k => exact key

/-- The square of a rounded difference. -/
theorem square_err {δ : ℚ} (hδ : |δ| ≤ 2 ^ 401) :
    0 ≤ flRat (flRat δ * flRat δ) ∧ fmul (fl δ) (fl δ) = .fin (flRat (flRat δ * flRat δ)) ∧
    |flRat (flRat δ * flRat δ) - δ ^ 2| ≤ 4 / 2 ^ 53 * δ ^ 2 + 1 / 2 ^ 670 := by
  have h1 := flRat_err δ
  have hη : (0 : ℚ) < 1 / 2 ^ 1075 := by positivity
  have hη1 : (1 : ℚ) / 2 ^ 1075 ≤ 1 := by rw [div_le_one (by positivity)]; exact one_le_pow₀ (by norm_num)
  have hκ : (2 : ℚ) ^ 401 * (1 / 2 ^ 1075) ≤ 1 / 2 ^ 674 := by norm_num
  have hηκ : (1 : ℚ) / 2 ^ 1075 ≤ 1 / 2 ^ 674 := by
    apply one_div_le_one_div_of_le (by positivity)
    exact pow_le_pow_right₀ (by norm_num) (by norm_num)
  have hθ : (1 : ℚ) / 2 ^ 670 = 16 * (1 / 2 ^ 674) := by norm_num
  have hA : (2 : ℚ) ^ 401 ≤ 2 ^ 402 := pow_le_pow_right₀ (by norm_num) (by norm_num)
  have hD : |flRat δ| ≤ 2 ^ 402 := by
    have e : (2 : ℚ) ^ 402 = 2 * 2 ^ 401 := by norm_num
    have e1 : (1 : ℚ) ≤ 2 ^ 400 := one_le_pow₀ (by norm_num)
    have e2 : (2 : ℚ) ^ 401 = 2 * 2 ^ 400 := by norm_num
    have := abs_sub_abs_le_abs_sub (flRat δ) δ
    generalize (2 : ℚ) ^ 400 = B at *
    have : 1 / 2 ^ 53 * |δ| ≤ 1 / 4 * |δ| := mul_le_mul_of_nonneg_right (by norm_num) (abs_nonneg _)
    linarith
  have hD2 : |flRat δ * flRat δ| ≤ 2 ^ 804 := by
    rw [abs_mul, show (2 : ℚ) ^ 804 = 2 ^ 402 * 2 ^ 402 by norm_num]
    exact mul_le_mul hD hD (abs_nonneg _) (by positivity)
  have hf : fl δ = .fin (flRat δ) := fl_finite (hδ.trans (by norm_num))
  refine ⟨flRat_nonneg (mul_self_nonneg _), ?_, ?_⟩
  · rw [hf]
    exact fl_finite (hD2.trans (by norm_num))
  have h2 := flRat_err (flRat δ * flRat δ)
  rw [abs_mul_self] at h2
  generalize flRat (flRat δ * flRat δ) = s at *
  generalize flRat δ = D at *
  clear hf hD hD2
  generalize (1 : ℚ) / 2 ^ 1075 = η at *
  generalize (1 : ℚ) / 2 ^ 674 = κ at *
  rw [hθ]
  have ha : 0 ≤ |δ| := abs_nonneg δ
  have hs : δ ^ 2 = |δ| ^ 2 := (sq_abs δ).symm
  have hdd : |D * D - δ ^ 2| ≤ (1 / 2 ^ 53 * |δ| + η) * (2 * |δ| + (1 / 2 ^ 53 * |δ| + η)) := by
    rw [show D * D - δ ^ 2 = (D - δ) * (D - δ + 2 * δ) by ring, abs_mul]
    refine mul_le_mul h1 ?_ (abs_nonneg _) (by positivity)
    refine (abs_add_le _ _).trans ?_
    rw [abs_mul, abs_two]
    linarith
  have haη : |δ| * η ≤ κ := (mul_le_mul_of_nonneg_right hδ hη.le).trans hκ
  have haη0 : 0 ≤ |δ| * η := mul_nonneg ha hη.le
  have hηη : η ^ 2 ≤ κ := by nlinarith
  have hηη0 : 0 ≤ η ^ 2 := sq_nonneg _
  rw [show (1 / 2 ^ 53 * |δ| + η) * (2 * |δ| + (1 / 2 ^ 53 * |δ| + η)) =
    (2 / 2 ^ 53 + 1 / 2 ^ 106) * |δ| ^ 2 + (2 + 2 / 2 ^ 53) * (|δ| * η) + η ^ 2 by ring] at hdd
  have h3 : D * D ≤ δ ^ 2 + |D * D - δ ^ 2| := by
    have := le_abs_self (D * D - δ ^ 2); linarith
  have h4 : |s - δ ^ 2| ≤ |s - D * D| + |D * D - δ ^ 2| := abs_sub_le _ _ _
  rw [hs] at *
  have hq : 0 ≤ |δ| ^ 2 := sq_nonneg _
  generalize |δ| ^ 2 = Q at *
  generalize |δ| * η = p at *
  generalize η ^ 2 = w at *
  norm_num at *
  linarith

/-- Summing at most three squares. -/
theorem sum_err : ∀ (l : List (ℚ × ℚ)) (acc E : ℚ) (k : ℕ),
    (∀ p ∈ l, 0 ≤ p.1 ∧ 0 ≤ p.2 ∧ |p.1 - p.2| ≤ 4 / 2 ^ 53 * p.2 + 1 / 2 ^ 670 ∧ p.2 ≤ 2 ^ 802) →
    0 ≤ acc → 0 ≤ E → E ≤ k * 2 ^ 802 → |acc - E| ≤ (4 + 2 * k) * (1 / 2 ^ 53 * E + 1 / 2 ^ 670) → k + l.length ≤ 3 →
    ∃ S : ℚ, (l.map fun p => F64.fin p.1).foldl fadd (.fin acc) = .fin S ∧ 0 ≤ S ∧
      |S - (E + (l.map Prod.snd).sum)| ≤ 10 * (1 / 2 ^ 53 * (E + (l.map Prod.snd).sum) + 1 / 2 ^ 670)
  | [], acc, E, k, _, h0, h1, _, h3, hk => by
    refine ⟨acc, rfl, h0, ?_⟩
    simp only [List.map_nil, List.sum_nil, add_zero]
    have hk' : (k : ℚ) ≤ 3 := by exact_mod_cast (by simpa using hk)
    have h4 : 0 ≤ 1 / 2 ^ 53 * E + 1 / 2 ^ 670 := by positivity
    exact h3.trans (mul_le_mul_of_nonneg_right (by linarith) h4)
  | p :: l, acc, E, k, hl, h0, h1, h2, h3, hk => by
    obtain ⟨a1, a2, a3, a4⟩ := hl p (by simp)
    have hk2 : k ≤ 2 := by simp at hk; omega
    have hθ1 : (1 : ℚ) / 2 ^ 670 ≤ 1 := by rw [div_le_one (by positivity)]; exact one_le_pow₀ (by norm_num)
    have hθ0 : (0 : ℚ) < 1 / 2 ^ 670 := by positivity
    have hB : (1 : ℚ) ≤ 2 ^ 802 := one_le_pow₀ (by norm_num)
    have hη : (1 : ℚ) / 2 ^ 1075 ≤ 1 / 4 * (1 / 2 ^ 670) := by norm_num
    have hbig : (32 : ℚ) * 2 ^ 802 ≤ 2 ^ 1000 := by norm_num
    have b3 := abs_le.1 a3
    have b4 := abs_le.1 h3
    have hsum : |acc + p.1| ≤ 2 ^ 1000 := by
      rw [abs_of_nonneg (by linarith)]
      refine le_trans ?_ hbig
      clear hbig hη hl
      generalize (2 : ℚ) ^ 802 = B at *
      generalize (1 : ℚ) / 2 ^ 670 = θ at *
      interval_cases k <;> norm_num at * <;> linarith
    have herr := flRat_err (acc + p.1)
    rw [abs_of_nonneg (a := acc + p.1) (by linarith)] at herr
    have b5 := abs_le.1 herr
    have hstep : fadd (.fin acc) (.fin p.1) = .fin (flRat (acc + p.1)) := fl_finite hsum
    obtain ⟨S, e1, e2, e3⟩ := sum_err l (flRat (acc + p.1)) (E + p.2) (k + 1)
      (fun q hq => hl q (List.mem_cons_of_mem _ hq)) (flRat_nonneg (by linarith)) (by linarith)
      (by push_cast; linarith) (by
        rw [abs_le]
        clear hbig hl hsum hstep herr h3 a3
        generalize (2 : ℚ) ^ 802 = B at *
        generalize (1 : ℚ) / 2 ^ 670 = θ at *
        generalize (1 : ℚ) / 2 ^ 1075 = η at *
        generalize flRat (acc + p.1) = F at *
        interval_cases k <;> norm_num at * <;> constructor <;> linarith) (by simp at hk; omega)
    refine ⟨S, ?_, e2, ?_⟩
    · rw [List.map_cons, List.foldl_cons, hstep]; exact e1
    · rw [List.map_cons, List.sum_cons, ← add_assoc]; exact e3

theorem sqrt_err {S E r u θ : ℝ} (hE : 0 ≤ E) (hS : 0 ≤ S) (hu : 0 ≤ u) (hu1 : u ≤ 1 / 2 ^ 40) (hθ : 0 ≤ θ)
    (h : |S - E| ≤ u * E + θ ^ 2) (hr : |r - Real.sqrt S| ≤ Real.sqrt S / 2 ^ 53) :
    |r - Real.sqrt E| ≤ (u + 1 / 2 ^ 52) * Real.sqrt E + 2 * θ := by
  have h' := abs_le.1 h
  have hd := Real.sqrt_nonneg E
  have hEE := Real.mul_self_sqrt hE
  have up : Real.sqrt S ≤ (1 + u) * Real.sqrt E + θ := by
    apply Real.sqrt_le_iff.2
    refine ⟨by positivity, ?_⟩
    have : 0 ≤ 2 * ((1 + u) * Real.sqrt E * θ) := by positivity
    nlinarith [mul_nonneg hu hE, mul_nonneg (mul_nonneg hu hu) hE]
  have lo : (1 - u) * Real.sqrt E - θ ≤ Real.sqrt S := by
    by_cases hL : (1 - u) * Real.sqrt E - θ ≤ 0
    · exact hL.trans (Real.sqrt_nonneg S)
    · push Not at hL
      apply Real.le_sqrt_of_sq_le
      have h1u : 0 ≤ 1 - u := by linarith [show (1 : ℝ) / 2 ^ 40 ≤ 1 by norm_num]
      have e : ((1 - u) * Real.sqrt E - θ) ^ 2 = (1 - u) * ((1 - u) * E) - θ ^ 2 - 2 * (θ * ((1 - u) * Real.sqrt E - θ)) := by
        linear_combination (1 - u) ^ 2 * hEE
      have : 0 ≤ θ * ((1 - u) * Real.sqrt E - θ) := mul_nonneg hθ hL.le
      have : (1 - u) * ((1 - u) * E) ≤ (1 - u) * E := by
        have : 0 ≤ (1 - u) * E := mul_nonneg h1u hE
        nlinarith
      rw [e]
      linarith
  have hr' := abs_le.1 hr
  have hue : u * Real.sqrt E ≤ 1 / 2 ^ 40 * Real.sqrt E := mul_le_mul_of_nonneg_right hu1 hd
  rw [abs_le]
  generalize Real.sqrt S = s at *
  generalize Real.sqrt E = d at *
  norm_num at *
  constructor <;> nlinarith

end Verif
