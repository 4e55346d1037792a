import Verif.Proofs.ChainGround
import Verif.Props.HubbardDensity
/-!
# C130: the ground state of the open Hubbard chain

The points of a chain are numbered along it, so that hopping between neighbours never passes another electron of the same
spin.
-/

namespace Verif.LDB

open Verif.Latt Verif.Spec Demo

variable {prec : ℕ} {n0 n1 n2 : ℤ}

theorem line_run {m count : ℕ} {d : ℝ} (hd : 0 < d) {r : Py Built} {f : ℕ → Pt m}
    (h : EveryHubbardRun (m := m) prec count r fun L zoom coordOf run => HubbardModel d L zoom coordOf run)
    (hN : Numbers count f r) (hf : ∀ i j : ℕ, i < j → j < count → (ndist (f i) (f j) = d ↔ j = i + 1)) :
    EveryHubbardRun (m := m) prec count r fun _ _ _ run => UniqueGround count run ∧ GroundDistribution count run := by
  obtain ⟨L', hL', hpt⟩ := hN
  refine h.mono fun L hL _ _ run hr => ?_
  have e : L = L' := by
    have := hL.symm.trans hL'
    simpa using this
  subst e
  have hn : ∀ i j : Fin count, i < j → (ndist (L.points i) (L.points j) = d ↔ (j : ℕ) = i + 1) := fun i j hij => by
    rw [hpt, hpt]
    exact hf i j hij j.2
  exact ⟨path_ground hr hn, path_distribution hr hd hn⟩

theorem recount {m c c' : ℕ} (h : c = c') {r : Py Built}
    (H : EveryHubbardRun (m := m) prec c r fun _ _ _ run => UniqueGround c run ∧ GroundDistribution c run) :
    EveryHubbardRun (m := m) prec c' r fun _ _ _ run => UniqueGround c' run ∧ GroundDistribution c' run := by
  subst h
  exact H

/-- Points on a straight line. -/
theorem straight {m : ℕ} {f : ℕ → Pt m} {u : Pt m} {count : ℕ} (hu : ∑ a, u a ^ 2 = 1)
    (hf : ∀ i, i < count → f i = (i : ℝ) • u) (i j : ℕ) (hij : i < j) (hj : j < count) :
    ndist (f i) (f j) = 1 ↔ j = i + 1 := by
  have hlt : (i : ℝ) < j := by exact_mod_cast hij
  have e : ndist (f i) (f j) = (j : ℝ) - i := by
    rw [hf i (hij.trans hj), hf j hj]
    unfold ndist
    have : ∀ a, (((i : ℝ) • u) a - ((j : ℝ) • u) a) ^ 2 = ((j : ℝ) - i) ^ 2 * u a ^ 2 := fun a => by
      rw [Pi.smul_apply, Pi.smul_apply, smul_eq_mul, smul_eq_mul]
      ring
    rw [Finset.sum_congr rfl fun a _ => this a, ← Finset.mul_sum, hu, mul_one, Real.sqrt_sq (by linarith)]
  rw [e, sub_eq_iff_eq_add]
  constructor
  · intro h
    have : (j : ℝ) = ((1 + i : ℕ) : ℝ) := by
      push_cast
      exact h
    have := Nat.cast_injective this
    omega
  · rintro rfl
    push_cast
    ring

/-- **C130 (chain).**  The ground state of the chain of any length, and how the electrons are distributed in it. -/
theorem C130_chain (hp : 1 ≤ prec) (h0 : 1 ≤ n0) (h1 : 1 ≤ n1) (h2 : 1 ≤ n2) (hn : 2 * n0.toNat ≤ 64) :
    EveryHubbardRun (m := 1) prec n0.toNat (latticeGenerator prec "chain" n0 n1 n2)
      fun _ _ _ run => UniqueGround n0.toNat run ∧ GroundDistribution n0.toNat run :=
  line_run one_pos ((C115_generated hp h0 h1 h2).1 hn) (C123_chain hp h0 h1 h2)
    (straight (u := ![1]) (by simp) fun i _ => by
      ext a
      fin_cases a
      simp)

/-- **C130 (one row of a square or triangular lattice).** -/
theorem C130_rows (hp : 1 ≤ prec) (h0 : 1 ≤ n0) (h2 : 1 ≤ n2) (hn : 2 * n0.toNat ≤ 64) :
    EveryHubbardRun (m := 2) prec n0.toNat (latticeGenerator prec "square" n0 1 n2)
      (fun _ _ _ run => UniqueGround n0.toNat run ∧ GroundDistribution n0.toNat run) ∧
    EveryHubbardRun (m := 2) prec n0.toNat (latticeGenerator prec "square" 1 n0 n2)
      (fun _ _ _ run => UniqueGround n0.toNat run ∧ GroundDistribution n0.toNat run) ∧
    EveryHubbardRun (m := 2) prec n0.toNat (latticeGenerator prec "triangle" n0 1 n2)
      (fun _ _ _ run => UniqueGround n0.toNat run ∧ GroundDistribution n0.toNat run) ∧
    EveryHubbardRun (m := 2) prec n0.toNat (latticeGenerator prec "triangle" 1 n0 n2)
      (fun _ _ _ run => UniqueGround n0.toNat run ∧ GroundDistribution n0.toNat run) := by
  have o : (1 : ℤ) ≤ 1 := le_rfl
  have s1 := line_run one_pos ((C115_generated hp h0 o h2).2.1 (by simpa using hn)) (C123_square hp h0 o h2)
    (straight (u := ![1, 0]) (by simp) fun i _ => by
      ext a
      fin_cases a <;> simp [Nat.mod_one])
  have s2 := line_run one_pos ((C115_generated hp o h0 h2).2.1 (by simpa using hn)) (C123_square hp o h0 h2)
    (straight (u := ![0, 1]) (by simp) fun i hi => by
      have hi' : i < n0.toNat := by simpa using hi
      ext a
      fin_cases a <;> simp [Nat.div_eq_of_lt hi', Nat.mod_eq_of_lt hi'])
  have s3 := line_run one_pos ((C115_generated hp h0 o h2).2.2.1 (by simpa using hn)) (C123_triangle hp h0 o h2)
    (straight (u := ![1, 0]) (by simp) fun i _ => by
      ext a
      fin_cases a <;> simp [Nat.mod_one, triangleSite])
  have s4 := line_run one_pos ((C115_generated hp o h0 h2).2.2.1 (by simpa using hn)) (C123_triangle hp o h0 h2)
    (straight (u := ![1 / 2, Real.sqrt 3 / 2]) (by
      rw [Fin.sum_univ_two]
      simp only [Matrix.cons_val_zero, Matrix.cons_val_one, div_pow, Real.sq_sqrt (show (0 : ℝ) ≤ 3 by norm_num)]
      norm_num) fun i hi => by
      have hi' : i < n0.toNat := by simpa using hi
      ext a
      fin_cases a <;> simp [Nat.div_eq_of_lt hi', Nat.mod_eq_of_lt hi', triangleSite]
      ring)
  exact ⟨recount (by simp) s1, recount (by simp) s2, recount (by simp) s3, recount (by simp) s4⟩

/-- **C130 (one row of a cubic lattice).** -/
theorem C130_cubic (hp : 1 ≤ prec) (h0 : 1 ≤ n0) (hn : 2 * n0.toNat ≤ 64) :
    EveryHubbardRun (m := 3) prec n0.toNat (latticeGenerator prec "cubic" n0 1 1)
      (fun _ _ _ run => UniqueGround n0.toNat run ∧ GroundDistribution n0.toNat run) ∧
    EveryHubbardRun (m := 3) prec n0.toNat (latticeGenerator prec "cubic" 1 n0 1)
      (fun _ _ _ run => UniqueGround n0.toNat run ∧ GroundDistribution n0.toNat run) ∧
    EveryHubbardRun (m := 3) prec n0.toNat (latticeGenerator prec "cubic" 1 1 n0)
      (fun _ _ _ run => UniqueGround n0.toNat run ∧ GroundDistribution n0.toNat run) := by
  have o : (1 : ℤ) ≤ 1 := le_rfl
  have s1 := line_run one_pos ((C115_generated hp h0 o o).2.2.2.2.1 (by simpa using hn)) (C123_cubic hp h0 o o)
    (straight (u := ![1, 0, 0]) (by simp [Fin.sum_univ_three]) fun i _ => by
      ext a
      fin_cases a <;> simp [Nat.mod_one])
  have s2 := line_run one_pos ((C115_generated hp o h0 o).2.2.2.2.1 (by simpa using hn)) (C123_cubic hp o h0 o)
    (straight (u := ![0, 1, 0]) (by simp [Fin.sum_univ_three]) fun i hi => by
      have hi' : i < n0.toNat := by simpa using hi
      ext a
      fin_cases a <;> simp [Nat.div_eq_of_lt hi', Nat.mod_eq_of_lt hi', Nat.mod_one])
  have s3 := line_run one_pos ((C115_generated hp o o h0).2.2.2.2.1 (by simpa using hn)) (C123_cubic hp o o h0)
    (straight (u := ![0, 0, 1]) (by simp [Fin.sum_univ_three]) fun i hi => by
      have hi' : i < n0.toNat := by simpa using hi
      ext a
      fin_cases a <;> simp [Nat.div_eq_of_lt hi', Nat.mod_eq_of_lt hi'])
  exact ⟨recount (by simp) s1, recount (by simp) s2, recount (by simp) s3⟩

theorem zigzag_neighbours (i j : ℕ) (hij : i < j) :
    ndist (triangleSite 0 (i / 2) + if i % 2 = 0 then ![0, -(1 / (2 * Real.sqrt 3))] else ![0, 1 / (2 * Real.sqrt 3)])
      (triangleSite 0 (j / 2) + if j % 2 = 0 then ![0, -(1 / (2 * Real.sqrt 3))] else ![0, 1 / (2 * Real.sqrt 3)]) =
      1 / Real.sqrt 3 ↔ j = i + 1 := by
  have h3 : Real.sqrt 3 ^ 2 = 3 := Real.sq_sqrt (by norm_num)
  have hpos : 0 < Real.sqrt 3 := by positivity
  have hinv : 1 / (2 * Real.sqrt 3) = Real.sqrt 3 / 6 := by
    rw [div_eq_div_iff (by positivity) (by norm_num)]
    linear_combination (-2 : ℝ) * h3
  have hinv' : 1 / Real.sqrt 3 = Real.sqrt 3 / 3 := by
    rw [div_eq_div_iff (by positivity) (by norm_num)]
    linear_combination (-1 : ℝ) * h3
  obtain ⟨k, hk⟩ : ∃ k : ℤ, k = (j / 2 : ℕ) - (i / 2 : ℕ) := ⟨_, rfl⟩
  have hkR : (k : ℝ) = ((j / 2 : ℕ) : ℝ) - ((i / 2 : ℕ) : ℝ) := by
    rw [hk, Int.cast_sub, Int.cast_natCast, Int.cast_natCast]
  have sq : ∀ y : ℝ, 0 ≤ y → (Real.sqrt y = 1 / Real.sqrt 3 ↔ y = 1 / 3) := by
    intro y hy
    rw [hinv', Real.sqrt_eq_iff_mul_self_eq hy (by positivity)]
    constructor
    · intro h
      linear_combination h + (1 / 9 : ℝ) * h3
    · rintro rfl
      linear_combination (-1 / 9 : ℝ) * h3
  unfold ndist
  rw [sq _ (Finset.sum_nonneg fun a _ => sq_nonneg _), Fin.sum_univ_two, hinv]
  rcases Nat.mod_two_eq_zero_or_one i with hi | hi <;> rcases Nat.mod_two_eq_zero_or_one j with hj | hj
  · have e : ((triangleSite 0 (i / 2) + if i % 2 = 0 then ![0, -(Real.sqrt 3 / 6)] else ![0, Real.sqrt 3 / 6] : Pt 2) 0 -
        (triangleSite 0 (j / 2) + if j % 2 = 0 then ![0, -(Real.sqrt 3 / 6)] else ![0, Real.sqrt 3 / 6] : Pt 2) 0) ^ 2 +
        ((triangleSite 0 (i / 2) + if i % 2 = 0 then ![0, -(Real.sqrt 3 / 6)] else ![0, Real.sqrt 3 / 6] : Pt 2) 1 -
        (triangleSite 0 (j / 2) + if j % 2 = 0 then ![0, -(Real.sqrt 3 / 6)] else ![0, Real.sqrt 3 / 6] : Pt 2) 1) ^ 2 =
        (k : ℝ) ^ 2 := by
      simp only [hi, hj, triangleSite, if_true, Pi.add_apply, Matrix.cons_val_zero, Matrix.cons_val_one, hkR]
      linear_combination (1 / 4 : ℝ) * (((j / 2 : ℕ) : ℝ) - ((i / 2 : ℕ) : ℝ)) ^ 2 * h3
    rw [e]
    constructor
    · intro h
      have : (3 * k ^ 2 : ℝ) = 1 := by linarith
      have : 3 * k ^ 2 = 1 := by exact_mod_cast this
      omega
    · omega
  · have e : ((triangleSite 0 (i / 2) + if i % 2 = 0 then ![0, -(Real.sqrt 3 / 6)] else ![0, Real.sqrt 3 / 6] : Pt 2) 0 -
        (triangleSite 0 (j / 2) + if j % 2 = 0 then ![0, -(Real.sqrt 3 / 6)] else ![0, Real.sqrt 3 / 6] : Pt 2) 0) ^ 2 +
        ((triangleSite 0 (i / 2) + if i % 2 = 0 then ![0, -(Real.sqrt 3 / 6)] else ![0, Real.sqrt 3 / 6] : Pt 2) 1 -
        (triangleSite 0 (j / 2) + if j % 2 = 0 then ![0, -(Real.sqrt 3 / 6)] else ![0, Real.sqrt 3 / 6] : Pt 2) 1) ^ 2 =
        (k : ℝ) ^ 2 + k + 1 / 3 := by
      simp only [hi, hj, triangleSite, if_true, if_false, one_ne_zero, Pi.add_apply, Matrix.cons_val_zero,
        Matrix.cons_val_one, hkR]
      linear_combination ((1 / 4 : ℝ) * (((j / 2 : ℕ) : ℝ) - ((i / 2 : ℕ) : ℝ)) ^ 2 +
        (1 / 3) * (((j / 2 : ℕ) : ℝ) - ((i / 2 : ℕ) : ℝ)) + 1 / 9) * h3
    rw [e]
    constructor
    · intro h
      have h' : ((k * (k + 1) : ℤ) : ℝ) = 0 := by
        push_cast
        linear_combination h
      have : k * (k + 1) = 0 := by exact_mod_cast h'
      rcases mul_eq_zero.1 this with h0 | h0 <;> omega
    · intro h
      have : k = 0 := by omega
      rw [this]
      norm_num
  · have e : ((triangleSite 0 (i / 2) + if i % 2 = 0 then ![0, -(Real.sqrt 3 / 6)] else ![0, Real.sqrt 3 / 6] : Pt 2) 0 -
        (triangleSite 0 (j / 2) + if j % 2 = 0 then ![0, -(Real.sqrt 3 / 6)] else ![0, Real.sqrt 3 / 6] : Pt 2) 0) ^ 2 +
        ((triangleSite 0 (i / 2) + if i % 2 = 0 then ![0, -(Real.sqrt 3 / 6)] else ![0, Real.sqrt 3 / 6] : Pt 2) 1 -
        (triangleSite 0 (j / 2) + if j % 2 = 0 then ![0, -(Real.sqrt 3 / 6)] else ![0, Real.sqrt 3 / 6] : Pt 2) 1) ^ 2 =
        (k : ℝ) ^ 2 - k + 1 / 3 := by
      simp only [hi, hj, triangleSite, if_true, if_false, one_ne_zero, Pi.add_apply, Matrix.cons_val_zero,
        Matrix.cons_val_one, hkR]
      linear_combination ((1 / 4 : ℝ) * (((j / 2 : ℕ) : ℝ) - ((i / 2 : ℕ) : ℝ)) ^ 2 -
        (1 / 3) * (((j / 2 : ℕ) : ℝ) - ((i / 2 : ℕ) : ℝ)) + 1 / 9) * h3
    rw [e]
    constructor
    · intro h
      have h' : ((k * (k - 1) : ℤ) : ℝ) = 0 := by
        push_cast
        linear_combination h
      have : k * (k - 1) = 0 := by exact_mod_cast h'
      rcases mul_eq_zero.1 this with h0 | h0 <;> omega
    · intro h
      have : k = 1 := by omega
      rw [this]
      norm_num
  · have e : ((triangleSite 0 (i / 2) + if i % 2 = 0 then ![0, -(Real.sqrt 3 / 6)] else ![0, Real.sqrt 3 / 6] : Pt 2) 0 -
        (triangleSite 0 (j / 2) + if j % 2 = 0 then ![0, -(Real.sqrt 3 / 6)] else ![0, Real.sqrt 3 / 6] : Pt 2) 0) ^ 2 +
        ((triangleSite 0 (i / 2) + if i % 2 = 0 then ![0, -(Real.sqrt 3 / 6)] else ![0, Real.sqrt 3 / 6] : Pt 2) 1 -
        (triangleSite 0 (j / 2) + if j % 2 = 0 then ![0, -(Real.sqrt 3 / 6)] else ![0, Real.sqrt 3 / 6] : Pt 2) 1) ^ 2 =
        (k : ℝ) ^ 2 := by
      simp only [hi, hj, triangleSite, if_false, one_ne_zero, Pi.add_apply, Matrix.cons_val_zero, Matrix.cons_val_one, hkR]
      linear_combination (1 / 4 : ℝ) * (((j / 2 : ℕ) : ℝ) - ((i / 2 : ℕ) : ℝ)) ^ 2 * h3
    rw [e]
    constructor
    · intro h
      have : (3 * k ^ 2 : ℝ) = 1 := by linarith
      have : 3 * k ^ 2 = 1 := by exact_mod_cast this
      omega
    · omega

/-- **C130 (the zigzag chain).**  One row of cells of the honeycomb lattice along the second vector. -/
theorem C130_zigzag (hp : 1 ≤ prec) (h1 : 1 ≤ n1) (h2 : 1 ≤ n2) (hr : 1 / Real.sqrt 3 ≤ roundTo prec (1 / Real.sqrt 3))
    (hn : 2 * (n1.toNat * 2) ≤ 64) :
    EveryHubbardRun (m := 2) prec (n1.toNat * 2) (latticeGenerator prec "honeycomb" 1 n1 n2)
      fun _ _ _ run => UniqueGround (n1.toNat * 2) run ∧ GroundDistribution (n1.toNat * 2) run := by
  have o : (1 : ℤ) ≤ 1 := le_rfl
  refine recount (by simp) (line_run (by positivity) ((C115_generated hp o h1 h2).2.2.2.2.2 hr (by simpa using hn))
    (C123_honeycomb hp o h1 h2) fun i j hij hj => ?_)
  have hj' : j / 2 < n1.toNat := by
    have : j < n1.toNat * 2 := by simpa using hj
    omega
  have hi' : i / 2 < n1.toNat := by omega
  rw [Nat.div_eq_of_lt hj', Nat.mod_eq_of_lt hj', Nat.div_eq_of_lt hi', Nat.mod_eq_of_lt hi']
  exact zigzag_neighbours i j hij

/-! ### The hypotheses are met -/

/-- Three electrons up and two down on a chain of six points, `t = -1`, `U = 4`: the run exists, and in its ground state
the ends of the chain hold equally many electrons of spin up. -/
example : ∃ (L : Lat 6 1 1) (V : Setup), latticeGenerator 4 "chain" 6 1 1 = .ok ⟨6, 1, 1, L⟩ ∧
    hubbardClusterSetup id (fun _ => id) defaultZoom (fun x => .flt (.fin ((⌊x * 2 ^ 30⌋ : ℤ) / 2 ^ 30))) 4 L (-1) 4 3 2 =
      some (.ok V) ∧ ∃ (E : ℝ) (v : Fin V.basis.length → ℂ), IsLowest V.HM E ∧ (∀ r, v r ≠ 0) ∧
        V.HM.mulVec v = (E : ℂ) • v ∧ expectation (bothOccupied V 6 6) v = expectation (bothOccupied V 11 11) v := by
  obtain ⟨L, h1, h2, h3⟩ := (C130_chain (prec := 4) (n0 := 6) (n1 := 1) (n2 := 1) (by norm_num) (by norm_num) (by norm_num)
    (by norm_num) (by decide)).run (zoom := defaultZoom)
    (fun B hB => C108_generated (p := 4) (by norm_num) (by norm_num) (by norm_num)
      (by norm_num) (by norm_num) (by norm_num) nearFloats_example _ B hB)
  obtain ⟨V, hV, E, hE, v, hv, -, hne, -⟩ := h2 (-1) 4 3 2 (by norm_num) (by decide) (by decide)
  obtain ⟨V', hV', hd⟩ := h3 (-1) 4 3 2 (by norm_num) (by decide) (by decide)
  have e : V' = V := by
    have := hV'.symm.trans hV
    simpa using this
  subst e
  have hN : 0 < V'.basis.length := by
    obtain ⟨⟨w, hw, -⟩, -⟩ := hE
    by_contra h0
    exact hw (funext fun r => absurd r.2 (by omega))
  have hv0 : v ≠ 0 := fun h0 => hne ⟨0, hN⟩ (by rw [h0]; rfl)
  exact ⟨L, V', h1, hV, E, v, hE, hne, hv, (hd E v hE hv0 hv).1 1 (by norm_num) 1 (by norm_num) 0 (by decide)⟩

end Verif.LDB
