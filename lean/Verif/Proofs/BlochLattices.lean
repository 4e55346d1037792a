import Verif.Proofs.BlochBand
/-!
# The honeycomb and kagome lattices
-/

namespace Verif.LDB

open Verif.Latt Demo

theorem BlochData.shift {m b : ℕ} {S : Set (Pt m)} {d : ℝ} {G : AddSubgroup (Pt m)} {τ : Fin b → Pt m}
    {D : Fin b → Fin b → Finset (Pt m)} (h : BlochData S d G τ D) (w : Pt m) :
    BlochData (shifted w S) d G (fun α => w + τ α) D := by
  have e : ∀ p α, p - (w + τ α) = p - w - τ α := fun p α => by abel
  refine ⟨fun p => ?_, fun α β p h1 h2 => ?_, fun α β s x hs => ?_⟩
  · simp only [e]
    exact h.union (p - w)
  · rw [e] at h1 h2
    exact h.disjoint α β _ h1 h2
  · rw [e] at hs ⊢
    have := h.steps α β (s - w) (x - w) hs
    rw [show ndist (s - w) (x - w) = ndist s x from ndist_sub _ _ _ _ (by abel)] at this
    rw [this]
    refine ⟨fun ⟨y, hy, e⟩ => ⟨y, hy, ?_⟩, fun ⟨y, hy, e⟩ => ⟨y, hy, ?_⟩⟩
    · rw [sub_eq_iff_eq_add] at e
      rw [e]; abel
    · rw [e]; abel

/-- The translations of the triangular lattice. -/
def triangleGroup : AddSubgroup (Pt 2) where
  carrier := triangleSites
  zero_mem' := ⟨0, 0, by ext i; fin_cases i <;> simp⟩
  add_mem' := by
    rintro _ _ ⟨a, b, rfl⟩ ⟨a', b', rfl⟩
    refine ⟨a + a', b + b', ?_⟩
    ext i; fin_cases i <;> simp <;> ring
  neg_mem' := by
    rintro _ ⟨a, b, rfl⟩
    refine ⟨-a, -b, ?_⟩
    ext i; fin_cases i <;> simp <;> ring

theorem mem_triangle (p : Pt 2) : p ∈ triangleGroup ↔ ∃ a b : ℤ, p 0 = a + b / 2 ∧ p 1 = b * (Real.sqrt 3 / 2) := by
  constructor
  · rintro ⟨a, b, rfl⟩
    exact ⟨a, b, by simp, by simp⟩
  · rintro ⟨a, b, h0, h1⟩
    refine ⟨a, b, ?_⟩
    ext i; fin_cases i
    · simpa using h0
    · simpa using h1

theorem s3 : Real.sqrt 3 * Real.sqrt 3 = 3 := Real.mul_self_sqrt (by norm_num)
theorem s3_pos : 0 < Real.sqrt 3 := Real.sqrt_pos.2 (by norm_num)
theorem s3_inv : 1 / Real.sqrt 3 = Real.sqrt 3 / 3 := by
  have := s3_pos
  field_simp
  rw [sq, s3]

/-! ### Honeycomb -/

noncomputable def honeyTau : Fin 2 → Pt 2 := ![![0, -(Real.sqrt 3 / 6)], ![0, Real.sqrt 3 / 6]]

noncomputable def honeyUp : Finset (Pt 2) :=
  {![0, Real.sqrt 3 / 3], ![1 / 2, -(Real.sqrt 3 / 6)], ![-1 / 2, -(Real.sqrt 3 / 6)]}

noncomputable def honeyDown : Finset (Pt 2) :=
  {![0, -(Real.sqrt 3 / 3)], ![-1 / 2, Real.sqrt 3 / 6], ![1 / 2, Real.sqrt 3 / 6]}

noncomputable def honeyD : Fin 2 → Fin 2 → Finset (Pt 2) := ![![∅, honeyUp], ![honeyDown, ∅]]

theorem sum_honeyUp {M : Type*} [AddCommMonoid M] (f : Pt 2 → M) :
    ∑ y ∈ honeyUp, f y = f ![0, Real.sqrt 3 / 3] + (f ![1 / 2, -(Real.sqrt 3 / 6)] + f ![-1 / 2, -(Real.sqrt 3 / 6)]) := by
  unfold honeyUp
  rw [Finset.sum_insert, Finset.sum_insert, Finset.sum_singleton] <;>
  simp only [Finset.mem_insert, Finset.mem_singleton, Matrix.vecCons_inj] <;> norm_num

theorem sum_honeyDown {M : Type*} [AddCommMonoid M] (f : Pt 2 → M) :
    ∑ y ∈ honeyDown, f y = f ![0, -(Real.sqrt 3 / 3)] + (f ![-1 / 2, Real.sqrt 3 / 6] + f ![1 / 2, Real.sqrt 3 / 6]) := by
  unfold honeyDown
  rw [Finset.sum_insert, Finset.sum_insert, Finset.sum_singleton] <;>
  simp only [Finset.mem_insert, Finset.mem_singleton, Matrix.vecCons_inj] <;> norm_num

theorem bloch_honeycomb : BlochData honeycombSites (1 / Real.sqrt 3) triangleGroup honeyTau honeyD := by
  have hs := s3
  have hp := s3_pos
  have h6 : 1 / (2 * Real.sqrt 3) = Real.sqrt 3 / 6 := by
    rw [show (1 : ℝ) / (2 * Real.sqrt 3) = 1 / Real.sqrt 3 / 2 by field_simp, s3_inv]; ring
  refine blochData_of coord_honeycomb (by norm_num) ?_ ?_ ?_ ?_ ?_
  · intro p
    simp only [honeycombSites, Set.mem_ofPred_eq, h6]
    constructor
    · rintro ⟨t, ht, rfl | rfl⟩
      · refine ⟨0, ?_⟩
        rw [show ![t 0, t 1 - Real.sqrt 3 / 6] - honeyTau 0 = t by ext i; fin_cases i <;> simp [honeyTau]]
        exact ht
      · refine ⟨1, ?_⟩
        rw [show ![t 0, t 1 + Real.sqrt 3 / 6] - honeyTau 1 = t by ext i; fin_cases i <;> simp [honeyTau]]
        exact ht
    · rintro ⟨α, hα⟩
      refine ⟨_, hα, ?_⟩
      fin_cases α
      · left; ext i; fin_cases i <;> simp [honeyTau]
      · right; ext i; fin_cases i <;> simp [honeyTau]
  · intro α β h
    obtain ⟨a, c, -, h1⟩ := (mem_triangle _).1 h
    fin_cases α <;> fin_cases β <;> simp [honeyTau] at h1 ⊢
    · have : (c : ℝ) * 3 = -2 := by nlinarith
      have : c * 3 = -2 := by exact_mod_cast this
      omega
    · have : (c : ℝ) * 3 = 2 := by nlinarith
      have : c * 3 = 2 := by exact_mod_cast this
      omega
  · intro α
    rw [Fin.sum_univ_two]
    fin_cases α
    · simp [honeyD, show honeyUp.card = 3 by rw [Finset.card_eq_sum_ones, sum_honeyUp]; rfl]
    · simp [honeyD, show honeyDown.card = 3 by rw [Finset.card_eq_sum_ones, sum_honeyDown]; rfl]
  · intro α β y hy
    rw [mem_triangle]
    fin_cases α <;> fin_cases β <;> simp [honeyD, honeyUp, honeyDown] at hy
    · rcases hy with rfl | rfl | rfl
      · exact ⟨0, 0, by simp [honeyTau], by simp [honeyTau]; ring⟩
      · exact ⟨1, -1, by simp [honeyTau] <;> norm_num, by simp [honeyTau]; ring⟩
      · exact ⟨0, -1, by simp [honeyTau] <;> norm_num, by simp [honeyTau]; ring⟩
    · rcases hy with rfl | rfl | rfl
      · exact ⟨0, 0, by simp [honeyTau], by simp [honeyTau]; ring⟩
      · exact ⟨-1, 1, by simp [honeyTau]; norm_num, by simp [honeyTau]; ring⟩
      · exact ⟨0, 1, by simp [honeyTau], by simp [honeyTau]; ring⟩
  · intro α β y hy
    have key : ∀ y : Pt 2, y 0 ^ 2 + y 1 ^ 2 = 1 / 3 → ndist 0 y = 1 / Real.sqrt 3 := by
      intro y h
      rw [ndist, Fin.sum_univ_two]
      simp only [Pi.zero_apply, zero_sub, neg_sq]
      rw [h, Real.sqrt_div zero_le_one, Real.sqrt_one]
    refine key y ?_
    fin_cases α <;> fin_cases β <;> simp [honeyD, honeyUp, honeyDown] at hy
    all_goals rcases hy with rfl | rfl | rfl <;> simp <;> nlinarith

/-! ### Kagome -/

noncomputable def kagTau : Fin 3 → Pt 2 := ![![0, 0], ![1 / 4, Real.sqrt 3 / 4], ![1 / 2, 0]]

noncomputable def kag01 : Finset (Pt 2) := {![1 / 4, Real.sqrt 3 / 4], ![-1 / 4, -(Real.sqrt 3 / 4)]}
noncomputable def kag02 : Finset (Pt 2) := {![1 / 2, 0], ![-1 / 2, 0]}
noncomputable def kag12 : Finset (Pt 2) := {![1 / 4, -(Real.sqrt 3 / 4)], ![-1 / 4, Real.sqrt 3 / 4]}

noncomputable def kagD : Fin 3 → Fin 3 → Finset (Pt 2) :=
  ![![∅, kag01, kag02], ![kag01, ∅, kag12], ![kag02, kag12, ∅]]

theorem sum_kag01 {M : Type*} [AddCommMonoid M] (f : Pt 2 → M) :
    ∑ y ∈ kag01, f y = f ![1 / 4, Real.sqrt 3 / 4] + f ![-1 / 4, -(Real.sqrt 3 / 4)] := by
  unfold kag01
  rw [Finset.sum_insert, Finset.sum_singleton]
  simp only [Finset.mem_singleton, Matrix.vecCons_inj]; norm_num

theorem sum_kag02 {M : Type*} [AddCommMonoid M] (f : Pt 2 → M) :
    ∑ y ∈ kag02, f y = f ![1 / 2, 0] + f ![-1 / 2, 0] := by
  unfold kag02
  rw [Finset.sum_insert, Finset.sum_singleton]
  simp only [Finset.mem_singleton, Matrix.vecCons_inj]; norm_num

theorem sum_kag12 {M : Type*} [AddCommMonoid M] (f : Pt 2 → M) :
    ∑ y ∈ kag12, f y = f ![1 / 4, -(Real.sqrt 3 / 4)] + f ![-1 / 4, Real.sqrt 3 / 4] := by
  unfold kag12
  rw [Finset.sum_insert, Finset.sum_singleton]
  simp only [Finset.mem_singleton, Matrix.vecCons_inj]; norm_num

theorem bloch_kagome : BlochData kagomeSites (1 / 2) triangleGroup kagTau kagD := by
  have hs := s3
  have hp := s3_pos
  refine blochData_of coord_kagome (by norm_num) ?_ ?_ ?_ ?_ ?_
  · intro p
    constructor
    · rintro ⟨a, c, hac, rfl⟩
      rcases Int.even_or_odd' a with ⟨a, rfl | rfl⟩ <;> rcases Int.even_or_odd' c with ⟨c, rfl | rfl⟩
      · exact ⟨0, (mem_triangle _).2 ⟨a, c, by simp [kagTau]; ring, by simp [kagTau]; ring⟩⟩
      · exact ⟨1, (mem_triangle _).2 ⟨a, c, by simp [kagTau]; ring, by simp [kagTau]; ring⟩⟩
      · exact ⟨2, (mem_triangle _).2 ⟨a, c, by simp [kagTau]; ring, by simp [kagTau]; ring⟩⟩
      · exact absurd ⟨⟨a, rfl⟩, ⟨c, rfl⟩⟩ hac
    · rintro ⟨α, hα⟩
      obtain ⟨a, c, h0, h1⟩ := (mem_triangle _).1 hα
      fin_cases α
      · refine ⟨2 * a, 2 * c, by simp [Int.not_odd_iff_even], ?_⟩
        ext i; fin_cases i
        · simp [kagTau] at h0 ⊢; linarith
        · simp [kagTau] at h1 ⊢; linarith
      · refine ⟨2 * a, 2 * c + 1, by simp [Int.not_odd_iff_even], ?_⟩
        ext i; fin_cases i
        · simp [kagTau] at h0 ⊢; linarith
        · simp [kagTau] at h1 ⊢; linarith
      · refine ⟨2 * a + 1, 2 * c, by simp [Int.not_odd_iff_even], ?_⟩
        ext i; fin_cases i
        · simp [kagTau] at h0 ⊢; linarith
        · simp [kagTau] at h1 ⊢; linarith
  · intro α β h
    obtain ⟨a, c, h0, h1⟩ := (mem_triangle _).1 h
    have hc : ∀ k : ℝ, (c : ℝ) * (Real.sqrt 3 / 2) = k * (Real.sqrt 3 / 2) → (c : ℝ) = k := fun k e =>
      mul_right_cancel₀ (by positivity) e
    fin_cases α <;> fin_cases β <;> simp [kagTau] at h0 h1 ⊢
    · have : (c : ℝ) = -1 / 2 := hc _ (by linarith)
      have : (c : ℝ) * 2 = -1 := by linarith
      have : c * 2 = -1 := by exact_mod_cast this
      omega
    · subst h1
      · have : (a : ℝ) * 2 = -1 := by push_cast at h0; linarith
        have : a * 2 = -1 := by exact_mod_cast this
        omega
    · have : (c : ℝ) = 1 / 2 := hc _ (by linarith)
      have : (c : ℝ) * 2 = 1 := by linarith
      have : c * 2 = 1 := by exact_mod_cast this
      omega
    · have : (c : ℝ) = 1 / 2 := hc _ (by linarith)
      have : (c : ℝ) * 2 = 1 := by linarith
      have : c * 2 = 1 := by exact_mod_cast this
      omega
    · subst h1
      · have : (a : ℝ) * 2 = 1 := by push_cast at h0; linarith
        have : a * 2 = 1 := by exact_mod_cast this
        omega
    · have : (c : ℝ) = -1 / 2 := hc _ (by linarith)
      have : (c : ℝ) * 2 = -1 := by linarith
      have : c * 2 = -1 := by exact_mod_cast this
      omega
  · intro α
    rw [Fin.sum_univ_three]
    fin_cases α <;> simp [kagD, show kag01.card = 2 by rw [Finset.card_eq_sum_ones, sum_kag01],
      show kag02.card = 2 by rw [Finset.card_eq_sum_ones, sum_kag02],
      show kag12.card = 2 by rw [Finset.card_eq_sum_ones, sum_kag12]]
  · intro α β y hy
    rw [mem_triangle]
    fin_cases α <;> fin_cases β <;> simp [kagD, kag01, kag02, kag12] at hy
    · rcases hy with rfl | rfl
      · exact ⟨0, 0, by simp [kagTau], by simp [kagTau]⟩
      · exact ⟨0, -1, by simp [kagTau]; norm_num, by simp [kagTau]; ring⟩
    · rcases hy with rfl | rfl
      · exact ⟨0, 0, by simp [kagTau], by simp [kagTau]⟩
      · exact ⟨-1, 0, by simp [kagTau]; norm_num, by simp [kagTau]⟩
    · rcases hy with rfl | rfl
      · exact ⟨0, 1, by simp [kagTau]; norm_num, by simp [kagTau]; ring⟩
      · exact ⟨0, 0, by simp [kagTau]; norm_num, by simp [kagTau]⟩
    · rcases hy with rfl | rfl
      · exact ⟨0, 0, by simp [kagTau]; norm_num, by simp [kagTau]⟩
      · exact ⟨-1, 1, by simp [kagTau]; norm_num, by simp [kagTau]; ring⟩
    · rcases hy with rfl | rfl
      · exact ⟨1, 0, by simp [kagTau]; norm_num, by simp [kagTau]⟩
      · exact ⟨0, 0, by simp [kagTau]; norm_num, by simp [kagTau]⟩
    · rcases hy with rfl | rfl
      · exact ⟨1, -1, by simp [kagTau]; norm_num, by simp [kagTau]; ring⟩
      · exact ⟨0, 0, by simp [kagTau]; norm_num, by simp [kagTau]⟩
  · intro α β y hy
    have key : ∀ y : Pt 2, y 0 ^ 2 + y 1 ^ 2 = 1 / 4 → ndist 0 y = 1 / 2 := by
      intro y h
      rw [ndist, Fin.sum_univ_two]
      simp only [Pi.zero_apply, zero_sub, neg_sq]
      rw [h, show (1 : ℝ) / 4 = (1 / 2) ^ 2 by norm_num, Real.sqrt_sq (by norm_num)]
    refine key y ?_
    fin_cases α <;> fin_cases β <;> simp [kagD, kag01, kag02, kag12] at hy
    all_goals rcases hy with rfl | rfl <;> simp <;> nlinarith

end Verif.LDB
