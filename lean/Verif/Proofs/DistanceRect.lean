import Verif.Proofs.DistanceExact
import Verif.Proofs.DistanceChain
/-!
Helper lemmas: a lattice with one site and an elongated cell (for C52).
-/

namespace Verif.Latt

open Verif.LDB

/-- One site, cell of one by ten. -/
noncomputable def rectPoints : Fin 1 → Pt 2 := ![![0, 0]]
noncomputable def rectVectors : Fin 2 → Pt 2 := ![![1, 0], ![0, 10]]

theorem rect_comb (c : Fin 2 → ℤ) : comb rectVectors c = ![(c 0 : ℝ), 10 * (c 1 : ℝ)] := by
  funext a
  fin_cases a
  · simp [comb, rectVectors, Fin.sum_univ_two]
  · simp [comb, rectVectors, Fin.sum_univ_two]; ring

theorem rect_ndist (i j : Fin 1) (c c' : Fin 2 → ℤ) :
    ndist (rectPoints i + comb rectVectors c) (rectPoints j + comb rectVectors c') =
      Real.sqrt (((c 0 - c' 0) ^ 2 + 100 * (c 1 - c' 1) ^ 2 : ℤ) : ℝ) := by
  rw [rect_comb, rect_comb]
  unfold ndist
  congr 1
  fin_cases i; fin_cases j
  simp [Fin.sum_univ_two, rectPoints]
  ring

/-- The sites: all points with an integer and a multiple of ten as coordinates. -/
def rectSites : Set (Pt 2) := {s | ∃ a b : ℤ, s = ![(a : ℝ), 10 * (b : ℝ)]}

theorem rect_tiling : ExactTiling rectSites rectPoints rectVectors := by
  refine ⟨fun i c => ⟨c 0, c 1, ?_⟩, ?_⟩
  · rw [rect_comb]; fin_cases i
    funext a; fin_cases a <;> simp [rectPoints]
  · rintro s ⟨a, b, rfl⟩
    refine ⟨(0, ![a, b]), ?_, ?_⟩
    · dsimp only
      rw [rect_comb]
      funext x; fin_cases x <;> simp [rectPoints]
    · rintro ⟨i, c⟩ e
      dsimp only at e
      rw [rect_comb] at e
      have e0 := congrFun e 0
      have e1 := congrFun e 1
      fin_cases i
      simp [rectPoints] at e0 e1
      have : c = ![a, b] := by
        funext x
        fin_cases x
        · simp; exact_mod_cast e0.symm
        · simp; exact_mod_cast e1.symm
      rw [this]; rfl

theorem rect_init (prec : ℕ) : ∃ L, init prec rectPoints rectVectors = .ok L := by
  unfold init initSame
  rw [if_neg (by norm_num), if_neg (by norm_num), dif_pos rfl, if_neg, if_neg, if_pos]
  · exact ⟨_, rfl⟩
  · have : (Matrix.of rectVectors * (Matrix.of rectVectors).transpose).det = 100 := by
      rw [Matrix.det_fin_two]
      simp [Matrix.mul_apply, Fin.sum_univ_two, rectVectors]
      norm_num
    rw [this]
    exact isUnit_iff_ne_zero.2 (by norm_num)
  · rintro ⟨i, j, h, -⟩
    omega
  · rintro ⟨i, j, h, h'⟩
    have hi : i = 0 := by omega
    have hj : j = 1 := by omega
    subst hi hj
    have h1 : tol prec ≤ 1 := by
      unfold tol
      rw [div_le_one (by positivity)]
      exact one_le_pow₀ (by norm_num)
    have h2 : (1 : ℝ) ≤ ndist (rectVectors 0) (rectVectors 1) := by
      unfold ndist
      rw [Real.one_le_sqrt]
      simp [Fin.sum_univ_two, rectVectors]
    linarith

/-- The squares of the distances. -/
theorem rect_box (s : ℕ) (x : ℝ) : x ∈ BoxDistances rectPoints rectVectors s ↔
    ∃ a b : ℤ, |a| ≤ 2 * s ∧ |b| ≤ 2 * s ∧ (a ≠ 0 ∨ b ≠ 0) ∧ x = Real.sqrt ((a ^ 2 + 100 * b ^ 2 : ℤ) : ℝ) := by
  constructor
  · rintro ⟨i, j, c, c', hc, hc', hne, rfl⟩
    refine ⟨c 0 - c' 0, c 1 - c' 1, ?_, ?_, ?_, rect_ndist i j c c'⟩
    · have := abs_le.1 (hc 0); have := abs_le.1 (hc' 0); rw [abs_le]; omega
    · have := abs_le.1 (hc 1); have := abs_le.1 (hc' 1); rw [abs_le]; omega
    · by_contra hcon
      push Not at hcon
      rcases hne with h | h
      · exact h (Subsingleton.elim _ _)
      · refine h (funext fun q => ?_)
        fin_cases q
        · exact sub_eq_zero.1 hcon.1
        · exact sub_eq_zero.1 hcon.2
  · rintro ⟨a, b, ha, hb, hne, rfl⟩
    have split : ∀ a : ℤ, |a| ≤ 2 * s → |max (-(s : ℤ)) (min s a)| ≤ s ∧ |max (-(s : ℤ)) (min s a) - a| ≤ s := by
      intro a ha
      have := abs_le.1 ha
      constructor <;> rw [abs_le] <;> omega
    refine ⟨0, 0, ![max (-(s : ℤ)) (min s a), max (-(s : ℤ)) (min s b)],
      ![max (-(s : ℤ)) (min s a) - a, max (-(s : ℤ)) (min s b) - b], ?_, ?_, Or.inr fun e => ?_, ?_⟩
    · intro q; fin_cases q
      · exact (split a ha).1
      · exact (split b hb).1
    · intro q; fin_cases q
      · exact (split a ha).2
      · exact (split b hb).2
    · have e0 := congrFun e 0
      have e1 := congrFun e 1
      simp at e0 e1
      omega
    · rw [rect_ndist]; simp

theorem rect_distances (x : ℝ) : x ∈ Distances rectSites ↔
    ∃ a b : ℤ, (a ≠ 0 ∨ b ≠ 0) ∧ x = Real.sqrt ((a ^ 2 + 100 * b ^ 2 : ℤ) : ℝ) := by
  constructor
  · rintro ⟨s, hs, t, ht, hst, rfl⟩
    obtain ⟨⟨i, c⟩, e, -⟩ := rect_tiling.covers s hs
    obtain ⟨⟨j, c'⟩, e', -⟩ := rect_tiling.covers t ht
    dsimp only at e e'
    refine ⟨c 0 - c' 0, c 1 - c' 1, ?_, by rw [e, e', rect_ndist]⟩
    by_contra hcon
    push Not at hcon
    refine hst ?_
    rw [e, e', show i = j from Subsingleton.elim _ _]
    congr 2
    funext q
    fin_cases q
    · exact sub_eq_zero.1 hcon.1
    · exact sub_eq_zero.1 hcon.2
  · rintro ⟨a, b, hne, rfl⟩
    exact box_sub rect_tiling (s := a.natAbs + b.natAbs) ((rect_box _ _).2
      ⟨a, b, by rw [abs_le]; omega, by rw [abs_le]; omega, hne, rfl⟩)

/-- Distances that are at most three. -/
theorem rect_small {x : ℝ} (hx : x ∈ Distances rectSites) (hle : x ≤ 3) : x = 1 ∨ x = 2 ∨ x = 3 := by
  obtain ⟨a, b, hne, rfl⟩ := (rect_distances x).1 hx
  rw [Real.sqrt_le_left (by norm_num)] at hle
  have h9 : a ^ 2 + 100 * b ^ 2 ≤ 9 := by
    have : ((a ^ 2 + 100 * b ^ 2 : ℤ) : ℝ) ≤ ((9 : ℤ) : ℝ) := by push_cast at hle ⊢; linarith
    exact_mod_cast this
  have hb : b = 0 := by
    by_contra hb
    have : 1 ≤ b ^ 2 := by have := Int.one_le_abs hb; nlinarith [sq_abs b]
    nlinarith [sq_nonneg a]
  subst hb
  have ha : a ≠ 0 := by simpa using hne
  have ha3 : |a| ≤ 3 := by
    by_contra hc
    push Not at hc
    nlinarith [sq_abs a]
  have e : Real.sqrt ((a ^ 2 + 100 * 0 ^ 2 : ℤ) : ℝ) = ((|a| : ℤ) : ℝ) := by
    push_cast
    rw [← Real.sqrt_sq_eq_abs]
    norm_num
  rw [e]
  have := Int.one_le_abs ha
  have : |a| = 1 ∨ |a| = 2 ∨ |a| = 3 := by omega
  rcases this with h | h | h <;> rw [h] <;> norm_num

theorem rect_int (z : ℤ) (hz : 0 < z) : (z : ℝ) ∈ Distances rectSites :=
  (rect_distances _).2 ⟨z, 0, Or.inl hz.ne', by
    push_cast
    norm_num
    rw [Real.sqrt_sq (by exact_mod_cast hz.le)]⟩

theorem rect_third : IsNthDistance rectSites 3 3 := by
  refine ⟨by exact_mod_cast rect_int 3 (by norm_num), ?_⟩
  have e : {x ∈ Distances rectSites | x ≤ (3 : ℝ)} = {1, 2, 3} := by
    ext x
    simp only [Set.mem_ofPred_eq, Set.mem_insert_iff, Set.mem_singleton_iff]
    constructor
    · rintro ⟨h1, h2⟩; exact rect_small h1 h2
    · rintro (rfl | rfl | rfl)
      · exact ⟨by exact_mod_cast rect_int 1 (by norm_num), by norm_num⟩
      · exact ⟨by exact_mod_cast rect_int 2 (by norm_num), by norm_num⟩
      · exact ⟨by exact_mod_cast rect_int 3 (by norm_num), le_rfl⟩
  rw [e, Set.ncard_eq_toFinset_card']
  rw [show ({1, 2, 3} : Set ℝ).toFinset = ({1, 2, 3} : Finset ℝ) by ext; simp]
  rw [Finset.card_insert_of_notMem (by norm_num), Finset.card_insert_of_notMem (by norm_num),
    Finset.card_singleton]

theorem rect_wellSpaced {prec : ℕ} (hp : 2 ≤ prec) : WellSpaced prec rectSites 3 := by
  have hres : Resolved prec rectSites 3 := resolved_of_units (u := 1) (by norm_num) (fun x hx => by
    obtain ⟨a, b, _, rfl⟩ := (rect_distances x).1 hx
    exact ⟨_, by rw [Real.sq_sqrt (by push_cast; positivity), mul_one]⟩) (by omega) (by
      calc (12 : ℝ) * 3 + 1 ≤ 10 ^ 2 := by norm_num
        _ ≤ 10 ^ prec := pow_le_pow_right₀ (by norm_num) hp)
  intro x hx y hy h1 h2
  have := hres x hx y hy h1 h2
  unfold tol at this
  rw [← mul_div_assoc, mul_one] at this
  exact this

theorem rint_sqrt {prec : ℕ} (z : ℤ) (hz : 0 ≤ z) :
    rint (Real.sqrt ((z ^ 2 : ℤ) : ℝ) * 10 ^ prec) = z * 10 ^ prec := by
  have : Real.sqrt ((z ^ 2 : ℤ) : ℝ) * 10 ^ prec = ((z * 10 ^ prec : ℤ) : ℝ) := by
    push_cast
    rw [Real.sqrt_sq (by exact_mod_cast hz)]
  rw [this, rint_intCast]

/-- In the first search the third distance seen is ten. -/
theorem rect_first {prec : ℕ} {l : List ℤ} (h : Shows prec rectPoints rectVectors 1 l) :
    l[2]? = some (10 * 10 ^ prec) := by
  have hp : (0 : ℤ) < 10 ^ prec := by positivity
  have m1 : 1 * 10 ^ prec ∈ l := (h.mem _).2 ⟨_, (rect_box 1 _).2 ⟨1, 0, by norm_num, by norm_num, by norm_num, rfl⟩, by
    rw [show ((1 : ℤ) ^ 2 + 100 * 0 ^ 2) = 1 ^ 2 by norm_num, rint_sqrt 1 (by norm_num)]⟩
  have m2 : 2 * 10 ^ prec ∈ l := (h.mem _).2 ⟨_, (rect_box 1 _).2 ⟨2, 0, by norm_num, by norm_num, by norm_num, rfl⟩, by
    rw [show ((2 : ℤ) ^ 2 + 100 * 0 ^ 2) = 2 ^ 2 by norm_num, rint_sqrt 2 (by norm_num)]⟩
  have m3 : 10 * 10 ^ prec ∈ l := (h.mem _).2 ⟨_, (rect_box 1 _).2 ⟨0, 1, by norm_num, by norm_num, by norm_num, rfl⟩, by
    rw [show ((0 : ℤ) ^ 2 + 100 * 1 ^ 2) = 10 ^ 2 by norm_num, rint_sqrt 10 (by norm_num)]⟩
  have hle : ∀ z ∈ l, z ≤ 10 * 10 ^ prec → z ∈ ({1 * 10 ^ prec, 2 * 10 ^ prec, 10 * 10 ^ prec} : Finset ℤ) := by
    intro z hz hzle
    obtain ⟨x, hx, rfl⟩ := (h.mem z).1 hz
    obtain ⟨a, b, ha, hb, hne, rfl⟩ := (rect_box 1 x).1 hx
    have ha' := abs_le.1 ha
    have hb' := abs_le.1 hb
    by_cases hb0 : b = 0
    · subst hb0
      have ha0 : a ≠ 0 := by simpa using hne
      rw [show (a ^ 2 + 100 * 0 ^ 2 : ℤ) = |a| ^ 2 by rw [sq_abs]; ring, rint_sqrt _ (abs_nonneg a)]
      have h1 := Int.one_le_abs ha0
      have : |a| = 1 ∨ |a| = 2 := by push_cast at ha; omega
      rcases this with e | e <;> rw [e] <;> simp
    · have hge : (10 : ℤ) ^ 2 ≤ a ^ 2 + 100 * b ^ 2 := by
        have := Int.one_le_abs hb0
        nlinarith [sq_abs b, sq_nonneg a]
      have h1 : rint (Real.sqrt (((10 : ℤ) ^ 2 : ℤ) : ℝ) * 10 ^ prec) ≤
          rint (Real.sqrt ((a ^ 2 + 100 * b ^ 2 : ℤ) : ℝ) * 10 ^ prec) :=
        rint_mono (mul_le_mul_of_nonneg_right (Real.sqrt_le_sqrt (by exact_mod_cast hge)) (by positivity))
      rw [rint_sqrt 10 (by norm_num)] at h1
      have : rint (Real.sqrt ((a ^ 2 + 100 * b ^ 2 : ℤ) : ℝ) * 10 ^ prec) = 10 * 10 ^ prec := le_antisymm hzle h1
      rw [this]; simp
  have hcount : (l.filter (fun y => decide (y ≤ 10 * 10 ^ prec))).length = 3 := by
    have hnd : (l.filter (fun y => decide (y ≤ 10 * 10 ^ prec))).Nodup :=
      (h.sorted.imp (fun h => ne_of_lt h)).filter _
    rw [← List.toFinset_card_of_nodup hnd]
    have e : (l.filter (fun y => decide (y ≤ 10 * 10 ^ prec))).toFinset =
        ({1 * 10 ^ prec, 2 * 10 ^ prec, 10 * 10 ^ prec} : Finset ℤ) := by
      ext z
      rw [List.mem_toFinset, List.mem_filter, decide_eq_true_iff]
      constructor
      · rintro ⟨h1, h2⟩; exact hle z h1 h2
      · intro hz
        simp only [Finset.mem_insert, Finset.mem_singleton] at hz
        rcases hz with rfl | rfl | rfl
        · exact ⟨m1, by omega⟩
        · exact ⟨m2, by omega⟩
        · exact ⟨m3, le_rfl⟩
    rw [e, Finset.card_insert_of_notMem, Finset.card_insert_of_notMem, Finset.card_singleton]
    · simp only [Finset.mem_singleton]; omega
    · simp only [Finset.mem_insert, Finset.mem_singleton]; omega
  have := getElem_of_count h.sorted m3
  rwa [hcount] at this

theorem rect_seen_zero (prec : ℕ) : distancesSeen prec rectPoints rectVectors 0 = 0 := by
  have : BoxDistances rectPoints rectVectors 0 = ∅ := by
    ext x
    rw [rect_box]
    simp only [Set.mem_empty_iff_false, iff_false]
    rintro ⟨a, b, ha, hb, hne, -⟩
    simp at ha hb
    omega
  unfold distancesSeen
  rw [this]; simp

end Verif.Latt
