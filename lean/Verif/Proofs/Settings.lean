import Verif.Model.Settings
import Verif.Props.LatticeBonds
import Verif.Props.LatticeDecompose
import Verif.Props.LatticeNeighbor
import Mathlib.Tactic
/-!
# A lattice whose nearest distance is not a short decimal number
-/

namespace Verif.Sett

open Verif.Latt Verif.LDB

/-- The points 0 and 1/3 on a line. -/
noncomputable def thirdPoints : List (Pt 1) := [![0], ![1 / 3]]
/-- The period 1. -/
noncomputable def thirdVectors : Fin 1 → Pt 1 := ![![1]]

theorem third_accepted (p : ℕ) (hp : 1 ≤ p) : ∃ L, init p thirdPoints.get thirdVectors = .ok L := by
  rw [C46_accepted_iff]
  refine ⟨by norm_num, le_rfl, fun i j hij => by omega, ?_, ?_⟩
  · intro i j hij
    have hi : i = ⟨0, by simp [thirdPoints]⟩ := Fin.ext (by have := j.2; simp [thirdPoints] at this; simp; omega)
    have hj : j = ⟨1, by simp [thirdPoints]⟩ := Fin.ext (by have := j.2; simp [thirdPoints] at this; simp; omega)
    subst hi; subst hj
    rw [ndist_one]
    have h10 : (10 : ℝ) ≤ 10 ^ p := le_self_pow₀ (by norm_num) (by omega)
    simp [thirdPoints, tol]
    have := inv_anti₀ (by norm_num : (0 : ℝ) < 10) h10
    refine this.trans ?_
    norm_num
  · rw [Fintype.linearIndependent_iff]
    intro g hg i
    have h0 := congrFun hg 0
    simp [thirdVectors] at h0
    rw [Subsingleton.elim i 0]; exact h0

theorem findsTranslate_congr {n m k : ℕ} {prec : ℕ} {L L' : Lat n m k} (hp : L'.points = L.points)
    (hv : L'.vectors = L.vectors) {i : Fin n} {c : Fin k → ℤ} (h : FindsTranslate prec L i c) :
    FindsTranslate prec L' i c := by
  obtain ⟨h1, h2⟩ := h
  refine ⟨by rw [decompose_congr hp hv, hp, hv, h1], fun near hn => ?_⟩
  rw [← h2 near hn]
  unfold getIndexFold getIndex
  rw [decompose_congr hp hv, hp, hv]

theorem third_bonds (order : List (Fin 1 → ℤ) → List (Fin 1 → ℤ)) (horder : ∀ l, (order l).Perm l)
    (porder : ∀ N : ℕ, List (Fin N × Fin N) → List (Fin N × Fin N)) (hporder : ∀ N l, (porder N l).Perm l)
    (L : Lat thirdPoints.length 1 1) (h4 : init 4 thirdPoints.get thirdVectors = .ok L) (only fold : Bool) :
    (∃ L' inter, bonds order porder 4 L 1 only fold = some (L', .ok ([(![0], ![1 / 3])], some inter))) ∧
    ∃ L', bonds order porder 6 L 1 only fold = some (L', .ok ([], some [])) := by
  obtain ⟨h1, h2, _⟩ := C46_reciprocal_dual h4
  have hcache : L.allDist = [0, 3333 / 10000] := by
    obtain ⟨_, _, h⟩ := init_ok_iff.1 h4
    obtain ⟨_, _, _, _, _, h6⟩ := initSame_ok h
    rw [h6]
    have : pdist (List.ofFn thirdPoints.get) = [(1 / 3 : ℝ)] := by
      rw [List.ofFn_get]
      simp [pdist, ndist_one, thirdPoints]
    rw [this, distances_eq]
    have hz : zs 4 [(1 / 3 : ℝ)] = [3333] := by
      unfold zs
      have : rint ((1 / 3 : ℝ) * 10 ^ 4) = 3333 := by
        have h1 : ⌊(1 / 3 : ℝ) * 10 ^ 4⌋ = 3333 := by
          rw [Int.floor_eq_iff]; push_cast; constructor <;> norm_num
        unfold rint
        rw [h1, if_pos (by push_cast; norm_num)]
      simp only [List.map_cons, List.map_nil, this]
      simp
    rw [hz]; simp; norm_num
  have hnd : ∀ p, (neighborDistance order p L 1).2 = .ok (3333 / 10000) := by
    intro p
    unfold neighborDistance
    rw [if_neg (by norm_num), hcache]
    rfl
  have hval : ∀ (i j : Fin thirdPoints.length) (c : Fin 1 → ℤ),
      ndist (L.points i) (L.points j + comb L.vectors c) = |(i : ℝ) / 3 - (j : ℝ) / 3 - c 0| := by
    intro i j c
    rw [ndist_one, h1, h2]
    have hp : ∀ i : Fin thirdPoints.length, thirdPoints.get i 0 = (i : ℝ) / 3 := by
      intro i
      have hi : (i : ℕ) < 2 := i.2
      obtain ⟨i, _⟩ := i
      interval_cases i <;> simp [thirdPoints]
    have hc : comb thirdVectors c 0 = c 0 := by simp [comb, thirdVectors]
    rw [Pi.add_apply, hp, hp, hc]
    congr 1; ring
  have hgap : ∀ (i j : Fin thirdPoints.length) (c : Fin 1 → ℤ), i ≠ j ∨ c ≠ 0 →
      1 / 3 ≤ ndist (L.points i) (L.points j + comb L.vectors c) := by
    intro i j c hne
    rw [hval]
    have e : (i : ℝ) / 3 - (j : ℝ) / 3 - c 0 = (((i : ℤ) - j - 3 * c 0 : ℤ) : ℝ) / 3 := by push_cast; ring
    rw [e, abs_div, abs_of_pos (by norm_num : (0 : ℝ) < 3), ← Int.cast_abs]
    have : (1 : ℤ) ≤ |(i : ℤ) - j - 3 * c 0| := by
      refine Int.one_le_abs fun h0 => ?_
      have hi : (i : ℕ) < 2 := i.2
      have hj : (j : ℕ) < 2 := j.2
      rcases hne with hne | hne
      · exact hne (Fin.ext (by omega))
      · refine hne (funext fun q => ?_)
        rw [Subsingleton.elim q 0, Pi.zero_apply]
        omega
    have : (1 : ℝ) ≤ ((|(i : ℤ) - j - 3 * c 0| : ℤ) : ℝ) := by exact_mod_cast this
    linarith
  have hineq : ∀ p, 1 ≤ p → Inequivalent p thirdPoints.get thirdVectors := by
    intro p hp i j hij c
    rw [ndist_comm, ← h1, ← h2]
    refine le_trans ?_ (hgap j i c (Or.inl hij.symm))
    have h10 : (10 : ℝ) ≤ 10 ^ p := le_self_pow₀ (by norm_num) (by omega)
    simp only [tol]
    have := inv_anti₀ (by norm_num : (0 : ℝ) < 10) h10
    rw [one_div]
    refine this.trans ?_
    norm_num
  have hfind : ∀ p, 1 ≤ p → ∀ i c, FindsTranslate p L i c := by
    intro p hp i c
    obtain ⟨L', hL'⟩ := third_accepted p hp
    obtain ⟨e1, e2, _⟩ := C46_reciprocal_dual hL'
    exact findsTranslate_congr (by rw [h1, e1]) (by rw [h2, e2]) (C49_finds_chain_partial hL' (hineq p hp) i c)
  have hsucc : ∀ p, 1 ≤ p → ∃ L' intra inter,
      bonds order porder p L 1 only fold = some (L', .ok (intra, some inter)) := by
    intro p hp
    obtain ⟨L', hL'⟩ := third_accepted p hp
    obtain ⟨e1, e2, _⟩ := C46_reciprocal_dual hL'
    refine C51_bonds_succeed order horder porder hL' (by rw [h2, e2]) ?_ le_rfl
      (by simp [thirdPoints]) (hfind p hp) le_rfl only fold (hnd p)
    obtain ⟨_, _, h⟩ := init_ok_iff.1 h4
    obtain ⟨_, _, h'⟩ := init_ok_iff.1 hL'
    unfold initSame at h h'
    dsimp only at h h'
    split_ifs at h h'
    cases Except.ok.inj h
    cases Except.ok.inj h'
    rfl
  constructor
  · obtain ⟨L', intra, inter, h⟩ := hsucc 4 (by norm_num)
    obtain ⟨hi, P, s, H, f1, f2, f3, f4, f5, -⟩ := C51_bonds_exact order horder porder hporder h
    rw [hnd] at f1
    cases Except.ok.inj f1
    refine ⟨L', inter, ?_⟩
    rw [h]
    have : intraBonds L.points P = [(![0], ![1 / 3])] := by
      have hP : P (ndist (thirdPoints.get ⟨0, by simp [thirdPoints]⟩) (thirdPoints.get ⟨1, by simp [thirdPoints]⟩)) := by
        unfold LengthRange at f2
        rw [if_neg (by simp)] at f2
        rw [f2, ndist_one]
        simp [thirdPoints, tol]
        norm_num
      have e : List.finRange thirdPoints.length =
        [⟨0, by simp [thirdPoints]⟩, ⟨1, by simp [thirdPoints]⟩] := rfl
      unfold intraBonds
      rw [e, h1]
      simp only [List.product, List.flatMap_cons, List.flatMap_nil, List.map_cons, List.map_nil, List.cons_append,
        List.nil_append, List.filter_cons, List.filter_nil, List.append_nil, hP]
      simp
      simp [thirdPoints]
    rw [this, List.perm_singleton] at f5
    rw [f5]
  · obtain ⟨L', intra, inter, h⟩ := hsucc 6 (by norm_num)
    obtain ⟨hi, P, s, H, f1, f2, f3, f4, f5, f6, -⟩ := C51_bonds_exact order horder porder hporder h
    rw [hnd] at f1
    cases Except.ok.inj f1
    have hP : ∀ d, 1 / 3 ≤ d → ¬ P d := by
      intro d hd hPd
      unfold LengthRange at f2
      rw [if_neg (by simp)] at f2
      have := (f2 d).1 hPd
      simp only [tol] at this
      norm_num at this
      linarith
    refine ⟨L', ?_⟩
    rw [h]
    have e1 : intraBonds L.points P = [] := by
      unfold intraBonds
      rw [List.map_eq_nil_iff, List.filter_eq_nil_iff]
      rintro ⟨i, j⟩ - hd
      simp only [decide_eq_true_eq] at hd
      have := hgap i j 0 (Or.inl hd.1.ne)
      rw [comb_zero, add_zero] at this
      exact hP _ this hd.2
    have e2 : ∀ g, interBonds L.points L.vectors H P g = [] := by
      intro g
      unfold interBonds
      rw [List.map_eq_nil_iff, List.filter_eq_nil_iff]
      rintro ⟨c, i, j⟩ hm hd
      simp only [decide_eq_true_eq] at hd
      have hm := (List.pair_mem_product.1 hm).1
      exact hP _ (hgap i j c (Or.inr (f3.inBox c hm).1)) hd
    rw [e1, List.perm_nil] at f5
    rw [e2, List.perm_nil] at f6
    rw [f5, f6]

end Verif.Sett
