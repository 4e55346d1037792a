import Verif.Proofs.LatticeBuilt
import Verif.Spec.Numbering
/-!
Helper lemmas: the order of the points of `lattice_generator` (for C123).
-/

namespace Verif.LDB

open Verif.Latt

variable {m : ℕ} {prec : ℕ} {n0 n1 n2 : ℤ}

theorem flatMap_range {α : Type*} (a b : ℕ) (f : ℕ → ℕ → α) :
    ((List.range a).flatMap fun x => (List.range b).map (f x)) = (List.range (a * b)).map fun i => f (i / b) (i % b) := by
  induction a with
  | zero => simp
  | succ a ih =>
    rw [List.range_succ, List.flatMap_append, ih, Nat.succ_mul, List.range_add, List.map_append]
    congr 1
    rw [List.flatMap_cons, List.flatMap_nil, List.append_nil, List.map_map]
    refine List.map_congr_left fun j hj => ?_
    have hj : j < b := List.mem_range.1 hj
    simp only [Function.comp_apply]
    rw [show a * b + j = j + b * a by ring, Nat.add_mul_div_left _ _ (by omega), Nat.add_mul_mod_self_left,
      Nat.div_eq_of_lt hj, Nat.mod_eq_of_lt hj, zero_add]

theorem pyRange_zero (n : ℤ) : pyRange 0 n = (List.range n.toNat).map fun i : ℕ => (i : ℤ) := by
  simp [pyRange]

theorem prodRange_zero (ns : Fin 0 → ℤ) : prodRange 0 ns = (List.range 1).map fun _ => Fin.elim0 := by
  simp [prodRange]

/-- One more factor of the product. -/
theorem prodRange_step {k N : ℕ} (ns : Fin (k + 1) → ℤ) (f : ℕ → Fin k → ℤ)
    (h : prodRange k (Fin.tail ns) = (List.range N).map f) :
    prodRange (k + 1) ns = (List.range ((ns 0).toNat * N)).map fun i => Fin.cons ((i / N : ℕ) : ℤ) (f (i % N)) := by
  rw [prodRange, h, pyRange_zero, List.flatMap_map]
  simp only [List.map_map]
  exact flatMap_range (ns 0).toNat N fun x j => (Fin.cons (x : ℤ) (f j) : Fin (k + 1) → ℤ)

theorem prodRange_one (n0 : ℤ) : prodRange 1 ![n0] = (List.range n0.toNat).map fun i : ℕ => ![(i : ℤ)] := by
  rw [prodRange_step ![n0] _ (prodRange_zero _)]
  simp only [Matrix.cons_val_zero, mul_one, Nat.div_one]
  refine List.map_congr_left fun i _ => ?_
  funext q
  fin_cases q; rfl

theorem prodRange_two (n0 n1 : ℤ) : prodRange 2 ![n0, n1] =
    (List.range (n0.toNat * n1.toNat)).map fun i => ![((i / n1.toNat : ℕ) : ℤ), ((i % n1.toNat : ℕ) : ℤ)] := by
  rw [prodRange_step ![n0, n1] (fun i : ℕ => ![(i : ℤ)]) (prodRange_one n1)]
  simp only [Matrix.cons_val_zero]
  refine List.map_congr_left fun i _ => ?_
  funext q
  fin_cases q <;> rfl

theorem prodRange_three (n0 n1 n2 : ℤ) : prodRange 3 ![n0, n1, n2] =
    (List.range (n0.toNat * n1.toNat * n2.toNat)).map fun i =>
      ![((i / (n1.toNat * n2.toNat) : ℕ) : ℤ), ((i / n2.toNat % n1.toNat : ℕ) : ℤ), ((i % n2.toNat : ℕ) : ℤ)] := by
  rw [prodRange_step ![n0, n1, n2] _ (prodRange_two n1 n2)]
  simp only [Matrix.cons_val_zero, ← mul_assoc]
  refine List.map_congr_left fun i _ => ?_
  funext q
  fin_cases q
  · rfl
  · change ((i % (n1.toNat * n2.toNat) / n2.toNat : ℕ) : ℤ) = _
    rw [Nat.mod_mul_left_div_self]; rfl
  · change ((i % (n1.toNat * n2.toNat) % n2.toNat : ℕ) : ℤ) = _
    rw [Nat.mod_mul_left_mod]; rfl

theorem superPoints_range {k N : ℕ} (ns : Fin k → ℤ) (points : List (Pt m)) (v : Fin k → Pt m) (f : ℕ → Fin k → ℤ)
    (h : prodRange k ns = (List.range N).map f) :
    superPoints ns points v = (List.range (N * points.length)).map
      fun i => comb v (f (i / points.length)) + points.getD (i % points.length) 0 := by
  rw [superPoints, h, List.flatMap_map]
  have : points = (List.range points.length).map fun j => points.getD j 0 := by
    apply List.ext_getElem
    · simp
    · intro i h1 h2
      simp [h1]
  conv_lhs => rw [this]
  simp only [List.map_map]
  exact flatMap_range N points.length fun x j => comb v (f x) + points.getD j 0

theorem mk_numbers {l : List (Pt m)} {v : Fin m → Pt m} {count : ℕ} {L : Lat count m m}
    (h : mkLattice prec l v = .ok ⟨count, m, m, L⟩) (i : Fin count) : l[(i : ℕ)]? = some (L.points i) := by
  unfold mkLattice at h
  rcases hi : init prec l.get v with e | L'
  · rw [hi] at h; simp [Except.map] at h
  · rw [hi] at h
    have hB : (⟨l.length, m, m, L'⟩ : Built) = ⟨count, m, m, L⟩ := Except.ok.inj h
    have hc : l.length = count := congrArg Built.n hB
    subst hc
    simp only [Built.mk.injEq, heq_eq_eq, true_and] at hB
    subst hB
    obtain ⟨h1, _⟩ := C46_reciprocal_dual hi
    rw [h1]
    simp

theorem numbers_of_range {l : List (Pt m)} {v : Fin m → Pt m} {count : ℕ} {L : Lat count m m}
    (h : mkLattice prec l v = .ok ⟨count, m, m, L⟩) (N : ℕ) (F : ℕ → Pt m) (hl : l = (List.range N).map F)
    (i : Fin count) : L.points i = F i := by
  have h1 := mk_numbers h i
  have h2 : (i : ℕ) < N := by
    by_contra hn
    rw [hl, List.getElem?_eq_none (by simpa using hn)] at h1
    simp at h1
  rw [hl, List.getElem?_map, List.getElem?_range h2] at h1
  exact (Option.some.inj h1).symm

/-- Both branches of `lattice_generator` list the same points in the same order. -/
theorem branch_numbers {info : Info m} {nums : List ℤ} (hlen : nums.length = m) {N : ℕ} (f : ℕ → Fin m → ℤ)
    (hf : prodRange m (fun i => nums.getD i 0) = (List.range N).map f) {ones : Prop} [Decidable ones]
    (hones : ones → N = 1 ∧ f 0 = 0) {count : ℕ} {L : Lat count m m}
    (h : (if ones then mkLattice prec info.points info.vectors else superLattice prec info nums) = .ok ⟨count, m, m, L⟩)
    (i : Fin count) : L.points i =
      comb info.vectors (f (i / info.points.length)) + info.points.getD (i % info.points.length) 0 := by
  by_cases ho : ones
  · rw [if_pos ho] at h
    have h1 := mk_numbers h i
    have h2 : (i : ℕ) < info.points.length := by
      by_contra hn
      rw [List.getElem?_eq_none (not_lt.1 hn)] at h1
      simp at h1
    rw [Nat.div_eq_of_lt h2, Nat.mod_eq_of_lt h2, (hones ho).2, comb_zero, zero_add, List.getD_eq_getElem?_getD, h1]
    rfl
  · rw [if_neg ho, superLattice, if_pos hlen] at h
    exact numbers_of_range h _ _ (superPoints_range _ _ _ f hf) i

theorem numbers_2d (h0 : 1 ≤ n0) (h1 : 1 ≤ n1) (h2 : 1 ≤ n2) {which : String} {info : Info 2}
    (hw : commonCell which = some ⟨2, info⟩) (hc : which ≠ "chain") (hcu : which ≠ "cubic")
    {count : ℕ} {L : Lat count 2 2} (h : latticeGenerator prec which n0 n1 n2 = .ok ⟨count, 2, 2, L⟩)
    (i : Fin count) : L.points i =
      comb info.vectors ![((i / info.points.length / n1.toNat : ℕ) : ℤ), ((i / info.points.length % n1.toNat : ℕ) : ℤ)] +
        info.points.getD (i % info.points.length) 0 := by
  rw [generator_unfold h0 h1 h2, hw] at h
  dsimp only at h
  rw [if_neg hc, if_neg hcu] at h
  exact branch_numbers (nums := [n0, n1]) rfl
    (fun i : ℕ => ![((i / n1.toNat : ℕ) : ℤ), ((i % n1.toNat : ℕ) : ℤ)])
    ((congrArg (prodRange 2) (by funext q; fin_cases q <;> rfl)).trans (prodRange_two n0 n1))
    (fun h => ⟨by rw [h.1, h.2]; rfl, by funext q; fin_cases q <;> simp⟩) h i

theorem comb_square (a b : ℕ) : comb squareCell.vectors ![(a : ℤ), (b : ℤ)] = ![(a : ℝ), (b : ℝ)] := by
  funext q
  fin_cases q <;> simp [squareCell, comb, Fin.sum_univ_two]

theorem comb_triangle (a b : ℕ) : comb triangleCell.vectors ![(a : ℤ), (b : ℤ)] = triangleSite a b := by
  funext q
  fin_cases q <;> simp [triangleCell, comb, Fin.sum_univ_two, triangleSite, r3]
  ring

theorem comb_cubic (a b c : ℕ) : comb cubicCell.vectors ![(a : ℤ), (b : ℤ), (c : ℤ)] = ![(a : ℝ), (b : ℝ), (c : ℝ)] := by
  funext q
  fin_cases q <;> simp [cubicCell, comb, Fin.sum_univ_three]

end Verif.LDB
