import Verif.Proofs.LatticeMotion
import Verif.Props.Lattice
/-!
# C106: lattices are treated alike wherever and in whatever direction they are placed
-/

namespace Verif.Latt

variable {n m m' k : ℕ}

theorem initSame_moved (prec : ℕ) (points : Fin n → Pt m) (vectors : Fin k → Pt m)
    (R : Pt m →ₗ[ℝ] Pt m') (hR : PreservesLength R) (t : Pt m') :
    initSame prec (fun i => moved R t (points i)) (fun i => R (vectors i)) =
      (initSame prec points vectors).map (movedLat R t) := by
  classical
  have hV : (Matrix.of fun i => R (vectors i)) * (Matrix.of fun i => R (vectors i)).transpose =
      (Matrix.of vectors) * (Matrix.of vectors).transpose := by
    ext i j
    simp only [Matrix.mul_apply, Matrix.of_apply, Matrix.transpose_apply]
    exact gram_map hR _ _
  simp only [initSame, ndist_moved hR, ndist_map hR, hV]
  split_ifs with h1 h2 h3
  · rfl
  · rfl
  · simp only [Except.map, Except.ok.injEq, movedLat, Lat.mk.injEq, true_and]
    constructor
    · funext i a
      set G := ((Matrix.of vectors) * (Matrix.of vectors).transpose)⁻¹ with hG
      have : (fun a => ((2 * Real.pi) • (G * Matrix.of vectors)) i a) =
          ∑ j, ((2 * Real.pi) * G i j) • vectors j := by
        funext a
        simp [Matrix.mul_apply, Finset.sum_apply, Finset.mul_sum, mul_assoc]
      rw [this, map_sum]
      simp [Matrix.mul_apply, Finset.sum_apply, Finset.mul_sum, mul_assoc]
    · have : (List.ofFn fun i => moved R t (points i)) = (List.ofFn points).map (moved R t) := by
        rw [List.map_ofFn]; rfl
      rw [this, pdist_moved hR]
  · rfl

/-- **C106 (construction).** A lattice accepted at one place is accepted after a rigid motion (also into a
space of more dimensions, up to three): the reciprocal vectors are turned, the known distances are the
same.  When the dimension does not change, a refused lattice is also refused with the same error. -/
theorem C106_init (prec : ℕ) (points : Fin n → Pt m) (vectors : Fin k → Pt m) (t : Pt m') :
    (∀ R : Pt m →ₗ[ℝ] Pt m', PreservesLength R → m ≤ m' → m' ≤ 3 → ∀ L,
      init prec points vectors = .ok L →
      init prec (fun i => moved R t (points i)) (fun i => R (vectors i)) = .ok (movedLat R t L)) ∧
    (∀ (R : Pt m →ₗ[ℝ] Pt m) (t : Pt m), PreservesLength R →
      init prec (fun i => moved R t (points i)) (fun i => R (vectors i)) =
        (init prec points vectors).map (movedLat R t)) := by
  constructor
  · intro R hR hmm hm L h
    have h3 : ¬ 3 < m := by omega
    rw [init, if_neg h3] at h
    by_cases hk : m < k
    · rw [if_pos hk] at h; cases h
    · rw [if_neg hk, dif_pos rfl] at h
      rw [init, if_neg (by omega), if_neg (by omega), dif_pos rfl]
      change initSame prec (fun i => moved R t (points i)) (fun i => R (vectors i)) = _
      rw [initSame_moved prec points vectors R hR t]
      change initSame prec points vectors = _ at h
      rw [h]; rfl
  · intro R t hR
    rw [init, init]
    by_cases h3 : 3 < m
    · rw [if_pos h3, if_pos h3]; rfl
    rw [if_neg h3, if_neg h3]
    by_cases hk : m < k
    · rw [if_pos hk, if_pos hk]; rfl
    rw [if_neg hk, if_neg hk, dif_pos rfl, dif_pos rfl]
    exact initSame_moved prec points vectors R hR t

/-- **C106 (distances).** `neighbor_distance` returns the same value (or error) for the moved lattice, and
leaves it in the corresponding state. -/
theorem C106_neighbor_distance (order : List (Fin k → ℤ) → List (Fin k → ℤ)) (prec : ℕ) (L : Lat n m k)
    (R : Pt m →ₗ[ℝ] Pt m') (hR : PreservesLength R) (t : Pt m') (nth : ℤ) :
    neighborDistance order prec (movedLat R t L) nth =
      (movedLat R t (neighborDistance order prec L nth).1, (neighborDistance order prec L nth).2) := by
  have e : pdist (sitesFactory order (movedLat R t L) nth false) = pdist (sitesFactory order L nth false) := by
    rw [sitesFactory_moved, pdist_moved hR]
  have e2 : (movedLat R t L).allDist = L.allDist := rfl
  simp only [neighborDistance, e, e2]
  split_ifs with h0
  · rfl
  · cases L.allDist[nth.toNat]? with
    | some d => rfl
    | none =>
      simp only
      cases (distances prec (pdist (sitesFactory order L nth false)))[nth.toNat]? <;> rfl

/-- **C106 (decomposition).** `decompose` of a moved site finds the moved cluster point and the turned
translation, or fails in the same way. -/
theorem C106_decompose (prec : ℕ) (L : Lat n m k) (R : Pt m →ₗ[ℝ] Pt m') (hR : PreservesLength R)
    (t : Pt m') (site : Pt m) :
    decompose prec (movedLat R t L) (moved R t site) =
      (decompose prec L site).map (Except.map fun r => (moved R t r.1, R r.2)) := by
  have e : (fun i => moved R t site - (movedLat R t L).points i) = fun i => R (site - L.points i) := by
    funext i
    exact moved_sub _ _
  simp only [decompose, e, searching_moved hR, maxNorm_moved hR, guessScope_moved hR]
  cases searching prec L (mesh [-1, 0, 1] k) (fun i => site - L.points i) with
  | some r => rfl
  | none =>
    simp only [Option.map_none]
    cases maxNorm (fun i => site - L.points i) with
    | error e => rfl
    | ok ref =>
      simp only
      cases guessScope L ref with
      | none => rfl
      | some x =>
        cases x with
        | error e => rfl
        | ok scope =>
          simp only
          cases searching prec L (mesh (pyRange (-scope) (scope + 1)) k) (fun i => site - L.points i) <;> rfl

theorem loopF_moved (prec : ℕ) (L : Lat n m k) (R : Pt m →ₗ[ℝ] Pt m') (hR : PreservesLength R)
    (t : Pt m') (N : ℕ) (f : Fin N → Pt m) (fold : Bool) (ps : List (Fin N × Fin N)) (x y : List (LBond m)) :
    loopF prec (movedLat R t L) N (fun i => moved R t (f i)) fold ps (x.map (movedBond R t))
      (y.map (movedBond R t)) =
      (loopF prec L N f fold ps x y).map
        (Except.map fun r => (r.1.map (movedBond R t), r.2.map (movedBond R t))) := by
  induction ps generalizing x y with
  | nil => rfl
  | cons p ps ih =>
    obtain ⟨a, b⟩ := p
    simp only [loopF, C106_decompose prec L R hR]
    split_ifs with h1 h2 h3
    · rw [← ih, List.map_append]; rfl
    · subst h3
      cases decompose prec L (f b) with
      | none => rfl
      | some r =>
        cases r with
        | error e => rfl
        | ok r =>
          simp only [Option.map_some, Except.map]
          rw [← ih, List.map_append]; rfl
    · cases decompose prec L (f b) with
      | none => rfl
      | some r =>
        cases r with
        | error e => rfl
        | ok r =>
          simp only [Option.map_some, Except.map]
          rw [← ih, List.map_append]; rfl
    · exact ih x y

open Classical in
/-- the pairs and the loop, by the number of sites -/
noncomputable def runF (porder : ∀ N : ℕ, List (Fin N × Fin N) → List (Fin N × Fin N)) (prec : ℕ)
    (L : Lat n m k) (fold : Bool) (r : ℝ) (r' : Option ℝ) (N : ℕ) (f : Fin N → Pt m) :
    Option (Py (List (LBond m) × List (LBond m))) :=
  loopF prec L N f fold (porder N (match r' with
    | none => queryF N f r
    | some s => (queryF N f r).filter fun p => decide (p ∉ queryF N f s))) [] []

theorem queryF_moved (R : Pt m →ₗ[ℝ] Pt m') (hR : PreservesLength R) (t : Pt m') (N : ℕ) (f : Fin N → Pt m)
    (r : ℝ) : queryF N (fun i => moved R t (f i)) r = queryF N f r := by
  simp only [queryF, ndist_moved hR]

theorem runF_moved (porder : ∀ N : ℕ, List (Fin N × Fin N) → List (Fin N × Fin N)) (prec : ℕ)
    (L : Lat n m k) (R : Pt m →ₗ[ℝ] Pt m') (hR : PreservesLength R) (t : Pt m') (fold : Bool) (r : ℝ)
    (r' : Option ℝ) (S : List (Pt m)) :
    runF porder prec (movedLat R t L) fold r r' (S.map (moved R t)).length (S.map (moved R t)).get =
      (runF porder prec L fold r r' S.length S.get).map
        (Except.map fun r => (r.1.map (movedBond R t), r.2.map (movedBond R t))) := by
  have key : ∀ N' (f' : Fin N' → Pt m') (h : N' = S.length),
      (∀ i, f' i = moved R t (S.get (i.cast h))) →
      runF porder prec (movedLat R t L) fold r r' N' f' =
      (runF porder prec L fold r r' S.length S.get).map
        (Except.map fun r => (r.1.map (movedBond R t), r.2.map (movedBond R t))) := by
    intro N' f' h hf
    subst h
    obtain rfl : f' = fun i => moved R t (S.get i) := funext hf
    simp only [runF, queryF_moved R hR t]
    exact loopF_moved prec L R hR t _ _ fold _ [] []
  exact key _ _ (List.length_map _) fun i => by simp

/-- **C106 (bonds).** `bonds` of the moved lattice returns the moved bonds, in the same order (for the same
orders of the sets), or fails in the same way; the lattice is left in the corresponding state. -/
theorem C106_bonds (order : List (Fin k → ℤ) → List (Fin k → ℤ))
    (porder : ∀ N : ℕ, List (Fin N × Fin N) → List (Fin N × Fin N)) (prec : ℕ) (L : Lat n m k)
    (R : Pt m →ₗ[ℝ] Pt m') (hR : PreservesLength R) (t : Pt m') (nth : ℤ) (only fold : Bool) :
    bonds order porder prec (movedLat R t L) nth only fold =
      (bonds order porder prec L nth only fold).map fun r =>
        (movedLat R t r.1, r.2.map fun b =>
          (b.1.map (movedBond R t), b.2.map (List.map (movedBond R t)))) := by
  classical
  have run1 : ∀ (n m k : ℕ) (L : Lat n m k) (S : List (Pt m)) (r : ℝ),
      bondLoop prec L S fold (porder _ (queryPairs S r)) [] [] =
      runF porder prec L fold r none S.length S.get := by
    intro n m k L S r
    rw [bondLoop_eq, runF]
    rfl
  have run2 : ∀ (n m k : ℕ) (L : Lat n m k) (S : List (Pt m)) (r s : ℝ),
      bondLoop prec L S fold (porder _ ((queryPairs S r).filter fun p => decide (p ∉ queryPairs S s))) [] [] =
      runF porder prec L fold r (some s) S.length S.get := by
    intro n m k L S r s
    rw [bondLoop_eq, runF]
    rfl
  have run : ∀ (L1 L2 : Lat n m k) (scope : ℤ) (r : ℝ) (r' : Option ℝ),
      runF porder prec (movedLat R t L2) fold r r' (sitesFactory order (movedLat R t L1) scope true).length
        (sitesFactory order (movedLat R t L1) scope true).get =
      (runF porder prec L2 fold r r' (sitesFactory order L1 scope true).length
        (sitesFactory order L1 scope true).get).map
        (Except.map fun r => (r.1.map (movedBond R t), r.2.map (movedBond R t))) := by
    intro L1 L2 scope r r'
    rw [sitesFactory_moved, runF_moved porder prec L2 R hR t]
  unfold bonds
  rw [C106_neighbor_distance order prec L R hR t nth]
  by_cases h0 : nth < 0
  · rw [if_pos h0, if_pos h0]; rfl
  rw [if_neg h0, if_neg h0]
  by_cases h1 : nth = 0
  · rw [if_pos h1, if_pos h1]
    simp only [Option.map_some, Except.map, List.map_map, Option.map_none]
    rfl
  · rw [if_neg h1, if_neg h1]
    rcases neighborDistance order prec L nth with ⟨L1, r1⟩
    cases r1 with
    | error e => rfl
    | ok judge =>
      simp only [guessScope_moved hR]
      cases guessScope L1 judge with
      | none => rfl
      | some x =>
        cases x with
        | error e => rfl
        | ok scope =>
          simp only
          by_cases h : only = true ∧ 1 < nth
          · rw [if_pos h, if_pos h, C106_neighbor_distance order prec L1 R hR t (nth - 1)]
            rcases neighborDistance order prec L1 (nth - 1) with ⟨L2, r2⟩
            cases r2 with
            | error e => rfl
            | ok judge' =>
              simp only [run2, run]
              cases runF porder prec L2 fold _ _ _ _ with
              | none => rfl
              | some y =>
                cases y <;> rfl
          · rw [if_neg h, if_neg h]
            simp only [run1, run]
            cases runF porder prec L1 fold _ _ _ _ with
            | none => rfl
            | some y =>
              cases y <;> rfl

/-- **C106 (membership).** `in_cluster` gives the same answer for the moved site and lattice, whatever
nearest-point search is used for either; `getIndex` gives the same index when the nearest point is
unique. -/
theorem C106_index (near : (Fin n → Pt m) → Pt m → Option (Fin n)) (hn : IsNearest near)
    (near' : (Fin n → Pt m') → Pt m' → Option (Fin n)) (hn' : IsNearest near') (prec : ℕ) (L : Lat n m k)
    (R : Pt m →ₗ[ℝ] Pt m') (hR : PreservesLength R) (t : Pt m') (site : Pt m) :
    inCluster near' prec (movedLat R t L) (moved R t site) = inCluster near prec L site ∧
    ((∀ i j, i ≠ j → ndist (L.points i) site ≠ ndist (L.points j) site) →
      getIndex near' prec (movedLat R t L) (moved R t site) = getIndex near prec L site) := by
  have hd : ∀ i, ndist ((movedLat R t L).points i) (moved R t site) = ndist (L.points i) site :=
    fun i => ndist_moved hR _ _
  rcases hn L.points site with ⟨h1, h0⟩ | ⟨i, h1, h2⟩
  · subst h0
    rcases hn' (movedLat R t L).points (moved R t site) with ⟨h3, -⟩ | ⟨i, -, -⟩
    · simp [inCluster, getIndex, h1, h3]
    · exact i.elim0
  · rcases hn' (movedLat R t L).points (moved R t site) with ⟨-, h0⟩ | ⟨j, h3, h4⟩
    · subst h0; exact i.elim0
    · simp only [hd] at h4
      have he : ndist (L.points i) site = ndist (L.points j) site := le_antisymm (h2 j) (h4 i)
      constructor
      · simp only [inCluster, getIndex, h1, h3, hd, he]
        split_ifs <;> rfl
      · intro hu
        have : i = j := by
          by_contra hne
          exact hu i j hne he
        subst this
        simp only [getIndex, h1, h3, hd]

/-- Non-vacuity: the quarter turn of the plane and the embedding of the line in space preserve lengths. -/
example : ∃ R : Pt 2 →ₗ[ℝ] Pt 2, PreservesLength R ∧ R ![1, 0] = ![0, 1] := by
  refine ⟨{ toFun := fun p => ![-p 1, p 0], map_add' := ?_, map_smul' := ?_ }, ?_, ?_⟩
  · intro p q; funext a; fin_cases a <;> simp; ring
  · intro c p; funext a; fin_cases a <;> simp
  · intro p; simp [Fin.sum_univ_two]; ring
  · funext a; fin_cases a <;> simp

example : ∃ R : Pt 1 →ₗ[ℝ] Pt 3, PreservesLength R ∧ R ![2] = ![0, 0, 2] := by
  refine ⟨{ toFun := fun p => ![0, 0, p 0], map_add' := ?_, map_smul' := ?_ }, ?_, ?_⟩
  · intro p q; funext a; fin_cases a <;> simp
  · intro c p; funext a; fin_cases a <;> simp
  · intro p; simp [Fin.sum_univ_succ]
  · funext a; fin_cases a <;> simp

end Verif.Latt
