import Verif.Spec.LatticeMotion
import Verif.Proofs.Lattice
/-!
# Lemmas for C106
-/

namespace Verif.Latt

variable {n m m' k : ℕ} {R : Pt m →ₗ[ℝ] Pt m'} {t : Pt m'}

theorem nnorm_map (hR : PreservesLength R) (p : Pt m) : nnorm (R p) = nnorm p := by
  rw [nnorm, nnorm, hR p]

theorem ndist_eq_nnorm (p q : Pt m) : ndist p q = nnorm (p - q) := rfl

theorem ndist_map (hR : PreservesLength R) (p q : Pt m) : ndist (R p) (R q) = ndist p q := by
  rw [ndist_eq_nnorm, ndist_eq_nnorm, ← map_sub, nnorm_map hR]

theorem moved_sub (p q : Pt m) : moved R t p - moved R t q = R (p - q) := by
  rw [moved, moved, add_sub_add_right_eq_sub, map_sub]

theorem ndist_moved (hR : PreservesLength R) (p q : Pt m) : ndist (moved R t p) (moved R t q) = ndist p q := by
  rw [ndist_eq_nnorm, ndist_eq_nnorm, moved_sub, nnorm_map hR]

theorem comb_eq_sum (v : Fin k → Pt m) (c : Fin k → ℤ) : comb v c = ∑ i, (c i : ℝ) • v i := by
  funext a
  simp [comb, Finset.sum_apply]

theorem comb_map (v : Fin k → Pt m) (c : Fin k → ℤ) : comb (fun i => R (v i)) c = R (comb v c) := by
  rw [comb_eq_sum, comb_eq_sum, map_sum]
  simp only [map_smul]

theorem comb_add_moved (v : Fin k → Pt m) (c : Fin k → ℤ) (p : Pt m) :
    comb (fun i => R (v i)) c + moved R t p = moved R t (comb v c + p) := by
  rw [comb_map, moved, moved, map_add, add_assoc]

theorem moved_add_comb (v : Fin k → Pt m) (c : Fin k → ℤ) (p : Pt m) :
    moved R t p + comb (fun i => R (v i)) c = moved R t (p + comb v c) := by
  rw [add_comm, comb_add_moved, add_comm]

theorem pdist_moved (hR : PreservesLength R) (l : List (Pt m)) : pdist (l.map (moved R t)) = pdist l := by
  induction l with
  | nil => rfl
  | cons p ps ih =>
    rw [List.map_cons, pdist, pdist, ih, List.map_map]
    congr 1
    exact List.map_congr_left fun q _ => ndist_moved hR p q

theorem gram_map (hR : PreservesLength R) (p q : Pt m) : ∑ a, R p a * R q a = ∑ a, p a * q a := by
  have h := hR (p + q)
  have h1 := hR p
  have h2 := hR q
  simp only [map_add, Pi.add_apply, add_sq, Finset.sum_add_distrib] at h
  simp only [mul_assoc, ← Finset.mul_sum] at h
  linarith

theorem edgeFar_moved (hR : PreservesLength R) (L : Lat n m k) (ref : ℝ) (scope : ℤ) :
    edgeFar (movedLat R t L) ref scope ↔ edgeFar L ref scope := by
  simp only [edgeFar, movedLat, moved_add_comb, ndist_moved hR]

theorem guessLoop_moved (hR : PreservesLength R) (L : Lat n m k) (ref : ℝ) (fuel : ℕ) (s : ℤ) :
    guessLoop (movedLat R t L) ref fuel s = guessLoop L ref fuel s := by
  induction fuel generalizing s with
  | zero => rfl
  | succ f ih =>
    have e := edgeFar_moved (t := t) hR L ref s
    rw [guessLoop, guessLoop, ih]
    by_cases h : edgeFar L ref s
    · rw [if_pos h, if_pos (e.mpr h)]
    · rw [if_neg h, if_neg fun h' => h (e.mp h')]

theorem guessScope_moved (hR : PreservesLength R) (L : Lat n m k) (ref : ℝ) :
    guessScope (movedLat R t L) ref = guessScope L ref := by
  have e : guessLoop (movedLat R t L) ref = guessLoop L ref :=
    funext fun f => funext fun s => guessLoop_moved hR L ref f s
  have key : ∀ F G : ℕ → ℤ → Option ℤ, F = G →
      (open Classical in if h : ∃ fuel s, F fuel (-1) = some s then
        some (Except.ok (ε := PyErr) (Classical.choose (Classical.choose_spec h))) else none) =
      (open Classical in if h : ∃ fuel s, G fuel (-1) = some s then
        some (Except.ok (ε := PyErr) (Classical.choose (Classical.choose_spec h))) else none) := by
    rintro F _ rfl
    rfl
  unfold guessScope
  split
  · rfl
  · split
    · rfl
    · exact key _ _ e

theorem searching_moved (hR : PreservesLength R) (prec : ℕ) (L : Lat n m k) (db : List (Fin k → ℤ))
    (ds : Fin n → Pt m) : searching prec (movedLat R t L) db (fun i => R (ds i)) =
      (searching prec L db ds).map fun r => (moved R t r.1, R r.2) := by
  simp only [searching, movedLat, comb_map, ndist_map hR]
  split <;> simp_all

theorem maxNorm_moved (hR : PreservesLength R) (ds : Fin n → Pt m) :
    maxNorm (fun i => R (ds i)) = maxNorm ds := by
  simp only [maxNorm, nnorm_map hR]

theorem sitesFactory_moved (order : List (Fin k → ℤ) → List (Fin k → ℤ)) (L : Lat n m k) (scope : ℤ)
    (noInv : Bool) : sitesFactory order (movedLat R t L) scope noInv =
      (sitesFactory order L scope noInv).map (moved R t) := by
  simp only [sitesFactory, movedLat, comb_add_moved, List.map_flatMap, List.map_map]
  rfl

/-! ### `query_pairs` and the loop over the pairs, by the number of sites -/

open Classical in
/-- `queryPairs` with the sites as a function -/
noncomputable def queryF (N : ℕ) (f : Fin N → Pt m) (r : ℝ) : List (Fin N × Fin N) :=
  ((List.finRange N).flatMap fun a => (List.finRange N).map fun b =>
    (a, b)).filter fun p => decide (p.1 < p.2 ∧ ndist (f p.1) (f p.2) ≤ r)

/-- `bondLoop` with the sites as a function -/
noncomputable def loopF (prec : ℕ) (L : Lat n m k) (N : ℕ) (f : Fin N → Pt m) (fold : Bool) :
    List (Fin N × Fin N) → List (LBond m) → List (LBond m) →
    Option (Py (List (LBond m) × List (LBond m)))
  | [], intra, inter => some (.ok (intra, inter))
  | (a, b) :: rest, intra, inter =>
    if (b : ℕ) < n then loopF prec L N f fold rest (intra ++ [(f a, f b)]) inter
    else if (a : ℕ) < n then
      match decompose prec L (f b) with
      | none => none
      | some (.error e) => some (.error e)
      | some (.ok (eqv, _)) =>
        loopF prec L N f fold rest intra (inter ++ [(f a, if fold then eqv else f b)])
    else loopF prec L N f fold rest intra inter

theorem queryPairs_eq (sites : List (Pt m)) (r : ℝ) : queryPairs sites r = queryF sites.length sites.get r := rfl

theorem bondLoop_eq (prec : ℕ) (L : Lat n m k) (sites : List (Pt m)) (fold : Bool)
    (ps : List (Fin sites.length × Fin sites.length)) (x y : List (LBond m)) :
    bondLoop prec L sites fold ps x y = loopF prec L sites.length sites.get fold ps x y := by
  induction ps generalizing x y with
  | nil => rfl
  | cons p ps ih =>
    obtain ⟨a, b⟩ := p
    simp only [bondLoop, loopF, ih]
    rfl

/-- the moved list as a function -/
theorem get_map_cast (sites : List (Pt m)) (g : Pt m → Pt m') : ∀ N (h : (sites.map g).length = N)
    (h' : sites.length = N), (fun i : Fin N => (sites.map g).get (i.cast h.symm)) =
      fun i : Fin N => g (sites.get (i.cast h'.symm)) := by
  intro N h h'
  funext i
  simp

end Verif.Latt
