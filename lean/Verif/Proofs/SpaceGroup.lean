import Verif.Spec.SpaceGroup
import Verif.Proofs.LatticeSpin
import Verif.Proofs.SpinReorder
/-! Lemmas about symmetries of lattices. -/

namespace Verif.LDB

open Verif.Latt Verif.Spec Matrix Verif

variable {n m k : ℕ} {S : Set (Pt m)} {points : Fin n → Pt m} {v : Fin k → Pt m} {g : Pt m → Pt m}

theorem ndist_eq_zero {p q : Pt m} (h : ndist p q = 0) : p = q := by
  have := (ndist_eq_iff (d := 0) le_rfl).1 h
  rw [zero_pow two_ne_zero, Finset.sum_eq_zero_iff_of_nonneg fun i _ => sq_nonneg _] at this
  funext i
  exact sub_eq_zero.1 (pow_eq_zero_iff two_ne_zero |>.1 (this i (Finset.mem_univ i)))

namespace ExactTiling

theorem site (ht : ExactTiling S points v) (i : Fin n) : points i ∈ S := by
  have := ht.inside i 0
  rwa [comb_zero, add_zero] at this

theorem move (ht : ExactTiling S points v) {s : Pt m} (hs : s ∈ S) (c : Fin k → ℤ) : s + comb v c ∈ S := by
  obtain ⟨⟨i, e⟩, h, -⟩ := ht.covers s hs
  dsimp only at h
  rw [h, add_assoc, ← comb_add]
  exact ht.inside i _

theorem index (ht : ExactTiling S points v) {s : Pt m} (hs : s ∈ S) {i j : Fin n} {c d : Fin k → ℤ}
    (h : s = points i + comb v c) (h' : s = points j + comb v d) : i = j := by
  obtain ⟨q, -, hq⟩ := ht.covers s hs
  exact congrArg Prod.fst ((hq (i, c) h).trans (hq (j, d) h').symm)

end ExactTiling

/-- a symmetry permutes the points -/
theorem SymmetryOf.perm (ht : ExactTiling S points v) (hg : SymmetryOf S v g) :
    ∃ σ : Equiv.Perm (Fin n), Carries g points v σ := by
  have h : ∀ i, ∃ j, ∃ c, g (points i) = points j + comb v c := fun i => by
    obtain ⟨⟨j, c⟩, h, -⟩ := ht.covers _ (hg.maps _ (ht.site i))
    exact ⟨j, c, h⟩
  choose τ hτ using h
  have hs : Function.Surjective τ := by
    intro j
    obtain ⟨t, ht', he⟩ := hg.onto _ (ht.site j)
    obtain ⟨⟨i, c⟩, hi, -⟩ := ht.covers _ ht'
    dsimp only at hi
    refine ⟨i, ?_⟩
    obtain ⟨c', hc'⟩ := hg.periodic _ (ht.site i) c
    obtain ⟨c2, hc2⟩ := hτ i
    refine (ht.index (ht.site j) (c := 0) (d := c2 + c') (by rw [comb_zero, add_zero]) ?_).symm
    rw [← he, hi, hc', hc2, comb_add, add_assoc]
  exact ⟨Equiv.ofBijective τ (Finite.surjective_iff_bijective.1 hs), hτ⟩

theorem SymmetryOf.image_iff (ht : ExactTiling S points v) (hg : SymmetryOf S v g) {σ : Equiv.Perm (Fin n)}
    (hσ : Carries g points v σ) {x : Pt m} (hx : x ∈ S) (c0 : Fin k → ℤ) (j : Fin n) :
    (∃ c, x = points j + comb v c) ↔ ∃ c, g x - comb v c0 = points (σ j) + comb v c := by
  have fwd : ∀ j, (∃ c, x = points j + comb v c) → ∃ c, g x - comb v c0 = points (σ j) + comb v c := by
    rintro j ⟨c, hc⟩
    obtain ⟨c', hc'⟩ := hg.periodic _ (ht.site j) c
    obtain ⟨c2, hc2⟩ := hσ j
    refine ⟨c2 + c' - c0, ?_⟩
    rw [hc, hc', hc2, comb_sub, comb_add]
    abel
  refine ⟨fwd j, ?_⟩
  rintro ⟨c, hc⟩
  obtain ⟨⟨i, e⟩, hi, -⟩ := ht.covers _ hx
  obtain ⟨c', hc'⟩ := fwd i ⟨e, hi⟩
  have : σ i = σ j := ht.index (by rw [hc]; exact ht.inside _ _) hc' hc
  exact ⟨e, by rw [← σ.injective this]; exact hi⟩

theorem SymmetryOf.bijOn (ht : ExactTiling S points v) (hg : SymmetryOf S v g) {σ : Equiv.Perm (Fin n)}
    {i : Fin n} {c : Fin k → ℤ} (hc : g (points i) = points (σ i) + comb v c) (d : ℝ) :
    Set.BijOn (fun x => g x - comb v c) {x | x ∈ S ∧ ndist (points i) x = d}
      {x | x ∈ S ∧ ndist (points (σ i)) x = d} := by
  have hm : ∀ {x}, x ∈ S → g x - comb v c ∈ S := fun {x} hx => by
    rw [sub_eq_add_neg, ← comb_neg]
    exact ht.move (hg.maps _ hx) _
  have hd : ∀ x ∈ S, ndist (points (σ i)) (g x - comb v c) = ndist (points i) x := fun x hx => by
    rw [← hg.isometry _ (ht.site i) _ hx, hc]
    exact ndist_sub _ _ _ _ (by abel)
  refine ⟨fun x hx => ?_, fun x hx y hy he => ?_, fun y hy => ?_⟩
  · exact ⟨hm hx.1, by rw [hd x hx.1]; exact hx.2⟩
  · have he' : g x = g y := sub_left_injective he
    refine ndist_eq_zero ?_
    rw [← hg.isometry _ hx.1 _ hy.1, he', ndist_self]
  · obtain ⟨t, ht', he⟩ := hg.onto _ (ht.move hy.1 c)
    have e : g t - comb v c = y := by rw [he, add_sub_cancel_right]
    exact ⟨t, ⟨ht', by rw [← hd t ht', e]; exact hy.2⟩, e⟩

/-- the permutation of the points, of all numbers -/
noncomputable def extend (σ : Equiv.Perm (Fin n)) (j : ℕ) : ℕ := if h : j < n then (σ ⟨j, h⟩ : ℕ) else j

theorem extend_fin (σ : Equiv.Perm (Fin n)) (j : Fin n) : extend σ j = σ j := by
  unfold extend
  rw [dif_pos j.2]

theorem extend_lt (σ : Equiv.Perm (Fin n)) (j : ℕ) : j < n ↔ extend σ j < n := by
  unfold extend
  split <;> simp_all

theorem extend_inj (σ : Equiv.Perm (Fin n)) : Function.Injective (extend σ) := by
  intro a b h
  by_cases ha : a < n
  · have hb : b < n := (extend_lt σ b).2 (h ▸ (extend_lt σ a).1 ha)
    unfold extend at h
    rw [dif_pos ha, dif_pos hb] at h
    have := σ.injective (Fin.ext h)
    exact congrArg Fin.val this
  · have hb : ¬ b < n := fun hb => ha ((extend_lt σ a).2 (h ▸ (extend_lt σ b).1 hb))
    unfold extend at h
    rwa [dif_neg ha, dif_neg hb] at h

/-- the permutation of the basis states that moves the spins along -/
noncomputable def spinPerm (σ : Equiv.Perm (Fin n)) : Equiv.Perm (Fin (2 ^ n)) := relPerm (extend_inj σ) (extend_lt σ)

theorem spinPerm_moves (σ : Equiv.Perm (Fin n)) : MovesSpins σ (spinPerm σ) := by
  intro r i
  rw [← extend_fin σ i]
  exact digit_relKet (extend_inj σ) _ _

theorem siteOp_spinPerm (σ : Equiv.Perm (Fin n)) (i : Fin n) (A : Matrix (Fin 2) (Fin 2) ℂ) :
    (siteOp n (σ i) A).submatrix (spinPerm σ) (spinPerm σ) = siteOp n i A := by
  rw [← extend_fin σ i]
  exact siteOp_rel _ _ _ _

theorem spinDot_spinPerm (σ : Equiv.Perm (Fin n)) (i j : Fin n) :
    (spinDot n (σ i) (σ j)).submatrix (spinPerm σ) (spinPerm σ) = spinDot n i j := by
  unfold spinDot
  simp only [Matrix.submatrix_add, Pi.add_apply, ← Matrix.submatrix_mul_equiv _ _ _ (spinPerm σ) _,
    siteOp_spinPerm]

/-- moving spins along, as an additive map -/
noncomputable def moveHom (f : Equiv.Perm (Fin (2 ^ n))) :
    Matrix (Fin (2 ^ n)) (Fin (2 ^ n)) ℂ ≃+ Matrix (Fin (2 ^ n)) (Fin (2 ^ n)) ℂ :=
  (Matrix.reindexLinearEquiv ℂ ℂ f.symm f.symm).toAddEquiv

theorem moveHom_apply (f : Equiv.Perm (Fin (2 ^ n))) (M : Matrix (Fin (2 ^ n)) (Fin (2 ^ n)) ℂ) :
    moveHom f M = M.submatrix f f := rfl

theorem heisenberg_moved (ht : ExactTiling S points v) (hg : SymmetryOf S v g) {σ : Equiv.Perm (Fin n)}
    (hσ : Carries g points v σ) (d J : ℝ) :
    (latticeHeisenberg S d points v J).submatrix (spinPerm σ) (spinPerm σ) = latticeHeisenberg S d points v J := by
  classical
  unfold latticeHeisenberg
  rw [Matrix.submatrix_smul]
  simp only [Pi.smul_apply]
  congr 1
  rw [← moveHom_apply, map_sum, ← Equiv.sum_comp σ]
  refine Finset.sum_congr rfl fun i _ => ?_
  obtain ⟨c, hc⟩ := hσ i
  rw [AddEquiv.map_finsum]
  simp only [AddEquiv.map_finsum]
  refine (finsum_mem_eq_of_bijOn _ (hg.bijOn ht hc d) fun x hx => ?_).symm
  rw [map_sum]
  refine Finset.sum_equiv σ (fun j => ?_) fun j _ => ?_
  · simp only [Finset.mem_filter, Finset.mem_univ, true_and]
    exact hg.image_iff ht hσ hx.1 c j
  · rw [moveHom_apply, spinDot_spinPerm]

theorem own_moved (ht : ExactTiling S points v) (hg : SymmetryOf S v g) {σ : Equiv.Perm (Fin n)}
    (hσ : Carries g points v σ) (d : ℝ) (i : Fin n) :
    ownNeighbours S d v (points (σ i)) = ownNeighbours S d v (points i) := by
  unfold ownNeighbours
  obtain ⟨c, hc⟩ := hσ i
  have hb := hg.bijOn ht hc d
  symm
  refine Set.ncard_congr (fun x _ => g x - comb v c) (fun x hx => ?_) (fun x y hx hy he => ?_) fun y hy => ?_
  · exact ⟨hb.mapsTo hx.1, (hg.image_iff ht hσ hx.1.1 c i).1 hx.2⟩
  · exact hb.injOn hx.1 hy.1 he
  · obtain ⟨x, hx, rfl⟩ := hb.surjOn hy.1
    exact ⟨x, ⟨hx, (hg.image_iff ht hσ hx.1 c i).2 hy.2⟩, rfl⟩

theorem symmetric_of_field {S : Set (Pt m)} {d : ℝ} {count : ℕ} {L : Lat count m m} {J : ℝ}
    {H : Matrix (Fin (2 ^ count)) (Fin (2 ^ count)) ℂ} (ht : ExactTiling S L.points L.vectors)
    (hH : HeisenbergField S d L J H) : SpinSymmetric S L J H := by
  intro g hg
  obtain ⟨σ, hσ⟩ := hg.perm ht
  refine ⟨σ, spinPerm σ, hσ, spinPerm_moves σ, fun r c => ?_⟩
  have key : H.submatrix (spinPerm σ) (spinPerm σ) = H := by
    unfold HeisenbergField at hH
    rw [hH, Matrix.submatrix_add, Pi.add_apply, Pi.add_apply, heisenberg_moved ht hg hσ]
    congr 1
    rw [Matrix.submatrix_smul]
    simp only [Pi.smul_apply]
    congr 1
    rw [← moveHom_apply, map_sum, ← Equiv.sum_comp σ]
    refine Finset.sum_congr rfl fun i _ => ?_
    rw [moveHom_apply, Matrix.submatrix_smul]
    simp only [Pi.smul_apply]
    rw [siteOp_spinPerm, own_moved ht hg hσ]
  exact congrFun (congrFun key r) c

theorem symmetric_of_model {S : Set (Pt m)} {d : ℝ} {count : ℕ} {L : Lat count m m} {J : ℝ}
    {H : Matrix (Fin (2 ^ count)) (Fin (2 ^ count)) ℂ} (ht : ExactTiling S L.points L.vectors)
    (hH : HeisenbergModel S d L J H) : SpinSymmetric S L J H := by
  intro g hg
  obtain ⟨σ, hσ⟩ := hg.perm ht
  refine ⟨σ, spinPerm σ, hσ, spinPerm_moves σ, fun r c => ?_⟩
  have key := heisenberg_moved ht hg hσ d J
  rw [← hH.1] at key
  exact congrFun (congrFun key r) c

open Classical in
theorem hops_moved {S : Set (Pt m)} {points : Fin n → Pt m} (ht : ExactTiling S points v) (hg : SymmetryOf S v g)
    {σ : Equiv.Perm (Fin n)} (hσ : Carries g points v σ) (d t : ℝ) (i j : Fin n) :
    hops S d t (fun p => if ∃ c, p = points (σ j) + comb v c then 1 else 0) (points (σ i)) =
      hops S d t (fun p => if ∃ c, p = points j + comb v c then 1 else 0) (points i) := by
  unfold hops
  congr 1
  obtain ⟨c, hc⟩ := hσ i
  refine (finsum_mem_eq_of_bijOn _ (hg.bijOn ht hc d) fun x hx => ?_).symm
  have := hg.image_iff ht hσ hx.1 c j
  by_cases h : ∃ c, x = points j + comb v c
  · rw [if_pos h, if_pos (this.1 h)]
  · rw [if_neg h, if_neg fun h' => h (this.2 h')]

open Demo in
theorem hopping_of_one {S : Set (Pt m)} {d : ℝ} {count : ℕ} {L : Lat count m m} {species : ℕ} {t : ℝ}
    {run : ℕ → Option (Py Setup)} (ht : ExactTiling S L.points L.vectors) (h : OneParticle S d L species t run) :
    HoppingSymmetric S L species t run := by
  classical
  obtain ⟨U, e, hU, he, hop⟩ := h
  refine ⟨U, e, hU, fun x => (he x).1, fun g hg => ?_⟩
  obtain ⟨σ, hσ⟩ := hg.perm ht
  refine ⟨σ, hσ, fun s s' i j => ?_⟩
  have key : ∀ i j, U.HM (e (s, i)) (e (s', j)) = if s = s' then
      hops S d t (fun p => if ∃ c, p = L.points j + comb L.vectors c then 1 else 0) (L.points i) else 0 := by
    intro i j
    have hp : ∀ u : Fin species, Periodic L.vectors (fun p => if u = s' then
        (if ∃ c, p = L.points j + comb L.vectors c then (1 : ℂ) else 0) else 0) := by
      intro u p c
      dsimp only
      have : (∃ c', p + comb L.vectors c = L.points j + comb L.vectors c') ↔ ∃ c', p = L.points j + comb L.vectors c' := by
        constructor
        · rintro ⟨c', h⟩
          exact ⟨c' - c, by rw [comb_sub, ← add_sub_assoc, ← h, add_sub_cancel_right]⟩
        · rintro ⟨c', h⟩
          exact ⟨c' + c, by rw [comb_add, ← add_assoc, ← h]⟩
      simp only [this]
    have := hop _ hp (s, i)
    dsimp only at this
    rw [Finset.sum_eq_single (s', j)] at this
    · rw [if_pos rfl, if_pos ⟨0, by rw [comb_zero, add_zero]⟩, mul_one] at this
      rw [this]
      by_cases hs : s = s'
      · simp only [hs, if_true]
      · simp only [hs, if_false]
        unfold hops
        simp
    · rintro ⟨u, b⟩ - hne
      dsimp only
      by_cases hu : u = s'
      · rw [if_pos hu, if_neg, mul_zero]
        rintro ⟨c, hc⟩
        refine hne ?_
        have hb : b = j := ht.index (ht.site b) (c := 0) (d := c) (by rw [comb_zero, add_zero]) hc
        rw [hu, hb]
      · rw [if_neg hu, mul_zero]
    · exact fun h => absurd (Finset.mem_univ _) h
  rw [key, key]
  by_cases hs : s = s'
  · rw [if_pos hs, if_pos hs, hops_moved ht hg hσ]
  · rw [if_neg hs, if_neg hs]

/-- the same predicate for every run -/
theorem spin_weaken {prec count : ℕ} {r : Py Built} {S : Set (Pt m)} {v : Fin m → Pt m}
    (ht : ReturnsTiling S count v r) {Q Q' : Lat count m m → ℝ → Matrix (Fin (2 ^ count)) (Fin (2 ^ count)) ℂ → Prop}
    (h : EverySpinRun prec count r Q) (hQ : ∀ L J H, ExactTiling S L.points L.vectors → Q L J H → Q' L J H) :
    EverySpinRun prec count r Q' := by
  obtain ⟨L0, h1, -, h3⟩ := ht
  obtain ⟨L1, e1, h⟩ := h
  rw [h1] at e1
  cases Except.ok.inj e1
  refine ⟨L0, h1, fun near hnear order horder porder hporder calls J => ?_⟩
  obtain ⟨U, hU, hq⟩ := h near hnear order horder porder hporder calls J
  exact ⟨U, hU, hQ _ _ _ h3 hq⟩

theorem run_weaken {prec count : ℕ} {r : Py Built} {S : Set (Pt m)} {v : Fin m → Pt m}
    (ht : ReturnsTiling S count v r) {Q Q' : Lat count m m → ℕ → ℝ → (ℕ → Option (Py Demo.Setup)) → Prop}
    (h : EveryRun prec count r Q) (hQ : ∀ L s t run, ExactTiling S L.points L.vectors → Q L s t run → Q' L s t run) :
    EveryRun prec count r Q' := by
  obtain ⟨L0, h1, -, h3⟩ := ht
  obtain ⟨L1, e1, h⟩ := h
  rw [h1] at e1
  cases Except.ok.inj e1
  exact ⟨L0, h1, fun order horder porder hporder calls zoom coordOf hd species hs hs2 t =>
    hQ _ _ _ _ h3 (h order horder porder hporder calls zoom coordOf hd species hs hs2 t)⟩

end Verif.LDB
