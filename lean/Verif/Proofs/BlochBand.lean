import Verif.Proofs.LatticeSteps
/-!
# Lattices with several sites per cell
-/

namespace Verif.LDB

open Verif.Latt Demo

variable {m prec b : ℕ}

open Free in
/-- Independent periodic eigenfunctions give the energies. -/
theorem energies_of_modes {S : Set (Pt m)} {d : ℝ} (hd0 : d ≠ 0) {z count : ℕ} (hz : 0 < z) (hc0 : 1 ≤ count)
    (hc : Coordination S d z) {v : Fin m → Pt m} {r : Py Built} (ht : ReturnsTiling S count v r)
    (hf : FindsNearest prec S d r) (hfold : FoldsEverySite prec S r) {ι : Type} [Fintype ι] (hcard : Fintype.card ι = count)
    (eps : ℝ → ι → ℝ)
    (hmodes : ∀ t : ℝ, ∃ (f : ι → Pt m → ℂ) (E : ι → ℝ), (∀ x, Periodic v (f x)) ∧
      (∀ c : ι → ℂ, (∀ s ∈ S, ∑ x, c x * f x s = 0) → c = 0) ∧
      (∀ x, ∀ s ∈ S, hops S d t (f x) s = (E x : ℂ) * f x s) ∧
      ∏ x, (Polynomial.X - Polynomial.C ((E x : ℝ) : ℂ)) = ∏ x, (Polynomial.X - Polynomial.C ((eps t x : ℝ) : ℂ))) :
    EveryRun prec count r (Energies m eps) := by
  classical
  obtain ⟨L0, h1, h2, h3⟩ := ht
  refine ⟨L0, h1, fun order horder porder hporder calls zoom coordOf hst species hs h64 t => ?_⟩
  obtain ⟨h, hh, hrun, heq⟩ := band_core hd0 hz hc0 hc h1 h3 hf hfold horder hporder calls hst hs h64 t
  have hpos : 0 < species * count := Nat.mul_pos hs hc0
  intro N hN
  obtain ⟨B, hB', hasc, hl⟩ := sector_basis hpos h64 hN
  obtain ⟨table, htab⟩ := hrun N B hB' hasc hl
  refine ⟨_, htab, ?_⟩
  have hsite : ∀ i, L0.points i ∈ S := fun i => by
    have := h3.inside i 0
    rwa [comb_zero, add_zero] at this
  obtain ⟨f, E, hper, hind, heig, hprod⟩ := hmodes t
  rw [← h2] at hper
  have hlin0 : LinearIndependent ℂ fun x i => f x (L0.points i) := by
    rw [Fintype.linearIndependent_iff]
    intro c hc0
    refine congrFun (hind c fun s hs => ?_)
    obtain ⟨p, hp, -⟩ := h3.covers s hs
    have := congrFun hc0 p.1
    simp only [Finset.sum_apply, Pi.smul_apply, smul_eq_mul, Pi.zero_apply] at this
    rw [hp, ← this]
    exact Finset.sum_congr rfl fun x _ => by rw [hper x]
  have hlin := spinful_independent (Sn := species) hlin0
  have hspec := charpoly_of_eigen (Fintype.equivOfCardEq (by simp [hcard]) : Fin species × ι ≃ Fin species × Fin count)
    (h.submatrix finProdFinEquiv finProdFinEquiv) _ hlin (fun x => ((E x.2 : ℝ) : ℂ)) (fun x y => by
      have := heq (fun s => if x.1 = s then f x.2 else 0) (fun s => by
        split
        · exact hper x.2
        · intro p c; rfl) y.1 y.2
      have e : ∀ s p, (if x.1 = s then f x.2 else 0) p = if x.1 = s then f x.2 p else 0 := by
        intro s p; split <;> rfl
      simp only [e] at this
      refine this.trans ?_
      by_cases hxy : x.1 = y.1
      · simp only [hxy, if_true]
        exact heig _ _ (hsite _)
      · simp only [if_neg hxy, mul_zero, hops]
        simp)
  have h1 : h.charpoly = ∏ x : Fin species × ι, (Polynomial.X - Polynomial.C ((E x.2 : ℝ) : ℂ)) := by
    rw [← hspec]
    exact (Matrix.charpoly_reindex finProdFinEquiv.symm h).symm
  have h2 := charpoly_hermitian hl hh
  refine h2.trans ?_
  refine energySums_congr N _ _ ?_
  have e1 : ∏ x : Fin species × ι, (Polynomial.X - Polynomial.C ((E x.2 : ℝ) : ℂ)) =
      ∏ x : Fin species × ι, (Polynomial.X - Polynomial.C ((eps t x.2 : ℝ) : ℂ)) := by
    rw [Fintype.prod_prod_type, Fintype.prod_prod_type]
    exact Finset.prod_congr rfl fun _ _ => hprod
  rw [← e1, ← h1, hh.charpoly_eq]
  rfl

/-- A lattice made of `b` shifted copies of a group of translations, with the steps from copy to copy. -/
structure BlochData (S : Set (Pt m)) (d : ℝ) (G : AddSubgroup (Pt m)) (τ : Fin b → Pt m)
    (D : Fin b → Fin b → Finset (Pt m)) : Prop where
  union : ∀ p, p ∈ S ↔ ∃ α, p - τ α ∈ G
  disjoint : ∀ α β p, p - τ α ∈ G → p - τ β ∈ G → α = β
  steps : ∀ α β s x, s - τ α ∈ G → ((x - τ β ∈ G ∧ ndist s x = d) ↔ ∃ y ∈ D α β, x = s + y)

open Classical in
/-- The Bloch wave with amplitudes `u` on the copies. -/
noncomputable def blochWave (G : AddSubgroup (Pt m)) (τ : Fin b → Pt m) (q : Pt m) (u : Fin b → ℂ) (p : Pt m) : ℂ :=
  ∑ α, if p - τ α ∈ G then u α * planeWave q p else 0

/-- The Bloch matrix. -/
noncomputable def blochMatrix (t : ℝ) (D : Fin b → Fin b → Finset (Pt m)) (q : Pt m) : Matrix (Fin b) (Fin b) ℂ :=
  Matrix.of fun α β => t * ∑ y ∈ D α β, planeWave q y

variable {S : Set (Pt m)} {d : ℝ} {G : AddSubgroup (Pt m)} {τ : Fin b → Pt m} {D : Fin b → Fin b → Finset (Pt m)}

theorem blochWave_at (hD : BlochData S d G τ D) (q : Pt m) (u : Fin b → ℂ) {p : Pt m} {α : Fin b} (h : p - τ α ∈ G) :
    blochWave G τ q u p = u α * planeWave q p := by
  unfold blochWave
  rw [Finset.sum_eq_single α, if_pos h]
  · intro β _ hβ
    rw [if_neg fun h' => hβ (hD.disjoint _ _ _ h' h)]
  · intro h; exact absurd (Finset.mem_univ _) h

theorem hops_blochWave (hD : BlochData S d G τ D) (t : ℝ) (q : Pt m) (u : Fin b → ℂ) {s : Pt m} {α : Fin b}
    (hs : s - τ α ∈ G) :
    hops S d t (blochWave G τ q u) s = ((blochMatrix t D q).mulVec u) α * planeWave q s := by
  classical
  unfold hops
  have hset : {x | x ∈ S ∧ ndist s x = d} =
      ((Finset.univ.biUnion fun β => (D α β).image fun y => s + y : Finset (Pt m)) : Set (Pt m)) := by
    ext x
    simp only [Set.mem_ofPred_eq, Finset.coe_biUnion, Finset.coe_univ, Set.mem_univ, Set.iUnion_true, Set.mem_iUnion,
      Finset.coe_image, Set.mem_image, Finset.mem_coe]
    constructor
    · rintro ⟨h1, h2⟩
      obtain ⟨β, hβ⟩ := (hD.union x).1 h1
      obtain ⟨y, hy, e⟩ := (hD.steps α β s x hs).1 ⟨hβ, h2⟩
      exact ⟨β, y, hy, e.symm⟩
    · rintro ⟨β, y, hy, e⟩
      have := (hD.steps α β s x hs).2 ⟨y, hy, e.symm⟩
      exact ⟨(hD.union x).2 ⟨β, this.1⟩, this.2⟩
  have hmem : ∀ β, ∀ y ∈ D α β, s + y - τ β ∈ G := fun β y hy => ((hD.steps α β s (s + y) hs).2 ⟨y, hy, rfl⟩).1
  rw [hset, finsum_mem_coe_finset, Finset.sum_biUnion]
  · rw [Matrix.mulVec, dotProduct, Finset.mul_sum, Finset.sum_mul]
    refine Finset.sum_congr rfl fun β _ => ?_
    rw [Finset.sum_image fun x _ y _ e => add_left_cancel e, blochMatrix, Matrix.of_apply, Finset.mul_sum,
      Finset.mul_sum, Finset.sum_mul, Finset.sum_mul]
    refine Finset.sum_congr rfl fun y hy => ?_
    rw [blochWave_at hD q u (hmem β y hy), planeWave_add]
    ring
  · intro β _ γ _ hβγ
    rw [Function.onFun, Finset.disjoint_left]
    intro x hx hx'
    obtain ⟨y, hy, rfl⟩ := Finset.mem_image.1 hx
    obtain ⟨y', hy', e⟩ := Finset.mem_image.1 hx'
    have h1 := hmem β y hy
    have h2 := hmem γ y' hy'
    rw [e] at h2
    exact hβγ (hD.disjoint _ _ _ h1 h2)

theorem steps_neg (hD : BlochData S d G τ D) {α β : Fin b} {y : Pt m} (hy : y ∈ D α β) : -y ∈ D β α := by
  have h0 : τ α - τ α ∈ G := by rw [sub_self]; exact G.zero_mem
  have h1 := (hD.steps α β (τ α) (τ α + y) h0).2 ⟨y, hy, rfl⟩
  obtain ⟨y', hy', e⟩ := (hD.steps β α (τ α + y) (τ α) h1.1).1 ⟨h0, by rw [← h1.2]; exact ndist_comm _ _⟩
  have : y' = -y := by
    have : τ α + (y + y') = τ α + 0 := by rw [← add_assoc, ← e, add_zero]
    exact eq_neg_of_add_eq_zero_right (add_left_cancel this)
  rwa [← this]

theorem star_planeWave (q p : Pt m) : star (planeWave q p) = planeWave q (-p) := by
  unfold planeWave
  rw [Complex.star_def, ← Complex.exp_conj, map_mul, Complex.conj_I, Complex.conj_ofReal]
  congr 1
  simp

theorem bloch_hermitian (hD : BlochData S d G τ D) (t : ℝ) (q : Pt m) : (blochMatrix t D q).IsHermitian := by
  classical
  refine Matrix.IsHermitian.ext fun α β => ?_
  simp only [blochMatrix, Matrix.of_apply, star_mul', Complex.star_def, Complex.conj_ofReal]
  congr 1
  rw [map_sum]
  refine Finset.sum_bij' (fun y _ => -y) (fun y _ => -y) (fun y hy => steps_neg hD hy) (fun y hy => steps_neg hD hy)
    (fun y _ => neg_neg y) (fun y _ => neg_neg y) (fun y _ => ?_)
  exact star_planeWave q y

theorem characters_zero {ι : Type*} [Fintype ι] (G : AddSubgroup (Pt m)) (q : ι → Pt m)
    (hne : ∀ x y, (∀ g ∈ G, planeWave (q x) g = planeWave (q y) g) → x = y) (a : ι → ℂ)
    (h : ∀ g ∈ G, ∑ x, a x * planeWave (q x) g = 0) : a = 0 := by
  let χ : ι → (Multiplicative G →* ℂ) := fun x =>
    { toFun := fun g => planeWave (q x) (g.toAdd : Pt m)
      map_one' := planeWave_zero _
      map_mul' := fun a b => planeWave_add _ _ _ }
  have hχ : Function.Injective χ := fun x y hxy =>
    hne x y fun g hg => DFunLike.congr_fun hxy (Multiplicative.ofAdd (⟨g, hg⟩ : G))
  have hlin := (linearIndependent_monoidHom (Multiplicative G) ℂ).comp χ hχ
  rw [Fintype.linearIndependent_iff] at hlin
  funext x
  refine hlin a ?_ x
  funext g
  have := h _ g.toAdd.2
  simp only [Finset.sum_apply, Pi.smul_apply, smul_eq_mul, Pi.zero_apply, Function.comp]
  exact this

theorem comb_mem {v : Fin m → Pt m} (hv : ∀ i, v i ∈ G) (c : Fin m → ℤ) : comb v c ∈ G := by
  have : comb v c = ∑ i, c i • v i := by
    funext a
    simp [comb, Finset.sum_apply]
  rw [this]
  exact G.sum_mem fun i _ => G.zsmul_mem (hv i) _

theorem periodic_blochWave {v : Fin m → Pt m} (hv : ∀ i, v i ∈ G) {q : Pt m} (hq : Allowed v q) (u : Fin b → ℂ) :
    Periodic v (blochWave G τ q u) := by
  intro p c
  unfold blochWave
  refine Finset.sum_congr rfl fun α _ => ?_
  have hiff : p + comb v c - τ α ∈ G ↔ p - τ α ∈ G := by
    rw [show p + comb v c - τ α = p - τ α + comb v c by abel]
    exact G.add_mem_cancel_right (comb_mem hv c)
  rw [periodic_planeWave hq]
  by_cases h : p - τ α ∈ G
  · rw [if_pos h, if_pos (hiff.2 h)]
  · rw [if_neg h, if_neg (fun h' => h (hiff.1 h'))]

theorem bloch_modes (hD : BlochData S d G τ D) {v : Fin m → Pt m} (hv : ∀ i, v i ∈ G) {ι : Type} [Fintype ι] (q : ι → Pt m)
    (hq : ∀ x, Allowed v (q x)) (hne : ∀ x y, (∀ g ∈ G, planeWave (q x) g = planeWave (q y) g) → x = y)
    (t : ℝ) : ∃ (f : ι × Fin b → Pt m → ℂ) (E : ι × Fin b → ℝ), (∀ x, Periodic v (f x)) ∧
      (∀ c : ι × Fin b → ℂ, (∀ s ∈ S, ∑ x, c x * f x s = 0) → c = 0) ∧
      (∀ x, ∀ s ∈ S, hops S d t (f x) s = (E x : ℂ) * f x s) ∧
      ∏ x, (Polynomial.X - Polynomial.C ((E x : ℝ) : ℂ)) = ∏ x, (blochMatrix t D (q x)).charpoly := by
  classical
  have hH := fun x => bloch_hermitian hD t (q x)
  refine ⟨fun x => blochWave G τ (q x.1) (fun α => (hH x.1).eigenvectorBasis x.2 α),
    fun x => (hH x.1).eigenvalues x.2, fun x => periodic_blochWave hv (hq _) _, fun c hc => ?_, fun x s hs => ?_, ?_⟩
  · have h1 : ∀ α, (fun x => ∑ j, c (x, j) * (hH x).eigenvectorBasis j α) = 0 := by
      intro α
      have h2 := characters_zero G q hne
        (fun x => (∑ j, c (x, j) * (hH x).eigenvectorBasis j α) * planeWave (q x) (τ α)) (fun g hg => by
          have hs : τ α + g - τ α ∈ G := by rwa [add_sub_cancel_left]
          have h3 := hc (τ α + g) ((hD.union _).2 ⟨α, hs⟩)
          rw [Fintype.sum_prod_type] at h3
          rw [← h3]
          refine Finset.sum_congr rfl fun x _ => ?_
          rw [Finset.sum_mul, Finset.sum_mul]
          refine Finset.sum_congr rfl fun j _ => ?_
          beta_reduce
          rw [blochWave_at hD _ _ hs, planeWave_add]
          ring)
      funext x
      exact (mul_eq_zero.1 (congrFun h2 x)).resolve_right (planeWave_ne_zero _ _)
    funext x
    have hlin := (hH x.1).eigenvectorBasis.orthonormal.linearIndependent
    rw [Fintype.linearIndependent_iff] at hlin
    refine hlin (fun j => c (x.1, j)) ?_ x.2
    ext α
    have := congrFun (h1 α) x.1
    simpa using this
  · obtain ⟨α, hα⟩ := (hD.union s).1 hs
    beta_reduce
    rw [hops_blochWave hD t _ _ hα, blochWave_at hD _ _ hα]
    have := congrFun ((hH x.1).mulVec_eigenvectorBasis x.2) α
    simp only [Pi.smul_apply] at this
    rw [show ((blochMatrix t D (q x.1)).mulVec fun α => (hH x.1).eigenvectorBasis x.2 α) α =
      ((hH x.1).eigenvalues x.2 : ℂ) * (hH x.1).eigenvectorBasis x.2 α by simpa using this]
    ring
  · rw [Fintype.prod_prod_type]
    refine Finset.prod_congr rfl fun x _ => ?_
    rw [(hH x).charpoly_eq]
    rfl

theorem energies_bloch (hD : BlochData S d G τ D) (hd0 : d ≠ 0) {z count : ℕ} (hz : 0 < z) (hc0 : 1 ≤ count)
    (hc : Coordination S d z) {v : Fin m → Pt m} {r : Py Built} (ht : ReturnsTiling S count v r)
    (hf : FindsNearest prec S d r) (hfold : FoldsEverySite prec S r) (hv : ∀ i, v i ∈ G) {ι : Type} [Fintype ι]
    (hcard : Fintype.card (ι × Fin b) = count) (q : ι → Pt m)
    (hq : ∀ x, Allowed v (q x)) (hne : ∀ x y, (∀ g ∈ G, planeWave (q x) g = planeWave (q y) g) → x = y)
    (eps : ℝ → ι × Fin b → ℝ)
    (heps : ∀ t x, (blochMatrix t D (q x)).charpoly = ∏ j, (Polynomial.X - Polynomial.C ((eps t (x, j) : ℝ) : ℂ))) :
    EveryRun prec count r (Energies m eps) := by
  refine energies_of_modes hd0 hz hc0 hc ht hf hfold hcard eps fun t => ?_
  obtain ⟨f, E, h1, h2, h3, h4⟩ := bloch_modes hD hv q hq hne t
  refine ⟨f, E, h1, h2, h3, ?_⟩
  rw [h4, Fintype.prod_prod_type]
  exact Finset.prod_congr rfl fun x _ => heps t x

/-- The steps, from as many of them as there are neighbours. -/
theorem blochData_of {z : ℕ} (hc : Coordination S d z) (hz : 0 < z) (hu : ∀ p, p ∈ S ↔ ∃ α, p - τ α ∈ G)
    (hdis : ∀ α β, τ α - τ β ∈ G → α = β) (hD : ∀ α, ∑ β, (D α β).card = z)
    (hin : ∀ α β, ∀ y ∈ D α β, τ α + y - τ β ∈ G) (hlen : ∀ α β, ∀ y ∈ D α β, ndist 0 y = d) : BlochData S d G τ D := by
  classical
  have hdis' : ∀ α β p, p - τ α ∈ G → p - τ β ∈ G → α = β := fun α β p h1 h2 => hdis α β (by
    have := G.sub_mem h2 h1
    rwa [show p - τ β - (p - τ α) = τ α - τ β by abel] at this)
  have hin' : ∀ α β s y, s - τ α ∈ G → y ∈ D α β → s + y - τ β ∈ G := fun α β s y hs hy => by
    have := G.add_mem hs (hin α β y hy)
    rwa [show s - τ α + (τ α + y - τ β) = s + y - τ β by abel] at this
  have hlen' : ∀ α β s y, y ∈ D α β → ndist s (s + y) = d := fun α β s y hy => by
    rw [← hlen α β y hy]
    exact ndist_sub _ _ _ _ (by abel)
  refine ⟨hu, hdis', fun α β s x hs => ⟨fun ⟨h1, h2⟩ => ?_, fun ⟨y, hy, e⟩ => ?_⟩⟩
  · set F : Finset (Pt m) := Finset.univ.biUnion fun β => (D α β).image fun y => s + y with hF
    have hsub : (F : Set (Pt m)) ⊆ {x | x ∈ S ∧ ndist s x = d} := by
      intro x hx
      obtain ⟨γ, -, hx⟩ := Finset.mem_biUnion.1 (Finset.mem_coe.1 hx)
      obtain ⟨y, hy, rfl⟩ := Finset.mem_image.1 hx
      exact ⟨(hu _).2 ⟨γ, hin' α γ s y hs hy⟩, hlen' α γ s y hy⟩
    have hcard : F.card = z := by
      rw [hF, Finset.card_biUnion, ← hD α]
      · exact Finset.sum_congr rfl fun β _ => Finset.card_image_of_injective _ (add_right_injective s)
      · intro β _ γ _ hβγ
        rw [Function.onFun, Finset.disjoint_left]
        intro x hx hx'
        obtain ⟨y, hy, rfl⟩ := Finset.mem_image.1 hx
        obtain ⟨y', hy', e⟩ := Finset.mem_image.1 hx'
        have h2 := hin' α γ s y' hs hy'
        rw [e] at h2
        exact hβγ (hdis' _ _ _ (hin' α β s y hs hy) h2)
    have hnc := hc s ((hu s).2 ⟨α, hs⟩)
    have hfin : {x | x ∈ S ∧ ndist s x = d}.Finite := by
      by_contra h
      rw [Set.Infinite.ncard h] at hnc
      omega
    have heq := Set.eq_of_subset_of_ncard_le hsub (by rw [hnc, Set.ncard_coe_finset, hcard]) hfin
    have hx : x ∈ (F : Set (Pt m)) := by
      rw [heq]
      exact ⟨(hu x).2 ⟨β, h1⟩, h2⟩
    obtain ⟨γ, -, hx⟩ := Finset.mem_biUnion.1 (Finset.mem_coe.1 hx)
    obtain ⟨y, hy, rfl⟩ := Finset.mem_image.1 hx
    have := hdis' _ _ _ h1 (hin' α γ s y hs hy)
    subst this
    exact ⟨y, hy, rfl⟩
  · rw [e]
    exact ⟨hin' α β s y hs hy, hlen' α β s y hy⟩

end Verif.LDB
