import Verif.Spec.Coordination
import Verif.Proofs.NearestBuilt
/-! Counting bonds. -/

namespace Verif.LDB

open Verif.Latt Classical

variable {n m k : ℕ} {S : Set (Pt m)} {points : Fin n → Pt m} {v : Fin k → Pt m} {P : ℝ → Prop}
  {intra inter : List (Pt m × Pt m)}

theorem tiling_inj' (ht : ExactTiling S points v) {i j : Fin n} {c c' : Fin k → ℤ}
    (h : points i + comb v c = points j + comb v c') : i = j ∧ c = c' := by
  obtain ⟨q, -, hq⟩ := ht.covers _ (ht.inside i c)
  have h1 := hq (i, c) rfl
  have h2 := hq (j, c') h
  have := h1.trans h2.symm
  exact ⟨congrArg Prod.fst this, congrArg Prod.snd this⟩

theorem ndist_sub (p q x y : Pt m) (h : p - q = x - y) : ndist p q = ndist x y := by
  rw [ndist_eq, ndist_eq, h]

theorem listed (ht : ExactTiling S points v) (hl : ListsBonds S points v P intra inter) {b : Pt m × Pt m}
    (hb : b ∈ intra ++ inter) : (∃ i, b.1 = points i) ∧ b.2 ∈ S ∧ P (ndist b.1 b.2) := by
  rcases List.mem_append.mp hb with hb | hb
  · obtain ⟨h1, ⟨j, hj⟩, h3⟩ := hl.inside b hb
    refine ⟨h1, ?_, h3⟩
    have := ht.inside j 0
    rwa [comb_zero, add_zero, ← hj] at this
  · obtain ⟨h1, h2, -, h3⟩ := hl.across b hb
    exact ⟨h1, h2, h3⟩

theorem degree (ht : ExactTiling S points v) (hl : ListsBonds S points v P intra inter) (hP : ¬ P 0)
    {fold : Pt m → Pt m} (hfold : ∀ j c, fold (points j + comb v c) = points j) (i : Fin n) :
    (intra ++ inter).countP (fun b => b.1 = points i) + (intra ++ inter).countP (fun b => fold b.2 = points i) =
      {t | t ∈ S ∧ P (ndist (points i) t)}.ncard := by
  set B := (intra ++ inter).toFinset with hB
  have hcount : ∀ (q : Pt m × Pt m → Prop) [DecidablePred q], (intra ++ inter).countP (fun b => q b) = (B.filter q).card := by
    intro q _
    rw [List.countP_eq_length_filter, hB, ← List.toFinset_card_of_nodup (hl.nodup.filter _)]
    congr 1
    ext b
    simp only [List.mem_toFinset, List.mem_filter, Finset.mem_filter, decide_eq_true_eq]
  rw [hcount (fun b => b.1 = points i), hcount (fun b => fold b.2 = points i)]
  have hmem : ∀ {b : Pt m × Pt m}, b ∈ B → b ∈ intra ++ inter := fun h => List.mem_toFinset.mp h
  -- the translation of a bond that ends at a copy of the point
  have hback : ∀ b ∈ B.filter (fun b => fold b.2 = points i), ∃ c, b.2 = points i + comb v c := by
    intro b hb
    obtain ⟨h1, h2⟩ := Finset.mem_filter.mp hb
    obtain ⟨-, h3, -⟩ := listed ht hl (hmem h1)
    obtain ⟨⟨j, c⟩, hj, -⟩ := ht.covers _ h3
    refine ⟨c, ?_⟩
    dsimp only at hj
    rw [hj, hfold] at h2
    rw [hj, h2]
  have hsite : ∀ t, (∃ b, b ∈ B ∧ SameBond v b (points i, t)) → t ∈ S → P (ndist (points i) t) →
      ∀ b ∈ B, ∀ b' ∈ B, SameBond v b (points i, t) → SameBond v b' (points i, t) → b = b' := by
    intro t _ hs hp b hb b' hb' h h'
    have hi : points i ∈ S := by
      have := ht.inside i 0
      rwa [comb_zero, add_zero] at this
    obtain ⟨x, -, hx⟩ := hl.each _ hi _ hs hp
    rw [hx b ⟨hmem hb, h⟩, hx b' ⟨hmem hb', h'⟩]
  set f2 : Pt m × Pt m → Pt m := fun b => b.1 - b.2 + points i with hf2
  have hin1 : ∀ b ∈ B.filter (fun b => b.1 = points i), b.2 ∈ S ∧ P (ndist (points i) b.2) ∧
      SameBond v b (points i, b.2) := by
    intro b hb
    obtain ⟨h1, h2⟩ := Finset.mem_filter.mp hb
    obtain ⟨-, h3, h4⟩ := listed ht hl (hmem h1)
    refine ⟨h3, by rw [← h2]; exact h4, 0, Or.inl ⟨?_, ?_⟩⟩
    · rw [comb_zero, add_zero]; exact h2
    · rw [comb_zero, add_zero]
  have hin2 : ∀ b ∈ B.filter (fun b => fold b.2 = points i), f2 b ∈ S ∧ P (ndist (points i) (f2 b)) ∧
      SameBond v b (points i, f2 b) := by
    intro b hb
    obtain ⟨c, hc⟩ := hback b hb
    obtain ⟨h1, -⟩ := Finset.mem_filter.mp hb
    obtain ⟨⟨j, hj⟩, -, h4⟩ := listed ht hl (hmem h1)
    have e : f2 b = points j + comb v (-c) := by
      rw [hf2, comb_neg]
      dsimp only
      rw [hj, hc]
      abel
    refine ⟨by rw [e]; exact ht.inside j _, ?_, -c, Or.inr ⟨?_, ?_⟩⟩
    · rw [ndist_comm, ndist_sub (f2 b) (points i) b.1 b.2 (by rw [hf2]; dsimp only; abel)]
      exact h4
    · rw [e, hj]
    · rw [comb_neg, hc]; dsimp only; abel
  have hset : {t | t ∈ S ∧ P (ndist (points i) t)} =
      (((B.filter (fun b => b.1 = points i)).image Prod.snd ∪
        (B.filter (fun b => fold b.2 = points i)).image f2 : Finset (Pt m)) : Set (Pt m)) := by
    ext t
    simp only [Set.mem_ofPred_eq, Finset.coe_union, Finset.coe_image, Set.mem_union, Set.mem_image,
      Finset.mem_coe]
    constructor
    · rintro ⟨hs, hp⟩
      have hi : points i ∈ S := by
        have := ht.inside i 0
        rwa [comb_zero, add_zero] at this
      obtain ⟨b, ⟨hb, c, hc⟩, -⟩ := hl.each _ hi _ hs hp
      have hbB : b ∈ B := List.mem_toFinset.mpr hb
      obtain ⟨⟨j, hj⟩, -, -⟩ := listed ht hl hb
      rcases hc with ⟨h1, h2⟩ | ⟨h1, h2⟩
      · left
        dsimp only at h1 h2
        have : points j + comb v c = points i + comb v 0 := by rw [comb_zero, add_zero, ← hj, h1]
        obtain ⟨-, rfl⟩ := tiling_inj' ht this
        rw [comb_zero, add_zero] at h1 h2
        exact ⟨b, Finset.mem_filter.mpr ⟨hbB, h1⟩, h2⟩
      · right
        dsimp only at h1 h2
        have e : b.2 = points i + comb v (-c) := by rw [comb_neg, ← h2]; abel
        refine ⟨b, Finset.mem_filter.mpr ⟨hbB, by rw [e, hfold]⟩, ?_⟩
        rw [hf2]
        dsimp only
        rw [← h1, ← h2]
        abel
    · rintro (⟨b, hb, rfl⟩ | ⟨b, hb, rfl⟩)
      · exact ⟨(hin1 b hb).1, (hin1 b hb).2.1⟩
      · exact ⟨(hin2 b hb).1, (hin2 b hb).2.1⟩
  rw [hset, Set.ncard_coe_finset, Finset.card_union_of_disjoint, Finset.card_image_of_injOn,
    Finset.card_image_of_injOn]
  · intro b hb b' hb' e
    have hb := Finset.mem_coe.mp hb
    have hb' := Finset.mem_coe.mp hb'
    obtain ⟨h1, h2, h3⟩ := hin2 b hb
    obtain ⟨-, -, h3'⟩ := hin2 b' hb'
    have e : f2 b = f2 b' := e
    rw [← e] at h3'
    exact hsite _ ⟨b, (Finset.mem_filter.mp hb).1, h3⟩ h1 h2 b (Finset.mem_filter.mp hb).1 b'
      (Finset.mem_filter.mp hb').1 h3 h3'
  · intro b hb b' hb' e
    have hb := Finset.mem_filter.mp (Finset.mem_coe.mp hb)
    have hb' := Finset.mem_filter.mp (Finset.mem_coe.mp hb')
    exact Prod.ext (hb.2.trans hb'.2.symm) e
  · rw [Finset.disjoint_left]
    intro t h1 h2
    obtain ⟨b, hb, rfl⟩ := Finset.mem_image.mp h1
    obtain ⟨b', hb', e⟩ := Finset.mem_image.mp h2
    obtain ⟨g1, g2, g3⟩ := hin1 b hb
    obtain ⟨-, -, g3'⟩ := hin2 b' hb'
    rw [e] at g3'
    have hbb : b = b' := hsite _ ⟨b, (Finset.mem_filter.mp hb).1, g3⟩ g1 g2 b (Finset.mem_filter.mp hb).1 b'
      (Finset.mem_filter.mp hb').1 g3 g3'
    subst hbb
    have h5 : b.1 = points i := (Finset.mem_filter.mp hb).2
    rw [hf2] at e
    dsimp only at e
    rw [← h5] at e g2
    have : b.1 = b.2 := by
      funext a
      have := congrFun e a
      simp only [Pi.add_apply, Pi.sub_apply] at this
      linarith
    rw [this, ndist_self] at g2
    exact hP g2

theorem sum_countP {α : Type*} [DecidableEq (Pt m)] (hinj : Function.Injective points) (f : α → Pt m) (l : List α)
    (hl : ∀ b ∈ l, ∃ i, f b = points i) : ∑ i, l.countP (fun b => f b = points i) = l.length := by
  induction l with
  | nil => simp
  | cons b l ih =>
    obtain ⟨j, hj⟩ := hl b (by simp)
    simp only [List.countP_cons, Finset.sum_add_distrib, ih fun b hb => hl b (by simp [hb]), List.length_cons, hj,
      hinj.eq_iff, decide_eq_true_eq, Finset.sum_ite_eq, Finset.mem_univ, if_true]

theorem tiling_points_inj (ht : ExactTiling S points v) : Function.Injective points := fun i j h =>
  (tiling_inj' ht (c := 0) (c' := 0) (by rw [h])).1

theorem exists_fold (ht : ExactTiling S points v) :
    ∃ fold : Pt m → Pt m, ∀ j c, fold (points j + comb v c) = points j := by
  refine ⟨fun s => if h : ∃ q : Fin n × (Fin k → ℤ), s = points q.1 + comb v q.2 then points h.choose.1 else s,
    fun j c => ?_⟩
  have h : ∃ q : Fin n × (Fin k → ℤ), points j + comb v c = points q.1 + comb v q.2 := ⟨(j, c), rfl⟩
  simp only [dif_pos h]
  rw [← (tiling_inj' ht h.choose_spec).1]

theorem total (ht : ExactTiling S points v) (hl : ListsBonds S points v P intra inter) (hP : ¬ P 0) {z : ℕ}
    (hz : ∀ i, {t | t ∈ S ∧ P (ndist (points i) t)}.ncard = z) :
    2 * (intra.length + inter.length) = z * n := by
  obtain ⟨fold, hfold⟩ := exists_fold ht
  have h1 := sum_countP (tiling_points_inj ht) Prod.fst (intra ++ inter) fun b hb => (listed ht hl hb).1
  have h2 := sum_countP (tiling_points_inj ht) (fun b => fold b.2) (intra ++ inter) fun b hb => by
    obtain ⟨⟨j, c⟩, hj, -⟩ := ht.covers _ (listed ht hl hb).2.1
    exact ⟨j, by rw [hj, hfold]⟩
  have h3 : ∑ i, ((intra ++ inter).countP (fun b => b.1 = points i) +
      (intra ++ inter).countP (fun b => fold b.2 = points i)) = ∑ _i : Fin n, z :=
    Finset.sum_congr rfl fun i _ => (degree ht hl hP hfold i).trans (hz i)
  rw [Finset.sum_add_distrib, h1, h2] at h3
  simp only [List.length_append, Finset.sum_const, Finset.card_univ, Fintype.card_fin, smul_eq_mul] at h3
  rw [mul_comm z n, ← h3]
  ring

theorem bondsPerSite_of {S : Set (Pt m)} {d : ℝ} (hd : d ≠ 0) {z count prec : ℕ} {v : Fin m → Pt m} {r : Py Built}
    (hc : Coordination S d z)
    (hr : ∃ L : Lat count m m, r = .ok ⟨count, m, m, L⟩ ∧ L.vectors = v ∧ ExactTiling S L.points L.vectors)
    (hf : FindsNearest prec S d r) : BondsPerSite m prec z count r := by
  obtain ⟨L, h1, -, ht⟩ := hr
  obtain ⟨n, L0, h1', h⟩ := hf
  rw [h1] at h1'
  cases Except.ok.inj h1'
  have hP : ¬ (fun x : ℝ => x = d) 0 := fun e => hd e.symm
  have hsite : ∀ i, L.points i ∈ S := fun i => by
    have := ht.inside i 0
    rwa [comb_zero, add_zero] at this
  have hz : ∀ i, {t | t ∈ S ∧ ndist (L.points i) t = d}.ncard = z := fun i => hc _ (hsite i)
  refine ⟨L, h1, fun order horder porder hporder calls only fold => ?_⟩
  obtain ⟨-, ⟨L1, intra, inter, g1, g2⟩, L2, intra', inter', inter0, g3, g4, g5⟩ :=
    h order horder porder hporder calls only
  cases fold with
  | false => exact ⟨L1, intra, inter, g1, total ht g2 hP hz, fun e => by cases e⟩
  | true =>
    obtain ⟨fold, hfold⟩ := exists_fold ht
    have hp := g5 fold hfold
    refine ⟨L2, intra', inter', g3, ?_, fun _ i => ?_⟩
    · rw [hp.length_eq, List.length_map]
      exact total ht g4 hP hz
    · rw [← hz i, ← degree ht g4 hP hfold i]
      have e1 : inter'.countP (fun b => b.1 = L.points i) = inter0.countP (fun b => b.1 = L.points i) := by
        rw [hp.countP_eq, List.countP_map]
        rfl
      have e2 : inter'.countP (fun b => b.2 = L.points i) = inter0.countP (fun b => fold b.2 = L.points i) := by
        rw [hp.countP_eq, List.countP_map]
        rfl
      have e3 : intra'.countP (fun b => b.2 = L.points i) = intra'.countP (fun b => fold b.2 = L.points i) := by
        refine List.countP_congr fun b hb => ?_
        obtain ⟨-, ⟨j, hj⟩, -⟩ := g4.inside b hb
        have := hfold j 0
        rw [comb_zero, add_zero] at this
        rw [hj, this]
      unfold ends
      rw [List.countP_append, List.countP_append, List.countP_append, List.countP_append, e1, e2, e3]

/-! ### Coordination numbers -/

theorem ncard_of_param {T : Type*} [DecidableEq T] {S : Set (Pt m)} {d : ℝ} {s : Pt m} (f : T → Pt m)
    (hf : Function.Injective f) (H : Finset T) (h : ∀ t, t ∈ S ∧ ndist s t = d ↔ ∃ x ∈ H, t = f x) :
    {t | t ∈ S ∧ ndist s t = d}.ncard = H.card := by
  have : {t | t ∈ S ∧ ndist s t = d} = ((H.map ⟨f, hf⟩ : Finset (Pt m)) : Set (Pt m)) := by
    ext t
    simp only [Set.mem_ofPred_eq, h, Finset.coe_map, Set.mem_image, Finset.mem_coe, Function.Embedding.coeFn_mk]
    exact ⟨fun ⟨x, hx, e⟩ => ⟨x, hx, e.symm⟩, fun ⟨x, hx, e⟩ => ⟨x, hx, e.symm⟩⟩
  rw [this, Set.ncard_coe_finset, Finset.card_map]

theorem coordination_shift {S : Set (Pt m)} {d : ℝ} {z : ℕ} (h : Coordination S d z) (t : Pt m) :
    Coordination (shifted t S) d z := by
  intro s hs
  rw [← h (s - t) hs]
  have : {x | x ∈ shifted t S ∧ ndist s x = d} = (· + t) '' {x | x ∈ S ∧ ndist (s - t) x = d} := by
    ext x
    simp only [Set.mem_ofPred_eq, shifted, Set.mem_image]
    constructor
    · rintro ⟨h1, h2⟩
      exact ⟨x - t, ⟨h1, by rw [← h2]; exact ndist_sub _ _ _ _ (by abel)⟩, by abel⟩
    · rintro ⟨y, ⟨h1, h2⟩, rfl⟩
      exact ⟨by simpa using h1, by rw [← h2]; exact ndist_sub _ _ _ _ (by abel)⟩
  rw [this, Set.ncard_image_of_injective _ (add_left_injective t)]

theorem coord_chain : Coordination chainSites 1 2 := by
  rintro s ⟨a, rfl⟩
  refine (ncard_of_param (T := ℤ) (fun x => ![((a + x : ℤ) : ℝ)]) (fun x y h => ?_) {1, -1} fun t => ?_).trans
    (by decide)
  · have := congrFun h 0
    simp only [Matrix.cons_val_zero, Int.cast_inj] at this
    omega
  · constructor
    · rintro ⟨⟨b, rfl⟩, h⟩
      rw [ndist_eq_iff zero_le_one, Fin.sum_univ_one] at h
      simp only [Matrix.cons_val_zero] at h
      have h' : (b - a) * (b - a) = 1 := by
        have : (((b - a) * (b - a) : ℤ) : ℝ) = 1 := by push_cast; linarith
        exact_mod_cast this
      refine ⟨b - a, ?_, by simp⟩
      rcases mul_self_eq_one_iff.mp h' with h | h <;> simp [h]
    · rintro ⟨x, hx, rfl⟩
      refine ⟨⟨_, rfl⟩, ?_⟩
      rw [ndist_eq_iff zero_le_one, Fin.sum_univ_one]
      simp only [Finset.mem_insert, Finset.mem_singleton] at hx
      rcases hx with rfl | rfl <;> simp

theorem coord_square : Coordination squareSites 1 4 := by
  rintro s ⟨a, b, rfl⟩
  refine (ncard_of_param (T := ℤ × ℤ) (fun x => ![((a + x.1 : ℤ) : ℝ), ((b + x.2 : ℤ) : ℝ)]) (fun x y h => ?_)
    {(1, 0), (-1, 0), (0, 1), (0, -1)} fun t => ?_).trans (by decide)
  · have h0 := congrFun h 0
    have h1 := congrFun h 1
    simp only [Matrix.cons_val_zero, Matrix.cons_val_one, Matrix.cons_val_fin_one, Int.cast_inj] at h0 h1
    exact Prod.ext (by omega) (by omega)
  · constructor
    · rintro ⟨⟨c, e, rfl⟩, h⟩
      rw [ndist_eq_iff zero_le_one, Fin.sum_univ_two] at h
      simp only [Matrix.cons_val_zero, Matrix.cons_val_one, Matrix.cons_val_fin_one] at h
      have h' : (c - a) ^ 2 + (e - b) ^ 2 = 1 := by
        have : (((c - a) ^ 2 + (e - b) ^ 2 : ℤ) : ℝ) = 1 := by push_cast; linarith
        exact_mod_cast this
      refine ⟨(c - a, e - b), ?_, by simp⟩
      generalize c - a = A at *
      generalize e - b = B at *
      have b1 : A ≤ 1 := by nlinarith [sq_nonneg B]
      have b2 : -1 ≤ A := by nlinarith [sq_nonneg B]
      have b3 : B ≤ 1 := by nlinarith [sq_nonneg A]
      have b4 : -1 ≤ B := by nlinarith [sq_nonneg A]
      interval_cases A <;> interval_cases B <;> simp_all
    · rintro ⟨x, hx, rfl⟩
      refine ⟨⟨_, _, rfl⟩, ?_⟩
      rw [ndist_eq_iff zero_le_one, Fin.sum_univ_two]
      simp only [Finset.mem_insert, Finset.mem_singleton] at hx
      rcases hx with rfl | rfl | rfl | rfl <;> simp

theorem coord_cubic : Coordination cubicSites 1 6 := by
  rintro s ⟨a, b, g, rfl⟩
  refine (ncard_of_param (T := ℤ × ℤ × ℤ)
    (fun x => ![((a + x.1 : ℤ) : ℝ), ((b + x.2.1 : ℤ) : ℝ), ((g + x.2.2 : ℤ) : ℝ)]) (fun x y h => ?_)
    {(1, 0, 0), (-1, 0, 0), (0, 1, 0), (0, -1, 0), (0, 0, 1), (0, 0, -1)} fun t => ?_).trans (by decide)
  · have h0 := congrFun h 0
    have h1 := congrFun h 1
    have h2 := congrFun h 2
    simp at h0 h1 h2
    exact Prod.ext h0 (Prod.ext h1 h2)
  · constructor
    · rintro ⟨⟨c, e, f, rfl⟩, h⟩
      rw [ndist_eq_iff zero_le_one, Fin.sum_univ_three] at h
      have h' : (c - a) ^ 2 + (e - b) ^ 2 + (f - g) ^ 2 = 1 := by
        have : (((c - a) ^ 2 + (e - b) ^ 2 + (f - g) ^ 2 : ℤ) : ℝ) = 1 := by
          push_cast
          simp at h
          linarith
        exact_mod_cast this
      refine ⟨(c - a, e - b, f - g), ?_, by simp⟩
      generalize c - a = A at *
      generalize e - b = B at *
      generalize f - g = C at *
      have b1 : A ≤ 1 := by nlinarith [sq_nonneg B, sq_nonneg C]
      have b2 : -1 ≤ A := by nlinarith [sq_nonneg B, sq_nonneg C]
      have b3 : B ≤ 1 := by nlinarith [sq_nonneg A, sq_nonneg C]
      have b4 : -1 ≤ B := by nlinarith [sq_nonneg A, sq_nonneg C]
      have b5 : C ≤ 1 := by nlinarith [sq_nonneg A, sq_nonneg B]
      have b6 : -1 ≤ C := by nlinarith [sq_nonneg A, sq_nonneg B]
      clear h
      interval_cases A <;> interval_cases B <;> interval_cases C <;> simp_all
    · rintro ⟨x, hx, rfl⟩
      refine ⟨⟨_, _, _, rfl⟩, ?_⟩
      rw [ndist_eq_iff zero_le_one, Fin.sum_univ_three]
      simp only [Finset.mem_insert, Finset.mem_singleton] at hx
      rcases hx with rfl | rfl | rfl | rfl | rfl | rfl <;> simp

theorem hex_solutions {A B : ℤ} (h : A ^ 2 + A * B + B ^ 2 = 1) :
    (A, B) ∈ ({(1, 0), (-1, 0), (0, 1), (0, -1), (1, -1), (-1, 1)} : Finset (ℤ × ℤ)) := by
  have b1 : A ≤ 1 := by nlinarith [sq_nonneg (2 * B + A)]
  have b2 : -1 ≤ A := by nlinarith [sq_nonneg (2 * B + A)]
  have b3 : B ≤ 1 := by nlinarith [sq_nonneg (2 * A + B)]
  have b4 : -1 ≤ B := by nlinarith [sq_nonneg (2 * A + B)]
  interval_cases A <;> interval_cases B <;> simp_all

theorem r3_ne : Real.sqrt 3 ≠ 0 := r3_pos.ne'

theorem coord_triangle : Coordination triangleSites 1 6 := by
  have h3 : Real.sqrt 3 * Real.sqrt 3 = 3 := r3_sq
  rintro s ⟨a, b, rfl⟩
  refine (ncard_of_param (T := ℤ × ℤ)
    (fun x => ![((a + x.1 : ℤ) : ℝ) + ((b + x.2 : ℤ) : ℝ) / 2, ((b + x.2 : ℤ) : ℝ) * (Real.sqrt 3 / 2)])
    (fun x y h => ?_) {(1, 0), (-1, 0), (0, 1), (0, -1), (1, -1), (-1, 1)} fun t => ?_).trans (by decide)
  · have h0 := congrFun h 0
    have h1 := congrFun h 1
    simp only [Matrix.cons_val_zero, Matrix.cons_val_one, Matrix.cons_val_fin_one] at h0 h1
    have h1' := mul_right_cancel₀ (div_ne_zero r3_ne two_ne_zero) h1
    rw [h1'] at h0
    have h0' := add_right_cancel h0
    rw [Int.cast_inj] at h0' h1'
    exact Prod.ext (by omega) (by omega)
  · have key : ∀ c e : ℤ, ndist ![(a : ℝ) + (b : ℝ) / 2, (b : ℝ) * (Real.sqrt 3 / 2)]
        ![(c : ℝ) + (e : ℝ) / 2, (e : ℝ) * (Real.sqrt 3 / 2)] = 1 ↔
        (c - a) ^ 2 + (c - a) * (e - b) + (e - b) ^ 2 = 1 := by
      intro c e
      rw [ndist_eq_iff zero_le_one, Fin.sum_univ_two]
      simp only [Matrix.cons_val_zero, Matrix.cons_val_one, Matrix.cons_val_fin_one]
      rw [← @Int.cast_inj ℝ]
      push_cast
      constructor <;> intro h
      · linear_combination h - (((e : ℝ) - b) ^ 2 / 4) * h3
      · linear_combination h + (((e : ℝ) - b) ^ 2 / 4) * h3
    constructor
    · rintro ⟨⟨c, e, rfl⟩, h⟩
      exact ⟨(c - a, e - b), hex_solutions ((key c e).mp h), by simp⟩
    · rintro ⟨x, hx, rfl⟩
      refine ⟨⟨_, _, rfl⟩, (key _ _).mpr ?_⟩
      simp only [Finset.mem_insert, Finset.mem_singleton] at hx
      rcases hx with rfl | rfl | rfl | rfl | rfl | rfl <;> ring

theorem coord_kagome : Coordination kagomeSites (1 / 2) 4 := by
  have h3 : Real.sqrt 3 * Real.sqrt 3 = 3 := r3_sq
  rintro s ⟨a, b, hab, rfl⟩
  refine (ncard_of_param (T := ℤ × ℤ)
    (fun x => ![(((a + x.1 : ℤ) : ℝ) + ((b + x.2 : ℤ) : ℝ) / 2) / 2, ((b + x.2 : ℤ) : ℝ) * (Real.sqrt 3 / 2) / 2])
    (fun x y h => ?_)
    (({(1, 0), (-1, 0), (0, 1), (0, -1), (1, -1), (-1, 1)} : Finset (ℤ × ℤ)).filter
      fun x => ¬ (Odd (a + x.1) ∧ Odd (b + x.2))) fun t => ?_).trans ?_
  · have h0 := congrFun h 0
    have h1 := congrFun h 1
    simp only [Matrix.cons_val_zero, Matrix.cons_val_one, Matrix.cons_val_fin_one] at h0 h1
    have h1' := mul_right_cancel₀ (div_ne_zero r3_ne two_ne_zero) ((div_left_inj' two_ne_zero).mp h1)
    have h0 := (div_left_inj' two_ne_zero).mp h0
    rw [h1'] at h0
    have h0' := add_right_cancel h0
    rw [Int.cast_inj] at h0' h1'
    exact Prod.ext (by omega) (by omega)
  · have key : ∀ c e : ℤ, ndist ![((a : ℝ) + (b : ℝ) / 2) / 2, (b : ℝ) * (Real.sqrt 3 / 2) / 2]
        ![((c : ℝ) + (e : ℝ) / 2) / 2, (e : ℝ) * (Real.sqrt 3 / 2) / 2] = 1 / 2 ↔
        (c - a) ^ 2 + (c - a) * (e - b) + (e - b) ^ 2 = 1 := by
      intro c e
      rw [ndist_eq_iff (by norm_num), Fin.sum_univ_two]
      simp only [Matrix.cons_val_zero, Matrix.cons_val_one, Matrix.cons_val_fin_one]
      rw [← @Int.cast_inj ℝ]
      push_cast
      constructor <;> intro h
      · linear_combination 4 * h - (((e : ℝ) - b) ^ 2 / 4) * h3
      · linear_combination h / 4 + (((e : ℝ) - b) ^ 2 / 16) * h3
    constructor
    · rintro ⟨⟨c, e, hce, rfl⟩, h⟩
      exact ⟨(c - a, e - b), Finset.mem_filter.mpr ⟨hex_solutions ((key c e).mp h), by simpa using hce⟩, by simp⟩
    · rintro ⟨x, hx, rfl⟩
      obtain ⟨hx, hce⟩ := Finset.mem_filter.mp hx
      refine ⟨⟨_, _, hce, rfl⟩, (key _ _).mpr ?_⟩
      simp only [Finset.mem_insert, Finset.mem_singleton] at hx
      rcases hx with rfl | rfl | rfl | rfl | rfl | rfl <;> ring
  · rcases Int.even_or_odd a with ha | ha <;> rcases Int.even_or_odd b with hb | hb
    · rw [show (({(1, 0), (-1, 0), (0, 1), (0, -1), (1, -1), (-1, 1)} : Finset (ℤ × ℤ)).filter
          fun x => ¬ (Odd (a + x.1) ∧ Odd (b + x.2))) = {(1, 0), (-1, 0), (0, 1), (0, -1)} from ?_]
      · decide
      · ext ⟨x, y⟩
        simp only [Finset.mem_filter, Finset.mem_insert, Finset.mem_singleton, Prod.mk.injEq]
        constructor
        · rintro ⟨(⟨rfl, rfl⟩ | ⟨rfl, rfl⟩ | ⟨rfl, rfl⟩ | ⟨rfl, rfl⟩ | ⟨rfl, rfl⟩ | ⟨rfl, rfl⟩), h⟩ <;> grind
        · rintro (⟨rfl, rfl⟩ | ⟨rfl, rfl⟩ | ⟨rfl, rfl⟩ | ⟨rfl, rfl⟩) <;> grind
    · rw [show (({(1, 0), (-1, 0), (0, 1), (0, -1), (1, -1), (-1, 1)} : Finset (ℤ × ℤ)).filter
          fun x => ¬ (Odd (a + x.1) ∧ Odd (b + x.2))) = {(0, 1), (0, -1), (1, -1), (-1, 1)} from ?_]
      · decide
      · ext ⟨x, y⟩
        simp only [Finset.mem_filter, Finset.mem_insert, Finset.mem_singleton, Prod.mk.injEq]
        constructor
        · rintro ⟨(⟨rfl, rfl⟩ | ⟨rfl, rfl⟩ | ⟨rfl, rfl⟩ | ⟨rfl, rfl⟩ | ⟨rfl, rfl⟩ | ⟨rfl, rfl⟩), h⟩ <;> grind
        · rintro (⟨rfl, rfl⟩ | ⟨rfl, rfl⟩ | ⟨rfl, rfl⟩ | ⟨rfl, rfl⟩) <;> grind
    · rw [show (({(1, 0), (-1, 0), (0, 1), (0, -1), (1, -1), (-1, 1)} : Finset (ℤ × ℤ)).filter
          fun x => ¬ (Odd (a + x.1) ∧ Odd (b + x.2))) = {(1, 0), (-1, 0), (1, -1), (-1, 1)} from ?_]
      · decide
      · ext ⟨x, y⟩
        simp only [Finset.mem_filter, Finset.mem_insert, Finset.mem_singleton, Prod.mk.injEq]
        constructor
        · rintro ⟨(⟨rfl, rfl⟩ | ⟨rfl, rfl⟩ | ⟨rfl, rfl⟩ | ⟨rfl, rfl⟩ | ⟨rfl, rfl⟩ | ⟨rfl, rfl⟩), h⟩ <;> grind
        · rintro (⟨rfl, rfl⟩ | ⟨rfl, rfl⟩ | ⟨rfl, rfl⟩ | ⟨rfl, rfl⟩) <;> grind
    · exact (hab ⟨ha, hb⟩).elim

theorem coord_honeycomb : Coordination honeycombSites (1 / Real.sqrt 3) 3 := by
  have h3 : r3 * r3 = 3 := r3_sq
  intro s hs
  obtain ⟨a, b, e, he, hs0, hs1⟩ := (honeycomb_iff s).1 hs
  refine (ncard_of_param (T := ℤ × ℤ)
    (fun x => ![((a + x.1 : ℤ) : ℝ) + ((b + x.2 : ℤ) : ℝ) / 2,
      ((b + x.2 : ℤ) : ℝ) * (r3 / 2) + ((-e : ℤ) : ℝ) * (r3 / 6)])
    (fun x y h => ?_) {(0, 0), (0, e), (-e, e)} fun t => ?_).trans ?_
  · have h0 := congrFun h 0
    have h1 := congrFun h 1
    simp only [Matrix.cons_val_zero, Matrix.cons_val_one, Matrix.cons_val_fin_one] at h0 h1
    have h1' := mul_right_cancel₀ (div_ne_zero r3_ne two_ne_zero) (add_right_cancel h1)
    rw [h1'] at h0
    have h0' := add_right_cancel h0
    rw [Int.cast_inj] at h0' h1'
    exact Prod.ext (by omega) (by omega)
  · have key : ∀ (t : Pt 2) (c f g : ℤ), t 0 = c + f / 2 → t 1 = f * (r3 / 2) + g * (r3 / 6) →
        (ndist s t = 1 / Real.sqrt 3 ↔
        12 * ((c - a) ^ 2 + (c - a) * (f - b) + (f - b) ^ 2) + 6 * ((f - b) * (g - e)) + (g - e) ^ 2 = 4) := by
      intro t c f g h0 h1
      rw [ndist_eq_iff inv_sqrt3_pos.le, inv_sqrt3_sq, Fin.sum_univ_two, hs0, hs1, h0, h1]
      rw [← @Int.cast_inj ℝ]
      push_cast
      constructor <;> intro h
      · linear_combination 12 * h - (3 * ((f : ℝ) - b) ^ 2 + 2 * ((f : ℝ) - b) * (g - e) + ((g : ℝ) - e) ^ 2 / 3) * h3
      · linear_combination h / 12 + (3 * ((f : ℝ) - b) ^ 2 + 2 * ((f : ℝ) - b) * (g - e) + ((g : ℝ) - e) ^ 2 / 3) / 12 * h3
    constructor
    · rintro ⟨ht, h⟩
      obtain ⟨c, f, g, hg, ht0, ht1⟩ := (honeycomb_iff t).1 ht
      have h' := (key t c f g ht0 ht1).mp h
      have hge : g = -e := by
        rcases he with rfl | rfl <;> rcases hg with rfl | rfl
        · exfalso; ring_nf at h'; omega
        · rfl
        · rfl
        · exfalso; ring_nf at h'; omega
      subst hge
      refine ⟨(c - a, f - b), ?_, ?_⟩
      · generalize c - a = A at *
        generalize f - b = B at *
        have he2 : e ^ 2 = 1 := by rcases he with rfl | rfl <;> norm_num
        have h'' : A ^ 2 + A * B + B ^ 2 = B * e := by nlinarith
        have q1 : 3 * (3 * B - 2 * e) ^ 2 + (6 * A + 3 * B) ^ 2 ≤ 12 := by nlinarith
        have q2 : (A + 2 * B - e) ^ 2 + 3 * A ^ 2 + 2 * A * e = 1 := by nlinarith
        have hmem : ((A, B) = (0, 0) ∨ (A, B) = (0, e) ∨ (A, B) = (-e, e)) := by
          have b3 : B ≤ 1 := by rcases he with rfl | rfl <;> nlinarith [sq_nonneg (2 * A + B)]
          have b4 : -1 ≤ B := by rcases he with rfl | rfl <;> nlinarith [sq_nonneg (2 * A + B)]
          have b1 : A ≤ 1 := by
            rcases he with rfl | rfl <;> interval_cases B <;> nlinarith
          have b2 : -1 ≤ A := by
            rcases he with rfl | rfl <;> interval_cases B <;> nlinarith
          rcases he with rfl | rfl <;> interval_cases A <;> interval_cases B <;> simp_all
        simpa using hmem
      · refine pt2_ext ?_ ?_
        · rw [ht0]; simp
        · rw [ht1]; simp
    · rintro ⟨x, hx, rfl⟩
      refine ⟨(honeycomb_iff _).2 ⟨a + x.1, b + x.2, -e, ?_, rfl, rfl⟩, (key _ _ _ _ rfl rfl).mpr ?_⟩
      · rcases he with rfl | rfl <;> simp
      · simp only [Finset.mem_insert, Finset.mem_singleton] at hx
        rcases he with rfl | rfl <;> rcases hx with rfl | rfl | rfl <;> ring
  · rcases he with rfl | rfl <;> decide

end Verif.LDB
