import Verif.Model.LatticeDatabase
import Verif.Spec.LatticeDatabase
import Verif.Props.LatticeDecompose
/-!
Helper lemmas: exact tilings.
-/

namespace Verif.LDB

open Verif.Latt

variable {m k : ℕ}

/-- Exact tilings by a list of points. -/
structure LTiling (S : Set (Pt m)) (l : List (Pt m)) (v : Fin k → Pt m) : Prop where
  inside : ∀ p ∈ l, ∀ c, p + comb v c ∈ S
  nodup : l.Nodup
  ex : ∀ s ∈ S, ∃ p ∈ l, ∃ c, s = p + comb v c
  uniq : ∀ p ∈ l, ∀ p' ∈ l, ∀ c c', p + comb v c = p' + comb v c' → p' = p ∧ c' = c

theorem LTiling.exact {S : Set (Pt m)} {l : List (Pt m)} {v : Fin k → Pt m} (h : LTiling S l v) :
    ExactTiling S l.get v := by
  refine ⟨fun i c => h.inside _ (List.get_mem _ _) c, fun s hs => ?_⟩
  obtain ⟨p, hp, c, rfl⟩ := h.ex s hs
  obtain ⟨i, rfl⟩ := List.get_of_mem hp
  refine ⟨(i, c), rfl, ?_⟩
  rintro ⟨j, d⟩ hj
  obtain ⟨h1, h2⟩ := h.uniq _ (List.get_mem _ i) _ (List.get_mem _ j) c d hj
  have := (List.nodup_iff_injective_get.1 h.nodup) h1
  rw [this, h2]

theorem LTiling.shift {S : Set (Pt m)} {l : List (Pt m)} {v : Fin k → Pt m} (h : LTiling S l v)
    (t : Pt m) : LTiling (shifted t S) (l.map (· + t)) v := by
  refine ⟨?_, ?_, ?_, ?_⟩
  · intro p hp c
    obtain ⟨q, hq, rfl⟩ := List.mem_map.1 hp
    change q + t + comb v c - t ∈ S
    rw [show q + t + comb v c - t = q + comb v c by abel]
    exact h.inside q hq c
  · exact h.nodup.map fun a b hab => add_right_cancel hab
  · intro s hs
    obtain ⟨p, hp, c, hc⟩ := h.ex (s - t) hs
    refine ⟨p + t, List.mem_map.2 ⟨p, hp, rfl⟩, c, ?_⟩
    rw [show p + t + comb v c = p + comb v c + t by abel, ← hc]; abel
  · intro p hp p' hp' c c' he
    obtain ⟨q, hq, rfl⟩ := List.mem_map.1 hp
    obtain ⟨q', hq', rfl⟩ := List.mem_map.1 hp'
    have : q + comb v c = q' + comb v c' := by
      have h1 : q + comb v c + t = q' + comb v c' + t := by
        rw [show q + comb v c + t = q + t + comb v c by abel, he]; abel
      exact add_right_cancel h1
    obtain ⟨h1, h2⟩ := h.uniq q hq q' hq' c c' this
    exact ⟨by rw [h1], h2⟩

theorem Separated.shift {S : Set (Pt m)} {d : ℝ} (h : Separated d S) (t : Pt m) :
    Separated d (shifted t S) := by
  intro s hs s' hs' hne
  have := h _ hs _ hs' (fun he => hne (sub_left_injective he))
  rwa [ndist_eq, show s - t - (s' - t) = s - s' by abel, ← ndist_eq] at this

/-! ### Repeating a cell -/

theorem mem_prodRange : ∀ {k : ℕ} (ns c : Fin k → ℤ), c ∈ prodRange k ns ↔ ∀ i, 0 ≤ c i ∧ c i < ns i
  | 0, ns, c => by
    simp only [prodRange, List.mem_singleton]
    exact ⟨fun _ i => i.elim0, fun _ => funext fun i => i.elim0⟩
  | k + 1, ns, c => by
    simp only [prodRange, List.mem_flatMap, List.mem_map, mem_pyRange]
    constructor
    · rintro ⟨a, ha, d, hd, rfl⟩ i
      rw [mem_prodRange] at hd
      refine Fin.cases ?_ (fun i => ?_) i
      · simpa using ha
      · simpa [Fin.tail] using hd i
    · intro h
      refine ⟨c 0, h 0, Fin.tail c, ?_, Fin.cons_self_tail c⟩
      rw [mem_prodRange]
      exact fun i => h i.succ

theorem nodup_prodRange : ∀ {k : ℕ} (ns : Fin k → ℤ), (prodRange k ns).Nodup
  | 0, _ => List.nodup_singleton _
  | k + 1, ns => by
    rw [prodRange, List.nodup_flatMap]
    refine ⟨fun a _ => (nodup_prodRange (Fin.tail ns)).map fun c d h => ?_, ?_⟩
    · have := congrArg Fin.tail h
      simpa using this
    · refine (nodup_pyRange _ _).imp fun {a b} hab => ?_
      intro c h1 h2
      obtain ⟨d, _, rfl⟩ := List.mem_map.1 h1
      obtain ⟨e, _, he⟩ := List.mem_map.1 h2
      exact hab (by simpa using (congrFun he 0).symm)

theorem length_prodRange : ∀ {k : ℕ} (ns : Fin k → ℤ), (prodRange k ns).length = ∏ i, (ns i).toNat
  | 0, _ => by simp [prodRange]
  | k + 1, ns => by
    rw [prodRange, List.length_flatMap, Fin.prod_univ_succ]
    simp only [List.length_map, length_prodRange (Fin.tail ns)]
    simp only [pyRange, Fin.tail, sub_zero, List.map_map, Function.comp_def, List.map_const', List.sum_replicate, List.length_range, smul_eq_mul]

theorem comb_scale (ns : Fin k → ℤ) (v : Fin k → Pt m) (c : Fin k → ℤ) :
    comb (scaleVectors ns v) c = comb v (fun i => ns i * c i) := by
  funext a
  simp only [comb, scaleVectors]
  refine Finset.sum_congr rfl fun i _ => ?_
  push_cast; ring

theorem LTiling.super {S : Set (Pt m)} {l : List (Pt m)} {v : Fin k → Pt m} (h : LTiling S l v)
    (ns : Fin k → ℤ) (hns : ∀ i, 1 ≤ ns i) :
    LTiling S (superPoints ns l v) (scaleVectors ns v) := by
  have key : ∀ (r r' q q' : Fin k → ℤ) (p p' : Pt m), r ∈ prodRange k ns → r' ∈ prodRange k ns →
      p ∈ l → p' ∈ l → comb v r + p + comb (scaleVectors ns v) q =
        comb v r' + p' + comb (scaleVectors ns v) q' → p' = p ∧ r' = r ∧ q' = q := by
    intro r r' q q' p p' hr hr' hp hp' he
    rw [mem_prodRange] at hr hr'
    rw [comb_scale, comb_scale] at he
    have h1 : p + comb v (r + fun i => ns i * q i) = p' + comb v (r' + fun i => ns i * q' i) := by
      rw [comb_add, comb_add, show p + (comb v r + comb v fun i => ns i * q i) =
        comb v r + p + comb v fun i => ns i * q i by abel, he]
      abel
    obtain ⟨h2, h3⟩ := h.uniq p hp p' hp' _ _ h1
    have h4 : ∀ i, r' i = r i ∧ q' i = q i := by
      intro i
      have := congrFun h3 i
      simp only [Pi.add_apply] at this
      have a1 := hr i
      have a2 := hr' i
      have e1 : r i = (r i + ns i * q i) % ns i := by
        rw [Int.add_mul_emod_self_left, Int.emod_eq_of_lt a1.1 a1.2]
      have e2 : r' i = (r' i + ns i * q' i) % ns i := by
        rw [Int.add_mul_emod_self_left, Int.emod_eq_of_lt a2.1 a2.2]
      have e3 : r' i = r i := by rw [e1, e2, this]
      refine ⟨e3, ?_⟩
      rw [e3] at this
      have h5 : ns i * q' i = ns i * q i := by linarith
      exact mul_left_cancel₀ (by have := hns i; omega) h5
    exact ⟨h2, funext fun i => (h4 i).1, funext fun i => (h4 i).2⟩
  refine ⟨?_, ?_, ?_, ?_⟩
  · intro p hp c
    obtain ⟨r, hr, hp⟩ := List.mem_flatMap.1 hp
    obtain ⟨p, hpl, rfl⟩ := List.mem_map.1 hp
    rw [comb_scale, show comb v r + p + comb v (fun i => ns i * c i) =
      p + comb v (r + fun i => ns i * c i) by rw [comb_add]; abel]
    exact h.inside p hpl _
  · rw [superPoints, List.nodup_flatMap]
    refine ⟨fun c _ => h.nodup.map fun a b hab => add_left_cancel hab, ?_⟩
    refine (List.Pairwise.and_mem.1 (nodup_prodRange ns)).imp ?_
    rintro r r' ⟨hr, hr', hne⟩ s h1 h2
    obtain ⟨p, hp, rfl⟩ := List.mem_map.1 h1
    obtain ⟨p', hp', he⟩ := List.mem_map.1 h2
    exact hne (key r r' 0 0 p p' hr hr' hp hp' (by rw [he])).2.1.symm
  · intro s hs
    obtain ⟨p, hp, a, rfl⟩ := h.ex s hs
    have hpos : ∀ i, 0 < ns i := fun i => by have := hns i; omega
    refine ⟨comb v (fun i => a i % ns i) + p, ?_, fun i => a i / ns i, ?_⟩
    · refine List.mem_flatMap.2 ⟨_, ?_, List.mem_map.2 ⟨p, hp, rfl⟩⟩
      rw [mem_prodRange]
      exact fun i => ⟨Int.emod_nonneg _ (hpos i).ne', Int.emod_lt_of_pos _ (hpos i)⟩
    · rw [comb_scale, show comb v (fun i => a i % ns i) + p + comb v (fun i => ns i * (a i / ns i)) =
        p + comb v ((fun i => a i % ns i) + fun i => ns i * (a i / ns i)) by rw [comb_add]; abel]
      congr 2
      funext i
      exact (Int.emod_add_mul_ediv (a i) (ns i)).symm
  · intro p hp p' hp' c c' he
    obtain ⟨r, hr, hp⟩ := List.mem_flatMap.1 hp
    obtain ⟨p, hpl, rfl⟩ := List.mem_map.1 hp
    obtain ⟨r', hr', hp'⟩ := List.mem_flatMap.1 hp'
    obtain ⟨p', hpl', rfl⟩ := List.mem_map.1 hp'
    obtain ⟨h1, h2, h3⟩ := key r r' c c' p p' hr hr' hpl hpl' he
    exact ⟨by rw [h1, h2], h3⟩

theorem length_superPoints (ns : Fin k → ℤ) (l : List (Pt m)) (v : Fin k → Pt m) :
    (superPoints ns l v).length = (∏ i, (ns i).toNat) * l.length := by
  rw [superPoints, List.length_flatMap]
  simp [length_prodRange]

/-! ### Acceptance -/

theorem comb_single (v : Fin k → Pt m) (i : Fin k) : comb v (Pi.single i 1) = v i := by
  funext a
  rw [comb, Finset.sum_eq_single i]
  · simp
  · intro j _ hj; simp [Pi.single_eq_of_ne hj]
  · intro h; exact absurd (Finset.mem_univ i) h

theorem LTiling.accepted {S : Set (Pt m)} {l : List (Pt m)} {v : Fin k → Pt m} (h : LTiling S l v)
    {d : ℝ} (hsep : Separated d S) {prec : ℕ} (hprec : tol prec ≤ d) (hm : m ≤ 3)
    (hl : l ≠ []) (hv : LinearIndependent ℝ v) :
    (∃ L, init prec l.get v = .ok L) ∧ Inequivalent prec l.get v := by
  have hin : Inequivalent prec l.get v := by
    intro i j hij c
    refine hprec.trans (hsep _ (h.inside _ (List.get_mem _ _) c) _ ?_ ?_)
    · have := h.inside _ (List.get_mem l j) 0
      rwa [comb_zero, add_zero] at this
    · intro he
      have h1 := (h.uniq _ (List.get_mem l i) _ (List.get_mem l j) c 0
        (by rw [he, comb_zero, add_zero])).1
      exact hij ((List.nodup_iff_injective_get.1 h.nodup) h1).symm
  refine ⟨?_, hin⟩
  rw [C46_accepted_iff]
  obtain ⟨p, hp⟩ := List.exists_mem_of_ne_nil l hl
  have hk : k ≤ m := by
    have := hv.fintype_card_le_finrank
    simpa using this
  refine ⟨hm, hk, ?_, ?_, hv⟩
  · intro i j hij
    have h1 := h.inside p hp (Pi.single i 1)
    have h2 := h.inside p hp (Pi.single j 1)
    have hne : p + comb v (Pi.single i 1) ≠ p + comb v (Pi.single j 1) := by
      intro he
      have := congrFun (h.uniq p hp p hp _ _ he).2 i
      simp [Pi.single_eq_of_ne hij.ne] at this
    have := hprec.trans (hsep _ h1 _ h2 hne)
    rwa [comb_single, comb_single, ndist_eq, add_sub_add_left_eq_sub, ← ndist_eq] at this
  · intro i j hij
    have := hin i j hij.ne 0
    rwa [comb_zero, add_zero] at this

theorem tol_le {prec : ℕ} (h : 1 ≤ prec) : tol prec ≤ 1 / 10 := by
  rw [tol]
  have h1 : (10 : ℝ) ^ 1 ≤ 10 ^ prec := pow_le_pow_right₀ (by norm_num) h
  rw [div_le_div_iff₀ (by positivity) (by norm_num)]
  linarith

theorem linearIndependent_scale {v : Fin k → Pt m} (hv : LinearIndependent ℝ v) (ns : Fin k → ℤ)
    (hns : ∀ i, 1 ≤ ns i) : LinearIndependent ℝ (scaleVectors ns v) := by
  rw [Fintype.linearIndependent_iff] at hv ⊢
  intro g hg i
  have h1 := hv (fun i => g i * ns i) (by
    rw [← hg]
    refine Finset.sum_congr rfl fun i _ => ?_
    funext a
    simp [scaleVectors]; ring) i
  have : (ns i : ℝ) ≠ 0 := by
    have := hns i
    exact_mod_cast (by omega : ns i ≠ 0)
  exact (mul_eq_zero.1 h1).resolve_right this

theorem scaleVectors_one (v : Fin k → Pt m) : scaleVectors (fun _ => 1) v = v := by
  funext i a; simp [scaleVectors]

end Verif.LDB
