import Verif.Spec.ChainGround
import Verif.Proofs.Perron
import Verif.Proofs.Dimer
import Verif.Proofs.FreeFermion
import Verif.Proofs.HubbardDensity
/-!
Helper lemmas: hopping on a path has no fermion signs and connects all states (for C130).
-/

namespace Verif.LDB

open Verif.Latt Verif.Spec Demo Matrix

local notation "Op" => Module.End ℂ Fock

theorem hopInt_left (p : ℕ) (S T : Finset ℕ) : hopInt p (p + 1) S T =
    if p + 1 ∈ S ∧ p ∉ S ∧ insert p (S.erase (p + 1)) = T then 1 else 0 := by
  unfold hopInt
  have hp : p ∈ S.erase (p + 1) ↔ p ∈ S := by simp
  simp only [hp]
  by_cases h : p + 1 ∈ S ∧ p ∉ S ∧ insert p (S.erase (p + 1)) = T
  · rw [if_pos h, if_pos h]
    have e : S.filter (· < p + 1) = (S.erase (p + 1)).filter (· < p) := by
      ext q
      simp only [Finset.mem_filter, Finset.mem_erase]
      constructor
      · rintro ⟨h1, h2⟩
        have : q ≠ p := fun h' => h.2.1 (h' ▸ h1)
        exact ⟨⟨by omega, h1⟩, by omega⟩
      · rintro ⟨⟨h1, h2⟩, h3⟩
        exact ⟨h2, by omega⟩
    rw [e, ← mul_pow]
    norm_num
  · rw [if_neg h, if_neg h]

theorem hopInt_right (p : ℕ) (S T : Finset ℕ) : hopInt (p + 1) p S T =
    if p ∈ S ∧ p + 1 ∉ S ∧ insert (p + 1) (S.erase p) = T then 1 else 0 := by
  unfold hopInt
  have hp : p + 1 ∈ S.erase p ↔ p + 1 ∈ S := by simp
  simp only [hp]
  by_cases h : p ∈ S ∧ p + 1 ∉ S ∧ insert (p + 1) (S.erase p) = T
  · rw [if_pos h, if_pos h]
    have e : S.filter (· < p) = (S.erase p).filter (· < p + 1) := by
      ext q
      simp only [Finset.mem_filter, Finset.mem_erase]
      constructor
      · rintro ⟨h1, h2⟩
        exact ⟨⟨by omega, h1⟩, by omega⟩
      · rintro ⟨⟨h1, h2⟩, h3⟩
        exact ⟨h2, by omega⟩
    rw [e, ← mul_pow]
    norm_num
  · rw [if_neg h, if_neg h]

theorem hopInt_nonneg {p q : ℕ} (h : q = p + 1 ∨ p = q + 1) (S T : Finset ℕ) : 0 ≤ hopInt p q S T := by
  rcases h with rfl | rfl
  · rw [hopInt_left]
    split_ifs <;> norm_num
  · rw [hopInt_right]
    split_ifs <;> norm_num

/-- The sum of the numbers of the occupied states changes by one. -/
theorem hopInt_parity {p q : ℕ} (h : q = p + 1 ∨ p = q + 1) {S T : Finset ℕ} (hne : hopInt p q S T ≠ 0) :
    (-1 : ℝ) ^ (∑ x ∈ T, x) * (-1) ^ (∑ x ∈ S, x) = -1 := by
  have key : ∀ (p q : ℕ), q ∈ S → p ∉ S → insert p (S.erase q) = T → ∑ x ∈ T, x + q = ∑ x ∈ S, x + p := by
    intro p q hq hp hT
    rw [← hT, Finset.sum_insert (by simp [hp]), ← Finset.add_sum_erase S (fun x => x) hq]
    ring
  have odd : ∀ a b : ℕ, (a = b + 1 ∨ b = a + 1) → (-1 : ℝ) ^ a * (-1) ^ b = -1 := by
    rintro a b (rfl | rfl)
    · rw [pow_succ, mul_right_comm, ← mul_pow]
      norm_num
    · rw [pow_succ, ← mul_assoc, ← mul_pow]
      norm_num
  rcases h with rfl | rfl
  · rw [hopInt_left] at hne
    have h := (ite_ne_right_iff.1 hne).1
    have := key p (p + 1) h.1 h.2.1 h.2.2
    exact odd _ _ (by omega)
  · rw [hopInt_right] at hne
    have h := (ite_ne_right_iff.1 hne).1
    have := key (q + 1) q h.1 h.2.1 h.2.2
    exact odd _ _ (by omega)

/-- The integer that multiplies `t` in a matrix element for a path. -/
def pathInt (n : ℕ) (S T : Finset ℕ) : ℤ := ∑ p : Fin n × Fin n with (p.2 : ℕ) = p.1 + 1, ∑ s ∈ Finset.range 2,
  (hopInt (s * n + p.1) (s * n + p.2) S T + hopInt (s * n + p.2) (s * n + p.1) S T)

variable {n m : ℕ} {d : ℝ} {points : Fin n → Pt m}

theorem path_entry (h : ∀ i j : Fin n, i < j → (ndist (points i) (points j) = d ↔ (j : ℕ) = i + 1)) (t U : ℝ)
    {S T : Finset ℕ} (hne : S ≠ T) : matrixElement (clusterHubbard d points t U) T S = (t : ℂ) * pathInt n S T := by
  classical
  unfold matrixElement clusterHubbard
  rw [LinearMap.add_apply, LinearMap.smul_apply, LinearMap.smul_apply, Finsupp.add_apply, Finsupp.smul_apply,
    Finsupp.smul_apply, smul_eq_mul, smul_eq_mul, LinearMap.sum_apply, Finsupp.finset_sum_apply]
  have e0 : ∀ i : Fin n, (numberOp (n + i) * numberOp i : Op) (ket S) T = 0 := fun i => by
    rw [pair_entry, pairInt, if_neg (by tauto)]
    simp
  rw [Finset.sum_eq_zero fun i _ => e0 i, mul_zero, zero_add]
  congr 1
  rw [LinearMap.sum_apply, Finsupp.finset_sum_apply]
  unfold pathInt
  push_cast
  refine Finset.sum_congr ?_ fun p _ => ?_
  · ext p
    simp only [Finset.mem_filter, Finset.mem_univ, true_and]
    constructor
    · rintro ⟨h1, h2⟩
      exact (h _ _ h1).1 h2
    · intro h1
      have hlt : p.1 < p.2 := by
        rw [Fin.lt_def]
        omega
      exact ⟨hlt, (h _ _ hlt).2 h1⟩
  · unfold hopPair
    rw [LinearMap.sum_apply, Finsupp.finset_sum_apply]
    refine Finset.sum_congr rfl fun s _ => ?_
    rw [LinearMap.add_apply, Finsupp.add_apply, hop_entry, hop_entry]

theorem pathInt_nonneg (S T : Finset ℕ) : 0 ≤ pathInt n S T := by
  refine Finset.sum_nonneg fun p hp => Finset.sum_nonneg fun s _ => ?_
  have := (Finset.mem_filter.1 hp).2
  exact add_nonneg (hopInt_nonneg (by omega) _ _) (hopInt_nonneg (by omega) _ _)

theorem pathInt_parity {S T : Finset ℕ} (hne : pathInt n S T ≠ 0) :
    (-1 : ℝ) ^ (∑ x ∈ T, x) * (-1) ^ (∑ x ∈ S, x) = -1 := by
  obtain ⟨p, hp, h1⟩ := Finset.exists_ne_zero_of_sum_ne_zero hne
  obtain ⟨s, -, h2⟩ := Finset.exists_ne_zero_of_sum_ne_zero h1
  have := (Finset.mem_filter.1 hp).2
  by_cases h3 : hopInt (s * n + p.1) (s * n + p.2) S T = 0
  · rw [h3, zero_add] at h2
    exact hopInt_parity (by omega) h2
  · exact hopInt_parity (by omega) h3

/-- A particle can hop to the left. -/
theorem pathInt_left {S : Finset ℕ} {s i : ℕ} (hs : s < 2) (hi : i + 1 < n) (h1 : s * n + (i + 1) ∈ S)
    (h2 : s * n + i ∉ S) : pathInt n S (insert (s * n + i) (S.erase (s * n + (i + 1)))) ≠ 0 := by
  have hpos : 0 < pathInt n S (insert (s * n + i) (S.erase (s * n + (i + 1)))) := by
    refine Finset.sum_pos' (fun p hp => Finset.sum_nonneg fun s _ => ?_)
      ⟨(⟨i, by omega⟩, ⟨i + 1, hi⟩), Finset.mem_filter.2 ⟨Finset.mem_univ _, rfl⟩, ?_⟩
    · have := (Finset.mem_filter.1 hp).2
      exact add_nonneg (hopInt_nonneg (by omega) _ _) (hopInt_nonneg (by omega) _ _)
    · refine Finset.sum_pos' (fun s _ => ?_) ⟨s, Finset.mem_range.2 hs, ?_⟩
      · exact add_nonneg (hopInt_nonneg (by simp only; omega) _ _) (hopInt_nonneg (by simp only; omega) _ _)
      · refine add_pos_of_pos_of_nonneg ?_ (hopInt_nonneg (by simp only; omega) _ _)
        show 0 < hopInt (s * n + i) (s * n + i + 1) _ _
        rw [hopInt_left, if_pos ⟨h1, h2, rfl⟩]
        norm_num
  exact hpos.ne'

/-- A set that is closed to the left is an interval. -/
theorem eq_Ico {A : Finset ℕ} {a : ℕ} (h1 : ∀ q ∈ A, a ≤ q) (h2 : ∀ q, q + 1 ∈ A → a ≤ q → q ∈ A) :
    A = Finset.Ico a (a + A.card) := by
  refine Finset.eq_of_subset_of_card_le (fun q hq => ?_) (by simp)
  have hsub : Finset.Icc a q ⊆ A := by
    intro x hx
    obtain ⟨hx1, hx2⟩ := Finset.mem_Icc.1 hx
    obtain ⟨k, rfl⟩ := Nat.exists_eq_add_of_le hx2
    have go : ∀ k x, x + k ∈ A → a ≤ x → x ∈ A := by
      intro k
      induction k with
      | zero => exact fun x hx _ => hx
      | succ k ih => exact fun x hx ha => h2 x (ih (x + 1) (by rwa [show x + 1 + k = x + (k + 1) by ring]) (by omega)) ha
    exact go k x hq hx1
  have := Finset.card_le_card hsub
  rw [Nat.card_Icc] at this
  exact Finset.mem_Ico.2 ⟨h1 q hq, by have := h1 q hq; omega⟩

/-- The state with all particles on the left. -/
theorem stuck_unique {S : Finset ℕ} (hS : S ⊆ Finset.range (2 * n))
    (h : ∀ s, s < 2 → ∀ i, i + 1 < n → s * n + (i + 1) ∈ S → s * n + i ∈ S) :
    S = Finset.Ico 0 (S.filter (· < n)).card ∪ Finset.Ico n (n + (S.filter (n ≤ ·)).card) := by
  have e1 : S.filter (· < n) = Finset.Ico 0 (0 + (S.filter (· < n)).card) := by
    refine eq_Ico (fun q _ => Nat.zero_le q) fun q hq _ => ?_
    obtain ⟨h1, h2⟩ := Finset.mem_filter.1 hq
    refine Finset.mem_filter.2 ⟨?_, by omega⟩
    have := h 0 (by norm_num) q h2 (by simpa using h1)
    simpa using this
  have e2 : S.filter (n ≤ ·) = Finset.Ico n (n + (S.filter (n ≤ ·)).card) := by
    refine eq_Ico (fun q hq => (Finset.mem_filter.1 hq).2) fun q hq hnq => ?_
    obtain ⟨h1, h2⟩ := Finset.mem_filter.1 hq
    have h3 := Finset.mem_range.1 (hS h1)
    obtain ⟨i, rfl⟩ := Nat.exists_eq_add_of_le hnq
    refine Finset.mem_filter.2 ⟨?_, hnq⟩
    have := h 1 (by norm_num) i (by omega) (by rwa [one_mul, ← add_assoc])
    rwa [one_mul] at this
  rw [zero_add] at e1
  rw [← e1, ← e2]
  ext q
  simp only [Finset.mem_union, Finset.mem_filter]
  have := lt_or_ge q n
  tauto

variable {Nup Ndown : ℕ} {B : List ℕ}

theorem left_mem (hB : SpinSector n Nup Ndown B) {k : ℕ} (hk : k ∈ B) {s i : ℕ} (hs : s < 2) (hi : i + 1 < n)
    (h1 : s * n + (i + 1) ∈ occ k) (h2 : s * n + i ∉ occ k) :
    ∃ l ∈ B, occ l = insert (s * n + i) ((occ k).erase (s * n + (i + 1))) := by
  obtain ⟨l, hl⟩ := Free.exists_occ (insert (s * n + i) ((occ k).erase (s * n + (i + 1))))
  refine ⟨l, (hB.2 l).2 ?_, hl⟩
  obtain ⟨a, b, c⟩ := (hB.2 k).1 hk
  rw [hl]
  have hsn : s * n = 0 ∨ s * n = n := by interval_cases s <;> simp
  have hlt : s * n + i < 2 * n := by omega
  have hcard : ∀ P : ℕ → Prop, ∀ [DecidablePred P], (P (s * n + i) ↔ P (s * n + (i + 1))) →
      ((insert (s * n + i) ((occ k).erase (s * n + (i + 1)))).filter P).card = ((occ k).filter P).card := by
    intro P _ hP
    by_cases hp : P (s * n + i)
    · rw [Finset.filter_insert, if_pos hp, Finset.card_insert_of_notMem (by simp [h2]), Finset.filter_erase,
        Finset.card_erase_add_one (Finset.mem_filter.2 ⟨h1, hP.1 hp⟩)]
    · rw [Finset.filter_insert, if_neg hp, Finset.filter_erase, Finset.erase_eq_of_notMem]
      exact fun h => hp (hP.2 (Finset.mem_filter.1 h).2)
  refine ⟨?_, ?_, ?_⟩
  · intro q hq
    rcases Finset.mem_insert.1 hq with rfl | hq
    · exact Finset.mem_range.2 hlt
    · exact a (Finset.mem_of_mem_erase hq)
  · rw [hcard _ (by omega), b]
  · rw [hcard _ (by omega), c]

/-- All states are connected. -/
theorem path_connected (hB : SpinSector n Nup Ndown B) (R : Fin B.length → Fin B.length → Prop)
    (hsymm : ∀ a b, R a b → R b a) (hR : ∀ a b : Fin B.length, occ B[a] ≠ occ B[b] → pathInt n (occ B[b]) (occ B[a]) ≠ 0 → R a b)
    (r c : Fin B.length) : Relation.ReflTransGen R r c := by
  have key : ∀ (w : ℕ) (r : Fin B.length), ∑ x ∈ occ B[r], x = w → ∃ m : Fin B.length,
      occ B[m] = Finset.Ico 0 Ndown ∪ Finset.Ico n (n + Nup) ∧ Relation.ReflTransGen R r m := by
    intro w
    induction w using Nat.strong_induction_on with
    | _ w ih =>
      intro r hr
      have hmem := List.getElem_mem (l := B) r.2
      obtain ⟨a, b, c⟩ := (hB.2 _).1 hmem
      by_cases h : ∀ s, s < 2 → ∀ i, i + 1 < n → s * n + (i + 1) ∈ occ B[r] → s * n + i ∈ occ B[r]
      · refine ⟨r, ?_, Relation.ReflTransGen.refl⟩
        have := stuck_unique a h
        rw [b, c] at this
        exact this
      · push Not at h
        obtain ⟨s, hs, i, hi, h1, h2⟩ := h
        obtain ⟨l, hl, e⟩ := left_mem hB hmem hs hi h1 h2
        obtain ⟨k, hk, rfl⟩ := List.getElem_of_mem hl
        replace e : occ B[k] = insert (s * n + i) ((occ B[r]).erase (s * n + (i + 1))) := e
        have hsum : ∑ x ∈ occ B[k], x < w := by
          rw [e, ← hr, Finset.sum_insert fun h' => h2 (Finset.mem_of_mem_erase h')]
          have := Finset.add_sum_erase (occ B[r]) (fun x => x) h1
          change s * n + i + ∑ x ∈ (occ B[r]).erase (s * n + (i + 1)), x < _
          omega
        obtain ⟨m, hm, hp⟩ := ih _ hsum ⟨k, hk⟩ rfl
        refine ⟨m, hm, Relation.ReflTransGen.head (hsymm _ _ (hR ⟨k, hk⟩ r ?_ ?_)) hp⟩
        · show occ B[k] ≠ occ B[r]
          rw [e]
          exact fun h' => h2 (h' ▸ Finset.mem_insert_self _ _)
        · show pathInt n (occ B[r]) (occ B[k]) ≠ 0
          rw [e]
          exact pathInt_left hs hi h1 h2
  obtain ⟨m, hm, h1⟩ := key _ r rfl
  obtain ⟨m', hm', h2⟩ := key _ c rfl
  have e : m = m' := by
    have hp : B.Nodup := hB.1.imp fun h => h.ne
    have e1 : B[m] = B[m'] := occ_inj (hm.trans hm'.symm)
    exact Fin.ext ((List.Nodup.getElem_inj_iff hp).1 e1)
  subst e
  haveI : Std.Symm R := ⟨hsymm⟩
  exact h1.trans ((Relation.ReflTransGen.stdSymm (r := R)).symm _ _ h2)

/-- The signs of the ground state. -/
noncomputable def chainSign (t : ℝ) (S : Finset ℕ) : ℝ := if t < 0 then 1 else (-1) ^ ∑ x ∈ S, x

theorem chainSign_sq (t : ℝ) (S : Finset ℕ) : chainSign t S * chainSign t S = 1 := by
  unfold chainSign
  split_ifs
  · norm_num
  · rw [← mul_pow]
    norm_num

theorem path_ground {L : Lat n m m} {zoom : ℤ} {coordOf : ℝ → Coord} {run : ℝ → ℝ → ℕ → ℕ → Option (Py Setup)}
    (h : HubbardModel d L zoom coordOf run)
    (hn : ∀ i j : Fin n, i < j → (ndist (L.points i) (L.points j) = d ↔ (j : ℕ) = i + 1)) :
    UniqueGround n run := by
  intro t U a b ht ha hb
  obtain ⟨V, hV, -, hs, hm, hH⟩ := h t U a b ha hb
  have hnd : V.basis.Nodup := hs.1.imp fun h => h.ne
  have hocc : ∀ r c : Fin V.basis.length, r ≠ c → occ V.basis[r] ≠ occ V.basis[c] := fun r c hrc he =>
    hrc (Fin.ext ((List.Nodup.getElem_inj_iff hnd).1 (occ_inj he)))
  have hoff : ∀ r c, r ≠ c → V.HM r c = (t : ℂ) * pathInt n (occ V.basis[c]) (occ V.basis[r]) := fun r c hrc => by
    rw [hm]
    exact path_entry hn t U (hocc c r (Ne.symm hrc))
  have hO : OffSigns V.HM (fun r => chainSign t (occ V.basis[r]))
      (fun r c => |t| * (pathInt n (occ V.basis[c]) (occ V.basis[r]) : ℝ)) := by
    refine ⟨fun r => chainSign_sq t _, fun r c hrc => ⟨mul_nonneg (abs_nonneg t) ?_, ?_⟩⟩
    · exact_mod_cast pathInt_nonneg _ _
    · rw [hoff r c hrc]
      have e : t * (pathInt n (occ V.basis[c]) (occ V.basis[r]) : ℝ) = -(chainSign t (occ V.basis[r]) *
          chainSign t (occ V.basis[c]) * (|t| * (pathInt n (occ V.basis[c]) (occ V.basis[r]) : ℝ))) := by
        by_cases h0 : pathInt n (occ V.basis[c]) (occ V.basis[r]) = 0
        · rw [h0]
          simp
        · have hp := pathInt_parity h0
          unfold chainSign
          by_cases hneg : t < 0
          · rw [if_pos hneg, if_pos hneg, abs_of_neg hneg]
            ring
          · rw [if_neg hneg, if_neg hneg, hp, abs_of_nonneg (not_lt.1 hneg)]
            ring
      rw [← e]
      push_cast
      rfl
  have hconn := path_connected hs (fun r c => r ≠ c ∧ |t| * (pathInt n (occ V.basis[c]) (occ V.basis[r]) : ℝ) ≠ 0)
    (fun r c hrc => ⟨hrc.1.symm, by
      have h1 := hoff r c hrc.1
      have h2 := hoff c r hrc.1.symm
      have h3 : V.HM c r = star (V.HM r c) := (hH.apply c r).symm
      have h4 : V.HM r c ≠ 0 := by
        rw [h1]
        refine mul_ne_zero (by exact_mod_cast ht) ?_
        have := right_ne_zero_of_mul hrc.2
        exact_mod_cast this
      have h5 : V.HM c r ≠ 0 := by
        rw [h3]
        exact star_ne_zero.2 h4
      rw [h2] at h5
      refine mul_ne_zero (abs_ne_zero.2 ht) ?_
      have := right_ne_zero_of_mul h5
      exact_mod_cast this⟩)
    (fun r c hrc hp => ⟨fun h' => hrc (by rw [h']), mul_ne_zero (abs_ne_zero.2 ht) (by exact_mod_cast hp)⟩)
  obtain ⟨E, hE, x, hx, he, hu⟩ := perron (sector_pos hs ha hb) hH hO hconn
  refine ⟨V, hV, E, hE, _, he, hu, fun r => ?_, fun hneg r => ⟨x r, hx r, ?_⟩⟩
  · rw [Complex.ofReal_ne_zero]
    refine mul_ne_zero (fun h0 => ?_) (hx r).ne'
    have := chainSign_sq t (occ V.basis[r])
    rw [h0] at this
    norm_num at this
  · simp only [chainSign, if_pos hneg, one_mul]

theorem lowest_unique {N : ℕ} {M : Matrix (Fin N) (Fin N) ℂ} {E E' : ℝ} (h : IsLowest M E) (h' : IsLowest M E') :
    E = E' := by
  obtain ⟨⟨v, hv, he⟩, hl⟩ := h
  obtain ⟨⟨v', hv', he'⟩, hl'⟩ := h'
  have a := (hl _ v' hv' he').2
  have b := (hl' _ v hv he).2
  rw [Complex.ofReal_re] at a b
  exact le_antisymm a b

theorem path_neighbours {L : Lat n m m} (hd : 0 < d)
    (hn : ∀ i j : Fin n, i < j → (ndist (L.points i) (L.points j) = d ↔ (j : ℕ) = i + 1)) (i j : Fin n) :
    ndist (L.points i) (L.points j) = d ↔ (j : ℕ) = i + 1 ∨ (i : ℕ) = j + 1 := by
  rcases lt_trichotomy i j with h | h | h
  · rw [hn i j h]
    have := Fin.lt_def.1 h
    omega
  · subst h
    rw [ndist_self]
    constructor
    · intro h
      exact absurd h hd.ne
    · omega
  · rw [ndist_comm, hn j i h]
    have := Fin.lt_def.1 h
    omega

theorem path_distribution {L : Lat n m m} {zoom : ℤ} {coordOf : ℝ → Coord}
    {run : ℝ → ℝ → ℕ → ℕ → Option (Py Setup)} (h : HubbardModel d L zoom coordOf run) (hd : 0 < d)
    (hn : ∀ i j : Fin n, i < j → (ndist (L.points i) (L.points j) = d ↔ (j : ℕ) = i + 1)) :
    GroundDistribution n run := by
  have hnb := path_neighbours hd hn
  intro t U a b ht ha hb
  obtain ⟨V, hV, E, hE, w, hw, hu, -, -⟩ := path_ground h hn t U a b ht ha hb
  refine ⟨V, hV, fun E' v hE' hv0 hv => ?_⟩
  obtain rfl := lowest_unique hE hE'
  have hsimple : SimpleState V.HM v := by
    refine ⟨hv0, E, hv, fun x hx => ?_⟩
    obtain ⟨z, rfl⟩ := hu x hx
    obtain ⟨y, hy⟩ := hu v hv
    have hy0 : y ≠ 0 := by
      rintro rfl
      exact hv0 (by rw [hy, zero_smul])
    exact ⟨z / y, by rw [hy, smul_smul, div_mul_cancel₀ _ hy0]⟩
  have eqV : ∀ {V' : Setup}, run t U a b = some (.ok V') → V' = V := fun h' => by
    have := h'.symm.trans hV
    simpa using this
  refine ⟨fun s hs s' hs' i hi => ?_, fun hab i hi => ?_, fun hab i hi => ?_⟩
  · obtain ⟨V', hV', hp⟩ := pointSymmetric h t U a b ha hb
    obtain rfl := eqV hV'
    have hrev : ∀ i : Fin n, ((Fin.revPerm i : Fin n) : ℕ) = n - 1 - i := fun i => by
      rw [Fin.revPerm_apply, Fin.val_rev]
      omega
    have := (hp Fin.revPerm (fun i j => by
      rw [hnb, hnb, hrev, hrev]
      have := i.2
      have := j.2
      omega) s hs s' hs' ⟨i, hi⟩ ⟨i, hi⟩).1 v hsimple
    rwa [hrev] at this
  · subst hab
    obtain ⟨V', hV', hp⟩ := spinBalanced h t U a ha
    obtain rfl := eqV hV'
    have := (hp 0 (by norm_num) 0 (by norm_num) ⟨i, hi⟩ ⟨i, hi⟩).1 v hsimple
    simpa using this
  · obtain ⟨V', hV', hp⟩ := uniformDensity h ⟨fun i => decide ((i : ℕ) % 2 = 0), fun i j hij => by
      have := (hnb i j).1 hij
      intro hc
      have hc' : ((i : ℕ) % 2 = 0) ↔ ((j : ℕ) % 2 = 0) := by simpa using hc
      omega⟩ t U a b hab
    obtain rfl := eqV hV'
    rw [(hp ⟨i, hi⟩).1 v hsimple]
    unfold expectation
    rw [Matrix.one_mulVec]
    exact div_self (by
      rw [star_dot]
      exact_mod_cast (norm2_pos hv0).ne')

end Verif.LDB
