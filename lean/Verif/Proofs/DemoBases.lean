import Verif.Proofs.DemoSectors
import Verif.Spec.Band
/-!
# Lemmas for C87: the Hilbert spaces of the scripts
-/

namespace Verif.Demo

open Latt LDB Spec Matrix Lanczos GF

/-- Adding or removing a particle, between two sets of subspaces. -/
theorem mapsTo_single {specs specs' : List HVal} {kets kets' : List ℕ} {subs subs' : List (List ℕ × HNum)}
    (hk : baseVectors specs = .ok kets) (hsub : specs.mapM preprocess = .ok subs) (hrep : NoRepeats subs)
    (hk' : baseVectors specs' = .ok kets') (hsub' : specs'.mapM preprocess = .ok subs') (hrep' : NoRepeats subs')
    (o : Otype) {q : ℕ} (hq : ∃ s ∈ subs', q ∈ s.1) (hst : ∀ s ∈ subs, ∃ s' ∈ subs', s'.1 = s.1)
    (hnum : ∀ s' ∈ subs', ∀ M : ℤ, s'.2 = .int M → 0 ≤ M → ∃ M0 : ℤ, 0 ≤ M0 ∧ (s'.1, HNum.int M0) ∈ subs ∧
      (M + if o = .annihilation ∧ q ∈ s'.1 then 1 else 0) = M0 + if o = .creation ∧ q ∈ s'.1 then 1 else 0) :
    MapsTo (fockOf o q) kets kets' := by
  rw [← termOperator_single, mapsTo_iff_image]
  intro k hk0 k' s himg
  rw [C14_base_vectors_exact specs .array true kets hk subs hsub hrep] at hk0
  rw [C14_base_vectors_exact specs' .array true kets' hk' subs' hsub' hrep']
  have himg' : applyRows ([(q, o)].map mkRow) k false = some (k', s) := by
    simpa [image, natTerm] using himg
  refine ⟨?_, ?_⟩
  · intro i hi
    by_cases hiq : i = q
    · subst hiq; exact hq
    · have := applyRows_support _ _ _ _ _ himg' i (fun p hp => by
        rw [List.mem_singleton] at hp
        subst hp
        exact fun h => hiq h.symm)
      obtain ⟨s, hs, hm⟩ := hk0.1 i (this ▸ hi)
      obtain ⟨s', hs', he⟩ := hst s hs
      exact ⟨s', hs', he ▸ hm⟩
  · intro s' hs' M hM hM0
    obtain ⟨M0, h0, hm, he⟩ := hnum s' hs' M hM hM0
    have h1 := hk0.2 _ hm M0 rfl h0
    have h2 := applyRows_conserve _ s'.1 (hrep' s' hs') _ _ _ _ himg'
    rw [opCount_cons, opCount_cons] at h2
    simp only [opCount, List.filter_nil, List.length_nil, Nat.zero_add] at h2
    dsimp only at h1
    by_cases c1 : o = .annihilation ∧ q ∈ s'.1 <;> by_cases c2 : o = .creation ∧ q ∈ s'.1 <;>
      first
        | rw [if_pos c1, if_pos c2] at h2 he
        | rw [if_pos c1, if_neg c2] at h2 he
        | rw [if_neg c1, if_pos c2] at h2 he
        | rw [if_neg c1, if_neg c2] at h2 he
    all_goals omega

/-- A fixed total number of particles. -/
theorem total_base {N n : ℕ} (hn : 1 ≤ n) (hN : N ≤ n) (h64 : n ≤ 64) :
    [HVal.list [.int (n : ℕ), .int (N : ℕ)]].mapM preprocess = .ok [(List.range n, HNum.int N)] ∧
    NoRepeats [(List.range n, HNum.int N)] ∧
    ∃ kets, baseVectors [.list [.int (n : ℕ), .int (N : ℕ)]] = .ok kets ∧ kets ≠ [] := by
  have hpre : [HVal.list [.int (n : ℕ), .int (N : ℕ)]].mapM preprocess = .ok [(List.range n, HNum.int N)] := by
    rw [mapM_ok_iff]
    exact .cons ((C17_standard_form _ _).2 (.pairCount _ _ (.int N) hn (by simpa [NumLe] using hN) (.inr rfl))) .nil
  have hrep : NoRepeats [(List.range n, HNum.int N)] := by
    intro s hs; rw [List.mem_singleton] at hs; subst hs; exact List.nodup_range
  obtain ⟨kets, hk⟩ := C19_below_64_succeeds _ _ hpre hrep (by simp) (by simp) (by simp; omega) true
  refine ⟨hpre, hrep, kets, hk, ?_⟩
  obtain ⟨dims, h1, h2⟩ := C16_dimension _ _ _ kets hk _ hpre
  obtain ⟨d, rfl⟩ : ∃ d, dims = [d] := by
    cases h2 with
    | cons _ h => cases h; exact ⟨_, rfl⟩
  have hd : d = n.choose N := by
    cases h2 with
    | cons h _ => simpa using h.1 N rfl
  intro h0
  rw [h0] at h1
  simp only [List.length_nil, List.prod_cons, List.prod_nil, mul_one] at h1
  have := Nat.choose_pos hN
  omega

/-- Fixed numbers of particles for both spins. -/
theorem spin_base {n Nup Ndown : ℕ} (hn : 1 ≤ n) (h64 : 2 * n ≤ 64) (hup : Nup ≤ n) (hdown : Ndown ≤ n) :
    let subs := [((List.range n).map fun i : ℕ => n + i, HNum.int Nup), (List.range n, HNum.int Ndown)]
    (spinSpecs n Nup Ndown).mapM preprocess = .ok subs ∧ NoRepeats subs ∧ SpeciesWise n 2 subs ∧
    ∃ kets, baseVectors (spinSpecs n Nup Ndown) = .ok kets ∧ kets ≠ [] := by
  intro subs
  have e1 : ((List.range n).map fun i : ℕ => n + i).map (fun i : ℕ => HVal.int i) =
      (List.range n).map fun i : ℕ => HVal.int (n + i : ℕ) := by
    rw [List.map_map]; rfl
  have hpre : (spinSpecs n Nup Ndown).mapM preprocess = .ok subs := by
    rw [mapM_ok_iff]
    refine .cons ((C17_standard_form _ _).2 (.pairStates _ _ _ (.int Nup) ?_ (.inr (.inl rfl)) ?_ (.inr ?_)))
      (.cons ((C17_standard_form _ _).2 (.pairStates _ _ _ (.int Ndown) ?_ (.inr (.inl rfl)) ?_ (.inr rfl))) .nil)
    · simp; omega
    · simpa [NumLe] using hup
    · rw [e1]; rfl
    · simp; omega
    · simpa [NumLe] using hdown
  have hrep : NoRepeats subs := by
    intro s hs
    simp only [subs, List.mem_cons, List.not_mem_nil, or_false] at hs
    rcases hs with rfl | rfl
    · exact List.nodup_range.map fun a b h => Nat.add_left_cancel h
    · exact List.nodup_range
  obtain ⟨kets, hk⟩ := C19_below_64_succeeds _ _ hpre hrep
    (by simp [subs]) (by simp [subs]) (by simp [subs]; constructor <;> intros <;> omega) true
  refine ⟨hpre, hrep, ⟨?_, ?_⟩, kets, hk, ?_⟩
  · intro q hq
    by_cases hqn : q < n
    · exact ⟨(List.range n, HNum.int Ndown), by simp [subs], List.mem_range.2 hqn⟩
    · refine ⟨((List.range n).map fun i : ℕ => n + i, HNum.int Nup), by simp [subs], List.mem_map.2 ?_⟩
      exact ⟨q - n, List.mem_range.2 (by omega), by omega⟩
  · intro p hp _ s hs
    simp only [subs, List.mem_cons, List.not_mem_nil, or_false] at hp
    obtain rfl | rfl : s = 0 ∨ s = 1 := by omega
    · rcases hp with rfl | rfl
      · exact .inr fun i hi h => by
          obtain ⟨a, ha, he⟩ := List.mem_map.1 h
          omega
      · exact .inl fun i hi => List.mem_range.2 (by omega)
    · rcases hp with rfl | rfl
      · exact .inl fun i hi => List.mem_map.2 ⟨i, List.mem_range.2 hi, by omega⟩
      · exact .inr fun i hi h => by
          have := List.mem_range.1 h
          omega
  · obtain ⟨dims, h1, h2⟩ := C16_dimension _ _ _ kets hk _ hpre
    dsimp only [subs] at h2
    obtain ⟨d, e, rfl⟩ : ∃ d e, dims = [d, e] := by
      cases h2 with
      | cons _ h => cases h with | cons _ h => cases h; exact ⟨_, _, rfl⟩
    have hd : d = n.choose Nup ∧ e = n.choose Ndown := by
      cases h2 with
      | cons h h' => cases h' with
        | cons h' _ => exact ⟨by simpa using h.1 Nup rfl, by simpa using h'.1 Ndown rfl⟩
    intro h0
    rw [h0] at h1
    simp only [List.length_nil, List.prod_cons, List.prod_nil, mul_one] at h1
    have a1 := Nat.choose_pos hup
    have a2 := Nat.choose_pos hdown
    rw [hd.1, hd.2] at h1
    have := Nat.mul_pos a1 a2
    omega

end Verif.Demo
