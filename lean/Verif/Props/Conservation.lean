import Verif.Proofs.Conserve
import Verif.Props.HilbertSpace
import Verif.Props.Matrix
/-!
# C25: number-conserving terms stay inside `base_vectors(...)`
-/

namespace Verif
open Spec

/-- The operators of the term only act on listed states, and in every subspace whose particle number
is fixed there are as many creation as annihilation operators. -/
def Conserves (term : List (ℤ × Otype)) (subs : List (List ℕ × HNum)) : Prop :=
  (∀ p ∈ term, ∃ s ∈ subs, ∃ i ∈ s.1, p.1 = (i : ℤ)) ∧
  ∀ s ∈ subs, (∃ M, Fixed s M) →
    (term.filter (fun p => decide (p.2 = .creation ∧ p.1 ∈ s.1.map (fun i : ℕ => (i : ℤ))))).length =
    (term.filter (fun p => decide (p.2 = .annihilation ∧ p.1 ∈ s.1.map (fun i : ℕ => (i : ℤ))))).length

theorem opCount_natTerm (term : List (ℤ × Otype)) (o : Otype) (s : List ℕ)
    (h0 : ∀ p ∈ term, 0 ≤ p.1) :
    opCount (natTerm term) o s =
      (term.filter (fun p => decide (p.2 = o ∧ p.1 ∈ s.map (fun i : ℕ => (i : ℤ))))).length := by
  unfold opCount natTerm
  rw [List.filter_map, List.length_map]
  congr 1
  apply List.filter_congr
  intro p hp
  simp only [Function.comp_apply, List.mem_map]
  congr 1
  have := h0 p hp
  apply propext
  apply and_congr Iff.rfl
  constructor
  · intro h; exact ⟨_, h, by omega⟩
  · rintro ⟨i, hi, he⟩
    rw [← he]; simpa using hi

/-- **C25**, second part.  A term that conserves the particle number of every constrained subspace
never raises KeyError on `base_vectors(*specs)`: `matrix_function` returns a matrix. -/
theorem C25_conserving_terms_never_raise (specs : List HVal) (kets : List ℕ)
    (hk : baseVectors specs .array true = .ok kets) (subs : List (List ℕ × HNum))
    (hsub : specs.mapM preprocess = .ok subs) (hrep : NoRepeats subs)
    (term : List (ℤ × Otype)) (c : ℂ) (hne : term ≠ []) (h64 : ∀ p ∈ term, p.1 < 64)
    (hcons : Conserves term subs) :
    ∃ M, matrixFunctionCsr term kets none c .general = .ok M := by
  have h0 : ∀ p ∈ term, 0 ≤ p.1 := by
    intro p hp
    obtain ⟨_, _, i, _, h⟩ := hcons.1 p hp
    omega
  apply general_csr_of c ⟨hne, fun p hp => ⟨h0 p hp, h64 p hp⟩⟩
  · exact (C15_base_vectors_ascending specs .array kets hk subs hsub hrep).1
  · exact fun h => h
  · intro k hk0 k' s himg
    have hmem := C14_base_vectors_exact specs .array true kets hk subs hsub hrep
    change k' ∈ kets
    rw [hmem] at hk0 ⊢
    unfold image at himg
    rw [← List.map_reverse] at himg
    refine ⟨?_, ?_⟩
    · intro i hi
      by_cases hin : ∃ p ∈ natTerm term, p.1 = i
      · obtain ⟨p, hp, rfl⟩ := hin
        unfold natTerm at hp
        obtain ⟨q, hq, rfl⟩ := List.mem_map.mp hp
        obtain ⟨s, hs, j, hj, he⟩ := hcons.1 q hq
        refine ⟨s, hs, ?_⟩
        simp only [he, Int.toNat_natCast]
        exact hj
      · push Not at hin
        have := applyRows_support _ _ _ _ _ himg i (fun p hp => hin p (List.mem_reverse.mp hp))
        exact hk0.1 i (this ▸ hi)
    · intro t ht M hM hM0
      have h1 := hk0.2 t ht M hM hM0
      have h2 := applyRows_conserve _ t.1 (hrep t ht) _ _ _ _ himg
      have h3 := hcons.2 t ht ⟨M.toNat, by rw [Fixed, hM, Int.toNat_of_nonneg hM0]⟩
      have hrev : ∀ o, opCount (natTerm term).reverse o t.1 = opCount (natTerm term) o t.1 := by
        intro o
        unfold opCount
        rw [List.filter_reverse, List.length_reverse]
      rw [hrev, hrev, opCount_natTerm _ _ _ h0, opCount_natTerm _ _ _ h0, h3] at h2
      omega

/-- Non-vacuity: the hopping `c_0^dagger c_2` in a spin sector with one particle on the states 0, 2
and one on the states 1, 3. -/
example : ∃ M, matrixFunctionCsr [(0, .creation), (2, .annihilation)] [3, 6, 9, 12] none 1 .general =
    .ok M := by
  refine C25_conserving_terms_never_raise
    [.tuple [.tuple [.int 0, .int 2], .int 1], .tuple [.tuple [.int 1, .int 3], .int 1]] _ rfl
    [([0, 2], .int 1), ([1, 3], .int 1)] rfl ?_ _ _ (by simp) (by simp) ?_
  · intro s hs
    simp only [List.mem_cons, List.not_mem_nil, or_false] at hs
    rcases hs with rfl | rfl <;> decide
  · constructor
    · intro p hp
      simp only [List.mem_cons, List.not_mem_nil, or_false] at hp
      rcases hp with rfl | rfl
      · exact ⟨([0, 2], .int 1), by simp, 0, by simp, rfl⟩
      · exact ⟨([0, 2], .int 1), by simp, 2, by simp, rfl⟩
    · intro s hs _
      simp only [List.mem_cons, List.not_mem_nil, or_false] at hs
      rcases hs with rfl | rfl <;> decide

end Verif
