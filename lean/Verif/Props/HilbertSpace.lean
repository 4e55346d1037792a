import Verif.Proofs.HilbertSpace
import Verif.Spec.FockSpace
/-!
# C14-C19: Hilbert spaces
-/

namespace Verif
open Spec

/-- **C14.** For subspaces without repeated states, `base_vectors(*specs)` contains exactly the kets
allowed by the specifiers. -/
theorem C14_base_vectors_exact (specs : List HVal) (container : Container) (sort : Bool)
    (kets : List ℕ) (h : baseVectors specs container sort = .ok kets)
    (subs : List (List ℕ × HNum)) (hsub : specs.mapM preprocess = .ok subs)
    (hrep : NoRepeats subs) (k : ℕ) : k ∈ kets ↔ AllowedKet subs k := by
  obtain ⟨subs', gens, hs, hd, hg, hf⟩ := baseVectors_ok h
  rw [hsub] at hs; cases hs
  rw [(finishKets_perm hf).mem_iff, mem_rawKets hg ((allStates_nodup_iff subs).mpr ⟨hrep, hd⟩)]
  rfl

/-- **C15.** For subspaces without repeated states the kets are pairwise different, in strictly
ascending order with `sort=True`, and `sort=False` returns the same kets in some order. -/
theorem C15_base_vectors_ascending (specs : List HVal) (container : Container) (kets : List ℕ)
    (h : baseVectors specs container true = .ok kets)
    (subs : List (List ℕ × HNum)) (hsub : specs.mapM preprocess = .ok subs)
    (hrep : NoRepeats subs) :
    kets.Pairwise (· < ·) ∧
    ∀ kets', baseVectors specs container false = .ok kets' → kets'.Perm kets ∧ kets'.Nodup := by
  obtain ⟨subs', gens, hs, hd, hg, hf⟩ := baseVectors_ok h
  rw [hsub] at hs; cases hs
  have hn := nodup_rawKets hg ((allStates_nodup_iff subs).mpr ⟨hrep, hd⟩)
  have hn' : kets.Nodup := (finishKets_perm hf).nodup_iff.mpr hn
  refine ⟨((finishKets_sorted hf).and hn').imp (fun h => lt_of_le_of_ne h.1 h.2), ?_⟩
  intro kets' h'
  obtain ⟨subs', gens', hs', -, hg', hf'⟩ := baseVectors_ok h'
  rw [hsub] at hs'; cases hs'
  rw [hg] at hg'; cases hg'
  exact ⟨(finishKets_perm hf').trans (finishKets_perm hf).symm,
    (finishKets_perm hf').nodup_iff.mpr hn⟩

/-- **C16.** The dimension is the product over the subspaces of `binomial(n, M)` (particle number `M`
fixed) or `2^n` (not conserved). -/
theorem C16_dimension (specs : List HVal) (container : Container) (sort : Bool) (kets : List ℕ)
    (h : baseVectors specs container sort = .ok kets)
    (subs : List (List ℕ × HNum)) (hsub : specs.mapM preprocess = .ok subs) :
    ∃ dims : List ℕ, kets.length = dims.prod ∧
      List.Forall₂ (fun s d => (∀ M : ℕ, Fixed s M → d = s.1.length.choose M) ∧
        (Free s → d = 2 ^ s.1.length)) subs dims := by
  obtain ⟨subs', gens, hs, hd, hg, hf⟩ := baseVectors_ok h
  rw [hsub] at hs; cases hs
  refine ⟨gens.map List.length, ?_, ?_⟩
  · rw [(finishKets_perm hf).length_eq, rawKets, List.length_map, length_cartProduct]
  · rw [mapM_ok_iff] at hg
    apply forall₂_of_getElem (by simp [forall₂_length hg])
    intro i hi
    have := length_subspaceBases (forall₂_getElem hg i hi)
    simp only [List.getElem_map]
    refine ⟨?_, this.2⟩
    intro M hM
    have := this.1 M hM (by omega)
    simpa using this

/-- **C16**: no specifier at all gives the one-dimensional space of the vacuum. -/
theorem C16_no_specifier (sort : Bool) :
    baseVectors [] .array sort = .ok [0] := by
  cases sort <;> rfl

/-- Non-vacuity: one spin-up and one spin-down particle on two sites. -/
example :
    baseVectors [.tuple [.tuple [.int 0, .int 2], .int 1], .tuple [.tuple [.int 1, .int 3], .int 1]] =
      .ok [3, 6, 9, 12] ∧
    [HVal.tuple [.tuple [.int 0, .int 2], .int 1], .tuple [.tuple [.int 1, .int 3], .int 1]].mapM
      preprocess = .ok [([0, 2], .int 1), ([1, 3], .int 1)] := by
  constructor <;> rfl

/-- The hypothesis `NoRepeats` is needed: the constructor does not reject a repeated state, and
`base_vectors(([0, 0], 1))` lists the ket `1` twice; with two particles it is the ket `2`, which
occupies a state that is not listed. -/
theorem C14_repeated_states_break_it :
    baseVectors [.tuple [.list [.int 0, .int 0], .int 1]] = .ok [1, 1] ∧
    baseVectors [.tuple [.list [.int 0, .int 0], .int 2]] = .ok [2] := by
  constructor <;> rfl

end Verif
