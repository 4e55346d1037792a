import Verif.Model.Particle
/-!
# Specification: inversions and the forbidden pattern of normal ordering
-/

namespace Verif.Spec

/-- The number of pairs of positions `i < j` with `l[i] > l[j]` (AoC order). -/
def inversions : List AoC → ℕ
  | [] => 0
  | x :: xs => (xs.filter (fun y => x.gt y)).length + inversions xs

/-- An annihilation operator stands somewhere to the left of a creation operator of the same
single-particle state. -/
def AnnihilatorBeforeCreator (l : List AoC) : Prop :=
  ∃ pre s mid t post, l = pre ++ ⟨.annihilation, s⟩ :: mid ++ ⟨.creation, t⟩ :: post ∧
    s.hashKey = t.hashKey

end Verif.Spec
