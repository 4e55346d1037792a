import Verif.Spec.Spin
import Verif.Spec.Fock
/-!
# Specification: spins written with one fermion per site

Site `i` of `n` sites owns two single-particle states, `pos i 0` (spin up) and `pos i 1` (spin down).
-/

namespace Verif.Spec

/-- The bit pattern `k` holds exactly one fermion on every one of the `n` sites and nothing else. -/
def OnePerSite (n : ℕ) (pos : ℕ → Fin 2 → ℕ) (k : ℕ) : Prop :=
  (∀ x, k.testBit x = true → ∃ i < n, x = pos i 0 ∨ x = pos i 1) ∧
  ∀ i < n, k.testBit (pos i 0) ≠ k.testBit (pos i 1)

/-- The fermion on site `i` has the spin given by binary digit `i` of `a`, for every site. -/
def SpinsOf (n : ℕ) (pos : ℕ → Fin 2 → ℕ) (k a : ℕ) : Prop :=
  ∀ i < n, k.testBit (pos i (digit a i)) = true

/-- The spin index of a fermion state: SPIN_UP is 1 and SPIN_DOWN is 0. -/
def spinIndex (s : Fin 2) : ℤ := if s = 0 then 1 else 0

/-- The site objects `objs` were built under the current precision, the spin-up and spin-down states
of site number `i` are in the table `ft` with the indices `pos i 0` and `pos i 1`, below 64, and these
two indices are neighbours (as in every table built from sorted states of single-orbit sites). -/
def FermionSites (zoom : ℤ) (objs : List SiteID) (ft : IndexTable StateID)
    (pos : ℕ → Fin 2 → ℕ) : Prop :=
  ∀ i o, objs[i]? = some o → SiteID.init zoom o.site = .ok o ∧
    (∀ s : Fin 2, pos i s < 64 ∧ ∃ id, StateID.init zoom o.site (spinIndex s) = .ok id ∧
      ft.queryIndex id = .ok (pos i s)) ∧
    (pos i 0 = pos i 1 + 1 ∨ pos i 1 = pos i 0 + 1)

end Verif.Spec
