import Verif.Model.HilbertSpace
/-!
# Specification: the kets of a Fock space with particle-number constraints
-/

namespace Verif.Spec

/-- `k` only occupies states of the listed subspaces, and a subspace whose particle number is the
integer `M >= 0` holds exactly `M` particles.  (`subs` are the subspaces in standard form.) -/
def AllowedKet (subs : List (List ℕ × HNum)) (k : ℕ) : Prop :=
  (∀ i, k.testBit i = true → ∃ s ∈ subs, i ∈ s.1) ∧
  ∀ s ∈ subs, ∀ M : ℤ, s.2 = .int M → 0 ≤ M →
    ((s.1.filter (fun i => k.testBit i)).length : ℤ) = M

/-- No subspace lists a state twice. -/
def NoRepeats (subs : List (List ℕ × HNum)) : Prop := ∀ s ∈ subs, s.1.Nodup

/-- The number of particles is fixed in this subspace, to `M`. -/
def Fixed (s : List ℕ × HNum) (M : ℕ) : Prop := s.2 = .int (M : ℤ)

/-- The number of particles is not conserved in this subspace. -/
def Free (s : List ℕ × HNum) : Prop := ∀ M : ℤ, s.2 = .int M → M < 0

/-- The particle number `p` is at most `n`. -/
def NumLe (p : HNum) (n : ℕ) : Prop :=
  match p with
  | .int m => m ≤ (n : ℤ)
  | .float q => q ≤ (n : ℚ)

/-- a particle number as a Python value -/
def numVal : HNum → HVal
  | .int m => .int m
  | .float q => .float q

/-- The documented meaning of a subspace specifier (module docstring of hilbertspace.py): `spec`
denotes the states `states` holding `number` particles (negative: not conserved) when it is

* a positive integer `N`: the states `0 .. N-1`, not conserved;
* `(N, M)` with `N` a positive integer, `M <= N`: the states `0 .. N-1` with `M` particles;
* `(c, M)` with `c` a non-empty tuple, list or set of non-negative integers and `M <= len(c)`. -/
inductive Denotes : HVal → List ℕ × HNum → Prop
  | count (n : ℕ) (hn : 0 < n) : Denotes (.int n) (List.range n, .int (-1))
  | pairCount (spec : HVal) (n : ℕ) (p : HNum) (hn : 0 < n) (hp : NumLe p n)
      (hspec : spec = .tuple [.int n, numVal p] ∨ spec = .list [.int n, numVal p]) :
      Denotes spec (List.range n, p)
  | pairStates (spec c : HVal) (states : List ℕ) (p : HNum) (hne : states ≠ [])
      (hc : c = .tuple (states.map (fun n : ℕ => .int n)) ∨ c = .list (states.map (fun n : ℕ => .int n)) ∨
        c = .set (states.map (fun n : ℕ => .int n)))
      (hp : NumLe p states.length)
      (hspec : spec = .tuple [c, numVal p] ∨ spec = .list [c, numVal p]) :
      Denotes spec (states, p)

end Verif.Spec
