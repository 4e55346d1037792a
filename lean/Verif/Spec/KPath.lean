import Verif.Model.KPath
/-!
# What a sampled path through anchor points is
-/

namespace Verif.KP

/-- `ks` runs through `anchor 0, anchor 1, …, anchor N` along straight lines, the i-th line being
divided into `nums i` equal steps, and `idx` lists the positions of the anchors. -/
structure IsSampledPath {m : ℕ} (anchor : ℕ → Fin m → ℝ) (N : ℕ) (nums : ℕ → ℕ)
    (ks : List (Fin m → ℝ)) (idx : List ℕ) : Prop where
  idx_length : idx.length = N + 1
  idx_zero : idx[0]? = some 0
  idx_succ : ∀ i < N, ∃ a, idx[i]? = some a ∧ idx[i + 1]? = some (a + nums i)
  ks_length : ∀ a, idx[N]? = some a → ks.length = a + 1
  ks_point : ∀ i < N, ∀ a, idx[i]? = some a → ∀ q ≤ nums i,
    ks[a + q]? = some (fun c => anchor i c + (q : ℝ) / nums i * (anchor (i + 1) c - anchor i c))

variable {m : ℕ}

/-- The i-th anchor, cyclically (`points[0]` again after the last one). -/
noncomputable def anchor (points : List (KPoint m)) (i : ℕ) : KPoint m :=
  (points[i % points.length]?).getD 0

/-- The number of segments: one per point for a loop, one less otherwise. -/
def segments (points : List (KPoint m)) (loop : Bool) : ℕ :=
  if loop then points.length else points.length - 1

/-- The Euclidean length of the i-th segment. -/
noncomputable def segLen (points : List (KPoint m)) (i : ℕ) : ℝ :=
  Real.sqrt (∑ c, (anchor points (i + 1) c - anchor points i c) ^ 2)

end Verif.KP
