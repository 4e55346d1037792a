import Verif.Model.Show
import Verif.Spec.Show
import Verif.Proofs.Lattice
import Verif.Proofs.Polygon
import Verif.Props.Line2D
/-!
# C104: what the `show` methods draw
-/

namespace Verif.Show

open Verif.Latt Verif.Geo

theorem nodup_pyRange (a b : ℤ) : (pyRange a b).Nodup := by
  unfold pyRange
  exact List.nodup_range.map fun x y h => by simpa using h

theorem nodup_mesh {rng : List ℤ} (h : rng.Nodup) (k : ℕ) : (mesh rng k).Nodup := by
  induction k with
  | zero => simp [mesh]
  | succ k ih =>
    rw [mesh, List.nodup_flatMap]
    refine ⟨fun a _ => ih.map fun c d e => (Fin.cons_inj.mp e).2, ?_⟩
    refine h.imp fun {a b} hab => ?_
    intro x hx hy
    obtain ⟨c, -, rfl⟩ := List.mem_map.mp hx
    obtain ⟨d, -, e⟩ := List.mem_map.mp hy
    exact hab (Fin.cons_inj.mp e).1.symm

theorem length_mesh (rng : List ℤ) (k : ℕ) : (mesh rng k).length = rng.length ^ k := by
  induction k with
  | zero => simp [mesh]
  | succ k ih => simp [mesh, ih, pow_succ']

theorem mapM_plot {n m : ℕ} (hm : m = 1 ∨ m = 2) (ls : List (Fin n → Latt.Pt m)) :
    ls.mapM plotCluster =
      .ok (ls.map fun ps => (List.finRange n).map fun i => onPaper (ps i)) := by
  have : (plotCluster : (Fin n → Latt.Pt m) → Py (List (ℝ × ℝ))) =
      fun ps => .ok ((List.finRange n).map fun i => onPaper (ps i)) := by
    funext ps
    rcases hm with rfl | rfl
    · simp [plotCluster, onPaper]
    · simp [plotCluster, onPaper]
  rw [this]
  induction ls with
  | nil => rfl
  | cons a ls ih => rw [List.mapM_cons, ih]; rfl

theorem latticeShow_ok {n m k : ℕ} (lims : List (List (ℝ × ℝ)) → (ℝ × ℝ) × (ℝ × ℝ)) (L : Lat n m k)
    (name : String) {scope : ℤ} (h0 : 0 ≤ scope) (hm : m = 1 ∨ m = 2) (savefig : Bool) :
    ∃ marks, marks = ((mesh (pyRange (-scope) (scope + 1)) k).map fun c =>
        (List.finRange n).map fun i => onPaper (translated (L.points i) L.vectors c)) ∧
      latticeShow lims L name scope savefig =
        (some ⟨marks, (squareLimits (lims marks).1 (lims marks).2).1,
          (squareLimits (lims marks).1 (lims marks).2).2, latTitle name scope⟩,
          if savefig then raise .nameError else .ok ()) := by
  refine ⟨_, rfl, ?_⟩
  have h3 : ¬ 3 ≤ m := by omega
  rw [latticeShow, if_neg (by omega), if_neg h3, mapM_plot hm]
  have e : ((clusters L scope).map fun ps => (List.finRange n).map fun i => onPaper (ps i)) =
      (mesh (pyRange (-scope) (scope + 1)) k).map fun c =>
        (List.finRange n).map fun i => onPaper (translated (L.points i) L.vectors c) := by
    rw [clusters, List.map_map]; rfl
  rw [e]
  cases savefig <;> rfl

/-- **C104 (Lattice.show draws the lattice).** For a one- or two-dimensional lattice and `scope >= 0` the
call succeeds.  It plots one group of markers for each combination of translation vectors with
coefficients between `-scope` and `scope`, no combination twice, `(2 scope + 1)^k` in all; the group
marks the cluster's points in order, moved by that combination.  Hence a place of the paper is marked iff
some point of the cluster is carried there.  The axes are set to a square window with the centre of the
window chosen by matplotlib, and containing it. -/
theorem C104_lattice_show {n m k : ℕ} (lims : List (List (ℝ × ℝ)) → (ℝ × ℝ) × (ℝ × ℝ))
    (L : Lat n m k) (name : String) (scope : ℤ) (h0 : 0 ≤ scope) (hm : m = 1 ∨ m = 2) :
    ∃ (fig : LatFigure) (cs : List (Fin k → ℤ)), latticeShow lims L name scope false = (some fig, .ok ()) ∧
      (cs.Nodup ∧ (∀ c : Fin k → ℤ, c ∈ cs ↔ ∀ j, |c j| ≤ scope) ∧
        (cs.length : ℤ) = (2 * scope + 1) ^ k) ∧
      fig.clusters = cs.map (fun c => (List.finRange n).map fun i =>
        onPaper (translated (L.points i) L.vectors c)) ∧
      (∀ q, (∃ cl ∈ fig.clusters, q ∈ cl) ↔
        ∃ i, ∃ c : Fin k → ℤ, (∀ j, |c j| ≤ scope) ∧ q = onPaper (translated (L.points i) L.vectors c)) ∧
      fig.title = name ++ ",scope=" ++ toString scope ∧
      IsSquare fig.xlim fig.ylim ∧
      ∀ w, w = lims fig.clusters →
        fig.xlim.1 + fig.xlim.2 = w.1.1 + w.1.2 ∧ fig.ylim.1 + fig.ylim.2 = w.2.1 + w.2.2 ∧
        fig.xlim.1 ≤ w.1.1 ∧ w.1.2 ≤ fig.xlim.2 ∧ fig.ylim.1 ≤ w.2.1 ∧ w.2.2 ≤ fig.ylim.2 := by
  obtain ⟨marks, hmarks, e⟩ := latticeShow_ok lims L name h0 hm false
  have hmem : ∀ c : Fin k → ℤ, c ∈ mesh (pyRange (-scope) (scope + 1)) k ↔ ∀ j, |c j| ≤ scope := by
    intro c
    rw [mem_mesh]
    exact forall_congr' fun j => by rw [mem_pyRange, abs_le]; omega
  refine ⟨_, mesh (pyRange (-scope) (scope + 1)) k, e,
    ⟨nodup_mesh (nodup_pyRange _ _) k, hmem, ?_⟩, hmarks, ?_, rfl, ?_, ?_⟩
  · rw [length_mesh]
    have : (pyRange (-scope) (scope + 1)).length = (2 * scope + 1).toNat := by
      simp only [pyRange, List.length_map, List.length_range]
      congr 1; omega
    rw [this]
    push_cast
    rw [Int.toNat_of_nonneg (by omega)]
  · intro q
    simp only [hmarks, List.mem_map]
    constructor
    · rintro ⟨cl, ⟨c, hc, rfl⟩, hq⟩
      obtain ⟨i, -, rfl⟩ := List.mem_map.mp hq
      exact ⟨i, c, (hmem c).mp hc, rfl⟩
    · rintro ⟨i, c, hc, rfl⟩
      exact ⟨_, ⟨c, (hmem c).mpr hc, rfl⟩, List.mem_map.mpr ⟨i, List.mem_finRange i, rfl⟩⟩
  · simp only [IsSquare, squareLimits]; ring
  · rintro w rfl
    simp only [squareLimits]
    have h1 := le_max_left ((lims marks).1.2 - (lims marks).1.1) ((lims marks).2.2 - (lims marks).2.1)
    have h2 := le_max_right ((lims marks).1.2 - (lims marks).1.1) ((lims marks).2.2 - (lims marks).2.1)
    refine ⟨by ring, by ring, ?_, ?_, ?_, ?_⟩ <;> linarith

/-- **C104 (Lattice.show cannot save).** `Lattice.show(savefig=True)` never returns: whatever the lattice,
the scope and the name, it raises (for a valid call NameError, after drawing and before saving). -/
theorem C104_lattice_savefig {n m k : ℕ} (lims : List (List (ℝ × ℝ)) → (ℝ × ℝ) × (ℝ × ℝ))
    (L : Lat n m k) (name : String) (scope : ℤ) :
    (∃ e, (latticeShow lims L name scope true).2 = .error e) ∧
    (0 ≤ scope → (m = 1 ∨ m = 2) → (latticeShow lims L name scope true).2 = .error .nameError) := by
  constructor
  · unfold latticeShow
    split_ifs
    · exact ⟨_, rfl⟩
    · exact ⟨_, rfl⟩
    · cases (clusters L scope).mapM plotCluster with
      | error e => exact ⟨e, rfl⟩
      | ok marks => exact ⟨.nameError, rfl⟩
    · exact absurd rfl ‹¬ true = true›
  · intro h0 hm
    obtain ⟨marks, -, e⟩ := latticeShow_ok lims L name h0 hm true
    rw [e]; rfl

/-- **C104 (Lattice.show, refusals).** A negative scope is refused with AssertionError, a
three-dimensional lattice with RuntimeError; in both cases nothing is drawn. -/
theorem C104_lattice_refused {n m k : ℕ} (lims : List (List (ℝ × ℝ)) → (ℝ × ℝ) × (ℝ × ℝ))
    (L : Lat n m k) (name : String) (scope : ℤ) (savefig : Bool) :
    (scope < 0 → latticeShow lims L name scope savefig = (none, .error .assertionError)) ∧
    (0 ≤ scope → 3 ≤ m → latticeShow lims L name scope savefig = (none, .error .runtimeError)) := by
  refine ⟨fun h => if_pos h, fun h h3 => ?_⟩
  rw [latticeShow, if_neg (by omega), if_pos h3]

/-- A non-trivial case: two points in the plane, two vectors, scope 1. -/
example : ∃ (fig : LatFigure) (cs : List (Fin 2 → ℤ)), latticeShow (fun _ => ((0, 1), (0, 2)))
    (⟨![![0, 0], ![1, 1]], ![![2, 0], ![0, 2]], 0, []⟩ : Lat 2 2 2) "demo" 1 false = (some fig, .ok ()) ∧
    (cs.length : ℤ) = 9 ∧ fig.clusters.length = cs.length := by
  obtain ⟨fig, cs : List (Fin 2 → ℤ), h, ⟨-, -, h1⟩, h2, -⟩ :=
    C104_lattice_show (fun _ => ((0, 1), (0, 2)))
      (⟨![![0, 0], ![1, 1]], ![![2, 0], ![0, 2]], 0, []⟩ : Lat 2 2 2) "demo" 1 (by norm_num) (.inr rfl)
  exact ⟨fig, cs, h, by rw [h1]; norm_num, by rw [h2, List.length_map]⟩

/-- **C104 (lines).** For an accepted line `ShowLine` and `ShowLocationRelation` draw 301 points
`p0 + t (p1 - p0)` with `-1 <= t <= 2`, among them `p0` and `p1`; they mark `p0` and `p1`, respectively the
given point; and the equation in the title holds at every drawn point: exactly when the line is neither
horizontal nor vertical, within twice the tolerance otherwise. -/
theorem C104_line (fmt : ℝ → String) (p0 p1 : Verif.Pt) (tol : ℝ) (l : Line2D)
    (hl : Line2D.init p0 p1 tol = .ok l) (p : Verif.Pt) :
    ((showLine fmt l).marks = [("$p_0$", p0), ("$p_1$", p1)] ∧
      (showLineLocation fmt l p).marks = [("p", p)]) ∧
    ∀ fig, (fig = showLine fmt l ∨ fig = showLineLocation fmt l p) →
      fig.curve.length = 301 ∧ p0 ∈ fig.curve ∧ p1 ∈ fig.curve ∧
      (∀ q ∈ fig.curve, ∃ t : ℝ, -1 ≤ t ∧ t ≤ 2 ∧ q = p0 + t • (p1 - p0)) ∧
      ((|p1.2 - p0.2| ≤ tol ∧ fig.title = "y = " ++ fmt p0.2 ∧ ∀ q ∈ fig.curve, |q.2 - p0.2| ≤ 2 * tol) ∨
       (|p1.1 - p0.1| ≤ tol ∧ fig.title = "x = " ++ fmt p0.1 ∧ ∀ q ∈ fig.curve, |q.1 - p0.1| ≤ 2 * tol) ∨
       (tol < |p1.1 - p0.1| ∧ tol < |p1.2 - p0.2| ∧ ∃ slope intercept,
          fig.title = "y = " ++ fmt slope ++ "x + " ++ fmt intercept ∧
          (0 ≤ tol → ∀ q ∈ fig.curve, q.2 = slope * q.1 + intercept))) := by
  obtain ⟨hne, rfl⟩ := (line_init_ok_iff _ _ _ _).mp hl
  refine ⟨⟨rfl, rfl⟩, ?_⟩
  intro fig hfig
  set l : Line2D := ⟨p0, p1, (p1.1 - p0.1, p1.2 - p0.2), decide (|p1.2 - p0.2| ≤ tol),
        decide (|p1.1 - p0.1| ≤ tol)⟩ with hldef
  have hc : fig.curve = l.pointsFactory (some showRatios) := by rcases hfig with rfl | rfl <;> rfl
  have ht : fig.title = lineTitle fmt l := by rcases hfig with rfl | rfl <;> rfl
  have hpt : ∀ t : ℝ, l.pointOf t = p0 + t • (p1 - p0) := fun t => rfl
  have hmem : ∀ q ∈ fig.curve, ∃ t : ℝ, -1 ≤ t ∧ t ≤ 2 ∧ q = p0 + t • (p1 - p0) := by
    intro q hq
    rw [hc] at hq
    obtain ⟨t, htm, rfl⟩ := List.mem_map.mp hq
    obtain ⟨i, hi, rfl⟩ := List.mem_map.mp htm
    have hi' : (i : ℝ) ≤ 300 := by
      have := List.mem_range.mp hi
      exact_mod_cast (by omega : i ≤ 300)
    refine ⟨_, ?_, ?_, hpt _⟩
    · have : (0 : ℝ) ≤ (i : ℝ) / 100 := by positivity
      linarith
    · linarith
  have hat : ∀ i : ℕ, i < 301 → p0 + (-1 + (i : ℝ) / 100) • (p1 - p0) ∈ fig.curve := by
    intro i hi
    rw [hc]
    exact List.mem_map.mpr ⟨_, List.mem_map.mpr ⟨i, List.mem_range.mpr hi, rfl⟩, hpt _⟩
  have hb : ∀ t d : ℝ, -1 ≤ t → t ≤ 2 → |d| ≤ tol → |t * d| ≤ 2 * tol := by
    intro t d h1 h2 h3
    rw [abs_mul]
    have h4 : |t| ≤ 2 := abs_le.mpr ⟨by linarith, h2⟩
    exact mul_le_mul h4 h3 (abs_nonneg _) (by norm_num)
  refine ⟨?_, ?_, ?_, hmem, ?_⟩
  · rw [hc]; simp [Line2D.pointsFactory, showRatios]
  · have := hat 100 (by norm_num); norm_num at this; exact this
  · have := hat 200 (by norm_num); norm_num at this; exact this
  · by_cases hh : |p1.2 - p0.2| ≤ tol
    · left
      refine ⟨hh, ?_, ?_⟩
      · rw [ht, lineTitle, if_pos (by simp [hldef, hh])]
      · intro q hq
        obtain ⟨t, h1, h2, rfl⟩ := hmem q hq
        simpa using hb t _ h1 h2 hh
    · by_cases hv : |p1.1 - p0.1| ≤ tol
      · right; left
        refine ⟨hv, ?_, ?_⟩
        · rw [ht, lineTitle, if_neg (by simp only [hldef, decide_eq_true_eq]; exact hh),
            if_pos (by simp [hldef, hv])]
        · intro q hq
          obtain ⟨t, h1, h2, rfl⟩ := hmem q hq
          simpa using hb t _ h1 h2 hv
      · right; right
        refine ⟨not_le.mp hv, not_le.mp hh, _, _, by
          rw [ht, lineTitle, if_neg (by simp only [hldef, decide_eq_true_eq]; exact hh),
            if_neg (by simp only [hldef, decide_eq_true_eq]; exact hv)], ?_⟩
        intro h0 q hq
        obtain ⟨t, -, -, rfl⟩ := hmem q hq
        have hx : p1.1 - p0.1 ≠ 0 := by
          intro h; rw [h, abs_zero] at hv; exact hv h0
        simp only [Prod.snd_add, Prod.smul_snd, Prod.snd_sub, Prod.fst_add, Prod.smul_fst, Prod.fst_sub,
          smul_eq_mul]
        change p0.2 + t * (p1.2 - p0.2) = (p1.2 - p0.2) / (p1.1 - p0.1) * (p0.1 + t * (p1.1 - p0.1)) +
          (p0.2 - p0.1 * (p1.2 - p0.2) / (p1.1 - p0.1))
        field_simp
        ring

/-- A sloped line meets the hypothesis. -/
example : ∃ l, Line2D.init (0, 1) (2, 5) = .ok l := by
  refine ⟨_, (line_init_ok_iff _ _ _ _).mpr ⟨.inl ?_, rfl⟩⟩
  norm_num [defaultTol]

/-- **C104 (polygons).** For every accepted polygon both methods succeed, draw the vertices and a closed
polyline whose pieces are exactly the edges `vertices[i] -> vertices[i + 1]`, the last one back to
`vertices[0]`: the drawn curve is the boundary of the polygon. -/
theorem C104_polygon (vs : List Verif.Pt) (tol : ℝ) (g : Polygon) (hg : Polygon.init vs tol = .ok g)
    (p : Verif.Pt) :
    ∃ path, showPolygon g = .ok ⟨path, vs, none⟩ ∧ showPolygonLocation g p = .ok ⟨path, vs, some p⟩ ∧
      path.length = vs.length + 1 ∧ path.head? = vs.head? ∧ path.getLast? = vs.head? ∧
      (∀ a b, Consecutive path a b ↔ IsEdge vs a b) ∧
      {q | ∃ a b, Consecutive path a b ∧ q ∈ segment ℝ a b} = boundary vs := by
  have h3 : 3 ≤ vs.length ∧ g = ⟨vs⟩ := by
    unfold Polygon.init at hg
    split_ifs at hg with h1 h2
    exact ⟨by omega, (Except.ok.inj hg).symm⟩
  obtain ⟨h3, rfl⟩ := h3
  match vs, h3 with
  | v :: ws, h3 =>
    have hedge : ∀ a b, Consecutive (v :: ws ++ [v]) a b ↔ IsEdge (v :: ws) a b := by
      intro a b
      unfold Consecutive IsEdge
      have hlen : (v :: ws ++ [v]).length = ws.length + 2 := by simp
      constructor
      · rintro ⟨i, ha, hb⟩
        have hi : i + 1 < ws.length + 2 := by
          rw [← hlen]; exact (List.getElem?_eq_some_iff.mp hb).1
        refine ⟨i, ?_, ?_⟩
        · rw [List.getElem?_append_left (by simp; omega)] at ha; exact ha
        · by_cases hl : i + 1 < (v :: ws).length
          · rw [List.getElem?_append_left hl] at hb
            rw [Nat.mod_eq_of_lt hl]; exact hb
          · have : i + 1 = (v :: ws).length := by simp at hl ⊢; omega
            rw [this, Nat.mod_self]
            rw [this, List.getElem?_append_right le_rfl] at hb
            simpa using hb
      · rintro ⟨i, ha, hb⟩
        have hi := (List.getElem?_eq_some_iff.mp ha).1
        refine ⟨i, by rw [List.getElem?_append_left hi]; exact ha, ?_⟩
        by_cases hl : i + 1 < (v :: ws).length
        · rw [Nat.mod_eq_of_lt hl] at hb
          rw [List.getElem?_append_left hl]; exact hb
        · have : i + 1 = (v :: ws).length := by omega
          rw [this, Nat.mod_self] at hb
          rw [this, List.getElem?_append_right le_rfl]
          simpa using hb
    refine ⟨v :: ws ++ [v], rfl, rfl, by simp, by simp, by
      rw [List.getLast?_append]; rfl, hedge, ?_⟩
    ext q
    simp only [boundary, Set.mem_ofPred_eq, hedge]

/-- A triangle meets the hypothesis. -/
example : ∃ g, Polygon.init [(0, 0), (1, 0), (0, 1)] 0 = .ok g := by
  have hp : ∀ a b : Verif.Pt, a ≠ b → 0 < euclid a b := by
    intro a b hab
    refine Real.sqrt_pos.mpr ?_
    rcases ne_or_eq a.1 b.1 with h | h
    · have := sq_pos_of_ne_zero (sub_ne_zero.mpr h); positivity
    · have h2 : a.2 ≠ b.2 := fun h2 => hab (Prod.ext h h2)
      have := sq_pos_of_ne_zero (sub_ne_zero.mpr h2); positivity
  refine ⟨⟨[(0, 0), (1, 0), (0, 1)]⟩, ?_⟩
  rw [Polygon.init, if_neg (by simp), if_neg]
  simp only [Polygon.hasClosePair, List.mem_cons, List.not_mem_nil, or_false, exists_eq_or_imp, false_and,
    exists_false, exists_eq_left, not_or, not_le]
  exact ⟨⟨hp _ _ (by simp), hp _ _ (by simp)⟩, hp _ _ (by simp)⟩

end Verif.Show
