import Verif.Props.Bond
import Verif.Props.Precision
import Verif.Spec.Bond
/-!
# C39: bonds are compared by their endpoints, the endpoints as sites
-/

namespace Verif

theorem wrap64_fits {z : ℤ} (h1 : -2 ^ 63 ≤ z) (h2 : z < 2 ^ 63) : wrap64 z = z := by
  unfold wrap64
  rw [Int.bmod_eq_of_le] <;> norm_num <;> omega

theorem zoomTuple_eq {zoom : ℤ} {v : NpVec} (h : v.Fits zoom) : v.zoomTuple zoom = v.coords.mapM (Coord.zoomInt zoom) := by
  cases v with
  | i64 l =>
    simp only [NpVec.zoomTuple, NpVec.coords]
    symm
    rw [mapM_ok_iff, List.forall₂_map_left_iff, List.forall₂_map_right_iff, List.forall₂_same]
    intro n hn
    rw [wrap64_fits (h n hn).1 (h n hn).2]; rfl
  | f64 l => simp only [NpVec.zoomTuple, NpVec.coords, List.mapM_map]; rfl

theorem coords_length (v : NpVec) : v.coords.length = v.len := by cases v <;> simp [NpVec.coords, NpVec.len]

theorem siteInit_of {zoom : ℤ} {v : NpVec} {t : List ℤ} (hl : v.len = 1 ∨ v.len = 2 ∨ v.len = 3) (hf : v.Fits zoom)
    (ht : v.zoomTuple zoom = .ok t) : SiteID.init zoom v.coords = .ok ⟨v.coords, t⟩ := by
  rw [zoomTuple_eq hf] at ht
  rw [← coords_length] at hl
  simp [SiteID.init, pyAssert, hl, ht, bind, Except.bind, pure, Except.pure]

/-- **C39** (endpoints).  Two bonds built under one precision, none of whose int64 coordinates overflows: the endpoints
are accepted as sites; directional bonds are equal iff the sites are equal in order, non-directional ones iff they are
equal as unordered pairs.  (C04 says when two sites are equal.) -/
theorem C39_endpoints (zoom : ℤ) (p0 p1 q0 q1 : NpVec) (d e : Bool) (a b : Bond)
    (ha : Bond.init zoom p0 p1 d = .ok a) (hb : Bond.init zoom q0 q1 e = .ok b)
    (hp0 : p0.Fits zoom) (hp1 : p1.Fits zoom) (hq0 : q0.Fits zoom) (hq1 : q1.Fits zoom) :
    ∃ P0 P1 Q0 Q1 : SiteID, SiteID.init zoom p0.coords = .ok P0 ∧ SiteID.init zoom p1.coords = .ok P1 ∧
      SiteID.init zoom q0.coords = .ok Q0 ∧ SiteID.init zoom q1.coords = .ok Q1 ∧
      (d = true → e = true → (a.eq b = true ↔ P0.rich .eq Q0 = true ∧ P1.rich .eq Q1 = true)) ∧
      (d = false → e = false → (a.eq b = true ↔
        (P0.rich .eq Q0 = true ∧ P1.rich .eq Q1 = true) ∨ (P0.rich .eq Q1 = true ∧ P1.rich .eq Q0 = true))) ∧
      (d ≠ e → a.eq b = false) := by
  obtain ⟨hl, hl', -⟩ := (bond_init_ok_iff _ _ _ _ _).mp ha
  obtain ⟨hm, hm', -⟩ := (bond_init_ok_iff _ _ _ _ _).mp hb
  obtain ⟨t0, t1, u0, u1, ht0, ht1, hu0, hu1, h1, h2, h3, -⟩ := C39_equality zoom p0 p1 q0 q1 d e a b ha hb
  refine ⟨_, _, _, _, siteInit_of hl hp0 ht0, siteInit_of (by rw [hl']; exact hl) hp1 ht1, siteInit_of hm hq0 hu0,
    siteInit_of (by rw [hm']; exact hm) hq1 hu1, ?_, ?_, h3⟩
  · simpa only [siteRich_eq, linRich, decide_eq_true_eq] using h1
  · simpa only [siteRich_eq, linRich, decide_eq_true_eq] using h2

/-- **C39** (what equality means).  Equal bonds built under precision `p` have endpoints whose coordinates differ, in one
of the two orders, by less than `2 * 10**-p` up to rounding. -/
theorem C39_soundness (p : ℕ) (p0 p1 q0 q1 : NpVec) (d e : Bool) (a b : Bond)
    (ha : Bond.init (10 ^ p) p0 p1 d = .ok a) (hb : Bond.init (10 ^ p) q0 q1 e = .ok b)
    (hp0 : p0.Fits (10 ^ p)) (hp1 : p1.Fits (10 ^ p)) (hq0 : q0.Fits (10 ^ p)) (hq1 : q1.Fits (10 ^ p))
    (heq : a.eq b = true) :
    let close : NpVec → NpVec → Prop := fun v w => List.Forall₂ (fun c c' => ∃ x y, c.value? = some x ∧
      c'.value? = some y ∧ |x - y| < 2 / 10 ^ p + (|x| + |y|) / 2 ^ 50 + 1 / 2 ^ 1000 ∧
      (c.isInt = true → c'.isInt = true → x = y)) v.coords w.coords
    d = e ∧ ((close p0 q0 ∧ close p1 q1) ∨ (d = false ∧ close p0 q1 ∧ close p1 q0)) := by
  obtain ⟨P0, P1, Q0, Q1, i0, i1, j0, j1, h1, h2, h3⟩ := C39_endpoints _ _ _ _ _ _ _ _ _ ha hb hp0 hp1 hq0 hq1
  intro close
  have hde : d = e := by
    by_contra h
    rw [h3 h] at heq
    cases heq
  refine ⟨hde, ?_⟩
  subst hde
  cases d with
  | true =>
    obtain ⟨x, y⟩ := (h1 rfl rfl).1 heq
    exact Or.inl ⟨C04_site_soundness p _ _ _ _ i0 j0 x, C04_site_soundness p _ _ _ _ i1 j1 y⟩
  | false =>
    rcases (h2 rfl rfl).1 heq with ⟨x, y⟩ | ⟨x, y⟩
    · exact Or.inl ⟨C04_site_soundness p _ _ _ _ i0 j0 x, C04_site_soundness p _ _ _ _ i1 j1 y⟩
    · exact Or.inr ⟨rfl, C04_site_soundness p _ _ _ _ i0 j1 x, C04_site_soundness p _ _ _ _ i1 j0 y⟩

/-- The bond from (0, 1) to (2, 0) and the same bond the other way round. -/
example : ∃ a b, Bond.init (10 ^ 4) (.i64 [0, 1]) (.f64 [.fin 2, .fin 0]) false = .ok a ∧
    Bond.init (10 ^ 4) (.f64 [.fin 2, .fin 0]) (.i64 [0, 1]) false = .ok b ∧ a.eq b = true ∧
    NpVec.Fits (10 ^ 4) (.i64 [0, 1]) := by
  refine ⟨⟨.i64 [0, 1], .f64 [.fin 2, .fin 0], false, ([0, 10000], [20000, 0], false)⟩,
    ⟨.f64 [.fin 2, .fin 0], .i64 [0, 1], false, ([0, 10000], [20000, 0], false)⟩, by decide +kernel, by decide +kernel,
    by decide +kernel, ?_⟩
  intro n hn
  fin_cases hn <;> norm_num

end Verif
