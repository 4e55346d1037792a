import Verif.Proofs.LineText
import Verif.Props.Line2D
import Verif.Model.Show
/-!
# C121: the printed forms of a line
-/

namespace Verif
open Spec Geo Classical

/-- the slope and the intercept of a line that is not vertical -/
private theorem on_line {p0 p1 p : Pt} (h : p1.1 - p0.1 ≠ 0) (hp : cross p0 p1 p = 0) :
    p.2 = (p1.2 - p0.2) / (p1.1 - p0.1) * p.1 + (p0.2 - p0.1 * (p1.2 - p0.2) / (p1.1 - p0.1)) := by
  unfold cross at hp
  field_simp
  linear_combination hp

/-- **C121 (numbers).** Every number printed in a line's equation is a decimal with four digits after the
point, denotes exactly one number, and that number is at most half a ten-thousandth away. -/
theorem C121_number (x : ℝ) :
    ∃ v, Writes (fixed4 x) v ∧ |v - x| ≤ 1 / 20000 ∧ ∀ w, Writes (fixed4 x) w → w = v := by
  obtain ⟨v, h1, h2⟩ := writes_fixed4 x
  exact ⟨v, h1, h2, fun w hw => writes_unique hw h1⟩

/-- Two thirds and its negative. -/
example : (∃ v, Writes "0.6667".toList v ∧ v = 6667 / 10000) ∧ ∃ v, Writes "-0.6667".toList v ∧ v = -(6667 / 10000) :=
  ⟨⟨_, ⟨false, "0".toList, "6667".toList, by simp, by decide, by decide, by decide, by simp, rfl⟩, by
    rw [show digitsValue "0".toList = 0 by decide, show digitsValue "6667".toList = 6667 by decide]; norm_num⟩,
   ⟨_, ⟨true, "0".toList, "6667".toList, by simp, by decide, by decide, by decide, by simp, rfl⟩, by
    rw [show digitsValue "0".toList = 0 by decide, show digitsValue "6667".toList = 6667 by decide]; norm_num⟩⟩

/-- **C121 (str).** The text of an accepted line is the equation of that line: `y = b` when the two points
have the same ordinate up to `tol`, else `x = b` when they have the same abscissa up to `tol`, else
`y = a x + b`; and the printed equation holds, up to the printed digits, at every point of the segment
(horizontal, vertical) or of the whole line (sloped). -/
theorem C121_str (p0 p1 : Pt) (tol : ℝ) (ht : 0 ≤ tol) (l : Line2D) (hl : Line2D.init p0 p1 tol = .ok l) :
    (|p1.2 - p0.2| ≤ tol → ∃ b, SaysHorizontal l.str b ∧
      ∀ r : ℝ, 0 ≤ r → r ≤ 1 → |(p0.2 + r * (p1.2 - p0.2)) - b| ≤ tol + 1 / 20000) ∧
    (tol < |p1.2 - p0.2| → |p1.1 - p0.1| ≤ tol → ∃ b, SaysVertical l.str b ∧
      ∀ r : ℝ, 0 ≤ r → r ≤ 1 → |(p0.1 + r * (p1.1 - p0.1)) - b| ≤ tol + 1 / 20000) ∧
    (tol < |p1.2 - p0.2| → tol < |p1.1 - p0.1| → ∃ a b, SaysSloped l.str a b ∧
      ∀ p : Pt, cross p0 p1 p = 0 → |p.2 - (a * p.1 + b)| ≤ (|p.1| + 1) / 20000) := by
  obtain ⟨hne, rfl⟩ := (line_init_ok_iff _ _ _ _).mp hl
  have seg : ∀ (y d b r : ℝ), |d| ≤ tol → |b - y| ≤ 1 / 20000 → 0 ≤ r → r ≤ 1 →
      |(y + r * d) - b| ≤ tol + 1 / 20000 := by
    intro y d b r hd hb h0 h1
    have h2 : |r * d| ≤ tol := by
      rw [abs_mul, abs_of_nonneg h0]
      calc r * |d| ≤ 1 * |d| := by
            exact mul_le_mul_of_nonneg_right h1 (abs_nonneg d)
        _ ≤ tol := by linarith
    rw [abs_le] at *
    constructor <;> linarith [h2.1, h2.2, hb.1, hb.2]
  refine ⟨fun hh => ?_, fun hh hv => ?_, fun hh hv => ?_⟩
  · obtain ⟨b, hb, hb2⟩ := writes_fixed4 p0.2
    refine ⟨b, ⟨_, ?_, hb⟩, fun r h0 h1 => seg _ _ _ _ hh hb2 h0 h1⟩
    unfold Line2D.str
    rw [if_pos (by simpa using hh)]
  · obtain ⟨b, hb, hb2⟩ := writes_fixed4 p0.1
    refine ⟨b, ⟨_, ?_, hb⟩, fun r h0 h1 => seg _ _ _ _ hv hb2 h0 h1⟩
    unfold Line2D.str
    rw [if_neg (by simpa using hh), if_pos (by simpa using hv)]
  · obtain ⟨a, ha, ha2⟩ := writes_fixed4 ((p1.2 - p0.2) / (p1.1 - p0.1))
    obtain ⟨b, hb, hb2⟩ := writes_fixed4 (p0.2 - p0.1 * (p1.2 - p0.2) / (p1.1 - p0.1))
    refine ⟨a, b, ⟨_, _, ?_, ha, hb⟩, fun p hp => ?_⟩
    · unfold Line2D.str
      rw [if_neg (by simpa using hh), if_neg (by simpa using hv)]
    · have hd : p1.1 - p0.1 ≠ 0 := by
        intro h; rw [h, abs_zero] at hv; linarith
      rw [on_line hd hp]
      set A := (p1.2 - p0.2) / (p1.1 - p0.1)
      set B := p0.2 - p0.1 * (p1.2 - p0.2) / (p1.1 - p0.1)
      have e : A * p.1 + B - (a * p.1 + b) = (A - a) * p.1 + (B - b) := by ring
      rw [e]
      calc |(A - a) * p.1 + (B - b)| ≤ |A - a| * |p.1| + |B - b| := by
            rw [← abs_mul]; exact abs_add_le _ _
        _ ≤ 1 / 20000 * |p.1| + 1 / 20000 := by
            rw [abs_sub_comm A a, abs_sub_comm B b]
            exact add_le_add (mul_le_mul_of_nonneg_right ha2 (abs_nonneg _)) hb2
        _ = _ := by ring

/-- A horizontal, a vertical and a sloped line are accepted. -/
example : (∃ l, Line2D.init (0, 1) (2, 1) 0 = .ok l) ∧ (∃ l, Line2D.init (1, 0) (1, 2) 0 = .ok l) ∧
    ∃ l, Line2D.init (0, 1) (3, 3) 0 = .ok l := by
  refine ⟨⟨_, (line_init_ok_iff _ _ _ _).mpr ⟨.inl ?_, rfl⟩⟩, ⟨_, (line_init_ok_iff _ _ _ _).mpr ⟨.inr ?_, rfl⟩⟩,
    ⟨_, (line_init_ok_iff _ _ _ _).mpr ⟨.inl ?_, rfl⟩⟩⟩ <;> norm_num

/-- **C121 (the equation is determined by the text).** A text is the equation of at most one line: it is of
one of the three kinds only, and the printed numbers are determined by it. -/
theorem C121_unambiguous (t : Txt) (a b a' b' : ℝ) :
    (SaysHorizontal t b → SaysHorizontal t b' → b = b') ∧ (SaysVertical t b → SaysVertical t b' → b = b') ∧
    (SaysSloped t a b → SaysSloped t a' b' → a = a' ∧ b = b') ∧
    ¬ (SaysHorizontal t b ∧ SaysVertical t b') ∧ ¬ (SaysHorizontal t b ∧ SaysSloped t a' b') ∧
    ¬ (SaysVertical t b ∧ SaysSloped t a' b') := by
  refine ⟨?_, ?_, ?_, ?_, ?_, ?_⟩
  · rintro ⟨tb, rfl, h⟩ ⟨tb', he, h'⟩
    rw [← List.append_cancel_left he] at h'
    exact writes_unique h h'
  · rintro ⟨tb, rfl, h⟩ ⟨tb', he, h'⟩
    rw [← List.append_cancel_left he] at h'
    exact writes_unique h h'
  · rintro ⟨ta, tb, rfl, h1, h2⟩ ⟨ta', tb', he, h1', h2'⟩
    have he : ta ++ ('x' :: (" + ".toList ++ tb)) = ta' ++ ('x' :: (" + ".toList ++ tb')) := by
      simp only [List.append_assoc] at he
      exact List.append_cancel_left he
    obtain ⟨rfl, -, h3⟩ := span_unique (writes_num h1) (writes_num h1') (not_num 'x') (not_num 'x') he
    rw [← List.append_cancel_left h3] at h2'
    exact ⟨writes_unique h1 h1', writes_unique h2 h2'⟩
  · rintro ⟨⟨tb, rfl, h⟩, tb', he, h'⟩
    simp at he
  · rintro ⟨⟨tb, rfl, h⟩, ta', tb', he, h1', h2'⟩
    simp only [List.append_assoc] at he
    have he := List.append_cancel_left he
    have := writes_num h 'x' (by rw [he]; simp)
    exact not_num 'x' (by decide) this
  · rintro ⟨⟨tb, rfl, h⟩, ta', tb', he, h1', h2'⟩
    simp at he

/-- A text of each kind. -/
example : SaysHorizontal "y = 1.5000".toList 1.5 ∧ SaysVertical "x = -1.5000".toList (-1.5) ∧
    SaysSloped "y = 2.0000x + -1.5000".toList 2 (-1.5) := by
  have h1 : Writes "1.5000".toList 1.5 :=
    ⟨false, "1".toList, "5000".toList, by simp, by decide, by decide, by decide, by simp, by
      rw [show digitsValue "1".toList = 1 by decide, show digitsValue "5000".toList = 5000 by decide]; norm_num⟩
  have h2 : Writes "-1.5000".toList (-1.5) :=
    ⟨true, "1".toList, "5000".toList, by simp, by decide, by decide, by decide, by simp, by
      rw [show digitsValue "1".toList = 1 by decide, show digitsValue "5000".toList = 5000 by decide]; norm_num⟩
  have h3 : Writes "2.0000".toList 2 :=
    ⟨false, "2".toList, "0000".toList, by simp, by decide, by decide, by decide, by simp, by
      rw [show digitsValue "2".toList = 2 by decide, show digitsValue "0000".toList = 0 by decide]; norm_num⟩
  exact ⟨⟨_, by simp, h1⟩, ⟨_, by simp, h2⟩, ⟨_, _, by simp, h3, h2⟩⟩

/-- **C121 (equal texts).** Two accepted sloped lines with the same text are close to each other: their
ordinates at the abscissa `x` differ by at most `(|x| + 1) / 10^4`. -/
theorem C121_equal_text (p0 p1 q0 q1 : Pt) (tol tol' : ℝ) (ht : 0 ≤ tol) (ht' : 0 ≤ tol') (l l' : Line2D)
    (hl : Line2D.init p0 p1 tol = .ok l) (hl' : Line2D.init q0 q1 tol' = .ok l')
    (hh : tol < |p1.2 - p0.2|) (hv : tol < |p1.1 - p0.1|) (he : l.str = l'.str) :
    tol' < |q1.2 - q0.2| ∧ tol' < |q1.1 - q0.1| ∧
    ∀ x y y' : ℝ, cross p0 p1 (x, y) = 0 → cross q0 q1 (x, y') = 0 → |y - y'| ≤ (|x| + 1) / 10000 := by
  obtain ⟨a, b, hs, hp⟩ := (C121_str p0 p1 tol ht l hl).2.2 hh hv
  obtain ⟨k1, k2, k3⟩ := C121_str q0 q1 tol' ht' l' hl'
  have hh' : tol' < |q1.2 - q0.2| := by
    by_contra h
    obtain ⟨b', hb', -⟩ := k1 (not_lt.mp h)
    exact (C121_unambiguous l.str 0 b' a b).2.2.2.2.1 ⟨he ▸ hb', hs⟩
  have hv' : tol' < |q1.1 - q0.1| := by
    by_contra h
    obtain ⟨b', hb', -⟩ := k2 hh' (not_lt.mp h)
    exact (C121_unambiguous l.str 0 b' a b).2.2.2.2.2 ⟨he ▸ hb', hs⟩
  obtain ⟨a', b', hs', hp'⟩ := k3 hh' hv'
  obtain ⟨rfl, rfl⟩ := (C121_unambiguous l.str a b a' b').2.2.1 hs (he ▸ hs')
  refine ⟨hh', hv', fun x y y' h1 h2 => ?_⟩
  have e1 := hp _ h1
  have e2 := hp' _ h2
  dsimp only at e1 e2
  rw [abs_le] at *
  constructor <;> linarith [e1.1, e1.2, e2.1, e2.2]

/-- **C121 (the text depends on the line only).** Two pairs of points on one line, neither of them
horizontal or vertical up to the tolerance, give the same text: which points represent the line, and in
which order, makes no difference.  The same holds for exactly horizontal and exactly vertical lines. -/
theorem C121_same_line (p0 p1 q0 q1 : Pt) (tol tol' : ℝ) (ht : 0 ≤ tol) (ht' : 0 ≤ tol') (l l' : Line2D)
    (hl : Line2D.init p0 p1 tol = .ok l) (hl' : Line2D.init q0 q1 tol' = .ok l')
    (h0 : cross p0 p1 q0 = 0) (h1 : cross p0 p1 q1 = 0)
    (hk : (tol < |p1.2 - p0.2| ∧ tol < |p1.1 - p0.1| ∧ tol' < |q1.2 - q0.2| ∧ tol' < |q1.1 - q0.1|) ∨
      p1.2 = p0.2 ∨ p1.1 = p0.1) :
    l.str = l'.str := by
  obtain ⟨hne, rfl⟩ := (line_init_ok_iff _ _ _ _).mp hl
  obtain ⟨hne', rfl⟩ := (line_init_ok_iff _ _ _ _).mp hl'
  unfold Line2D.str
  rcases hk with ⟨a1, a2, a3, a4⟩ | h | h
  · rw [if_neg (by simpa using a1), if_neg (by simpa using a2), if_neg (by simpa using a3), if_neg (by simpa using a4)]
    have d : p1.1 - p0.1 ≠ 0 := by intro h; rw [h, abs_zero] at a2; linarith
    have d' : q1.1 - q0.1 ≠ 0 := by intro h; rw [h, abs_zero] at a4; linarith
    have e0 := on_line d h0
    have e1 := on_line d h1
    dsimp only
    have es : (p1.2 - p0.2) / (p1.1 - p0.1) = (q1.2 - q0.2) / (q1.1 - q0.1) := by
      rw [eq_div_iff d']
      linear_combination e0 - e1
    have ei : p0.2 - p0.1 * (p1.2 - p0.2) / (p1.1 - p0.1) = q0.2 - q0.1 * (q1.2 - q0.2) / (q1.1 - q0.1) := by
      rw [mul_div_assoc q0.1, ← es]
      linear_combination -e0
    rw [es, ei]
  · have d : p1.1 - p0.1 ≠ 0 := by
      intro h'
      rw [h', h, sub_self, abs_zero] at hne
      rcases hne with hne | hne <;> linarith
    have e0 := on_line d h0
    have e1 := on_line d h1
    rw [h, sub_self, zero_div, zero_mul, mul_zero, zero_div, sub_zero, zero_add] at e0 e1
    rw [if_pos (by simpa [h] using ht), if_pos (by simpa [e0, e1] using ht')]
    simp only [e0]
  · have d : p1.2 - p0.2 ≠ 0 := by
      intro h'
      rw [h', h, sub_self, abs_zero] at hne
      rcases hne with hne | hne <;> linarith
    have e : ∀ q : Pt, cross p0 p1 q = 0 → q.1 = p0.1 := by
      intro q hq
      unfold cross at hq
      rw [h, sub_self, zero_mul, zero_sub, neg_eq_zero] at hq
      rcases mul_eq_zero.mp hq with hq | hq
      · exact absurd hq d
      · linarith
    have e0 := e q0 h0
    have e1 := e q1 h1
    have a1 : ¬ |p1.2 - p0.2| ≤ tol := by
      intro hc
      rw [h, sub_self, abs_zero] at hne
      rcases hne with hne | hne <;> linarith
    have a3 : ¬ |q1.2 - q0.2| ≤ tol' := by
      intro hc
      rw [e0, e1, sub_self, abs_zero] at hne'
      rcases hne' with hne' | hne' <;> linarith
    rw [if_neg (by simpa using a1), if_pos (by simpa [h] using ht), if_neg (by simpa using a3),
      if_pos (by simpa [e0, e1] using ht')]
    simp only [e0]

/-- The diagonal, given by two pairs of points. -/
example : ∃ l l', Line2D.init (0, 1) (3, 4) = .ok l ∧ Line2D.init (2, 3) (1, 2) = .ok l' ∧
    cross (0, 1) (3, 4) (2, 3) = 0 ∧ cross (0, 1) (3, 4) (1, 2) = 0 := by
  refine ⟨_, _, (line_init_ok_iff _ _ _ _).mpr ⟨.inl ?_, rfl⟩, (line_init_ok_iff _ _ _ _).mpr ⟨.inl ?_, rfl⟩, ?_, ?_⟩ <;>
    norm_num [defaultTol, cross]

/-- **C121 (titles).** The title of the figures drawn by `ShowLine` and `ShowLocationRelation` is the text of
the line. -/
theorem C121_title (l : Line2D) (point : Pt) :
    (Show.showLine (fun x => String.ofList (fixed4 x)) l).title = String.ofList l.str ∧
    (Show.showLineLocation (fun x => String.ofList (fixed4 x)) l point).title = String.ofList l.str := by
  have e : Show.lineTitle (fun x => String.ofList (fixed4 x)) l = String.ofList l.str := by
    unfold Show.lineTitle Line2D.str
    split
    · simp only [String.ofList_append, String.ofList_toList]
    · split <;> simp only [String.ofList_append, String.ofList_toList]
  exact ⟨e, e⟩

/-- **C121 (a limit of the text).** The text of a line that is horizontal only up to the tolerance can
change when its two points are exchanged. -/
theorem C121_swap_differs :
    ∃ (p0 p1 : Pt) (l l' : Line2D), Line2D.init p0 p1 = .ok l ∧ Line2D.init p1 p0 = .ok l' ∧ l.str ≠ l'.str := by
  refine ⟨(0, 1 / 20000), (1, 1 / 20000 + 1 / 10 ^ 10), _, _, (line_init_ok_iff _ _ _ _).mpr ⟨.inl ?_, rfl⟩,
    (line_init_ok_iff _ _ _ _).mpr ⟨.inl ?_, rfl⟩, ?_⟩
  · norm_num [defaultTol]
  · norm_num [defaultTol]
  · have t : (0 : ℝ) ≤ 1 / 10 ^ 10 := by positivity
    unfold Line2D.str
    rw [if_pos (by simp [defaultTol]), if_pos (by simp [defaultTol])]
    dsimp only
    intro h
    have h := List.append_cancel_left h
    have n1 : nearestEven (|(1 / 20000 : ℝ)| * 10000) = 0 := by
      rw [abs_of_pos (by norm_num)]
      have e : (1 / 20000 : ℝ) * 10000 = 1 / 2 := by norm_num
      have f : ⌊(1 / 2 : ℝ)⌋ = 0 := by norm_num [Int.floor_eq_iff]
      rw [e]; unfold nearestEven; rw [f]; norm_num
    have n2 : nearestEven (|(1 / 20000 + 1 / 10 ^ 10 : ℝ)| * 10000) = 1 := by
      rw [abs_of_pos (by norm_num)]
      have f : ⌊(1 / 20000 + 1 / 10 ^ 10 : ℝ) * 10000⌋ = 0 := by rw [Int.floor_eq_iff]; norm_num
      unfold nearestEven; rw [f]; norm_num
    unfold fixed4 at h
    rw [n1, n2, if_neg (by norm_num), if_neg (by norm_num)] at h
    revert h
    decide

/-- **C121 (repr).** Where `repr` tells the occurring coordinates apart, `repr` of a line determines both
its points, and with them everything else the line answers. -/
theorem C121_repr (ft : ℝ → Txt) (S : Set ℝ) (hS : Set.InjOn ft S)
    (hft : ∀ x ∈ S, ∀ c ∈ ft x, c ∈ "0123456789+-.einfa".toList) (p0 p1 q0 q1 : Pt) (tol : ℝ) (l l' : Line2D)
    (hl : Line2D.init p0 p1 tol = .ok l) (hl' : Line2D.init q0 q1 tol = .ok l')
    (hp : p0.1 ∈ S ∧ p0.2 ∈ S ∧ p1.1 ∈ S ∧ p1.2 ∈ S) (hq : q0.1 ∈ S ∧ q0.2 ∈ S ∧ q1.1 ∈ S ∧ q1.2 ∈ S) :
    (l.repr ft = l'.repr ft ↔ p0 = q0 ∧ p1 = q1) ∧ (l.repr ft = l'.repr ft → l = l') := by
  obtain ⟨hne, rfl⟩ := (line_init_ok_iff _ _ _ _).mp hl
  obtain ⟨hne', rfl⟩ := (line_init_ok_iff _ _ _ _).mp hl'
  have key : ∀ {p q : Pt} {r r' : Txt}, p.1 ∈ S → p.2 ∈ S → q.1 ∈ S → q.2 ∈ S →
      Line2D.pairText ft p ++ r = Line2D.pairText ft q ++ r' → p = q ∧ r = r' := by
    intro p q r r' m1 m2 m3 m4 h
    unfold Line2D.pairText at h
    simp only [List.append_assoc] at h
    have h := List.append_cancel_left h
    obtain ⟨e1, -, h⟩ := span_unique (p := NumChar) (r := " ".toList ++ (ft p.2 ++ (")".toList ++ r)))
      (r' := " ".toList ++ (ft q.2 ++ (")".toList ++ r'))) (hft _ m1) (hft _ m3) (not_num ',') (not_num ',') h
    have h := List.append_cancel_left h
    obtain ⟨e2, -, h⟩ := span_unique (p := NumChar) (r := r) (r' := r') (hft _ m2) (hft _ m4) (not_num ')') (not_num ')') h
    exact ⟨Prod.ext (hS m1 m3 e1) (hS m2 m4 e2), h⟩
  have fwd : Line2D.repr ft (⟨p0, p1, (p1.1 - p0.1, p1.2 - p0.2), decide (|p1.2 - p0.2| ≤ tol),
      decide (|p1.1 - p0.1| ≤ tol)⟩ : Line2D) = Line2D.repr ft ⟨q0, q1, (q1.1 - q0.1, q1.2 - q0.2),
      decide (|q1.2 - q0.2| ≤ tol), decide (|q1.1 - q0.1| ≤ tol)⟩ → p0 = q0 ∧ p1 = q1 := by
    intro h
    unfold Line2D.repr at h
    simp only [List.append_assoc] at h
    obtain ⟨e1, h⟩ := key hp.1 hp.2.1 hq.1 hq.2.1 (List.append_cancel_left h)
    obtain ⟨e2, -⟩ := key hp.2.2.1 hp.2.2.2 hq.2.2.1 hq.2.2.2 (List.append_cancel_left h)
    exact ⟨e1, e2⟩
  refine ⟨⟨fwd, ?_⟩, fun h => ?_⟩
  · rintro ⟨rfl, rfl⟩; rfl
  · obtain ⟨rfl, rfl⟩ := fwd h; rfl

/-- A `repr` that tells the natural numbers apart. -/
example : ∃ (ft : ℝ → Txt) (S : Set ℝ), Set.InjOn ft S ∧ (∀ x ∈ S, ∀ c ∈ ft x, c ∈ "0123456789+-.einfa".toList) ∧
    (1 : ℝ) ∈ S ∧ (2 : ℝ) ∈ S := by
  refine ⟨fun x => decNat ⌊x⌋₊, Set.range fun n : ℕ => (n : ℝ), ?_, ?_, ⟨1, by simp⟩, ⟨2, by simp⟩⟩
  · rintro _ ⟨n, rfl⟩ _ ⟨m, rfl⟩ h
    simp only [Nat.floor_natCast] at h
    simp only [decNat_inj h]
  · rintro _ ⟨n, rfl⟩
    exact decNat_num _

end Verif
