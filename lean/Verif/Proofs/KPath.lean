import Verif.Model.KPath
import Verif.Spec.KPath
import Verif.Proofs.PyLemmas
import Mathlib.Algebra.BigOperators.Group.List.Basic
import Mathlib.Tactic.Linarith
import Mathlib.Tactic.FieldSimp
import Mathlib.Tactic.Ring
/-! # Lemmas for `KPath` -/

namespace Verif.KP

theorem cumsum_length (s : ℕ) (l : List ℕ) : (cumsum s l).length = l.length := by
  induction l generalizing s with
  | nil => rfl
  | cons x xs ih => simp [cumsum, ih]

theorem cumsum_get (s : ℕ) (l : List ℕ) (i : ℕ) (h : i < l.length) :
    (cumsum s l)[i]? = some (s + (l.take (i + 1)).sum) := by
  induction l generalizing s i with
  | nil => simp at h
  | cons x xs ih =>
    cases i with
    | zero => simp [cumsum]
    | succ i =>
      simp only [cumsum, List.getElem?_cons_succ]
      rw [ih (s + x) i (by simpa using h)]
      simp [add_assoc]

/-- positions of the anchors -/
theorem indices_get (l : List ℕ) (i : ℕ) (h : i ≤ l.length) :
    (0 :: cumsum 0 l)[i]? = some (l.take i).sum := by
  cases i with
  | zero => simp
  | succ i =>
    rw [List.getElem?_cons_succ, cumsum_get 0 l i (by omega), zero_add]

theorem flatten_get {α : Type} (l : List (List α)) (i q : ℕ) (s : List α) (h : l[i]? = some s)
    (hq : q < s.length) :
    l.flatten[((l.take i).map List.length).sum + q]? = s[q]? := by
  induction l generalizing i with
  | nil => simp at h
  | cons x xs ih =>
    cases i with
    | zero =>
      simp only [List.getElem?_cons_zero, Option.some.injEq] at h
      subst h
      simp only [List.take_zero, List.map_nil, List.sum_nil, zero_add, List.flatten_cons]
      rw [List.getElem?_append_left hq]
    | succ i =>
      simp only [List.getElem?_cons_succ] at h
      simp only [List.take_succ_cons, List.map_cons, List.sum_cons, List.flatten_cons]
      rw [List.getElem?_append_right (by omega), ← ih i h]
      congr 1
      omega

theorem listMin_le (l : List ℝ) (x : ℝ) (h : x ∈ l) : listMin l ≤ x := by
  induction l with
  | nil => simp at h
  | cons a l ih =>
    cases l with
    | nil => simp only [List.mem_singleton] at h; subst h; exact le_refl _
    | cons b l =>
      simp only [listMin]
      rcases List.mem_cons.mp h with rfl | h
      · exact min_le_left _ _
      · exact le_trans (min_le_right _ _) (ih h)

theorem listMin_mem (l : List ℝ) (h : l ≠ []) : listMin l ∈ l := by
  induction l with
  | nil => exact absurd rfl h
  | cons a l ih =>
    cases l with
    | nil => simp [listMin]
    | cons b l =>
      simp only [listMin]
      rcases min_choice a (listMin (b :: l)) with h | h
      · rw [h]; simp
      · rw [h]; exact List.mem_cons_of_mem _ (ih (by simp))

/-- `points ++ points` by index -/
theorem double_get {α : Type} (l : List α) (i : ℕ) (h : i < 2 * l.length) :
    (l ++ l)[i]? = l[i % l.length]? := by
  by_cases hi : i < l.length
  · rw [List.getElem?_append_left hi, Nat.mod_eq_of_lt hi]
  · rw [List.getElem?_append_right (by omega)]
    congr 1
    rw [Nat.mod_eq_sub_mod (by omega), Nat.mod_eq_of_lt (by omega)]

variable {m : ℕ}

/-- the differences computed by the code -/
theorem dRs_get (points : List (KPoint m)) (loop : Bool) (hn : 1 < points.length) :
    let pts := points ++ points
    let e := if loop then points.length + 1 else points.length
    let dRs := List.zipWith (fun a b : KPoint m => a - b) ((pts.take e).drop 1) (pts.take (e - 1))
    dRs.length = segments points loop ∧ ∀ i < segments points loop,
      dRs[i]? = some (anchor points (i + 1) - anchor points i) ∧
      pts[i]? = some (anchor points i) ∧ pts[i + 1]? = some (anchor points (i + 1)) := by
  intro pts e dRs
  have hpts : ∀ i, i ≤ points.length → pts[i]? = some (anchor points i) := by
    intro i hi
    have h1 : i % points.length < points.length := Nat.mod_lt _ (by omega)
    simp only [pts]
    rw [double_get points i (by omega)]
    unfold anchor
    rw [List.getElem?_eq_getElem h1]
    rfl
  have he : e - 1 = segments points loop := by
    simp only [e, segments]; split_ifs <;> omega
  have he1 : e = segments points loop + 1 := by
    simp only [e, segments]; split_ifs <;> omega
  have hle : segments points loop ≤ points.length := by
    unfold segments; split_ifs <;> omega
  have hl : pts.length = 2 * points.length := by simp [pts]; omega
  refine ⟨?_, ?_⟩
  · simp only [dRs, List.length_zipWith, List.length_drop, List.length_take, hl]
    omega
  · intro i hi
    refine ⟨?_, hpts i (by omega), hpts (i + 1) (by omega)⟩
    simp only [dRs]
    rw [List.getElem?_zipWith, List.getElem?_drop, List.getElem?_take, List.getElem?_take,
      if_pos (by omega), if_pos (by omega), show 1 + i = i + 1 by omega, hpts i (by omega),
      hpts (i + 1) (by omega)]

end Verif.KP
