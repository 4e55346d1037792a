import Verif.Model.Spin
import Mathlib.Data.List.Sort
/-! The model's `sorted` is a stable sort. -/

namespace Verif

section
variable {α κ : Type _} [LinearOrder κ] (lt : κ → κ → Bool) (hlt : ∀ a b, lt a b = true ↔ a < b)
  (key : α → κ)
include hlt

theorem pySorted_sorted (l : List α) : (pySorted lt key l).Pairwise (fun a b => key a ≤ key b) := by
  unfold pySorted
  have hr : ∀ a b : α, lt (key b) (key a) = false ↔ key a ≤ key b := by
    intro a b
    rw [← Bool.not_eq_true, hlt, not_lt]
  have : IsTrans α (fun a b => lt (key b) (key a) = false) :=
    ⟨fun a b c h1 h2 => (hr a c).mpr (((hr a b).mp h1).trans ((hr b c).mp h2))⟩
  have : Std.Total (fun a b : α => lt (key b) (key a) = false) :=
    ⟨fun a b => by simp only [hr]; exact le_total _ _⟩
  exact (List.pairwise_insertionSort (fun a b : α => lt (key b) (key a) = false) l).imp
    (fun h => (hr _ _).mp h)

theorem pySorted_filter (l : List α) (k : κ) :
    (pySorted lt key l).filter (fun a => decide (key a = k)) =
      l.filter (fun a => decide (key a = k)) := by
  unfold pySorted
  have hins : ∀ (a : α) (l : List α),
      (l.orderedInsert (fun a b => lt (key b) (key a) = false) a).filter (fun a => decide (key a = k)) =
      (a :: l).filter (fun a => decide (key a = k)) := by
    intro a l
    induction l with
    | nil => simp
    | cons b l ih =>
      rw [List.orderedInsert]
      split
      · rfl
      · rename_i h
        have hba : key b < key a := by
          rw [← hlt]; simpa using h
        rw [List.filter_cons, ih]
        by_cases hb : key b = k
        · have ha : ¬ key a = k := by rintro rfl; exact absurd hba (by rw [hb]; exact lt_irrefl _)
          simp [hb, ha]
        · simp [hb, List.filter_cons]
  induction l with
  | nil => rfl
  | cons a l ih =>
    rw [List.insertionSort_cons, hins, List.filter_cons, ih, List.filter_cons]

omit hlt in
/-- sorted lists with the same elements in the same order for every key are equal -/
theorem eq_of_sorted_filter (l1 l2 : List α) (h1 : l1.Pairwise (fun a b => key a ≤ key b))
    (h2 : l2.Pairwise (fun a b => key a ≤ key b))
    (h : ∀ k, l1.filter (fun a => decide (key a = k)) = l2.filter (fun a => decide (key a = k))) :
    l1 = l2 := by
  induction l1 generalizing l2 with
  | nil =>
    cases l2 with
    | nil => rfl
    | cons b l2 =>
      have := h (key b)
      simp at this
  | cons a l1 ih =>
    cases l2 with
    | nil =>
      have := h (key a)
      simp at this
    | cons b l2 =>
      rw [List.pairwise_cons] at h1 h2
      have hab : key a ≤ key b := by
        have : b ∈ (a :: l1).filter (fun x => decide (key x = key b)) := by
          rw [h]; simp
        rw [List.mem_filter] at this
        rcases List.mem_cons.mp this.1 with rfl | hm
        · exact le_refl _
        · exact h1.1 b hm
      have hba : key b ≤ key a := by
        have : a ∈ (b :: l2).filter (fun x => decide (key x = key a)) := by
          rw [← h]; simp
        rw [List.mem_filter] at this
        rcases List.mem_cons.mp this.1 with rfl | hm
        · exact le_refl _
        · exact h2.1 a hm
      have hk : key a = key b := le_antisymm hab hba
      have heq := h (key a)
      simp only [List.filter_cons, hk, decide_true, if_true, List.cons.injEq] at heq
      obtain ⟨rfl, -⟩ := heq
      congr 1
      apply ih l2 h1.2 h2.2
      intro k
      have := h k
      simp only [List.filter_cons] at this
      by_cases hak : key a = k
      · simpa [hak] using this
      · simpa [hak] using this

/-- reversing and stably sorting twice gives back a sorted list -/
theorem pySorted_reverse_twice (l : List α) (h : l.Pairwise (fun a b => key a ≤ key b)) :
    pySorted lt key (pySorted lt key l.reverse).reverse = l := by
  apply eq_of_sorted_filter key _ _ (pySorted_sorted lt hlt key _) h
  intro k
  rw [pySorted_filter lt hlt key, List.filter_reverse, pySorted_filter lt hlt key,
    List.filter_reverse, List.reverse_reverse]

theorem pySorted_of_sorted (l : List α) (h : l.Pairwise (fun a b => key a ≤ key b)) :
    pySorted lt key l = l :=
  eq_of_sorted_filter key _ _ (pySorted_sorted lt hlt key _) h
    (fun k => pySorted_filter lt hlt key l k)

end

theorem pySorted_map {α β κ : Type _} (lt : κ → κ → Bool) (key : α → κ) (key' : β → κ) (f : α → β)
    (hf : ∀ a, key' (f a) = key a) (l : List α) :
    pySorted lt key' (l.map f) = (pySorted lt key l).map f := by
  unfold pySorted
  have hins : ∀ (a : α) (l : List α),
      (l.map f).orderedInsert (fun a b => lt (key' b) (key' a) = false) (f a) =
      (l.orderedInsert (fun a b => lt (key b) (key a) = false) a).map f := by
    intro a l
    induction l with
    | nil => rfl
    | cons b l ih =>
      simp only [List.map_cons, List.orderedInsert, hf]
      split
      · rfl
      · rw [ih]; rfl
  induction l with
  | nil => rfl
  | cons a l ih =>
    rw [List.map_cons, List.insertionSort_cons, List.insertionSort_cons, ih, hins]

end Verif
