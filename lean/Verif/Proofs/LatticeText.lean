import Verif.Model.LatticeText
import Verif.Proofs.Text
import Mathlib.Data.List.SplitOn
/-!
Helper lemmas: joined lines and their positions (for C125).
-/

namespace Verif.Latt

theorem pyJoin_intercalate (s : Txt) : ∀ l : List Txt, pyJoin s l = s.intercalate l
  | [] => rfl
  | [a] => by simp [pyJoin, List.intercalate]
  | a :: b :: l => by
    rw [pyJoin, pyJoin_intercalate s (b :: l)]
    simp [List.intercalate, List.intersperse]

theorem layout {α : Type} (h A B C : List α) (v b : α) (hh : h.length = 4) :
    (∀ i x, A[i]? = some x → (h ++ A ++ [v] ++ B ++ [b] ++ C)[4 + i]? = some x) ∧
    (h ++ A ++ [v] ++ B ++ [b] ++ C)[4 + A.length]? = some v ∧
    (∀ i x, B[i]? = some x → (h ++ A ++ [v] ++ B ++ [b] ++ C)[5 + A.length + i]? = some x) ∧
    (h ++ A ++ [v] ++ B ++ [b] ++ C)[5 + A.length + B.length]? = some b ∧
    ∀ i x, C[i]? = some x → (h ++ A ++ [v] ++ B ++ [b] ++ C)[6 + A.length + B.length + i]? = some x := by
  have l1 : (h ++ A ++ [v]).length = 5 + A.length := by simp [hh]; omega
  have l2 : (h ++ A ++ [v] ++ B).length = 5 + A.length + B.length := by rw [List.length_append, l1]
  have l3 : (h ++ A ++ [v] ++ B ++ [b]).length = 6 + A.length + B.length := by
    rw [List.length_append, l2]; simp; omega
  refine ⟨fun i x hx => ?_, ?_, fun i x hx => ?_, ?_, fun i x hx => ?_⟩
  · have := (List.getElem?_eq_some_iff.1 hx).1
    grind
  · grind
  · have := (List.getElem?_eq_some_iff.1 hx).1
    rw [List.getElem?_append_left (by omega), List.getElem?_append_left (by omega), List.getElem?_append_right (by omega), l1,
      Nat.add_sub_cancel_left, hx]
  · rw [List.getElem?_append_left (by omega), List.getElem?_append_right (by omega), l2, Nat.sub_self]
    rfl
  · rw [List.getElem?_append_right (by omega), l3, Nat.add_sub_cancel_left, hx]

end Verif.Latt
