import Verif.Spec.Order
import Verif.Model.Particle
import Mathlib.Order.Defs.LinearOrder
import Mathlib.Data.List.Lex
import Mathlib.Data.Prod.Lex
import Mathlib.Data.Sum.Order
/-! The comparison methods are pulled back from linear orders. -/

set_option linter.unusedSimpArgs false

namespace Verif
open Spec

/-- the six comparisons of a linear order -/
def linRich {β : Type _} [LinearOrder β] (op : CmpOp) (x y : β) : Bool :=
  match op with
  | .lt => decide (x < y)
  | .le => decide (x ≤ y)
  | .eq => decide (x = y)
  | .ne => decide (x ≠ y)
  | .gt => decide (y < x)
  | .ge => decide (y ≤ x)

theorem isTotalOrder_of_key {α β : Type _} [LinearOrder β] (key : α → β)
    (rich : CmpOp → α → α → Bool) (h : ∀ op a b, rich op a b = linRich op (key a) (key b)) :
    IsTotalOrder rich where
  trichotomy a b := by
    simp only [h, linRich, decide_eq_true_eq, decide_eq_false_iff_not, not_lt]
    rcases lt_trichotomy (key a) (key b) with h | h | h
    · exact .inl ⟨h, ne_of_lt h, le_of_lt h⟩
    · exact .inr (.inl ⟨ge_of_eq h, h, le_of_eq h⟩)
    · exact .inr (.inr ⟨le_of_lt h, ne_of_gt h, h⟩)
  lt_trans a b c := by simp only [h, linRich, decide_eq_true_eq]; exact lt_trans
  gt_iff a b := by simp only [h, linRich]
  le_iff a b := by simp [h, linRich, le_iff_lt_or_eq]
  ge_iff a b := by simp [h, linRich, le_iff_lt_or_eq, @eq_comm _ (key b)]
  ne_iff a b := by simp [h, linRich]
  eq_refl a := by simp [h, linRich]
  eq_symm a b := by simp only [h, linRich, decide_eq_true_eq]; exact Eq.symm
  eq_trans a b c := by simp only [h, linRich, decide_eq_true_eq]; exact Eq.trans
  congr a a' b op := by
    intro he
    simp only [h, linRich, decide_eq_true_eq] at he
    simp only [h, he]

theorem int_rich (op : CmpOp) (a b : ℤ) : op.int a b = linRich op a b := by
  cases op <;> rfl

theorem tupleRich_eq (op : CmpOp) : ∀ a b : List ℤ, tupleRich op a b = linRich op a b
  | [], [] => by cases op <;> rfl
  | [], b :: bs => by
    have h : ([] : List ℤ) < b :: bs := by simp
    cases op <;> simp [tupleRich, CmpOp.int, linRich, h, h.le, not_le_of_gt h] <;> omega
  | a :: as, [] => by
    have h : ([] : List ℤ) < a :: as := by simp
    cases op <;> simp [tupleRich, CmpOp.int, linRich, h, h.le, not_le_of_gt h] <;> omega
  | a :: as, b :: bs => by
    have ih := tupleRich_eq op as bs
    unfold tupleRich
    by_cases hab : a = b
    · subst hab
      rw [if_pos rfl, ih]
      cases op <;> simp [linRich, List.cons_lt_cons_iff, ← not_lt]
    · have hba : ¬ b = a := fun h => hab h.symm
      rw [if_neg hab]
      cases op <;> simp [linRich, CmpOp.int, List.cons_lt_cons_iff, List.cons_le_cons_iff, hab, hba,
        le_iff_lt_or_eq]

/-- linear-order key of a StateID -/
def stateKey (s : StateID) : List ℤ ×ₗ (ℕ ×ₗ ℕ) := toLex (s.siteTuple, toLex (s.spin, s.orbit))

theorem stateKey_eq_iff (a b : StateID) : stateKey a = stateKey b ↔ a.hashKey = b.hashKey := by
  simp [stateKey, StateID.hashKey]

theorem stateRich_eq (op : CmpOp) (a b : StateID) :
    a.rich op b = linRich op (stateKey a) (stateKey b) := by
  unfold StateID.rich
  by_cases h1 : a.siteTuple = b.siteTuple
  · rw [if_neg (by simp [h1])]
    by_cases h2 : a.spin = b.spin
    · rw [if_neg (by simp [h2])]
      by_cases h3 : a.orbit = b.orbit
      · rw [if_neg (by simp [h3])]
        have : stateKey a = stateKey b := by simp [stateKey, h1, h2, h3]
        cases op <;> simp [CmpOp.int, linRich, this]
      · rw [if_pos h3]
        have h3' : ¬ b.orbit = a.orbit := fun h => h3 h.symm
        cases op <;> simp [linRich, CmpOp.int, stateKey, Prod.Lex.toLex_lt_toLex,
          Prod.Lex.toLex_le_toLex, h1, h2, h3, h3']
    · rw [if_pos h2]
      have h2' : ¬ b.spin = a.spin := fun h => h2 h.symm
      cases op <;> simp [linRich, CmpOp.int, stateKey, Prod.Lex.toLex_lt_toLex,
          Prod.Lex.toLex_le_toLex, h1, h2, h2', le_iff_lt_or_eq]
  · rw [if_pos h1, tupleRich_eq]
    have h1' : ¬ b.siteTuple = a.siteTuple := fun h => h1 h.symm
    cases op <;> simp [linRich, stateKey, Prod.Lex.toLex_lt_toLex,
          Prod.Lex.toLex_le_toLex, h1, h1', le_iff_lt_or_eq]

theorem siteRich_eq (op : CmpOp) (a b : SiteID) : a.rich op b = linRich op a.tuple b.tuple :=
  tupleRich_eq op _ _

instance : LawfulPyObj StateID where
  inst_self _ := rfl
  eq_refl a := by simp [PyObj.eq, stateRich_eq, linRich]
  eq_symm a b := by simp only [PyObj.eq, stateRich_eq, linRich, decide_eq_true_eq]; exact Eq.symm
  eq_trans a b c := by
    simp only [PyObj.eq, stateRich_eq, linRich, decide_eq_true_eq]; exact Eq.trans

instance : LawfulPyObj SiteID where
  inst_self _ := rfl
  eq_refl a := by simp [PyObj.eq, siteRich_eq, linRich]
  eq_symm a b := by simp only [PyObj.eq, siteRich_eq, linRich, decide_eq_true_eq]; exact Eq.symm
  eq_trans a b c := by
    simp only [PyObj.eq, siteRich_eq, linRich, decide_eq_true_eq]; exact Eq.trans

instance : LawfulPyObj AnyID where
  inst_self a := by cases a <;> rfl
  eq_refl a := by cases a <;> simp [PyObj.eq, siteRich_eq, stateRich_eq, linRich]
  eq_symm a b := by
    cases a <;> cases b <;>
      simp only [PyObj.eq, siteRich_eq, stateRich_eq, linRich, decide_eq_true_eq,
        Bool.false_eq_true, imp_self] <;> exact Eq.symm
  eq_trans a b c := by
    cases a <;> cases b <;> cases c <;>
      simp only [PyObj.eq, siteRich_eq, stateRich_eq, linRich, decide_eq_true_eq,
        Bool.false_eq_true, imp_self, false_implies, implies_true] <;> exact Eq.trans

/-- linear-order key of an AoC: creators first, ascending; annihilators after, descending -/
def aocKey (a : AoC) : (List ℤ ×ₗ (ℕ ×ₗ ℕ)) ⊕ₗ (List ℤ ×ₗ (ℕ ×ₗ ℕ))ᵒᵈ :=
  match a.otype with
  | .creation => Sum.inlₗ (stateKey a.state)
  | .annihilation => Sum.inrₗ (OrderDual.toDual (stateKey a.state))

end Verif
