import Verif.Model.LineText
import Verif.Spec.LineText
import Verif.Proofs.Text
import Mathlib.Tactic.Linarith
import Mathlib.Tactic.LinearCombination
import Mathlib.Tactic.FieldSimp
import Mathlib.Tactic.Positivity
/-! Lemmas about the texts of lines. -/

namespace Verif
open Spec Classical

theorem nearestEven_near (x : ℝ) : |(nearestEven x : ℝ) - x| ≤ 1 / 2 := by
  have h0 := Int.floor_le x
  have h1 := Int.lt_floor_add_one x
  unfold nearestEven
  split
  · rw [abs_le]; constructor <;> linarith
  · split
    · push_cast; rw [abs_le]; constructor <;> linarith
    · split
      · rw [abs_le]; constructor <;> linarith
      · push_cast; rw [abs_le]; constructor <;> linarith

theorem nearestEven_nonneg {x : ℝ} (h : 0 ≤ x) : 0 ≤ nearestEven x := by
  have := Int.floor_nonneg.mpr h
  unfold nearestEven
  split
  · exact this
  · split
    · omega
    · split <;> omega

theorem digitsValue_decNat (n : ℕ) : digitsValue (decNat n) = n :=
  Nat.ofDigitChars_toDigits (b := 10) (n := n) (by decide) (by decide)

theorem digitChar_isDigit {n : ℕ} (h : n < 10) : (Nat.digitChar n).isDigit = true := by
  interval_cases n <;> decide

theorem digitsValue_four {a b c d : ℕ} (ha : a < 10) (hb : b < 10) (hc : c < 10) (hd : d < 10) :
    digitsValue [Nat.digitChar a, Nat.digitChar b, Nat.digitChar c, Nat.digitChar d] =
      1000 * a + 100 * b + 10 * c + d := by
  have e : ∀ n, n < 10 → (Nat.digitChar n).toNat - 48 = n := by
    intro n hn; interval_cases n <;> decide
  simp only [digitsValue, List.foldl_cons, List.foldl_nil, Char.reduceToNat, e a ha, e b hb, e c hc, e d hd]
  omega

theorem writes_fixed4 (x : ℝ) : ∃ v, Writes (fixed4 x) v ∧ |v - x| ≤ 1 / 20000 := by
  have h0 : 0 ≤ |x| * 10000 := by positivity
  have h1 := nearestEven_near (|x| * 10000)
  have h2 := nearestEven_nonneg h0
  obtain ⟨k, hk⟩ := Int.eq_ofNat_of_zero_le h2
  refine ⟨(if decide (x < 0) then -1 else 1) * ((k : ℝ) / 10000),
    ⟨decide (x < 0), decNat (k / 10000), [Nat.digitChar (k / 1000 % 10), Nat.digitChar (k / 100 % 10),
      Nat.digitChar (k / 10 % 10), Nat.digitChar (k % 10)], decNat_ne_nil _, decNat_isDigit _, ?_, rfl, ?_, ?_⟩, ?_⟩
  · intro c hc
    simp only [List.mem_cons, List.not_mem_nil, or_false] at hc
    rcases hc with rfl | rfl | rfl | rfl <;> exact digitChar_isDigit (Nat.mod_lt _ (by decide))
  · unfold fixed4
    rw [hk]
    simp
  · rw [digitsValue_decNat, digitsValue_four (Nat.mod_lt _ (by decide)) (Nat.mod_lt _ (by decide))
      (Nat.mod_lt _ (by decide)) (Nat.mod_lt _ (by decide))]
    have e : k = 10000 * (k / 10000) + (1000 * (k / 1000 % 10) + 100 * (k / 100 % 10) + 10 * (k / 10 % 10) + k % 10) := by
      omega
    have e2 : (k : ℝ) = 10000 * ((k / 10000 : ℕ) : ℝ) + ((1000 * (k / 1000 % 10) + 100 * (k / 100 % 10) + 10 * (k / 10 % 10) + k % 10 : ℕ) : ℝ) := by
      exact_mod_cast e
    rw [e2]
    have e3 : ((10000 * (k / 10000) + (1000 * (k / 1000 % 10) + 100 * (k / 100 % 10) + 10 * (k / 10 % 10) + k % 10) : ℕ) : ℝ) / 10000 = ((k / 10000 : ℕ) : ℝ) + ((1000 * (k / 1000 % 10) + 100 * (k / 100 % 10) + 10 * (k / 10 % 10) + k % 10 : ℕ) : ℝ) / 10000 := by
      push_cast; ring
    congr 1
    field_simp
  · rw [hk] at h1
    push_cast at h1
    rw [abs_le] at h1 ⊢
    by_cases hx : x < 0
    · rw [abs_of_neg hx] at h1
      simp only [hx, decide_true, if_true]
      constructor <;> linarith
    · rw [abs_of_nonneg (not_lt.mp hx)] at h1
      simp only [hx, decide_false, Bool.false_eq_true, if_false]
      constructor <;> linarith

theorem writes_num {t : Txt} {v : ℝ} (h : Writes t v) : ∀ c ∈ t, NumChar c := by
  obtain ⟨neg, ip, fp, -, h1, h2, -, rfl, -⟩ := h
  have dig : ∀ c : Char, c.isDigit = true → NumChar c := by
    intro c hc
    have := isDigit_mem hc
    unfold NumChar
    simp at this ⊢
    tauto
  intro c hc
  simp only [List.mem_append, List.mem_cons] at hc
  rcases hc with (hc | hc) | hc | hc
  · cases neg
    · simp at hc
    · simp only [if_true, List.mem_cons, List.not_mem_nil, or_false] at hc
      subst hc; unfold NumChar; decide
  · exact dig c (h1 c hc)
  · subst hc; unfold NumChar; decide
  · exact dig c (h2 c hc)

theorem writes_unique {t : Txt} {v w : ℝ} (h : Writes t v) (h' : Writes t w) : v = w := by
  obtain ⟨neg, ip, fp, h0, h1, h2, -, rfl, rfl⟩ := h
  obtain ⟨neg', ip', fp', h0', h1', h2', -, he, rfl⟩ := h'
  have hd : ¬ ('.'.isDigit = true) := by decide
  have hm : ¬ ('-'.isDigit = true) := by decide
  cases neg <;> cases neg' <;>
    simp only [if_true, Bool.false_eq_true, if_false, List.nil_append, List.cons_append, List.cons.injEq,
      true_and] at he ⊢
  · obtain ⟨rfl, -, rfl⟩ := span_unique (p := fun c => c.isDigit = true) h1 h1' hd hd he; rfl
  · exfalso
    cases ip with
    | nil => exact h0 rfl
    | cons c ip =>
      simp only [List.cons_append, List.cons.injEq] at he
      exact hm (he.1 ▸ h1 c (by simp))
  · exfalso
    cases ip' with
    | nil => exact h0' rfl
    | cons c ip =>
      simp only [List.cons_append, List.cons.injEq] at he
      exact hm (he.1 ▸ h1' c (by simp))
  · obtain ⟨rfl, -, rfl⟩ := span_unique (p := fun c => c.isDigit = true) h1 h1' hd hd he; rfl

end Verif
