import Verif.Spec.Text
import Verif.Proofs.PyLemmas
import Mathlib.Data.List.Basic
import Mathlib.Tactic.IntervalCases
import Mathlib.Tactic.Tauto
/-! Lemmas about texts. -/

namespace Verif
open Spec

/-- number characters -/
def NumChar (c : Char) : Prop := c ∈ "0123456789+-.einfa".toList

theorem span_unique {p : Char → Prop} : ∀ {a a' : Txt} {s s' : Char} {r r' : Txt},
    (∀ c ∈ a, p c) → (∀ c ∈ a', p c) → ¬ p s → ¬ p s' → a ++ s :: r = a' ++ s' :: r' →
    a = a' ∧ s = s' ∧ r = r' := by
  intro a
  induction a with
  | nil =>
    intro a' s s' r r' _ h2 h3 h4 h
    cases a' with
    | nil => simpa using h
    | cons x a' =>
      simp only [List.nil_append, List.cons_append, List.cons.injEq] at h
      exact absurd (h.1 ▸ h2 x (by simp)) h3
  | cons x a ih =>
    intro a' s s' r r' h1 h2 h3 h4 h
    cases a' with
    | nil =>
      simp only [List.nil_append, List.cons_append, List.cons.injEq] at h
      exact absurd (h.1 ▸ h1 x (by simp)) h4
    | cons y a' =>
      simp only [List.cons_append, List.cons.injEq] at h
      obtain ⟨h5, h6, h7⟩ := ih (fun c hc => h1 c (by simp [hc])) (fun c hc => h2 c (by simp [hc]))
        h3 h4 h.2
      exact ⟨by rw [h.1, h5], h6, h7⟩

theorem decNat_inj {a b : ℕ} (h : decNat a = decNat b) : a = b := by
  have h1 := Nat.ofDigitChars_toDigits (b := 10) (n := a) (by decide) (by decide)
  have h2 := Nat.ofDigitChars_toDigits (b := 10) (n := b) (by decide) (by decide)
  unfold decNat at h
  rw [h, h2] at h1
  exact h1.symm

theorem decNat_isDigit (n : ℕ) : ∀ c ∈ decNat n, c.isDigit = true :=
  fun _ hc => Nat.isDigit_of_mem_toDigits (by decide) (by decide) hc

theorem isDigit_mem {c : Char} (h : c.isDigit = true) : c ∈ "0123456789".toList := by
  have h1 : 48 ≤ c.toNat ∧ c.toNat ≤ 57 := by
    simp only [Char.isDigit, Bool.and_eq_true, decide_eq_true_eq] at h
    exact ⟨h.1, h.2⟩
  have h2 : c = Char.ofNat c.toNat := (Char.ofNat_toNat c).symm
  obtain ⟨h3, h4⟩ := h1
  rw [h2]
  generalize c.toNat = n at h3 h4
  interval_cases n <;> decide

theorem decNat_ne_nil (n : ℕ) : decNat n ≠ [] := by
  intro h
  have h0 : decNat n = decNat n := rfl
  have h2 := Nat.ofDigitChars_toDigits (b := 10) (n := n) (by decide) (by decide)
  unfold decNat at h
  rw [h] at h2
  have hn : n = 0 := by rw [← h2]; rfl
  subst hn
  exact absurd h (by decide)

theorem decNat_num (n : ℕ) : ∀ c ∈ decNat n, NumChar c := by
  intro c hc
  have := isDigit_mem (decNat_isDigit n c hc)
  unfold NumChar
  simp at this ⊢
  tauto

theorem decInt_num (n : ℤ) : ∀ c ∈ decInt n, NumChar c := by
  intro c hc
  unfold decInt at hc
  split at hc
  · rcases List.mem_cons.mp hc with rfl | hc
    · unfold NumChar; decide
    · exact decNat_num _ c hc
  · exact decNat_num _ c hc

theorem decInt_inj {a b : ℤ} (h : decInt a = decInt b) : a = b := by
  unfold decInt at h
  have key : ∀ n m : ℕ, '-' :: decNat n ≠ decNat m := by
    intro n m h
    have := decNat_isDigit m '-' (by rw [← h]; simp)
    exact absurd this (by decide)
  split at h <;> split at h
  · injection h with _ h
    have := decNat_inj h; omega
  · exact absurd h (key _ _)
  · exact absurd h.symm (key _ _)
  · have := decNat_inj h; omega

theorem decInt_int (n : ℤ) : ∀ c ∈ decInt n, c.isDigit = true ∨ c = '-' := by
  intro c hc
  unfold decInt at hc
  split at hc
  · rcases List.mem_cons.mp hc with rfl | hc
    · exact .inr rfl
    · exact .inl (decNat_isDigit _ c hc)
  · exact .inl (decNat_isDigit _ c hc)

variable {ft : F64 → Txt}

theorem coordText_num (hft : FloatText ft) (c : Coord) : ∀ x ∈ c.text ft, NumChar x := by
  cases c with
  | int n => exact decInt_num n
  | flt x => exact hft.chars x

theorem coordText_inj (hft : FloatText ft) {c d : Coord} (h : c.text ft = d.text ft) : c = d := by
  have key : ∀ n x, decInt n ≠ ft x := by
    intro n x h
    obtain ⟨c, hc, h1, h2⟩ := hft.notInt x
    rw [← h] at hc
    rcases decInt_int n c hc with h3 | h3
    · rw [h1] at h3; cases h3
    · exact h2 h3
  cases c <;> cases d <;> simp only [Coord.text] at h
  · rw [decInt_inj h]
  · exact absurd h (key _ _)
  · exact absurd h.symm (key _ _)
  · rw [hft.inj _ _ h]

theorem not_num (c : Char) (h : c ∉ "0123456789+-.einfa".toList := by decide) : ¬ NumChar c := h

theorem pyJoin_cons (sep a : Txt) (l : List Txt) (h : l ≠ []) :
    pyJoin sep (a :: l) = a ++ sep ++ pyJoin sep l := by
  cases l with
  | nil => exact absurd rfl h
  | cons b l => rfl

/-- joined number texts up to a closing parenthesis -/
theorem joinNum_inj (hft : FloatText ft) (s : Char) (sep : Txt) (hs : s ≠ ')') (hsn : ¬ NumChar s) :
    ∀ (l l' : List Coord) (r r' : Txt), l ≠ [] → l' ≠ [] →
    pyJoin (s :: sep) (l.map (Coord.text ft)) ++ ')' :: r =
      pyJoin (s :: sep) (l'.map (Coord.text ft)) ++ ')' :: r' → l = l' ∧ r = r' := by
  intro l
  induction l with
  | nil => intro l' r r' h; exact absurd rfl h
  | cons a l ih =>
    intro l' r r' _ h2 h
    cases l' with
    | nil => exact absurd rfl h2
    | cons a' l' =>
      have key : ∀ (b : Coord) (t : List Coord) (q : Txt), ∃ (s' : Char) (q' : Txt),
          pyJoin (s :: sep) ((b :: t).map (Coord.text ft)) ++ ')' :: q = b.text ft ++ s' :: q' ∧ ¬ NumChar s' ∧
          ((t = [] ∧ s' = ')' ∧ q' = q) ∨ (t ≠ [] ∧ s' = s ∧
            q' = sep ++ (pyJoin (s :: sep) (t.map (Coord.text ft)) ++ ')' :: q))) := by
        intro b t q
        cases t with
        | nil => exact ⟨')', q, rfl, not_num _, .inl ⟨rfl, rfl, rfl⟩⟩
        | cons c t =>
          refine ⟨s, _, ?_, hsn, .inr ⟨by simp, rfl, rfl⟩⟩
          simp [pyJoin, List.append_assoc]
      obtain ⟨s1, q1, e1, n1, c1⟩ := key a l r
      obtain ⟨s2, q2, e2, n2, c2⟩ := key a' l' r'
      rw [e1, e2] at h
      obtain ⟨h3, h4, h5⟩ := span_unique (coordText_num hft a) (coordText_num hft a') n1 n2 h
      have h3 := coordText_inj hft h3
      rcases c1 with ⟨rfl, rfl, rfl⟩ | ⟨hl, rfl, rfl⟩ <;> rcases c2 with ⟨rfl, rfl, rfl⟩ | ⟨hl', rfl, rfl⟩
      · exact ⟨by rw [h3], h5⟩
      · exact absurd h4.symm hs
      · exact absurd h4 hs
      · have h6 := List.append_cancel_left h5
        obtain ⟨h7, h8⟩ := ih l' r r' hl hl' h6
        exact ⟨by rw [h3, h7], h8⟩

theorem tupleText_inj (hft : FloatText ft) {l l' : List Coord} {r r' : Txt}
    (hl : l ≠ []) (hl' : l' ≠ []) (h : tupleText ft l ++ r = tupleText ft l' ++ r') : l = l' ∧ r = r' := by
  have key : ∀ (a b c : Coord) (t : List Coord) (r r' : Txt),
      tupleText ft [a] ++ r ≠ tupleText ft (b :: c :: t) ++ r' := by
    intro a b c t r r' h
    have h : a.text ft ++ ',' :: (')' :: r) = b.text ft ++ ',' :: (' ' ::
        (pyJoin ", ".toList ((c :: t).map (Coord.text ft)) ++ ')' :: r')) := by
      simpa [tupleText, pyJoin] using h
    obtain ⟨-, -, h3⟩ := span_unique (coordText_num hft a) (coordText_num hft b) (not_num _) (not_num _) h
    injection h3 with h3
    exact absurd h3 (by decide)
  match l, l', hl, hl' with
  | [a], [b], _, _ =>
    have h : a.text ft ++ ',' :: (')' :: r) = b.text ft ++ ',' :: (')' :: r') := by
      simpa [tupleText] using h
    obtain ⟨h1, -, h3⟩ := span_unique (coordText_num hft a) (coordText_num hft b) (not_num _) (not_num _) h
    injection h3 with _ h3
    exact ⟨by rw [coordText_inj hft h1], h3⟩
  | [a], b :: c :: t, _, _ => exact absurd h (key a b c t r r')
  | b :: c :: t, [a], _, _ => exact absurd h.symm (key a b c t r' r)
  | a :: b :: t, a' :: b' :: t', _, _ =>
    have h : pyJoin ", ".toList ((a :: b :: t).map (Coord.text ft)) ++ ')' :: r =
        pyJoin ", ".toList ((a' :: b' :: t').map (Coord.text ft)) ++ ')' :: r' := by
      simpa [tupleText] using h
    exact joinNum_inj hft ',' [' '] (by decide) (not_num _) _ _ _ _ (by simp) (by simp) h

/-- joining with a separator character that does not occur in the parts -/
theorem pyJoin_inj (s : Char) : ∀ (l l' : List Txt), l ≠ [] → l' ≠ [] → (∀ t ∈ l, s ∉ t) → (∀ t ∈ l', s ∉ t) →
    pyJoin [s] l = pyJoin [s] l' → l = l' := by
  intro l
  induction l with
  | nil => intro l' h; exact absurd rfl h
  | cons a l ih =>
    intro l' _ h2 h3 h4 h
    cases l' with
    | nil => exact absurd rfl h2
    | cons a' l' =>
      have ha : ∀ c ∈ a, c ≠ s := fun c hc hcs => h3 a (by simp) (hcs ▸ hc)
      have ha' : ∀ c ∈ a', c ≠ s := fun c hc hcs => h4 a' (by simp) (hcs ▸ hc)
      by_cases hl : l = []
      · subst hl
        by_cases hl' : l' = []
        · subst hl'; exact congrArg (fun x => [x]) h
        · rw [pyJoin_cons _ _ _ hl'] at h
          exact absurd rfl (ha s (by rw [show a = _ from h]; simp))
      · by_cases hl' : l' = []
        · subst hl'
          rw [pyJoin_cons _ _ _ hl] at h
          exact absurd rfl (ha' s (by rw [show a' = _ from h.symm]; simp))
        · rw [pyJoin_cons _ _ _ hl, pyJoin_cons _ _ _ hl', List.append_assoc, List.append_assoc] at h
          obtain ⟨h5, -, h6⟩ := span_unique (p := fun c => c ≠ s) ha ha' (by simp) (by simp) h
          rw [h5, ih l' hl hl' (fun t ht => h3 t (by simp [ht])) (fun t ht => h4 t (by simp [ht])) h6]

theorem not_mem_pyJoin {x : Char} {sep : Txt} (hs : x ∉ sep) : ∀ {l : List Txt}, (∀ t ∈ l, x ∉ t) → x ∉ pyJoin sep l
  | [], _ => by simp [pyJoin]
  | [a], h => h a (by simp)
  | a :: b :: l, h => by
    have := not_mem_pyJoin hs (l := b :: l) (fun t ht => h t (by simp [ht]))
    simp only [pyJoin, List.mem_append, not_or]
    exact ⟨⟨h a (by simp), hs⟩, this⟩

theorem not_mem_num {x : Char} {t : Txt} (ht : ∀ c ∈ t, NumChar c)
    (hx : x ∉ "0123456789+-.einfa".toList) : x ∉ t := fun h => hx (ht x h)

theorem not_mem_tupleText (hft : FloatText ft) (x : Char) (hx : x ∉ "0123456789+-.einfa(), ".toList) (l : List Coord) :
    x ∉ tupleText ft l := by
  have hx1 : x ∉ "0123456789+-.einfa".toList := by
    intro h; apply hx; simp at h ⊢; tauto
  have hx2 : x ≠ '(' ∧ x ≠ ')' ∧ x ≠ ',' ∧ x ≠ ' ' := by
    refine ⟨?_, ?_, ?_, ?_⟩ <;> rintro rfl <;> exact hx (by decide)
  obtain ⟨h1, h2, h3, h4⟩ := hx2
  unfold tupleText
  split
  · rename_i a
    have := not_mem_num (coordText_num hft a) hx1
    simp [this, h1, h2, h3]
  · have hj : x ∉ pyJoin ", ".toList (l.map (Coord.text ft)) := by
      apply not_mem_pyJoin
      · simp [h3, h4]
      · intro t ht
        obtain ⟨c, -, rfl⟩ := List.mem_map.mp ht
        exact not_mem_num (coordText_num hft c) hx1
    rw [List.mem_append, List.mem_append, not_or, not_or]
    exact ⟨⟨by simp [h1], hj⟩, by simp [h2]⟩

end Verif
