import Verif.Model.Printed
import Verif.Proofs.Text
/-! Lemmas about the printed forms of spaces, bonds and tables. -/

namespace Verif
open Spec

variable {ft : F64 → Txt}

theorem statesText_eq (ft : F64 → Txt) (l : List ℕ) :
    statesText l = tupleText ft (l.map fun n : ℕ => Coord.int n) := by
  have h : ∀ l : List ℕ, (l.map fun n : ℕ => Coord.int n).map (Coord.text fun _ => []) =
      (l.map fun n : ℕ => Coord.int n).map (Coord.text ft) := by
    intro l; simp [Coord.text]
  unfold statesText
  match l with
  | [] => rfl
  | [a] => rfl
  | a :: b :: l =>
    have := h (a :: b :: l)
    simp only [List.map_cons] at this
    simp only [List.map_cons, tupleText, this]

theorem ints_inj {l l' : List ℕ} (h : l.map (fun n : ℕ => Coord.int n) = l'.map fun n : ℕ => Coord.int n) :
    l = l' := by
  refine List.map_injective_iff.2 (fun a b hab => ?_) h
  simpa using hab

theorem statesText_inj (hft : FloatText ft) {l l' : List ℕ} {r r' : Txt} (hl : l ≠ []) (hl' : l' ≠ [])
    (h : statesText l ++ r = statesText l' ++ r') : l = l' ∧ r = r' := by
  rw [statesText_eq ft, statesText_eq ft] at h
  obtain ⟨h1, h2⟩ := tupleText_inj hft (by simpa using hl) (by simpa using hl') h
  exact ⟨ints_inj h1, h2⟩

/-- a number as a coordinate -/
def HNum.coord : HNum → Coord
  | .int n => .int n
  | .float q => .flt (.fin q)

theorem HNum.text_eq (ft : F64 → Txt) (n : HNum) : n.text ft = n.coord.text ft := by cases n <;> rfl

theorem HNum.coord_inj {a b : HNum} (h : a.coord = b.coord) : a = b := by
  cases a <;> cases b <;> simp_all [HNum.coord]

theorem specifierText_inj (hft : FloatText ft) {s s' : List ℕ × HNum} {r r' : Txt} (hs : s.1 ≠ []) (hs' : s'.1 ≠ [])
    (h : specifierText ft s ++ r = specifierText ft s' ++ r') : s = s' ∧ r = r' := by
  unfold specifierText at h
  simp only [List.append_assoc] at h
  obtain ⟨h1, h2⟩ := statesText_inj hft hs hs' (List.append_cancel_left h)
  have h2 := List.append_cancel_left h2
  rw [HNum.text_eq, HNum.text_eq] at h2
  obtain ⟨h3, -, h4⟩ := span_unique (coordText_num hft _) (coordText_num hft _) (not_num ')') (not_num ')') h2
  exact ⟨Prod.ext h1 (HNum.coord_inj (coordText_inj hft h3)), h4⟩

theorem specifierText_cons (s : List ℕ × HNum) : ∃ q, specifierText ft s = '(' :: q := ⟨_, rfl⟩

theorem joinSpec_inj (hft : FloatText ft) : ∀ (l l' : List (List ℕ × HNum)), (∀ s ∈ l, s.1 ≠ []) → (∀ s ∈ l', s.1 ≠ []) →
    pyJoin ", ".toList (l.map (specifierText ft)) ++ ")".toList =
      pyJoin ", ".toList (l'.map (specifierText ft)) ++ ")".toList → l = l' := by
  have rest : ∀ (s : List ℕ × HNum) (l : List (List ℕ × HNum)),
      pyJoin ", ".toList ((s :: l).map (specifierText ft)) ++ ")".toList = specifierText ft s ++
        (if l = [] then ")".toList else ", ".toList ++ (pyJoin ", ".toList (l.map (specifierText ft)) ++ ")".toList)) := by
    intro s l
    cases l with
    | nil => simp [pyJoin]
    | cons a l => simp [pyJoin, List.append_assoc]
  intro l
  induction l with
  | nil =>
    intro l' _ _ h
    cases l' with
    | nil => rfl
    | cons s l' =>
      rw [rest] at h
      obtain ⟨q, hq⟩ := specifierText_cons (ft := ft) s
      rw [hq] at h
      simp [pyJoin] at h
  | cons s l ih =>
    intro l' h1 h2 h
    cases l' with
    | nil =>
      rw [rest] at h
      obtain ⟨q, hq⟩ := specifierText_cons (ft := ft) s
      rw [hq] at h
      simp [pyJoin] at h
    | cons s' l' =>
      rw [rest, rest] at h
      obtain ⟨e, h3⟩ := specifierText_inj hft (h1 s (by simp)) (h2 s' (by simp)) h
      by_cases hl : l = []
      · by_cases hl' : l' = []
        · rw [e, hl, hl']
        · rw [if_pos hl, if_neg hl'] at h3
          simp at h3
      · by_cases hl' : l' = []
        · rw [if_neg hl, if_pos hl'] at h3
          simp at h3
        · rw [if_neg hl, if_neg hl'] at h3
          rw [e, ih l' (fun t ht => h1 t (by simp [ht])) (fun t ht => h2 t (by simp [ht])) (List.append_cancel_left h3)]

theorem newline_states (hft : FloatText ft) (l : List ℕ) : '\n' ∉ statesText l := by
  rw [statesText_eq ft]
  exact not_mem_tupleText hft _ (by decide) _

theorem newline_specifier (hft : FloatText ft) (s : List ℕ × HNum) : '\n' ∉ specifierText ft s := by
  unfold specifierText
  simp only [List.mem_append, not_or]
  refine ⟨⟨⟨⟨by decide, newline_states hft _⟩, by decide⟩, ?_⟩, by decide⟩
  rw [HNum.text_eq]
  exact not_mem_num (coordText_num hft _) (by decide)

theorem NpVec.entries_inj {a b : NpVec} (ha : a.len ≠ 0) (h : a.entries = b.entries) : a = b := by
  cases a <;> cases b
  · simp only [NpVec.entries] at h
    rw [List.map_injective_iff.2 (fun a b hab => by simpa using hab) h]
  · rename_i l l'
    cases l with
    | nil => simp [NpVec.len] at ha
    | cons x l => cases l' <;> simp [NpVec.entries] at h
  · rename_i l l'
    cases l with
    | nil => simp [NpVec.len] at ha
    | cons x l => cases l' <;> simp [NpVec.entries] at h
  · simp only [NpVec.entries] at h
    rw [List.map_injective_iff.2 (fun a b hab => by simpa using hab) h]

theorem NpVec.entries_ne_nil {a : NpVec} (ha : a.len ≠ 0) : a.entries ≠ [] := by
  cases a <;> rename_i l <;> cases l <;> simp_all [NpVec.entries, NpVec.len]

theorem newline_repr (hft : FloatText ft) (o : AnyObj) : '\n' ∉ o.repr ft := by
  have t : ∀ l, '\n' ∉ tupleText ft l := fun l => not_mem_tupleText hft _ (by decide) l
  have n : ∀ k, '\n' ∉ decNat k := fun k => not_mem_num (decNat_num k) (by decide)
  cases o with
  | site s =>
    change '\n' ∉ SiteID.repr ft s
    unfold SiteID.repr
    simp only [List.mem_append, not_or]
    exact ⟨⟨by decide, t _⟩, by decide⟩
  | state s =>
    change '\n' ∉ StateID.repr ft s
    unfold StateID.repr
    simp only [List.mem_append, not_or]
    exact ⟨⟨⟨⟨⟨⟨by decide, t _⟩, by decide⟩, n _⟩, by decide⟩, n _⟩, by decide⟩
  | aoc a =>
    change '\n' ∉ AoC.repr ft a
    unfold AoC.repr
    simp only [List.mem_append, not_or]
    refine ⟨⟨⟨⟨⟨⟨⟨⟨by decide, ?_⟩, by decide⟩, t _⟩, by decide⟩, n _⟩, by decide⟩, n _⟩, by decide⟩
    cases a.otype <;> decide
  | number s =>
    change '\n' ∉ NumberOperator.repr ft s
    unfold NumberOperator.repr
    simp only [List.mem_append, not_or]
    exact ⟨⟨⟨⟨⟨⟨by decide, t _⟩, by decide⟩, n _⟩, by decide⟩, n _⟩, by decide⟩
  | spin s =>
    change '\n' ∉ SpinOperator.repr ft s
    unfold SpinOperator.repr
    simp only [List.mem_append, not_or]
    refine ⟨⟨⟨⟨by decide, ?_⟩, by decide⟩, t _⟩, by decide⟩
    cases s.otype <;> decide

/-- an `repr` starts with a letter that is neither part of an int nor a space -/
theorem repr_head (ft : F64 → Txt) (o : AnyObj) : ∃ c q, o.repr ft = c :: q ∧ c.isDigit = false ∧ c ≠ '-' ∧ c ≠ ' ' := by
  cases o <;> exact ⟨_, _, rfl, by decide, by decide, by decide⟩

theorem padded_inj {i j : ℤ} {c d : Char} {q r : Txt} (hc : c.isDigit = false ∧ c ≠ '-' ∧ c ≠ ' ')
    (hd : d.isDigit = false ∧ d ≠ '-' ∧ d ≠ ' ') (h : padRight 8 (decInt i) ++ c :: q = padRight 8 (decInt j) ++ d :: r) :
    i = j ∧ c :: q = d :: r := by
  unfold padRight at h
  have hp : ∀ i : ℤ, ∀ x ∈ decInt i ++ List.replicate (8 - (decInt i).length) ' ',
      x.isDigit = true ∨ x = '-' ∨ x = ' ' := by
    intro i x hx
    rcases List.mem_append.1 hx with hx | hx
    · rcases decInt_int i x hx with h | h
      · exact .inl h
      · exact .inr (.inl h)
    · exact .inr (.inr (List.eq_of_mem_replicate hx))
  have hn : ∀ c : Char, c.isDigit = false ∧ c ≠ '-' ∧ c ≠ ' ' → ¬ (c.isDigit = true ∨ c = '-' ∨ c = ' ') := by
    rintro c ⟨h1, h2, h3⟩ (h | h | h)
    · rw [h1] at h; cases h
    · exact h2 h
    · exact h3 h
  obtain ⟨h1, h2, h3⟩ := span_unique (p := fun x => x.isDigit = true ∨ x = '-' ∨ x = ' ') (hp i) (hp j) (hn c hc) (hn d hd) h
  refine ⟨decInt_inj ?_, by rw [h2, h3]⟩
  have e : ∀ i : ℤ, (decInt i ++ List.replicate (8 - (decInt i).length) ' ').filter (fun x => x != ' ') = decInt i := by
    intro i
    rw [List.filter_append, List.filter_eq_self.2, List.filter_eq_nil_iff.2, List.append_nil]
    · intro x hx
      simp [List.eq_of_mem_replicate hx]
    · intro x hx
      rcases decInt_int i x hx with h | h
      · have : x ≠ ' ' := by rintro rfl; revert h; decide
        simpa using this
      · rw [h]; decide
  rw [← e i, h1, e j]

end Verif
