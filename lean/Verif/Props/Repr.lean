import Verif.Proofs.Text
import Verif.Proofs.Order
/-!
# C77: `repr` and `str` determine the object
-/

namespace Verif
open Spec

/-- The text of a double made of its numerator and denominator, an example of a `FloatText`. -/
def fracText : F64 → Txt
  | .fin q => decInt q.num ++ '.' :: decNat q.den
  | .inf b => if b then "-inf".toList else "inf".toList
  | .nan => "nan".toList

theorem fracText_spec : FloatText fracText where
  inj x y h := by
    have hdot : ∀ (n : ℤ) (d : ℕ), '.' ∈ decInt n ++ '.' :: decNat d := by simp
    match x, y with
    | .fin p, .fin q =>
      have h1 : ∀ n : ℤ, ∀ c ∈ decInt n, c ≠ '.' := by
        intro n c hc hd
        rcases decInt_int n c hc with h | h <;> rw [hd] at h <;> exact absurd h (by decide)
      obtain ⟨h2, -, h3⟩ := span_unique (p := fun c => c ≠ '.') (h1 p.num) (h1 q.num) (by simp) (by simp) h
      rw [Rat.ext (decInt_inj h2) (decNat_inj h3)]
    | .fin p, .inf b =>
      have := hdot p.num p.den
      rw [show decInt p.num ++ '.' :: decNat p.den = fracText (.inf b) from h] at this
      cases b <;> exact absurd this (by decide)
    | .fin p, .nan =>
      have := hdot p.num p.den
      rw [show decInt p.num ++ '.' :: decNat p.den = fracText .nan from h] at this
      exact absurd this (by decide)
    | .inf b, .fin p =>
      have := hdot p.num p.den
      rw [show decInt p.num ++ '.' :: decNat p.den = fracText (.inf b) from h.symm] at this
      cases b <;> exact absurd this (by decide)
    | .nan, .fin p =>
      have := hdot p.num p.den
      rw [show decInt p.num ++ '.' :: decNat p.den = fracText .nan from h.symm] at this
      exact absurd this (by decide)
    | .inf b, .inf c => cases b <;> cases c <;> first | rfl | exact absurd h (by decide)
    | .inf b, .nan => cases b <;> exact absurd h (by decide)
    | .nan, .inf c => cases c <;> exact absurd h (by decide)
    | .nan, .nan => rfl
  chars x c hc := by
    match x with
    | .fin p =>
      simp only [fracText, List.mem_append, List.mem_cons] at hc
      rcases hc with hc | rfl | hc
      · exact decInt_num _ c hc
      · decide
      · exact decNat_num _ c hc
    | .inf b =>
      revert hc
      cases b <;> revert c <;> decide
    | .nan =>
      revert hc
      revert c
      decide
  notInt x := by
    match x with
    | .fin p => exact ⟨'.', by simp [fracText], by decide, by decide⟩
    | .inf b => exact ⟨'n', by cases b <;> decide, by decide, by decide⟩
    | .nan => exact ⟨'n', by decide, by decide, by decide⟩

private theorem site_ne_nil {zoom : ℤ} {c : List Coord} {s : SiteID} (h : SiteID.init zoom c = .ok s) :
    c ≠ [] := by
  rintro rfl
  cases h

private theorem state_ne_nil {zoom : ℤ} {c : List Coord} {a b : ℕ} {s : StateID}
    (h : StateID.init zoom c a b = .ok s) : c ≠ [] := by
  rintro rfl
  simp only [StateID.init, bind_ok_iff] at h
  obtain ⟨_, -, _, -, _, h, -⟩ := h
  exact site_ne_nil h rfl

/-- the common tail of the `repr`s of states -/
private theorem tail_inj {ft : F64 → Txt} (hft : FloatText ft) {l l' : List Coord} {s s' o o' : ℕ}
    (hl : l ≠ []) (hl' : l' ≠ [])
    (h : tupleText ft l ++ ", spin=".toList ++ decNat s ++ ", orbit=".toList ++ decNat o ++ ")".toList =
      tupleText ft l' ++ ", spin=".toList ++ decNat s' ++ ", orbit=".toList ++ decNat o' ++ ")".toList) :
    l = l' ∧ s = s' ∧ o = o' := by
  simp only [List.append_assoc] at h
  obtain ⟨h1, h2⟩ := tupleText_inj hft hl hl' h
  have h2 := List.append_cancel_left h2
  obtain ⟨h3, -, h4⟩ := span_unique (decNat_num s) (decNat_num s') (not_num ',') (not_num ',') h2
  have h4 := List.append_cancel_left (as := " orbit=".toList) h4
  obtain ⟨h5, -, -⟩ := span_unique (decNat_num o) (decNat_num o') (not_num ')') (not_num ')') h4
  exact ⟨h1, decNat_inj h3, decNat_inj h5⟩

/-- first two characters of the `repr`, by class -/
private def tag : AnyCls → Txt
  | .site => ['S', 'i']
  | .state => ['S', 't']
  | .aoc => ['A', 'o']
  | .number => ['N', 'u']
  | .spin => ['S', 'p']

private theorem take_two (ft : F64 → Txt) (o : AnyObj) : (o.repr ft).take 2 = tag o.cls := by
  cases o <;> rfl

private theorem cls_of_repr {ft : F64 → Txt} {a b : AnyObj} (h : a.repr ft = b.repr ft) : a.cls = b.cls := by
  have h1 := take_two ft a
  rw [h, take_two ft b] at h1
  revert h1
  generalize a.cls = c
  generalize b.cls = d
  cases c <;> cases d <;> decide

private theorem siteRepr_inj {ft : F64 → Txt} (hft : FloatText ft) {a b : SiteID} (ha : a.site ≠ [])
    (hb : b.site ≠ []) (h : a.repr ft = b.repr ft) : a.site = b.site := by
  unfold SiteID.repr at h
  simp only [List.append_assoc] at h
  exact (tupleText_inj hft ha hb (List.append_cancel_left h)).1

private theorem stateRepr_inj {ft : F64 → Txt} (hft : FloatText ft) {a b : StateID} (ha : a.site ≠ [])
    (hb : b.site ≠ []) (h : a.repr ft = b.repr ft) : a.site = b.site ∧ a.spin = b.spin ∧ a.orbit = b.orbit := by
  unfold StateID.repr at h
  simp only [List.append_assoc] at h
  refine tail_inj hft ha hb ?_
  simp only [List.append_assoc]
  exact List.append_cancel_left h

private theorem numberRepr_inj {ft : F64 → Txt} (hft : FloatText ft) {a b : NumberOperator}
    (ha : a.state.site ≠ []) (hb : b.state.site ≠ []) (h : a.repr ft = b.repr ft) :
    a.state.site = b.state.site ∧ a.state.spin = b.state.spin ∧ a.state.orbit = b.state.orbit := by
  unfold NumberOperator.repr at h
  simp only [List.append_assoc] at h
  refine tail_inj hft ha hb ?_
  simp only [List.append_assoc]
  exact List.append_cancel_left h

private theorem aocRepr_inj {ft : F64 → Txt} (hft : FloatText ft) {a b : AoC}
    (ha : a.state.site ≠ []) (hb : b.state.site ≠ []) (h : a.repr ft = b.repr ft) :
    a.otype = b.otype ∧
    a.state.site = b.state.site ∧ a.state.spin = b.state.spin ∧ a.state.orbit = b.state.orbit := by
  obtain ⟨oa, sa⟩ := a
  obtain ⟨ob, sb⟩ := b
  unfold AoC.repr at h
  simp only [List.append_assoc] at h
  have h := List.append_cancel_left h
  cases oa <;> cases ob
  · refine ⟨rfl, tail_inj hft ha hb ?_⟩
    simp only [List.append_assoc]
    exact List.append_cancel_left (List.append_cancel_left h)
  · exact absurd (congrArg List.head? h) (by rw [show ∀ t : Txt, ("ANNIHILATION".toList ++ t).head? = some 'A' from fun _ => rfl, show ∀ t : Txt, ("CREATION".toList ++ t).head? = some 'C' from fun _ => rfl]; decide)
  · exact absurd (congrArg List.head? h) (by rw [show ∀ t : Txt, ("ANNIHILATION".toList ++ t).head? = some 'A' from fun _ => rfl, show ∀ t : Txt, ("CREATION".toList ++ t).head? = some 'C' from fun _ => rfl]; decide)
  · refine ⟨rfl, tail_inj hft ha hb ?_⟩
    simp only [List.append_assoc]
    exact List.append_cancel_left (List.append_cancel_left h)

private theorem spinRepr_inj {ft : F64 → Txt} (hft : FloatText ft) {a b : SpinOperator}
    (ha : a.siteId.site ≠ []) (hb : b.siteId.site ≠ []) (h : a.repr ft = b.repr ft) :
    a.otype = b.otype ∧ a.siteId.site = b.siteId.site := by
  obtain ⟨oa, sa⟩ := a
  obtain ⟨ob, sb⟩ := b
  unfold SpinOperator.repr at h
  simp only [List.append_assoc] at h
  have h := List.append_cancel_left h
  simp only [List.cons_append, List.nil_append] at h
  injection h with h1 h2
  have h3 : oa = ob := by
    clear h2 ha hb
    revert h1; cases oa <;> cases ob <;> decide
  exact ⟨h3, (tupleText_inj hft ha hb (List.append_cancel_left h2)).1⟩

/-- **C77.** For objects of the five classes, created under any precisions: the official string
representations are equal exactly if the objects have the same class and the same attributes.
In particular objects created under the same precision with equal representations are `==`. -/
theorem C77_repr_determines (ft : F64 → Txt) (hft : FloatText ft) (z₁ z₂ : ℤ) (a b : AnyObj)
    (ha : MadeWith z₁ a) (hb : MadeWith z₂ b) :
    (a.repr ft = b.repr ft ↔ SameAttributes a b) ∧
    (z₁ = z₂ → a.repr ft = b.repr ft → AnyObj.eq a b = true) := by
  have main : a.repr ft = b.repr ft ↔ SameAttributes a b := by
    constructor
    · intro h
      have hc := cls_of_repr h
      cases a with
      | site a =>
        cases b with
        | site b => exact siteRepr_inj hft (site_ne_nil ha) (site_ne_nil hb) h
        | state b => cases hc
        | aoc b => cases hc
        | number b => cases hc
        | spin b => cases hc
      | state a =>
        cases b with
        | state b => exact stateRepr_inj hft (state_ne_nil ha) (state_ne_nil hb) h
        | site b => cases hc
        | aoc b => cases hc
        | number b => cases hc
        | spin b => cases hc
      | aoc a =>
        cases b with
        | aoc b => exact aocRepr_inj hft (state_ne_nil ha) (state_ne_nil hb) h
        | site b => cases hc
        | state b => cases hc
        | number b => cases hc
        | spin b => cases hc
      | number a =>
        cases b with
        | number b => exact numberRepr_inj hft (state_ne_nil ha) (state_ne_nil hb) h
        | site b => cases hc
        | state b => cases hc
        | aoc b => cases hc
        | spin b => cases hc
      | spin a =>
        cases b with
        | spin b => exact spinRepr_inj hft (site_ne_nil ha) (site_ne_nil hb) h
        | site b => cases hc
        | state b => cases hc
        | aoc b => cases hc
        | number b => cases hc
    · intro h
      match a, b with
      | .site a, .site b =>
        change a.repr ft = b.repr ft
        unfold SiteID.repr
        rw [show a.site = b.site from h]
      | .state a, .state b =>
        change a.repr ft = b.repr ft
        unfold StateID.repr
        rw [h.1, h.2.1, h.2.2]
      | .aoc a, .aoc b =>
        change a.repr ft = b.repr ft
        unfold AoC.repr
        rw [h.1, h.2.1, h.2.2.1, h.2.2.2]
      | .number a, .number b =>
        change a.repr ft = b.repr ft
        unfold NumberOperator.repr
        rw [h.1, h.2.1, h.2.2]
      | .spin a, .spin b =>
        change a.repr ft = b.repr ft
        unfold SpinOperator.repr
        rw [h.1, h.2]
  refine ⟨main, ?_⟩
  rintro rfl h
  have hs := main.1 h
  have key : ∀ {s t : StateID}, StateID.init z₁ s.site s.spin s.orbit = .ok s →
      StateID.init z₁ t.site t.spin t.orbit = .ok t → s.site = t.site → s.spin = t.spin →
      s.orbit = t.orbit → s = t := by
    intro s t h1 h2 h3 h4 h5
    rw [h3, h4, h5, h2] at h1
    injection h1 with h1
    exact h1.symm
  have key2 : ∀ {s t : SiteID}, SiteID.init z₁ s.site = .ok s → SiteID.init z₁ t.site = .ok t →
      s.site = t.site → s = t := by
    intro s t h1 h2 h3
    rw [h3, h2] at h1
    injection h1 with h1
    exact h1.symm
  match a, b with
  | .site a, .site b =>
    rw [key2 ha hb hs]
    simp [AnyObj.eq, siteRich_eq, linRich]
  | .state a, .state b =>
    rw [key ha hb hs.1 hs.2.1 hs.2.2]
    simp [AnyObj.eq, stateRich_eq, linRich]
  | .aoc a, .aoc b =>
    have h1 := key ha hb hs.2.1 hs.2.2.1 hs.2.2.2
    simp [AnyObj.eq, AoC.eq, AoC.hashKey, h1, hs.1]
  | .number a, .number b =>
    have h1 := key ha hb hs.1 hs.2.1 hs.2.2
    simp [AnyObj.eq, NumberOperator.rich, stateRich_eq, linRich, h1]
  | .spin a, .spin b =>
    have h1 := key2 ha hb hs.2
    simp [AnyObj.eq, SpinOperator.rich, h1, hs.1, CmpOp.int]

/-- Two states at 0.5 and 0.5 (ints and floats differ in their representation). -/
example : MadeWith defaultZoom (.state ⟨[.int 1, .flt (.fin (1 / 2))], 1, 0, [10000, 5000]⟩) ∧
    (AnyObj.state ⟨[.int 1, .flt (.fin (1 / 2))], 1, 0, [10000, 5000]⟩).repr fracText =
      "StateID(site=(1, 1.2), spin=1, orbit=0)".toList ∧
    (AnyObj.site ⟨[.int 1], [10000]⟩).repr fracText = "SiteID(site=(1,))".toList :=
  ⟨by unfold MadeWith; decide +kernel, by decide +kernel, by decide⟩

/-- **C77** (constructors).  Every object returned by a constructor satisfies the hypothesis of
`C77_repr_determines` for the precision in force. -/
theorem C77_constructors (zoom : ℤ) :
    (∀ c s, SiteID.init zoom c = .ok s → MadeWith zoom (.site s)) ∧
    (∀ c sp o s, StateID.init zoom c sp o = .ok s → MadeWith zoom (.state s)) ∧
    (∀ ot c sp o a, AoC.init zoom ot c sp o = .ok a → MadeWith zoom (.aoc a)) ∧
    (∀ c sp o n, NumberOperator.init zoom c sp o = .ok n → MadeWith zoom (.number n)) ∧
    (∀ ot c s, SpinOperator.init zoom ot c = .ok s → MadeWith zoom (.spin s)) := by
  have site : ∀ c s, SiteID.init zoom c = .ok s → SiteID.init zoom s.site = .ok s := by
    intro c s h
    have h' := h
    simp only [SiteID.init, bind_ok_iff] at h
    obtain ⟨_, -, t, -, h⟩ := h
    injection h with h
    subst h
    exact h'
  have state : ∀ c sp o s, StateID.init zoom c sp o = .ok s →
      StateID.init zoom s.site s.spin s.orbit = .ok s := by
    intro c sp o s h
    have h' := h
    simp only [StateID.init, bind_ok_iff] at h
    obtain ⟨_, h1, _, h2, t, h3, h⟩ := h
    injection h with h
    have hsp : 0 ≤ sp := by
      by_contra hc
      simp [pyAssert, hc, raise] at h1
    have ho : 0 ≤ o := by
      by_contra hc
      simp [pyAssert, hc, raise] at h2
    have h4 : s.site = c := by
      rw [← h]
      simp only [SiteID.init, bind_ok_iff] at h3
      obtain ⟨_, -, t', -, h3⟩ := h3
      injection h3 with h3
      rw [← h3]
    have h5 : (s.spin : ℤ) = sp := by rw [← h]; simp [hsp]
    have h6 : (s.orbit : ℤ) = o := by rw [← h]; simp [ho]
    rw [h4, h5, h6]
    exact h'
  refine ⟨site, state, ?_, ?_, ?_⟩
  · intro ot c sp o a h
    simp only [AoC.init, bind_ok_iff] at h
    obtain ⟨_, -, t, h1, h⟩ := h
    injection h with h
    subst h
    exact state _ _ _ _ h1
  · intro c sp o a h
    simp only [NumberOperator.init, bind_ok_iff] at h
    obtain ⟨t, h1, h⟩ := h
    injection h with h
    subst h
    exact state _ _ _ _ h1
  · intro ot c s h
    unfold SpinOperator.init at h
    split at h
    · cases h
    · simp only [bind_ok_iff] at h
      obtain ⟨t, h1, h⟩ := h
      injection h with h
      subst h
      exact site _ _ h1

private theorem newline_free {ft : F64 → Txt} (hft : FloatText ft) (a : AoC) : '\n' ∉ a.repr ft := by
  have h1 : '\n' ∉ tupleText ft a.state.site := not_mem_tupleText hft _ (by decide) _
  have h2 := not_mem_num (decNat_num a.state.spin) (x := '\n') (by decide)
  have h3 := not_mem_num (decNat_num a.state.orbit) (x := '\n') (by decide)
  unfold AoC.repr
  simp only [List.mem_append, not_or]
  refine ⟨⟨⟨⟨⟨⟨⟨⟨by decide, ?_⟩, by decide⟩, h1⟩, by decide⟩, h2⟩, by decide⟩, h3⟩, by decide⟩
  cases a.otype <;> decide

private theorem newline_free' {ft : F64 → Txt} (hft : FloatText ft) (a : SpinOperator) : '\n' ∉ a.repr ft := by
  have h1 : '\n' ∉ tupleText ft a.siteId.site := not_mem_tupleText hft _ (by decide) _
  unfold SpinOperator.repr
  simp only [List.mem_append, not_or]
  refine ⟨⟨⟨⟨by decide, ?_⟩, by decide⟩, h1⟩, by decide⟩
  cases a.otype <;> decide

private theorem lines_inj {α : Type} (f : α → Txt) (l l' : List α) (c c' : Txt)
    (hl : ∀ a ∈ l, '\n' ∉ f a) (hl' : ∀ a ∈ l', '\n' ∉ f a) (hc : '\n' ∉ c) (hc' : '\n' ∉ c')
    (h : pyJoin "\n".toList (("The coefficient of this term: ".toList ++ c) ::
        "The component operators:".toList :: l.map (fun a => "    ".toList ++ f a)) =
      pyJoin "\n".toList (("The coefficient of this term: ".toList ++ c') ::
        "The component operators:".toList :: l'.map (fun a => "    ".toList ++ f a))) :
    c = c' ∧ l.map f = l'.map f := by
  have key : ∀ (d : Txt) (m : List α), '\n' ∉ d → (∀ a ∈ m, '\n' ∉ f a) →
      ∀ t ∈ ("The coefficient of this term: ".toList ++ d) ::
        "The component operators:".toList :: m.map (fun a => "    ".toList ++ f a), '\n' ∉ t := by
    intro d m hd hm t ht
    simp only [List.mem_cons, List.mem_map] at ht
    rcases ht with rfl | rfl | ⟨a, ha, rfl⟩
    · rw [List.mem_append, not_or]; exact ⟨by decide, hd⟩
    · decide
    · rw [List.mem_append, not_or]; exact ⟨by decide, hm a ha⟩
  have h1 := pyJoin_inj '\n' _ _ (by simp) (by simp) (key c l hc hl) (key c' l' hc' hl') h
  injection h1 with h2 h3
  injection h3 with _ h3
  refine ⟨List.append_cancel_left h2, ?_⟩
  have h4 := congrArg (List.map (List.drop 4)) h3
  simpa [List.map_map, Function.comp_def] using h4

/-- **C77** (terms).  `str` of a `ParticleTerm` or a `SpinInteraction` lists the coefficient and every
component: two terms print alike exactly if the texts of their coefficients are equal and they have
the same components (class and attributes) in the same order. -/
theorem C77_str_determines (ft : F64 → Txt) (hft : FloatText ft) (z₁ z₂ : ℤ) (c₁ c₂ : Txt)
    (hc₁ : CoeffText c₁) (hc₂ : CoeffText c₂) :
    (∀ t₁ t₂ : ParticleTerm, (∀ a ∈ t₁.aocs, MadeWith z₁ (.aoc a)) → (∀ a ∈ t₂.aocs, MadeWith z₂ (.aoc a)) →
      (t₁.str ft c₁ = t₂.str ft c₂ ↔
        c₁ = c₂ ∧ List.Forall₂ (fun a b => SameAttributes (.aoc a) (.aoc b)) t₁.aocs t₂.aocs)) ∧
    (∀ t₁ t₂ : SpinInteraction, (∀ a ∈ t₁.operators, MadeWith z₁ (.spin a)) →
      (∀ a ∈ t₂.operators, MadeWith z₂ (.spin a)) →
      (t₁.str ft c₁ = t₂.str ft c₂ ↔
        c₁ = c₂ ∧ List.Forall₂ (fun a b => SameAttributes (.spin a) (.spin b)) t₁.operators t₂.operators)) := by
  have hn₁ : '\n' ∉ c₁ := fun h => absurd (hc₁ _ h) (by decide)
  have hn₂ : '\n' ∉ c₂ := fun h => absurd (hc₂ _ h) (by decide)
  have gen : ∀ {α : Type} (f : α → Txt) (R : α → α → Prop) (l l' : List α),
      (∀ a ∈ l, ∀ b ∈ l', f a = f b ↔ R a b) → (l.map f = l'.map f ↔ List.Forall₂ R l l') := by
    intro α f R l
    induction l with
    | nil => intro l' _; cases l' <;> simp
    | cons a l ih =>
      intro l' h
      cases l' with
      | nil => simp
      | cons b l' =>
        simp only [List.map_cons, List.cons.injEq, List.forall₂_cons]
        rw [h a (by simp) b (by simp), ih l' (fun x hx y hy => h x (by simp [hx]) y (by simp [hy]))]
  constructor
  · intro t₁ t₂ h₁ h₂
    rw [← gen (AoC.repr ft) _ _ _ (fun a ha b hb =>
      (C77_repr_determines ft hft z₁ z₂ (.aoc a) (.aoc b) (h₁ a ha) (h₂ b hb)).1)]
    constructor
    · exact lines_inj (AoC.repr ft) _ _ _ _ (fun a _ => newline_free hft a) (fun a _ => newline_free hft a) hn₁ hn₂
    · rintro ⟨rfl, h⟩
      unfold ParticleTerm.str
      rw [show t₁.aocs.map (fun a => "    ".toList ++ a.repr ft) = (t₁.aocs.map (AoC.repr ft)).map ("    ".toList ++ ·) by
        simp [List.map_map, Function.comp_def], h]
      simp [List.map_map, Function.comp_def]
  · intro t₁ t₂ h₁ h₂
    rw [← gen (SpinOperator.repr ft) _ _ _ (fun a ha b hb =>
      (C77_repr_determines ft hft z₁ z₂ (.spin a) (.spin b) (h₁ a ha) (h₂ b hb)).1)]
    constructor
    · exact lines_inj (SpinOperator.repr ft) _ _ _ _ (fun a _ => newline_free' hft a) (fun a _ => newline_free' hft a) hn₁ hn₂
    · rintro ⟨rfl, h⟩
      unfold SpinInteraction.str
      rw [show t₁.operators.map (fun a => "    ".toList ++ a.repr ft) = (t₁.operators.map (SpinOperator.repr ft)).map ("    ".toList ++ ·) by
        simp [List.map_map, Function.comp_def], h]
      simp [List.map_map, Function.comp_def]

example : CoeffText "(1+2j)".toList ∧ MadeWith defaultZoom (.aoc ⟨.creation, ⟨[.int 0], 0, 0, [0]⟩⟩) ∧
    (ParticleTerm.mk [⟨.creation, ⟨[.int 0], 0, 0, [0]⟩⟩] 1 .general).str fracText "1.0".toList =
      "The coefficient of this term: 1.0\nThe component operators:\n    AoC(otype=CREATION, site=(0,), spin=0, orbit=0)".toList :=
  ⟨by unfold CoeffText; decide, rfl, rfl⟩

end Verif
