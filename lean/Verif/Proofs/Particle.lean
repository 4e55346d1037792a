import Verif.Proofs.Order
import Verif.Proofs.PyLemmas
/-! Helper lemmas for AoC, NumberOperator, ParticleTerm. -/

set_option linter.unusedSimpArgs false

namespace Verif
open Spec

theorem aocKey_eq_iff (a b : AoC) : aocKey a = aocKey b ↔ a.hashKey = b.hashKey := by
  unfold aocKey AoC.hashKey
  rcases a with ⟨⟨⟩, a⟩ <;> rcases b with ⟨⟨⟩, b⟩ <;> simp [← stateKey_eq_iff]

theorem aoc_lt_eq (a b : AoC) : a.lt b = decide (aocKey a < aocKey b) := by
  unfold AoC.lt aocKey
  rcases a with ⟨⟨⟩, a⟩ <;> rcases b with ⟨⟨⟩, b⟩ <;>
    simp [stateRich_eq, linRich, Sum.Lex.inl_lt_inl_iff, Sum.Lex.inr_lt_inr_iff,
      Sum.Lex.inl_lt_inr, Sum.Lex.not_inr_lt_inl]

theorem aoc_gt_eq (a b : AoC) : a.gt b = decide (aocKey b < aocKey a) := by
  rw [← aoc_lt_eq]
  unfold AoC.gt AoC.lt
  rcases a with ⟨⟨⟩, a⟩ <;> rcases b with ⟨⟨⟩, b⟩ <;> simp [stateRich_eq, linRich]

theorem aocRich_eq (op : CmpOp) (a b : AoC) : a.rich op b = linRich op (aocKey a) (aocKey b) := by
  cases op <;> simp only [AoC.rich, linRich, aoc_lt_eq, aoc_gt_eq, AoC.le, AoC.ge, AoC.eq, AoC.ne,
    ← aocKey_eq_iff]
  · simp [le_iff_lt_or_eq]
  · simp [aocKey_eq_iff]
  · simp [le_iff_lt_or_eq, @eq_comm _ (aocKey b)]

/-- `StateID.init` returns its arguments and the tuple form, and can be repeated. -/
theorem stateInit_ok {zoom : ℤ} {site : List Coord} {sp o : ℤ} {s : StateID}
    (h : StateID.init zoom site sp o = .ok s) :
    s.site = site ∧ (s.spin : ℤ) = sp ∧ (s.orbit : ℤ) = o ∧
      SiteID.init zoom site = .ok ⟨site, s.siteTuple⟩ := by
  unfold StateID.init at h
  by_cases h1 : 0 ≤ sp
  · by_cases h2 : 0 ≤ o
    · simp only [pyAssert, h1, h2, decide_true, if_true] at h
      change (SiteID.init zoom site >>= _) = _ at h
      rw [bind_ok_iff] at h
      obtain ⟨s', hs', h⟩ := h
      have hsite : s'.site = site := by
        unfold SiteID.init at hs'
        rw [bind_ok_iff] at hs'
        obtain ⟨_, _, hs'⟩ := hs'
        rw [bind_ok_iff] at hs'
        obtain ⟨_, _, hs'⟩ := hs'
        cases hs'; rfl
      cases h
      refine ⟨hsite, by simp [h1], by simp [h2], ?_⟩
      rw [hs', ← hsite]
    · simp only [pyAssert, h1, h2, decide_true, if_true] at h; cases h
  · simp only [pyAssert, h1] at h; cases h

theorem stateInit_of_site {zoom : ℤ} {s : StateID}
    (h : SiteID.init zoom s.site = .ok ⟨s.site, s.siteTuple⟩) :
    StateID.init zoom s.site s.spin s.orbit = .ok s := by
  unfold StateID.init
  simp only [pyAssert, Int.natCast_nonneg, decide_true, if_true]
  rw [h]
  rfl

theorem StateID.BuiltUnder.rebuild {zoom : ℤ} {s : StateID} (h : s.BuiltUnder zoom) :
    StateID.init zoom s.site s.spin s.orbit = .ok s := by
  obtain ⟨site, sp, o, h⟩ := h
  obtain ⟨rfl, h2, h3, h4⟩ := stateInit_ok h
  exact stateInit_of_site h4

theorem aocInit_rebuild {zoom : ℤ} {s : StateID} (h : s.BuiltUnder zoom) :
    AoC.init zoom 1 s.site s.spin s.orbit = .ok ⟨.creation, s⟩ ∧
    AoC.init zoom 0 s.site s.spin s.orbit = .ok ⟨.annihilation, s⟩ := by
  unfold AoC.init
  rw [h.rebuild]
  exact ⟨rfl, rfl⟩

theorem aocInit_builtUnder {zoom ot : ℤ} {site : List Coord} {sp o : ℤ} {a : AoC}
    (h : AoC.init zoom ot site sp o = .ok a) : a.state.BuiltUnder zoom := by
  unfold AoC.init at h
  rw [bind_ok_iff] at h
  obtain ⟨_, _, h⟩ := h
  rw [bind_ok_iff] at h
  obtain ⟨s, hs, h⟩ := h
  cases h
  exact ⟨_, _, _, hs⟩

theorem dagger_of_built {zoom : ℤ} {a : AoC} (h : a.state.BuiltUnder zoom) :
    a.dagger zoom = .ok ⟨match a.otype with | .creation => .annihilation | .annihilation => .creation,
      a.state⟩ := by
  have := aocInit_rebuild h
  unfold AoC.dagger AoC.derive
  rcases a with ⟨⟨⟩, s⟩
  · simpa using this.1
  · simpa using this.2

theorem toterm_of_built {zoom : ℤ} {n : NumberOperator} (h : n.state.BuiltUnder zoom) :
    n.toterm zoom = .ok ⟨[⟨.creation, n.state⟩, ⟨.annihilation, n.state⟩], 1, .general⟩ := by
  have := aocInit_rebuild h
  unfold NumberOperator.toterm
  rw [this.1, this.2]
  rfl

end Verif
