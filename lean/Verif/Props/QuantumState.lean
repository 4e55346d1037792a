import Verif.Proofs.Order
import Verif.Proofs.PyLemmas
/-!
# C03, C05: ordering of `SiteID`/`StateID`, and the global precision
-/

namespace Verif
open Spec

/-- **C03** (SiteID).  The six comparisons of `SiteID` are one total order, `==` coincides with
equality of the hashed tuple, and the order is lexicographic in the (truncated) coordinates: the
first differing coordinate decides, a proper prefix is smaller. -/
theorem C03_siteid_total_order :
    IsTotalOrder SiteID.rich ∧
    (∀ a b : SiteID, SiteID.rich .eq a b = true ↔ a.hashKey = b.hashKey) ∧
    (∀ a b : SiteID, SiteID.rich .lt a b = true ↔
      (∃ pre x y s t, a.tuple = pre ++ x :: s ∧ b.tuple = pre ++ y :: t ∧ x < y) ∨
      (∃ y t, b.tuple = a.tuple ++ y :: t)) := by
  refine ⟨isTotalOrder_of_key _ _ siteRich_eq, ?_, ?_⟩
  · intro a b; simp [siteRich_eq, linRich, SiteID.hashKey]
  · intro a b
    simp only [siteRich_eq, linRich, decide_eq_true_eq]
    generalize a.tuple = l
    generalize b.tuple = m
    clear a b
    induction l generalizing m with
    | nil =>
      cases m with
      | nil => simp
      | cons y t => simp
    | cons x l ih =>
      cases m with
      | nil => simp
      | cons y m =>
        rw [List.cons_lt_cons_iff, ih]
        constructor
        · rintro (h | ⟨rfl, h | ⟨y, t, rfl⟩⟩)
          · exact .inl ⟨[], x, y, l, m, rfl, rfl, h⟩
          · obtain ⟨pre, x', y', s, t, rfl, rfl, h⟩ := h
            exact .inl ⟨x :: pre, x', y', s, t, rfl, rfl, h⟩
          · exact .inr ⟨y, t, rfl⟩
        · rintro (⟨pre, x', y', s, t, h1, h2, h⟩ | ⟨y', t, h⟩)
          · cases pre with
            | nil =>
              simp only [List.nil_append, List.cons.injEq] at h1 h2
              left; rw [h1.1, h2.1]; exact h
            | cons p pre =>
              simp only [List.cons_append, List.cons.injEq] at h1 h2
              right
              exact ⟨h1.1.trans h2.1.symm, .inl ⟨pre, x', y', s, t, h1.2, h2.2, h⟩⟩
          · simp only [List.cons_append, List.cons.injEq] at h
            exact .inr ⟨h.1.symm, .inr ⟨y', t, h.2⟩⟩

/-- **C03** (StateID).  The six comparisons of `StateID` are one total order, `==` coincides with
equality of the hashed tuple, and states are ordered by site, then spin, then orbit. -/
theorem C03_stateid_total_order :
    IsTotalOrder StateID.rich ∧
    (∀ a b : StateID, StateID.rich .eq a b = true ↔ a.hashKey = b.hashKey) ∧
    (∀ a b : StateID, StateID.rich .lt a b = true ↔
      tupleRich .lt a.siteTuple b.siteTuple = true ∨
      (a.siteTuple = b.siteTuple ∧ (a.spin < b.spin ∨ (a.spin = b.spin ∧ a.orbit < b.orbit)))) := by
  refine ⟨isTotalOrder_of_key _ _ stateRich_eq, ?_, ?_⟩
  · intro a b; simp [stateRich_eq, linRich, stateKey_eq_iff]
  · intro a b
    simp [stateRich_eq, linRich, stateKey, Prod.Lex.toLex_lt_toLex, tupleRich_eq]

/-- **C03** (mixed).  A `SiteID` is never equal to a `StateID`, and ordering them raises
TypeError; among one class `AnyID.rich` is the order above. -/
theorem C03_mixed_never_equal (s : SiteID) (t : StateID) :
    AnyID.rich .eq (.site s) (.state t) = .ok false ∧ AnyID.rich .eq (.state t) (.site s) = .ok false ∧
    (∀ op, op ≠ .eq → op ≠ .ne → AnyID.rich op (.site s) (.state t) = .error .typeError ∧
      AnyID.rich op (.state t) (.site s) = .error .typeError) := by
  refine ⟨rfl, rfl, ?_⟩
  intro op h1 h2
  cases op <;> simp_all [AnyID.rich]

example : StateID.rich .lt ⟨[.int 0, .int 1], 1, 0, [0, 10000]⟩ ⟨[.int 0, .int 1], 1, 2, [0, 10000]⟩ = true
    ∧ StateID.rich .gt ⟨[.int 1], 0, 0, [10000]⟩ ⟨[.int 0], 5, 7, [0]⟩ = true := by
  decide

/-! ### C05: histories of precision changes and object creations -/

/-- A call in a history: `set_float_point_precision(p)`, `SiteID(coords)`,
`StateID(coords, spin, orbit)`. -/
inductive WOp
  | setPrecision (p : ℤ)
  | newSite (coords : List Coord)
  | newState (coords : List Coord) (spin orbit : ℤ)

/-- The interpreter state: the module global `_ZOOM` and the objects created so far. -/
structure World where
  zoom : ℤ
  objs : List AnyID

/-- One call; a call that raises changes nothing. -/
def World.step (w : World) : WOp → World
  | .setPrecision p =>
    match setFloatPointPrecision p with
    | .ok z => { w with zoom := z }
    | .error _ => w
  | .newSite c =>
    match SiteID.init w.zoom c with
    | .ok s => { w with objs := w.objs ++ [.site s] }
    | .error _ => w
  | .newState c sp o =>
    match StateID.init w.zoom c sp o with
    | .ok s => { w with objs := w.objs ++ [.state s] }
    | .error _ => w

/-- A history of calls. -/
def World.run (w : World) (h : List WOp) : World := h.foldl World.step w

/-- The interpreter at import time (quantumstate.py:21). -/
def World.initial : World := ⟨defaultZoom, []⟩

/-- Existing objects are never touched by later calls. -/
theorem World.run_objs_prefix (w : World) (h : List WOp) : w.objs <+: (w.run h).objs := by
  induction h generalizing w with
  | nil => exact List.prefix_refl _
  | cons op h ih =>
    refine List.IsPrefix.trans ?_ (ih (w.step op))
    cases op with
    | setPrecision p =>
      simp only [World.step]; split <;> exact List.prefix_refl _
    | newSite c =>
      simp only [World.step]; split
      · exact List.prefix_append _ _
      · exact List.prefix_refl _
    | newState c sp o =>
      simp only [World.step]; split
      · exact List.prefix_append _ _
      · exact List.prefix_refl _

/-- **C05.** For every history `h1`, creation, further history `h2`: the object keeps forever the
identity (coordinates and tuple form) that its constructor computed under the precision in force at
its creation, and that is the only influence of the rest of the history on it. -/
theorem C05_object_identity_fixed_at_creation (h1 h2 : List WOp) :
    let w := World.initial.run h1
    (∀ c s, SiteID.init w.zoom c = .ok s →
      (World.initial.run (h1 ++ .newSite c :: h2)).objs[w.objs.length]? = some (.site s)) ∧
    (∀ c sp o s, StateID.init w.zoom c sp o = .ok s →
      (World.initial.run (h1 ++ .newState c sp o :: h2)).objs[w.objs.length]? = some (.state s)) ∧
    (∀ (k : ℕ) (x : AnyID), w.objs[k]? = some x → (World.initial.run (h1 ++ h2)).objs[k]? = some x) := by
  intro w
  have pre : ∀ (v : World) (k : ℕ) (x : AnyID) h, v.objs[k]? = some x →
      (v.run h).objs[k]? = some x := by
    intro v k x h hk
    obtain ⟨t, ht⟩ := World.run_objs_prefix v h
    rw [← ht]
    rw [List.getElem?_append_left (List.getElem?_eq_some_iff.mp hk).1]
    exact hk
  refine ⟨?_, ?_, ?_⟩
  · intro c s hs
    rw [World.run, List.foldl_append, List.foldl_cons]
    apply pre
    change ((World.initial.run h1).step (.newSite c)).objs[_]? = _
    simp only [World.step]
    change (match SiteID.init w.zoom c with | .ok s => _ | .error _ => _ : World).objs[_]? = _
    rw [hs]
    simp [w]
  · intro c sp o s hs
    rw [World.run, List.foldl_append, List.foldl_cons]
    apply pre
    change ((World.initial.run h1).step (.newState c sp o)).objs[_]? = _
    simp only [World.step]
    change (match StateID.init w.zoom c sp o with | .ok s => _ | .error _ => _ : World).objs[_]? = _
    rw [hs]
    simp [w]
  · intro k x hk
    rw [World.run, List.foldl_append]
    exact pre _ _ _ _ hk

/-- **C05** (same precision).  Two sites created at any two moments of any history at which the
precision in force is the same compare exactly as two sites built from the same coordinates in a
fresh interpreter with that precision. -/
theorem C05_same_precision_compare (h1 h2 h3 : List WOp) (c d : List Coord) (s t : SiteID)
    (op : CmpOp)
    (hs : SiteID.init (World.initial.run h1).zoom c = .ok s)
    (ht : SiteID.init (World.initial.run (h1 ++ .newSite c :: h2)).zoom d = .ok t)
    (hz : (World.initial.run (h1 ++ .newSite c :: h2)).zoom = (World.initial.run h1).zoom) :
    let w := World.initial.run (h1 ++ .newSite c :: h2 ++ .newSite d :: h3)
    ∃ x y, w.objs[(World.initial.run h1).objs.length]? = some x ∧
      w.objs[(World.initial.run (h1 ++ .newSite c :: h2)).objs.length]? = some y ∧
      AnyID.rich op x y =
        (do let s' ← SiteID.init (World.initial.run h1).zoom c
            let t' ← SiteID.init (World.initial.run h1).zoom d
            return SiteID.rich op s' t') := by
  intro w
  refine ⟨.site s, .site t, ?_, ?_, ?_⟩
  · have := (C05_object_identity_fixed_at_creation h1 (h2 ++ .newSite d :: h3)).1 c s hs
    simpa [w] using this
  · exact (C05_object_identity_fixed_at_creation (h1 ++ .newSite c :: h2) h3).1 d t ht
  · rw [hz] at ht
    rw [hs, ht]; rfl

/-- **C05** (mixing).  Objects created under different precisions may compare unequal although
their coordinates are identical: the rule "call it first" is necessary. -/
theorem C05_mixing_precisions_breaks_equality :
    ∃ (h : List WOp) (s t : SiteID),
      (World.initial.run h).objs = [.site s, .site t] ∧ s.site = t.site ∧
      SiteID.rich .eq s t = false := by
  refine ⟨[.newSite [.int 1], .setPrecision 6, .newSite [.int 1]],
    ⟨[.int 1], [10000]⟩, ⟨[.int 1], [1000000]⟩, ?_, rfl, ?_⟩
  · rfl
  · decide

/-- The precision in force after a history, read off the history alone: the last non-negative
precision requested, 4 before any request. -/
def precisionInForce (h : List WOp) : ℤ :=
  h.foldl (fun q op => match op with
    | .setPrecision p => if 0 ≤ p then p else q
    | _ => q) 4

/-- **C05** (which precision is in force).  `set_float_point_precision(p)` raises `AssertionError`
exactly for negative `p` and then changes nothing; after every history the zoom factor is ten to
the last accepted precision (4 at import). -/
theorem C05_zoom_of_history (h : List WOp) :
    (World.initial.run h).zoom = 10 ^ (precisionInForce h).toNat ∧ 0 ≤ precisionInForce h ∧
    (∀ p : ℤ, p < 0 → setFloatPointPrecision p = raise .assertionError) ∧
    (∀ (p : ℤ) (w : World), p < 0 → w.step (.setPrecision p) = w) := by
  have neg : ∀ p : ℤ, p < 0 → setFloatPointPrecision p = raise .assertionError := by
    intro p hp
    have : ¬ 0 ≤ p := by omega
    simp [setFloatPointPrecision, pyAssert, this, bind, Except.bind]
  have pos : ∀ p : ℤ, 0 ≤ p → setFloatPointPrecision p = .ok (10 ^ p.toNat) := by
    intro p hp
    simp [setFloatPointPrecision, pyAssert, hp, bind, Except.bind, pure, Except.pure]
  have key : ∀ (h : List WOp) (w : World) (q : ℤ), w.zoom = 10 ^ q.toNat → 0 ≤ q →
      let r := h.foldl (fun q op => match op with
        | .setPrecision p => if 0 ≤ p then p else q
        | _ => q) q
      (w.run h).zoom = 10 ^ r.toNat ∧ 0 ≤ r := by
    intro h
    induction h with
    | nil => intro w q hw hq; exact ⟨hw, hq⟩
    | cons op h ih =>
      intro w q hw hq
      refine ih (w.step op) _ ?_ ?_
      · cases op with
        | setPrecision p =>
          simp only [World.step]
          by_cases hp : 0 ≤ p
          · simp [pos p hp, hp]
          · simp [neg p (by omega), hp, hw]
        | newSite c => simp only [World.step]; split <;> exact hw
        | newState c sp o => simp only [World.step]; split <;> exact hw
      · cases op with
        | setPrecision p => simp only; split <;> assumption
        | newSite c => exact hq
        | newState c sp o => exact hq
  obtain ⟨h1, h2⟩ := key h World.initial 4 rfl (by norm_num)
  refine ⟨h1, h2, neg, ?_⟩
  intro p w hp
  simp [World.step, neg p hp]

/-- Non-vacuity: a rejected request between two accepted ones. -/
example : precisionInForce [.setPrecision 2, .newSite [.int 3], .setPrecision (-1)] = 2 ∧
    (World.initial.run [.setPrecision 2, .newSite [.int 3], .setPrecision (-1)]).zoom = 100 :=
  ⟨rfl, rfl⟩

/-- Non-vacuity of the hypotheses of `C05_same_precision_compare`. -/
example : SiteID.init (World.initial.run [.setPrecision 2]).zoom [.int 3, .int 4] =
      .ok ⟨[.int 3, .int 4], [300, 400]⟩ ∧
    (World.initial.run ([.setPrecision 2] ++ .newSite [.int 3, .int 4] ::
      [.setPrecision 7, .setPrecision (-1), .setPrecision 2])).zoom =
      (World.initial.run [.setPrecision 2]).zoom := ⟨rfl, rfl⟩

end Verif
