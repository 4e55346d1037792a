import Verif.Proofs.Latex
import Verif.Props.Repr
import Verif.Proofs.Float64
import Mathlib.Tactic.Linarith
import Mathlib.Tactic.FieldSimp
import Mathlib.Tactic.Ring
/-!
# C78: LaTeX forms
-/

namespace Verif
open Spec

private theorem isMath_core {b : Txt} (h1 : '$' ∉ b) (h2 : braceDepth 0 b = some 0) :
    IsMath ("$".toList ++ b ++ "$".toList) := ⟨b, rfl, h1, h2⟩

private theorem depth_flatten : ∀ {L : List Txt}, (∀ t ∈ L, braceDepth 0 t = some 0) → braceDepth 0 L.flatten = some 0
  | [], _ => rfl
  | t :: L, h => by
    rw [List.flatten_cons, braceDepth_append, h t (by simp), Option.bind_some]
    exact depth_flatten (fun t ht => h t (by simp [ht]))

private theorem drop_math {b : Txt} (h : '$' ∉ b) : dropDollar ("$".toList ++ b ++ "$".toList) = b := by
  rw [dropDollar_append, dropDollar_append, dropDollar_of h]
  simp [dropDollar]

/-- the stripped operator texts of a particle term -/
private theorem termTex_ok {ft : F64 → Txt} (hft : FloatText ft) {zoom : ℤ} {t : ParticleTerm} {c : Txt}
    {tb : Option (IndexTable AnyObj)} {o : LatexOpts} {x : Txt} (h : t.tolatex ft zoom c tb o = .ok x) :
    ∃ L : List Txt, x = "$".toList ++ (c ++ L.flatten) ++ "$".toList ∧
      List.Forall₂ (fun a (l : Txt) => ∃ w, a.state.tolatex ft zoom (siteIndexOf tb) o = .ok w ∧
        l = aocCore a.otype (dropDollar w)) t.aocs L := by
  simp only [ParticleTerm.tolatex, bind_ok_iff] at h
  obtain ⟨L, h1, h⟩ := h
  injection h with h
  refine ⟨L, by rw [← h]; simp, ?_⟩
  rw [mapM_ok_iff] at h1
  refine h1.imp ?_
  intro a l hal
  simp only [bind_ok_iff] at hal
  obtain ⟨s, hs, hal⟩ := hal
  injection hal with hal
  obtain ⟨w, hw, rfl⟩ := aocTex_ok.1 hs
  refine ⟨w, hw, ?_⟩
  rw [← hal, drop_math (aocCore_dollar (subscript_plain hft hw))]

private theorem interTex_ok {ft : F64 → Txt} (hft : FloatText ft) {t : SpinInteraction} {c : Txt}
    {tb : Option (IndexTable AnyObj)} {nd : ℤ} {x : Txt} (h : t.tolatex ft c tb nd = .ok x) :
    ∃ L : List Txt, x = "$".toList ++ (c ++ L.flatten) ++ "$".toList ∧
      List.Forall₂ (fun a (l : Txt) => ∃ w, a.siteId.tolatex ft (siteIndexOf tb) nd = .ok w ∧
        l = spinCore a.otype w) t.operators L := by
  simp only [SpinInteraction.tolatex, bind_ok_iff] at h
  obtain ⟨L, h1, h⟩ := h
  injection h with h
  refine ⟨L, by rw [← h]; simp, ?_⟩
  rw [mapM_ok_iff] at h1
  refine h1.imp ?_
  intro a l hal
  simp only [bind_ok_iff] at hal
  obtain ⟨s, hs, hal⟩ := hal
  injection hal with hal
  obtain ⟨w, hw, rfl⟩ := spinOpTex_ok.1 hs
  refine ⟨w, hw, ?_⟩
  rw [← hal, drop_math (spinCore_dollar (siteTex_plain hft hw))]

private theorem forall₂_mem {α β : Type} {R : α → β → Prop} : ∀ {l : List α} {m : List β},
    List.Forall₂ R l m → ∀ b ∈ m, ∃ a ∈ l, R a b
  | _, _, .nil, b, hb => by cases hb
  | _, _, .cons h t, b, hb => by
    rcases List.mem_cons.mp hb with rfl | hb
    · exact ⟨_, by simp, h⟩
    · obtain ⟨a, ha, hr⟩ := forall₂_mem t b hb
      exact ⟨a, by simp [ha], hr⟩

/-- **C78** (mathematics).  Whatever the options, the LaTeX form of an operator or of a term is one
piece of mathematics: one `$` at each end, none inside, balanced braces. -/
theorem C78_is_math (ft : F64 → Txt) (hft : FloatText ft) (zoom : ℤ) :
    (∀ (a : AoC) si o x, a.tolatex ft zoom si o = .ok x → IsMath x) ∧
    (∀ (n : NumberOperator) si o x, n.tolatex ft zoom si o = .ok x → IsMath x) ∧
    (∀ (s : SpinOperator) si nd x, s.tolatex ft si nd = .ok x → IsMath x) ∧
    (∀ (t : ParticleTerm) c tb o x, CoeffText c → t.tolatex ft zoom c tb o = .ok x → IsMath x) ∧
    (∀ (t : SpinInteraction) c tb nd x, CoeffText c → t.tolatex ft c tb nd = .ok x → IsMath x) := by
  refine ⟨?_, ?_, ?_, ?_, ?_⟩
  · intro a si o x h
    obtain ⟨w, hw, rfl⟩ := aocTex_ok.1 h
    have hp := subscript_plain hft hw
    exact isMath_core (aocCore_dollar hp) (aocCore_depth hp)
  · intro n si o x h
    simp only [NumberOperator.tolatex, bind_ok_iff] at h
    obtain ⟨w, hw, h⟩ := h
    injection h with h
    have hp := subscript_plain hft hw
    refine ⟨"n_{".toList ++ dropDollar w ++ "}".toList, by rw [← h]; simp, ?_, ?_⟩
    · rw [List.mem_append, List.mem_append, not_or, not_or]
      exact ⟨⟨by decide, hp.dollar⟩, by decide⟩
    · rw [braceDepth_append, braceDepth_append]
      rw [show braceDepth 0 "n_{".toList = some 1 from rfl, Option.bind_some, braceDepth_plain hp,
        Option.bind_some]
      rfl
  · intro s si nd x h
    obtain ⟨w, hw, rfl⟩ := spinOpTex_ok.1 h
    have hp := siteTex_plain hft hw
    exact isMath_core (spinCore_dollar hp) (spinCore_depth hp)
  · intro t c tb o x hc h
    obtain ⟨L, rfl, hL⟩ := termTex_ok hft h
    have hL' := forall₂_mem hL
    refine isMath_core ?_ ?_
    · rw [List.mem_append, not_or]
      refine ⟨(plain_coeff hc).dollar, ?_⟩
      rw [List.mem_flatten]
      rintro ⟨l, hl, hd⟩
      obtain ⟨a, -, w, hw, rfl⟩ := hL' l hl
      exact aocCore_dollar (subscript_plain hft hw) hd
    · rw [braceDepth_append, braceDepth_plain (plain_coeff hc), Option.bind_some]
      refine depth_flatten ?_
      intro l hl
      obtain ⟨a, -, w, hw, rfl⟩ := hL' l hl
      exact aocCore_depth (subscript_plain hft hw)
  · intro t c tb nd x hc h
    obtain ⟨L, rfl, hL⟩ := interTex_ok hft h
    have hL' := forall₂_mem hL
    refine isMath_core ?_ ?_
    · rw [List.mem_append, not_or]
      refine ⟨(plain_coeff hc).dollar, ?_⟩
      rw [List.mem_flatten]
      rintro ⟨l, hl, hd⟩
      obtain ⟨a, -, w, hw, rfl⟩ := hL' l hl
      exact spinCore_dollar (siteTex_plain hft hw) hd
    · rw [braceDepth_append, braceDepth_plain (plain_coeff hc), Option.bind_some]
      refine depth_flatten ?_
      intro l hl
      obtain ⟨a, -, w, hw, rfl⟩ := hL' l hl
      exact spinCore_depth (siteTex_plain hft hw)

example : AoC.tolatex fracText defaultZoom ⟨.creation, ⟨[.int 0, .int 1], 1, 0, [0, 10000]⟩⟩ .none {} =
    .ok "$c_{(0,1),\\uparrow}^{\\dagger}$".toList := rfl

/-- **C78** (operators with an index table).  With a table of sites and states created under the
current precision, the LaTeX forms of two operators coincide exactly if the operators are `==`,
apart from the orbit when it is suppressed (the default). -/
theorem C78_operator_identified (ft : F64 → Txt) (hft : FloatText ft) (zoom : ℤ) (x : AnyObj) (xs : List AnyObj)
    (start : ℤ) (tb : IndexTable AnyObj) (htb : IndexTable.init (x :: xs) start = .ok tb) :
    (∀ (a b : AoC) o u v, MadeWith zoom (.aoc a) → MadeWith zoom (.aoc b) →
      a.tolatex ft zoom (.table tb) o = .ok u → b.tolatex ft zoom (.table tb) o = .ok v →
      (u = v ↔ a.otype = b.otype ∧ a.state.siteTuple = b.state.siteTuple ∧ a.state.spin = b.state.spin ∧
        (o.suppressOrbit = true ∨ a.state.orbit = b.state.orbit)) ∧
      (o.suppressOrbit = false → (u = v ↔ AoC.eq a b = true))) ∧
    (∀ (a b : NumberOperator) o u v, MadeWith zoom (.number a) → MadeWith zoom (.number b) →
      a.tolatex ft zoom (.table tb) o = .ok u → b.tolatex ft zoom (.table tb) o = .ok v →
      (u = v ↔ a.state.siteTuple = b.state.siteTuple ∧ a.state.spin = b.state.spin ∧
        (o.suppressOrbit = true ∨ a.state.orbit = b.state.orbit)) ∧
      (o.suppressOrbit = false → (u = v ↔ NumberOperator.rich .eq a b = true))) ∧
    (∀ (a b : SpinOperator) nd u v,
      a.tolatex ft (.table tb) nd = .ok u → b.tolatex ft (.table tb) nd = .ok v →
      (u = v ↔ SpinOperator.eq a b = true)) := by
  refine ⟨?_, ?_, ?_⟩
  · intro a b o u v ha hb hu hv
    obtain ⟨w, hw, rfl⟩ := aocTex_ok.1 hu
    obtain ⟨w', hw', rfl⟩ := aocTex_ok.1 hv
    have key := subscript_inj hft htb ha hb hw hw'
    have hp := subscript_plain hft hw
    have hp' := subscript_plain hft hw'
    have main : "$".toList ++ aocCore a.otype (dropDollar w) ++ "$".toList =
        "$".toList ++ aocCore b.otype (dropDollar w') ++ "$".toList ↔
        a.otype = b.otype ∧ a.state.siteTuple = b.state.siteTuple ∧ a.state.spin = b.state.spin ∧
        (o.suppressOrbit = true ∨ a.state.orbit = b.state.orbit) := by
      rw [← key]
      constructor
      · intro h
        exact aocCore_inj hp hp' (math_inj h)
      · rintro ⟨h1, h2⟩
        rw [h1, h2]
    refine ⟨main, ?_⟩
    intro hs
    rw [main]
    simp [AoC.eq, AoC.hashKey, StateID.hashKey, hs]
  · intro a b o u v ha hb hu hv
    simp only [NumberOperator.tolatex, bind_ok_iff] at hu hv
    obtain ⟨w, hw, hu⟩ := hu
    obtain ⟨w', hw', hv⟩ := hv
    injection hu with hu
    injection hv with hv
    have key := subscript_inj hft htb ha hb hw hw'
    have main : u = v ↔ a.state.siteTuple = b.state.siteTuple ∧ a.state.spin = b.state.spin ∧
        (o.suppressOrbit = true ∨ a.state.orbit = b.state.orbit) := by
      rw [← key, ← hu, ← hv]
      constructor
      · intro h
        exact List.append_cancel_left (List.append_cancel_right h)
      · intro h
        rw [h]
    refine ⟨main, ?_⟩
    intro hs
    rw [main]
    simp [NumberOperator.rich, stateRich_eq, linRich, stateKey_eq_iff, StateID.hashKey, hs]
  · intro a b nd u v hu hv
    obtain ⟨w, hw, rfl⟩ := spinOpTex_ok.1 hu
    obtain ⟨w', hw', rfl⟩ := spinOpTex_ok.1 hv
    have hp := siteTex_plain hft hw
    have hp' := siteTex_plain hft hw'
    simp only [SiteID.tolatex, bind_ok_iff] at hw hw'
    obtain ⟨i, hi, hw⟩ := hw
    obtain ⟨j, hj, hw'⟩ := hw'
    injection hw with hw
    injection hw' with hw'
    have hij := (C76_getIndex x xs start tb htb).2.1 (.site a.siteId) (.site b.siteId) i j hi hj
    have h2 : AnyObj.eq (.site a.siteId) (.site b.siteId) = true ↔ a.siteId.tuple = b.siteId.tuple := by
      simp [AnyObj.eq, siteRich_eq, linRich]
    rw [h2] at hij
    simp only [SpinOperator.eq, decide_eq_true_eq]
    rw [← hij]
    constructor
    · intro h
      obtain ⟨h3, h4⟩ := spinCore_inj hp hp' (math_inj h)
      rw [← hw, ← hw'] at h4
      exact ⟨h3, decInt_inj h4⟩
    · rintro ⟨h3, rfl⟩
      rw [h3, ← hw, ← hw']

/-- A table of two sites; an operator on the second. -/
example : ∃ tb, IndexTable.init [AnyObj.site ⟨[.int 0], [0]⟩, AnyObj.site ⟨[.int 1], [10000]⟩] 0 = .ok tb ∧
    MadeWith defaultZoom (.aoc ⟨.annihilation, ⟨[.int 1], 0, 3, [10000]⟩⟩) ∧
    AoC.tolatex fracText defaultZoom ⟨.annihilation, ⟨[.int 1], 0, 3, [10000]⟩⟩ (.table tb)
      { suppressOrbit := false } = .ok "$c_{1,\\downarrow,3}$".toList := ⟨_, rfl, rfl, rfl⟩

/-- **C78** (terms with an index table).  The LaTeX form of a term determines the text of its
coefficient and, one by one, its operators. -/
theorem C78_term_identified (ft : F64 → Txt) (hft : FloatText ft) (zoom : ℤ) (x : AnyObj) (xs : List AnyObj)
    (start : ℤ) (tb : IndexTable AnyObj) (htb : IndexTable.init (x :: xs) start = .ok tb)
    (c c' : Txt) (hc : CoeffText c) (hc' : CoeffText c') :
    (∀ (s t : ParticleTerm) o u v, (∀ a ∈ s.aocs, MadeWith zoom (.aoc a)) → (∀ a ∈ t.aocs, MadeWith zoom (.aoc a)) →
      o.suppressOrbit = false →
      s.tolatex ft zoom c (some tb) o = .ok u → t.tolatex ft zoom c' (some tb) o = .ok v →
      (u = v ↔ c = c' ∧ List.Forall₂ (fun a b => AoC.eq a b = true) s.aocs t.aocs)) ∧
    (∀ (s t : SpinInteraction) nd u v,
      s.tolatex ft c (some tb) nd = .ok u → t.tolatex ft c' (some tb) nd = .ok v →
      (u = v ↔ c = c' ∧ List.Forall₂ (fun a b => SpinOperator.eq a b = true) s.operators t.operators)) := by
  have lists : ∀ {α : Type} {R : α → Txt → Prop} {E : α → α → Prop} {l l' : List α} {L L' : List Txt},
      List.Forall₂ R l L → List.Forall₂ R l' L' →
      (∀ a ∈ l, ∀ b ∈ l', ∀ u v, R a u → R b v → (u = v ↔ E a b)) →
      (L = L' ↔ List.Forall₂ E l l') := by
    intro α R E l l' L L' h
    induction h generalizing l' L' with
    | nil =>
      intro h' _
      cases h' with
      | nil => simp
      | cons h1 h2 => simp
    | cons h1 h2 ih =>
      intro h' hE
      cases h' with
      | nil => simp
      | cons h1' h2' =>
        simp only [List.cons.injEq, List.forall₂_cons]
        rw [hE _ (by simp) _ (by simp) _ _ h1 h1',
          ih h2' (fun a ha b hb u v => hE a (by simp [ha]) b (by simp [hb]) u v)]
  constructor
  · intro s t o u v hs ht ho hu hv
    obtain ⟨L, rfl, hL⟩ := termTex_ok hft hu
    obtain ⟨L', rfl, hL'⟩ := termTex_ok hft hv
    have hm := forall₂_mem hL
    have hm' := forall₂_mem hL'
    have key : L = L' ↔ List.Forall₂ (fun a b => AoC.eq a b = true) s.aocs t.aocs := by
      refine lists hL hL' ?_
      rintro a ha b hb u v ⟨w, hw, rfl⟩ ⟨w', hw', rfl⟩
      have := ((C78_operator_identified ft hft zoom x xs start tb htb).1 a b o _ _ (hs a ha) (ht b hb)
        (aocTex_ok.2 ⟨w, hw, rfl⟩) (aocTex_ok.2 ⟨w', hw', rfl⟩)).2 ho
      rw [← this]
      exact ⟨fun h => by rw [h], math_inj⟩
    rw [← key]
    constructor
    · intro h
      refine tokens_inj 'c' L L' c c' (fun h => (plain_coeff hc _ h).2.2.2.1 rfl)
        (fun h => (plain_coeff hc' _ h).2.2.2.1 rfl) ?_ ?_ (math_inj h)
      · intro l hl
        obtain ⟨a, -, w, hw, rfl⟩ := hm l hl
        exact aocCore_token (subscript_plain hft hw)
      · intro l hl
        obtain ⟨a, -, w, hw, rfl⟩ := hm' l hl
        exact aocCore_token (subscript_plain hft hw)
    · rintro ⟨rfl, rfl⟩
      rfl
  · intro s t nd u v hu hv
    obtain ⟨L, rfl, hL⟩ := interTex_ok hft hu
    obtain ⟨L', rfl, hL'⟩ := interTex_ok hft hv
    have hm := forall₂_mem hL
    have hm' := forall₂_mem hL'
    have key : L = L' ↔ List.Forall₂ (fun a b => SpinOperator.eq a b = true) s.operators t.operators := by
      refine lists hL hL' ?_
      rintro a - b - u v ⟨w, hw, rfl⟩ ⟨w', hw', rfl⟩
      have := (C78_operator_identified ft hft zoom x xs start tb htb).2.2 a b nd _ _
        (spinOpTex_ok.2 ⟨w, hw, rfl⟩) (spinOpTex_ok.2 ⟨w', hw', rfl⟩)
      rw [← this]
      exact ⟨fun h => by rw [h], math_inj⟩
    rw [← key]
    constructor
    · intro h
      refine tokens_inj 'S' L L' c c' (fun h => (plain_coeff hc _ h).2.2.2.2 rfl)
        (fun h => (plain_coeff hc' _ h).2.2.2.2 rfl) ?_ ?_ (math_inj h)
      · intro l hl
        obtain ⟨a, -, w, hw, rfl⟩ := hm l hl
        exact spinCore_token (siteTex_plain hft hw)
      · intro l hl
        obtain ⟨a, -, w, hw, rfl⟩ := hm' l hl
        exact spinCore_token (siteTex_plain hft hw)
    · rintro ⟨rfl, rfl⟩
      rfl

example : ∃ tb, IndexTable.init [AnyObj.site ⟨[.int 0], [0]⟩, AnyObj.site ⟨[.int 1], [10000]⟩] 0 = .ok tb ∧
    CoeffText "(1+2j)".toList ∧
    ParticleTerm.tolatex fracText defaultZoom (ParticleTerm.mk [⟨.creation, ⟨[.int 0], 0, 0, [0]⟩⟩,
      ⟨.annihilation, ⟨[.int 1], 1, 0, [10000]⟩⟩] 1 .hopping) "(1+2j)".toList (some tb) { suppressOrbit := false } =
      .ok "$(1+2j)c_{0,\\downarrow,0}^{\\dagger}c_{1,\\uparrow,0}$".toList :=
  ⟨_, rfl, by unfold CoeffText; decide, rfl⟩

/-- **C78** (lookup).  `StateID.tolatex` with a table looks up the site with the coordinates of the
state, made under the current precision: it fails exactly as that lookup does, and returns text
starting with the index otherwise.  With an int that int is shown. -/
theorem C78_lookup (ft : F64 → Txt) (zoom : ℤ) (s : StateID) (id : SiteID) (o : LatexOpts)
    (h : SiteID.init zoom s.site = .ok id) :
    (∀ (tb : IndexTable AnyObj) e, s.tolatex ft zoom (.table tb) o = .error e ↔
      (AnyObj.site id).getIndex tb = .error e) ∧
    (∀ (tb : IndexTable AnyObj) i, (AnyObj.site id).getIndex tb = .ok i → ∃ rest,
      s.tolatex ft zoom (.table tb) o = .ok (decInt i ++ ',' :: rest)) ∧
    (∀ i, ∃ rest, s.tolatex ft zoom (.int i) o = .ok (decInt i ++ ',' :: rest)) := by
  have key : ∀ (si : SiteIndex) i, id.tolatex ft si o.ndigits = .ok (decInt i) → ∃ rest,
      s.tolatex ft zoom si o = .ok (decInt i ++ ',' :: rest) := by
    intro si i hi
    unfold StateID.tolatex
    rw [h]
    simp only [Except.bind, bind, hi]
    split
    · exact ⟨spinText o.spinOneHalf s.spin, congrArg Except.ok (by simp [pyJoin])⟩
    · exact ⟨spinText o.spinOneHalf s.spin ++ ',' :: decNat s.orbit, congrArg Except.ok (by simp [pyJoin])⟩
  have ok : ∀ (tb : IndexTable AnyObj) i, (AnyObj.site id).getIndex tb = .ok i → ∃ rest,
      s.tolatex ft zoom (.table tb) o = .ok (decInt i ++ ',' :: rest) := by
    intro tb i hi
    refine key _ _ ?_
    simp only [AnyObj.getIndex] at hi
    simp [SiteID.tolatex, hi, bind, Except.bind, pure, Except.pure]
  refine ⟨?_, ok, fun i => key _ _ rfl⟩
  intro tb e
  cases hq : (AnyObj.site id).getIndex tb with
  | ok i =>
    obtain ⟨rest, hr⟩ := ok tb i hq
    rw [hr]
    simp
  | error e' =>
    simp only [AnyObj.getIndex] at hq
    have : s.tolatex ft zoom (.table tb) o = .error e' := by
      simp [StateID.tolatex, SiteID.tolatex, h, hq, bind, Except.bind]
    rw [this]
    simp

/-- **C78** (precision).  Because of that, a state and a table that agreed before
`set_float_point_precision` no longer do: the site of the state is in the table (as every operator on
it can tell), but the LaTeX form raises KeyError, while that of a spin operator on the site does not. -/
theorem C78_precision_violated : ∃ (s : StateID) (id : SiteID) (tb : IndexTable AnyObj) (z : ℤ),
    StateID.init defaultZoom s.site s.spin s.orbit = .ok s ∧ SiteID.init defaultZoom s.site = .ok id ∧
    IndexTable.init [.site id] 0 = .ok tb ∧ setFloatPointPrecision 2 = .ok z ∧
    (∀ ft, ∃ t, s.tolatex ft defaultZoom (.table tb) {} = .ok t) ∧
    (∀ ft, s.tolatex ft z (.table tb) {} = .error .keyError) ∧
    (∀ ft, ∃ t, SpinOperator.tolatex ft ⟨.x, id⟩ (.table tb) = .ok t) :=
  ⟨⟨[.int 1], 0, 0, [10000]⟩, ⟨[.int 1], [10000]⟩, _, 100, rfl, rfl, rfl, rfl, fun _ => ⟨_, rfl⟩, fun _ => rfl,
    fun _ => ⟨_, rfl⟩⟩

/-- **C78** (integer coordinates).  Without a table and with `ndigits >= 0`, sites with int coordinates
are shown as they are: the LaTeX form determines the coordinates. -/
theorem C78_integer_sites (ft : F64 → Txt) (hft : FloatText ft) (nd : ℤ) (hnd : 0 ≤ nd) (a b : List ℤ)
    (ha : a ≠ []) (hb : b ≠ []) (ta tb : List ℤ) :
    ∃ u v, SiteID.tolatex ft ⟨a.map Coord.int, ta⟩ .none nd = .ok u ∧
      SiteID.tolatex ft ⟨b.map Coord.int, tb⟩ .none nd = .ok v ∧ (u = v ↔ a = b) := by
  have key : ∀ l : List ℤ, (l.map Coord.int).mapM (fun c => pyRound c nd) = .ok (l.map Coord.int) := by
    intro l
    rw [mapM_ok_iff]
    induction l with
    | nil => exact .nil
    | cons a l ih => exact .cons (by simp [pyRound, hnd]) ih
  have key2 : ∀ (l t : List ℤ), SiteID.tolatex ft ⟨l.map Coord.int, t⟩ .none nd =
      .ok ("(".toList ++ pyJoin ",".toList ((l.map Coord.int).map (Coord.text ft)) ++ ")".toList) := by
    intro l t
    simp only [SiteID.tolatex, key, bind, Except.bind, pure, Except.pure]
  refine ⟨_, _, key2 a ta, key2 b tb, ?_⟩
  constructor
  · intro h
    rw [List.append_assoc, List.append_assoc] at h
    have h := List.append_cancel_left h
    have := (joinNum_inj hft ',' [] (by decide) (not_num _) (a.map Coord.int) (b.map Coord.int) [] []
      (by simpa using ha) (by simpa using hb) h).1
    exact List.map_injective_iff.mpr (fun x y hxy => by injection hxy) this
  · rintro rfl
    rfl

example : SiteID.tolatex fracText ⟨[.int 3, .int (-2)], [30000, -20000]⟩ .none 4 = .ok "(3,-2)".toList := rfl

/-- **C78** (rounding).  A float coordinate is shown as the double nearest to a multiple of
`10**(-ndigits)` that is at most half of that unit away from the coordinate. -/
theorem C78_rounding (q r : ℚ) (nd : ℤ) (h : pyRound (.flt (.fin q)) nd = .ok (.flt (.fin r))) :
    ∃ n : ℤ, |n / (10 : ℚ) ^ nd - q| ≤ 1 / (2 * (10 : ℚ) ^ nd) ∧ r = flRat (n / (10 : ℚ) ^ nd) ∧
      |r - n / (10 : ℚ) ^ nd| ≤ |n / (10 : ℚ) ^ nd| / 2 ^ 53 + 1 / 2 ^ 1075 := by
  change ∃ n : ℤ, |n / pow10 nd - q| ≤ 1 / (2 * pow10 nd) ∧ r = flRat (n / pow10 nd) ∧
      |r - n / pow10 nd| ≤ |n / pow10 nd| / 2 ^ 53 + 1 / 2 ^ 1075
  have hp : (0 : ℚ) < pow10 nd := by unfold pow10; positivity
  refine ⟨roundHalfEven (q * pow10 nd), ?_, ?_⟩
  · have h1 := roundHalfEven_near (q * pow10 nd)
    rw [show (roundHalfEven (q * pow10 nd) : ℚ) / pow10 nd - q =
      (roundHalfEven (q * pow10 nd) - q * pow10 nd) / pow10 nd by field_simp]
    rw [abs_div, abs_of_pos hp, show 1 / (2 * pow10 nd) = (1 / 2) / pow10 nd by field_simp]
    exact div_le_div_of_nonneg_right h1 hp.le
  · have hr : r = flRat (roundHalfEven (q * pow10 nd) / pow10 nd) := by
      simp only [pyRound] at h
      split at h
      · rename_i x hx
        injection h with h
        injection h with h
        injection h with h
        unfold fl at hx
        split at hx
        · cases hx
        · injection hx with hx
          rw [← h, hx]
      · cases h
    refine ⟨hr, ?_⟩
    rw [hr]
    exact flRat_error _

example : pyRound (.flt (.fin (1 / 8))) 2 = .ok (.flt (.fin (flRat (12 / 100)))) := by decide +kernel

/-- **C78** (defaults).  Without optional arguments, coordinates are rounded to four decimals, spins 0 and
1 are shown as arrows and the orbit is left out: two states that differ in the orbit only have the same
form. -/
theorem C78_defaults (ft : F64 → Txt) (zoom : ℤ) :
    (∀ (s : SiteID) si, s.tolatex ft si = s.tolatex ft si 4) ∧
    (∀ (s : SpinOperator) si, s.tolatex ft si = s.tolatex ft si 4) ∧
    (∀ (t : SpinInteraction) c tb, t.tolatex ft c tb = t.tolatex ft c tb 4) ∧
    (∀ (s : StateID) si site, s.tolatex ft zoom si {} = .ok site →
      ∃ id l, SiteID.init zoom s.site = .ok id ∧ id.tolatex ft si 4 = .ok l ∧
        site = l ++ ",".toList ++ (if s.spin = 0 then "$\\downarrow$".toList
          else if s.spin = 1 then "$\\uparrow$".toList else decNat s.spin)) ∧
    (∀ (s t : StateID) si, s.site = t.site → s.spin = t.spin →
      s.tolatex ft zoom si {} = t.tolatex ft zoom si {}) := by
  refine ⟨fun _ _ => rfl, fun _ _ => rfl, fun _ _ _ => rfl, ?_, ?_⟩
  · intro s si site h
    simp only [StateID.tolatex] at h
    obtain ⟨id, hid, h⟩ := bind_ok_iff.1 h
    obtain ⟨l, hl, h⟩ := bind_ok_iff.1 h
    refine ⟨id, l, hid, hl, ?_⟩
    simp only [if_true] at h
    injection h with h
    rw [← h, spinText]
    by_cases h0 : s.spin = 0
    · simp [h0, pyJoin]
    · by_cases h1 : s.spin = 1
      · simp [h1, pyJoin]
      · simp [h0, h1, pyJoin]
  · intro s t si h1 h2
    simp only [StateID.tolatex, h1, h2, if_true]

example : StateID.tolatex fracText 10000 ⟨[.int 3, .int (-2)], 1, 5, [30000, -20000]⟩ .none {} =
    .ok "(3,-2),$\\uparrow$".toList := rfl

end Verif
