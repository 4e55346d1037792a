import Verif.Proofs.Particle
/-!
# C06, C07, C08, C09, C13: creation/annihilation operators and particle terms
-/

namespace Verif
open Spec

/-- **C06.** The six comparisons of `AoC` are one total order whose `==` is equality of the hashed
tuple; every creator is smaller than every annihilator, creators ascend and annihilators descend
with the single-particle state. -/
theorem C06_aoc_total_order :
    IsTotalOrder AoC.rich ∧
    (∀ a b : AoC, AoC.rich .eq a b = true ↔ a.hashKey = b.hashKey) ∧
    (∀ s t, AoC.lt ⟨.creation, s⟩ ⟨.annihilation, t⟩ = true) ∧
    (∀ s t, AoC.lt ⟨.creation, s⟩ ⟨.creation, t⟩ = StateID.rich .lt s t) ∧
    (∀ s t, AoC.lt ⟨.annihilation, s⟩ ⟨.annihilation, t⟩ = StateID.rich .lt t s) := by
  refine ⟨isTotalOrder_of_key _ _ aocRich_eq, ?_, fun _ _ => rfl, fun _ _ => rfl, ?_⟩
  · intro a b; simp [aocRich_eq, linRich, aocKey_eq_iff]
  · intro s t
    change StateID.rich .gt s t = _
    simp [stateRich_eq, linRich]

example : AoC.lt ⟨.creation, ⟨[.int 5], 0, 0, [50000]⟩⟩ ⟨.annihilation, ⟨[.int 0], 0, 0, [0]⟩⟩ = true ∧
    AoC.lt ⟨.annihilation, ⟨[.int 5], 0, 0, [50000]⟩⟩ ⟨.annihilation, ⟨[.int 0], 0, 0, [0]⟩⟩ = true := by
  decide

/-- **C06** for `NumberOperator`: the comparisons are one total order. -/
theorem C06_numberoperator_total_order : IsTotalOrder NumberOperator.rich :=
  isTotalOrder_of_key (fun n : NumberOperator => stateKey n.state) _
    (fun op a b => stateRich_eq op a.state b.state)

/-- **C07.** For an operator built under the current precision, `dagger()` flips exactly the type,
`dagger().dagger()` is the operator, and `a.conjugate_of(b)` holds iff `b == a.dagger()`. -/
theorem C07_dagger_involution (zoom : ℤ) (a : AoC) (ot : ℤ) (site : List Coord) (sp o : ℤ)
    (h : AoC.init zoom ot site sp o = .ok a) :
    ∃ d, a.dagger zoom = .ok d ∧ d.otype ≠ a.otype ∧ d.state = a.state ∧
      d.dagger zoom = .ok a ∧ (∀ b, a.conjugateOf b = b.eq d) := by
  have hb := aocInit_builtUnder h
  refine ⟨_, dagger_of_built hb, ?_, rfl, ?_, ?_⟩
  · rcases a with ⟨⟨⟩, s⟩ <;> simp
  · rw [dagger_of_built (by simpa using hb)]
    rcases a with ⟨⟨⟩, s⟩ <;> rfl
  · intro b
    rcases a with ⟨⟨⟩, s⟩ <;> rcases b with ⟨⟨⟩, t⟩ <;>
      simp [AoC.conjugateOf, AoC.eq, AoC.hashKey, stateRich_eq, linRich, stateKey_eq_iff, eq_comm]

theorem C03.eq_comm' (a b : StateID) : a.rich .eq b = b.rich .eq a := by
  simp only [stateRich_eq, linRich]
  exact decide_eq_decide.mpr eq_comm

/-- **C07** (predicates).  `conjugate_of` and `same_state` are symmetric; `same_state` holds iff the
states compare equal; `conjugate_of` iff in addition the types differ. -/
theorem C07_conjugate_same_state (a b : AoC) :
    a.conjugateOf b = b.conjugateOf a ∧ a.sameState b = b.sameState a ∧
    (a.sameState b = true ↔ a.state.hashKey = b.state.hashKey) ∧
    (a.conjugateOf b = true ↔ a.otype ≠ b.otype ∧ a.sameState b = true) := by
  refine ⟨?_, ?_, ?_, ?_⟩
  · unfold AoC.conjugateOf
    rw [C03.eq_comm' a.state b.state]
    congr 1
    exact decide_eq_decide.mpr ne_comm
  · exact C03.eq_comm' a.state b.state
  · simp [AoC.sameState, stateRich_eq, linRich, stateKey_eq_iff]
  · simp [AoC.conjugateOf, AoC.sameState]

/-- **C07** (derive).  `derive` changes exactly the attributes given. -/
theorem C07_derive (zoom : ℤ) (a a' : AoC) (ot : Option ℤ) (site : Option (List Coord))
    (sp o : Option ℤ) (h : a.derive zoom ot site sp o = .ok a') :
    (a'.otype = match ot with
      | none => a.otype
      | some z => if z = 1 then .creation else .annihilation) ∧
    a'.state.site = site.getD a.state.site ∧
    (a'.state.spin : ℤ) = sp.getD a.state.spin ∧
    (a'.state.orbit : ℤ) = o.getD a.state.orbit := by
  unfold AoC.derive AoC.init at h
  rw [bind_ok_iff] at h
  obtain ⟨_, _, h⟩ := h
  rw [bind_ok_iff] at h
  obtain ⟨s, hs, h⟩ := h
  cases h
  obtain ⟨h1, h2, h3, -⟩ := stateInit_ok hs
  refine ⟨?_, h1, h2, h3⟩
  cases ot with
  | none => rcases a with ⟨⟨⟩, _⟩ <;> rfl
  | some z => rfl

example : ∃ a d, AoC.init defaultZoom 1 [.int 0, .int 2] 1 0 = .ok a ∧ a.dagger defaultZoom = .ok d ∧
    d = ⟨.annihilation, ⟨[.int 0, .int 2], 1, 0, [0, 20000]⟩⟩ ∧ a.conjugateOf d = true :=
  ⟨_, _, rfl, rfl, rfl, rfl⟩

/-- **C07** (derive, number operators).  `NumberOperator.derive` changes
exactly the attributes given. -/
theorem C07_derive_number (zoom : ℤ) (a a' : NumberOperator) (site : Option (List Coord))
    (sp o : Option ℤ) (h : a.derive zoom site sp o = .ok a') :
    a'.state.site = site.getD a.state.site ∧
    (a'.state.spin : ℤ) = sp.getD a.state.spin ∧
    (a'.state.orbit : ℤ) = o.getD a.state.orbit := by
  unfold NumberOperator.derive NumberOperator.init at h
  rw [bind_ok_iff] at h
  obtain ⟨s, hs, h⟩ := h
  cases h
  obtain ⟨h1, h2, h3, -⟩ := stateInit_ok hs
  exact ⟨h1, h2, h3⟩

example : ∃ a d, NumberOperator.init defaultZoom [.int 0, .int 2] 1 3 = .ok a ∧
    a.derive defaultZoom (site := some [.int 5]) = .ok d ∧ d = ⟨⟨[.int 5], 1, 3, [50000]⟩⟩ :=
  ⟨_, _, rfl, rfl, rfl⟩

/-- The hypothesis "under the current precision" of C07 is necessary: after a precision change
`a.dagger()` is no longer the conjugate of `a`. -/
theorem C07_needs_same_precision :
    ∃ (a d : AoC), AoC.init 10000 1 [.int 1] = .ok a ∧ a.dagger 1000000 = .ok d ∧
      a.conjugateOf d = false :=
  ⟨_, _, rfl, rfl, by decide⟩

/-! ### C08: products -/

/-- A product expression. -/
inductive PExpr
  | leaf (v : PVal)
  | mul (l r : PExpr)

/-- Evaluation of the expression with Python's `*`. -/
noncomputable def PExpr.eval (zoom : ℤ) : PExpr → Py PVal
  | .leaf v => .ok v
  | .mul l r => do
    let x ← l.eval zoom
    let y ← r.eval zoom
    pyMul zoom x y

/-- The factors in reading order. -/
def PExpr.leaves : PExpr → List PVal
  | .leaf v => [v]
  | .mul l r => l.leaves ++ r.leaves

/-- The creation/annihilation operators a factor stands for: `n_s` is `c_s^dagger c_s`. -/
def PVal.components : PVal → List AoC
  | .aoc a => [a]
  | .nop n => [⟨.creation, n.state⟩, ⟨.annihilation, n.state⟩]
  | .term t => t.aocs
  | .num _ => []
  | .other => []

/-- The numeric coefficient a factor stands for. -/
def PVal.coefficient : PVal → ℂ
  | .term t => t.coeff
  | .num c => c
  | _ => 1

/-- Is the factor a plain number? -/
def PVal.isNum : PVal → Bool
  | .num _ => true
  | _ => false

/-- Is the factor a foreign object? -/
def PVal.isOther : PVal → Bool
  | .other => true
  | _ => false

/-- Number operators among the factors were built under the current precision. -/
def PVal.Built (zoom : ℤ) : PVal → Prop
  | .nop n => n.state.BuiltUnder zoom
  | _ => True

theorem pyMul_spec (zoom : ℤ) (x y : PVal) (hx : x.Built zoom) (hy : y.Built zoom) :
    pyMul zoom x y =
      if x.isOther || y.isOther then .error .typeError
      else if x.isNum && y.isNum then .ok (.num (x.coefficient * y.coefficient))
      else .ok (.term ⟨x.components ++ y.components, x.coefficient * y.coefficient, .general⟩) := by
  have nopx : ∀ n : NumberOperator, n.state.BuiltUnder zoom →
      (n.toterm zoom).map PVal.term =
        .ok (.term ⟨[⟨.creation, n.state⟩, ⟨.annihilation, n.state⟩], 1, .general⟩) := by
    intro n hn; rw [toterm_of_built hn]; rfl
  cases x <;> cases y <;>
    simp_all [pyMul, PVal.Built, PVal.isOther, PVal.isNum, PVal.components, PVal.coefficient,
      pyMulBasic, AoC.mul, AoC.rmul, ParticleTerm.mul, ParticleTerm.rmul, raise, bind, Except.bind]

/-- **C08.** Every product expression of operators, terms and numbers evaluates to the number
product if all factors are numbers, and otherwise to the `ParticleTerm` (classified "general")
whose components are those of the factors in reading order and whose coefficient is the product of
the factors' coefficients; with a foreign factor it raises TypeError. -/
theorem C08_product_expression (zoom : ℤ) (l r : PExpr)
    (hb : ∀ v ∈ (PExpr.mul l r).leaves, v.Built zoom) :
    (PExpr.mul l r).eval zoom =
      let fs := (PExpr.mul l r).leaves
      if fs.any PVal.isOther then .error .typeError
      else if fs.all PVal.isNum then .ok (.num (fs.map PVal.coefficient).prod)
      else .ok (.term ⟨fs.flatMap PVal.components, (fs.map PVal.coefficient).prod, .general⟩) := by
  -- a summary value of an expression: what a leaf or product evaluates to
  have key : ∀ e : PExpr, (∀ v ∈ e.leaves, v.Built zoom) →
      ((∃ v, e = .leaf v) ∨
        e.eval zoom =
          let fs := e.leaves
          if fs.any PVal.isOther then .error .typeError
          else if fs.all PVal.isNum then .ok (.num (fs.map PVal.coefficient).prod)
          else .ok (.term ⟨fs.flatMap PVal.components, (fs.map PVal.coefficient).prod,
            .general⟩)) := by
    intro e
    induction e with
    | leaf v => intro _; exact .inl ⟨v, rfl⟩
    | mul l r ihl ihr =>
      intro hb
      right
      have hl := fun v hv => hb v (List.mem_append_left _ hv)
      have hr := fun v hv => hb v (List.mem_append_right _ hv)
      -- value of each side: either a bare leaf or the summary
      have val : ∀ e : PExpr, (∀ v ∈ e.leaves, v.Built zoom) →
          ((∃ v, e = .leaf v) ∨
            e.eval zoom =
              let fs := e.leaves
              if fs.any PVal.isOther then .error .typeError
              else if fs.all PVal.isNum then .ok (.num (fs.map PVal.coefficient).prod)
              else .ok (.term ⟨fs.flatMap PVal.components, (fs.map PVal.coefficient).prod,
                .general⟩)) →
          (e.eval zoom = .error .typeError ∧ e.leaves.any PVal.isOther = true) ∨
          ∃ x, e.eval zoom = .ok x ∧ x.Built zoom ∧ x.components = e.leaves.flatMap PVal.components ∧
            x.coefficient = (e.leaves.map PVal.coefficient).prod ∧
            x.isNum = e.leaves.all PVal.isNum ∧ x.isOther = e.leaves.any PVal.isOther := by
        intro e he h
        rcases h with ⟨v, rfl⟩ | h
        · right
          exact ⟨v, rfl, he v (by simp [PExpr.leaves]), by simp [PExpr.leaves],
            by simp [PExpr.leaves], by simp [PExpr.leaves], by simp [PExpr.leaves]⟩
        · by_cases h1 : e.leaves.any PVal.isOther = true
          · left; rw [h]; simp [h1]
          · right
            simp only [Bool.not_eq_true] at h1
            by_cases h2 : e.leaves.all PVal.isNum = true
            · refine ⟨.num (e.leaves.map PVal.coefficient).prod, ?_, trivial, ?_, rfl,
                by rw [h2]; rfl, by rw [h1]; rfl⟩
              · rw [h]; simp only [h1, h2, if_true, Bool.false_eq_true, if_false]
              · rw [List.all_eq_true] at h2
                symm
                rw [List.flatMap_eq_nil_iff.mpr]
                · rfl
                · intro v hv
                  have := h2 v hv
                  cases v <;> simp_all [PVal.isNum, PVal.components]
            · simp only [Bool.not_eq_true] at h2
              refine ⟨.term ⟨e.leaves.flatMap PVal.components, (e.leaves.map PVal.coefficient).prod,
                .general⟩, ?_, trivial, rfl, rfl, by rw [h2]; rfl, by rw [h1]; rfl⟩
              rw [h]; simp only [h1, h2, Bool.false_eq_true, if_false]
      have vl := val l hl (ihl hl)
      have vr := val r hr (ihr hr)
      simp only [PExpr.leaves, List.any_append, List.all_append, List.map_append,
        List.prod_append, List.flatMap_append]
      simp only [PExpr.eval]
      rcases vl with ⟨el, ol⟩ | ⟨x, ex, bx, cx, kx, nx, ox⟩
      · rw [el, ol]; rfl
      · rw [ex]
        rcases vr with ⟨er, or⟩ | ⟨y, ey, by_, cy, ky, ny, oy⟩
        · rw [er, or]; simp [bind, Except.bind]
        · rw [ey]
          simp only [bind, Except.bind]
          rw [pyMul_spec zoom x y bx by_, ← ox, ← oy, ← nx, ← ny, ← kx, ← ky, ← cx, ← cy]
  rcases key _ hb with ⟨v, hv⟩ | h
  · cases hv
  · exact h

/-- **C08** (bracketing).  Two product expressions with the same factors in the same reading order
evaluate to the same object, however they are bracketed. -/
theorem C08_bracketing_irrelevant (zoom : ℤ) (l r l' r' : PExpr)
    (hb : ∀ v ∈ (PExpr.mul l r).leaves, v.Built zoom)
    (h : (PExpr.mul l r).leaves = (PExpr.mul l' r').leaves) :
    (PExpr.mul l r).eval zoom = (PExpr.mul l' r').eval zoom := by
  rw [C08_product_expression zoom l r hb, C08_product_expression zoom l' r' (h ▸ hb), h]

/-- Non-vacuity: `2 * (c * n) * 3` with `n` a number operator. -/
example : ∃ (s : StateID) (a : AoC), s.BuiltUnder defaultZoom ∧
    (PExpr.mul (.mul (.leaf (.num 2)) (.mul (.leaf (.aoc a)) (.leaf (.nop ⟨s⟩)))) (.leaf (.num 3))).eval
      defaultZoom =
      .ok (.term ⟨[a, ⟨.creation, s⟩, ⟨.annihilation, s⟩], 2 * (1 * 1) * 3, .general⟩) := by
  refine ⟨⟨[.int 1], 0, 0, [10000]⟩, ⟨.creation, ⟨[.int 0], 0, 0, [0]⟩⟩, ⟨[.int 1], 0, 0, rfl⟩, ?_⟩
  rw [C08_product_expression]
  · simp [PExpr.leaves, PVal.isOther, PVal.isNum, PVal.components, PVal.coefficient]
  · intro v hv
    simp [PExpr.leaves] at hv
    rcases hv with rfl | rfl | rfl | rfl <;> simp [PVal.Built]
    exact ⟨[.int 1], 0, 0, rfl⟩

/-! ### C09: dagger of a term -/

theorem mapM_dagger {zoom : ℤ} (l : List AoC) (h : ∀ a ∈ l, a.state.BuiltUnder zoom) :
    l.mapM (AoC.dagger zoom) = .ok (l.map fun a =>
      ⟨match a.otype with | .creation => .annihilation | .annihilation => .creation, a.state⟩) := by
  rw [mapM_ok_iff]
  apply forall₂_of_getElem (by simp)
  intro i hi
  rw [List.getElem_map]
  exact dagger_of_built (h _ (List.getElem_mem hi))

/-- **C09.** `dagger()` reverses the components, conjugates each of them and the coefficient, and
is an involution on components and coefficient. -/
theorem C09_term_dagger_involution (zoom : ℤ) (t : ParticleTerm)
    (hb : ∀ a ∈ t.aocs, a.state.BuiltUnder zoom) :
    ∃ d, t.dagger zoom = .ok d ∧ d.coeff = (starRingEnd ℂ) t.coeff ∧
      t.aocs.reverse.mapM (AoC.dagger zoom) = .ok d.aocs ∧
      ∃ dd, d.dagger zoom = .ok dd ∧ dd.aocs = t.aocs ∧ dd.coeff = t.coeff := by
  have hr : ∀ a ∈ t.aocs.reverse, a.state.BuiltUnder zoom := fun a ha => hb a (by simpa using ha)
  refine ⟨⟨_, _, .general⟩, ?_, rfl, mapM_dagger _ hr, ⟨t.aocs, t.coeff, .general⟩, ?_, rfl, rfl⟩
  · unfold ParticleTerm.dagger
    rw [mapM_dagger _ hr]
    rfl
  · unfold ParticleTerm.dagger
    rw [mapM_dagger]
    · have : ((t.aocs.reverse.map fun a : AoC => (⟨match a.otype with
          | .creation => .annihilation | .annihilation => .creation, a.state⟩ : AoC)).reverse.map
          fun a : AoC => (⟨match a.otype with
          | .creation => .annihilation | .annihilation => .creation, a.state⟩ : AoC)) = t.aocs := by
        simp only [List.map_reverse, List.reverse_reverse, List.map_map]
        conv_rhs => rw [← List.map_id t.aocs]
        apply List.map_congr_left
        rintro ⟨⟨⟩, s⟩ _ <;> rfl
      rw [this]
      simp [bind, Except.bind, pure, Except.pure]
    · intro a ha
      simp only [List.map_reverse, List.reverse_reverse, List.mem_map] at ha
      obtain ⟨a', ha', rfl⟩ := ha
      exact hb a' ha'

/-- **C09** (products).  `(s * t).dagger()` equals `t.dagger() * s.dagger()`. -/
theorem C09_dagger_antimultiplicative (zoom : ℤ) (s t : ParticleTerm)
    (hs : ∀ a ∈ s.aocs, a.state.BuiltUnder zoom) (ht : ∀ a ∈ t.aocs, a.state.BuiltUnder zoom) :
    ∃ st ds dt d, pyMul zoom (.term s) (.term t) = .ok (.term st) ∧
      s.dagger zoom = .ok ds ∧ t.dagger zoom = .ok dt ∧ st.dagger zoom = .ok d ∧
      pyMul zoom (.term dt) (.term ds) = .ok (.term d) := by
  have hsr : ∀ a ∈ s.aocs.reverse, a.state.BuiltUnder zoom := fun a ha => hs a (by simpa using ha)
  have htr : ∀ a ∈ t.aocs.reverse, a.state.BuiltUnder zoom := fun a ha => ht a (by simpa using ha)
  have hstr : ∀ a ∈ (s.aocs ++ t.aocs).reverse, a.state.BuiltUnder zoom := by
    intro a ha
    simp only [List.mem_reverse, List.mem_append] at ha
    rcases ha with h | h
    · exact hs a h
    · exact ht a h
  refine ⟨⟨s.aocs ++ t.aocs, s.coeff * t.coeff, .general⟩, ?_⟩
  unfold ParticleTerm.dagger
  simp only
  rw [mapM_dagger _ hsr, mapM_dagger _ htr, mapM_dagger _ hstr]
  refine ⟨_, _, _, rfl, rfl, rfl, rfl, ?_⟩
  rw [pyMul_spec _ _ _ (by trivial) (by trivial)]
  simp only [PVal.isOther, PVal.isNum, Bool.or_self, Bool.and_self, Bool.false_eq_true, if_false,
    PVal.components, PVal.coefficient, List.reverse_append, List.map_append, map_mul]
  rw [mul_comm]

example : ∀ a ∈ (⟨[⟨.creation, ⟨[.int 0], 0, 0, [0]⟩⟩, ⟨.annihilation, ⟨[.int 1], 1, 0, [10000]⟩⟩],
    Complex.I, .hopping⟩ : ParticleTerm).aocs, a.state.BuiltUnder defaultZoom := by
  intro a ha
  simp only [List.mem_cons, List.not_mem_nil, or_false] at ha
  rcases ha with rfl | rfl
  · exact ⟨[.int 0], 0, 0, rfl⟩
  · exact ⟨[.int 1], 1, 0, rfl⟩

/-- **C13.** `check_compatibility()` accepts exactly the documented shapes. -/
theorem C13_check_compatibility (t : ParticleTerm) :
    (t.classification = .hopping → (t.checkCompatibility = true ↔
      ∃ i j, t.aocs = [⟨.creation, i⟩, ⟨.annihilation, j⟩] ∧ i.hashKey ≠ j.hashKey)) ∧
    (t.classification = .number → (t.checkCompatibility = true ↔
      ∃ i j, t.aocs = [⟨.creation, i⟩, ⟨.annihilation, j⟩] ∧ i.hashKey = j.hashKey)) ∧
    (t.classification = .coulomb → (t.checkCompatibility = true ↔
      ∃ i i' j j', t.aocs = [⟨.creation, i⟩, ⟨.annihilation, i'⟩, ⟨.creation, j⟩, ⟨.annihilation, j'⟩] ∧
        i.hashKey = i'.hashKey ∧ j.hashKey = j'.hashKey)) ∧
    (t.classification = .general → t.checkCompatibility = true) := by
  refine ⟨?_, ?_, ?_, ?_⟩
  · intro hc
    unfold ParticleTerm.checkCompatibility
    rw [hc]
    rcases t.aocs with _ | ⟨⟨o0, s0⟩, _ | ⟨⟨o1, s1⟩, _ | ⟨a2, l⟩⟩⟩ <;>
      simp [stateRich_eq, linRich, stateKey_eq_iff]
  · intro hc
    unfold ParticleTerm.checkCompatibility
    rw [hc]
    rcases t.aocs with _ | ⟨⟨o0, s0⟩, _ | ⟨⟨o1, s1⟩, _ | ⟨a2, l⟩⟩⟩ <;>
      simp [stateRich_eq, linRich, stateKey_eq_iff]
  · intro hc
    unfold ParticleTerm.checkCompatibility
    rw [hc]
    rcases t.aocs with _ | ⟨⟨o0, s0⟩, _ | ⟨⟨o1, s1⟩, _ | ⟨⟨o2, s2⟩, _ | ⟨⟨o3, s3⟩, _ | ⟨a4, l⟩⟩⟩⟩⟩ <;>
      simp [stateRich_eq, linRich, stateKey_eq_iff]
    tauto
  · intro hc
    unfold ParticleTerm.checkCompatibility
    rw [hc]

end Verif
