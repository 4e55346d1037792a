import Verif.Proofs.Printed
import Verif.Proofs.ColorPrint
import Verif.Proofs.IndexTable
import Verif.Spec.Printed
import Verif.Props.Repr
import Verif.Props.Specifier
import Verif.Props.ColorPrint
/-!
# C112: the printed forms of spaces, bonds and index tables; C113: `color_demo`
-/

namespace Verif
open Spec

private theorem simple_made {s n : HVal} {a : SimpleHilbertSpace} (h : SimpleHilbertSpace.init s n = .ok a) :
    a.states ≠ [] ∧ a.number ≤ a.states.length := by
  unfold SimpleHilbertSpace.init at h
  have pos : ∀ k, s.posInt? = some k → List.range k ≠ [] := by
    intro k hp
    cases s <;> simp only [HVal.posInt?] at hp <;> try cases hp
    split at hp
    · injection hp with hp
      intro e
      rw [List.range_eq_nil] at e
      omega
    · cases hp
  simp only [bind, Except.bind, raise, pure, Except.pure] at h
  split at h
  · rename_i k hp
    split at h
    · split at h
      · cases h
      · cases h
        exact ⟨pos _ hp, by dsimp only; omega⟩
    · cases h
  · split at h
    · rename_i l hv
      split at h
      · split at h
        · cases h
        · cases h
          exact ⟨((validStates_iff _ _).1 hv).1, by dsimp only; omega⟩
      · cases h
    · cases h

/-- **C112 (`SimpleHilbertSpace`).**  `repr(space)` and `str(space)` each determine the space: two spaces print alike exactly
if they have the same states, in the same order, and the same number of particles.  The constructor call that
`repr` shows rebuilds the space. -/
theorem C112_simple_space {s n s' n' : HVal} {a b : SimpleHilbertSpace} (ha : SimpleHilbertSpace.init s n = .ok a)
    (hb : SimpleHilbertSpace.init s' n' = .ok b) :
    (a.repr = b.repr ↔ a.states = b.states ∧ a.number = b.number) ∧
    (a.str = b.str ↔ a.states = b.states ∧ a.number = b.number) ∧
    SimpleHilbertSpace.init (.tuple (a.states.map fun k : ℕ => .int k)) (.int a.number) = .ok a := by
  obtain ⟨a1, a2⟩ := simple_made ha
  obtain ⟨b1, -⟩ := simple_made hb
  refine ⟨⟨fun h => ?_, fun ⟨h1, h2⟩ => ?_⟩, ⟨fun h => ?_, fun ⟨h1, h2⟩ => ?_⟩, ?_⟩
  · unfold SimpleHilbertSpace.repr at h
    simp only [List.append_assoc] at h
    obtain ⟨h1, h2⟩ := statesText_inj fracText_spec a1 b1 (List.append_cancel_left h)
    obtain ⟨h3, -, -⟩ := span_unique (decInt_num _) (decInt_num _) (not_num ')') (not_num ')') (List.append_cancel_left h2)
    exact ⟨h1, decInt_inj h3⟩
  · unfold SimpleHilbertSpace.repr
    rw [h1, h2]
  · unfold SimpleHilbertSpace.str at h
    have nl : ∀ c : SimpleHilbertSpace, ∀ t ∈ ["The number of particle: ".toList ++ decInt c.number,
        "The number of single-particle state: ".toList ++ decNat c.states.length,
        "All available single-particle states:".toList, "    ".toList ++ statesText c.states], '\n' ∉ t := by
      intro c t ht
      simp only [List.mem_cons, List.not_mem_nil, or_false] at ht
      rcases ht with rfl | rfl | rfl | rfl
      · rw [List.mem_append, not_or]; exact ⟨by decide, not_mem_num (decInt_num _) (by decide)⟩
      · rw [List.mem_append, not_or]; exact ⟨by decide, not_mem_num (decNat_num _) (by decide)⟩
      · decide
      · rw [List.mem_append, not_or]; exact ⟨by decide, newline_states fracText_spec _⟩
    have h := pyJoin_inj '\n' _ _ (by simp) (by simp) (nl a) (nl b) h
    simp only [List.cons.injEq, and_true] at h
    obtain ⟨h1, -, -, h2⟩ := h
    have h2 := List.append_cancel_left h2
    exact ⟨(statesText_inj fracText_spec (r := []) (r' := []) a1 b1 (by rw [h2])).1,
      decInt_inj (List.append_cancel_left h1)⟩
  · unfold SimpleHilbertSpace.str
    rw [h1, h2]
  · have hv : validStates? (.tuple (a.states.map fun k : ℕ => HVal.int k)) = some a.states :=
      (validStates_iff _ _).2 ⟨a1, .inl rfl⟩
    unfold SimpleHilbertSpace.init
    simp only [HVal.posInt?, hv, bind, Except.bind]
    rw [if_neg (by omega)]
    rfl

example : (∃ a, SimpleHilbertSpace.init (.int 4) (.int 2) = .ok a ∧
      a.repr = "SimpleHilbertSpace((0, 1, 2, 3), 2)".toList) ∧
    ∃ b, SimpleHilbertSpace.init (.set [.int 5]) = .ok b ∧ b.repr = "SimpleHilbertSpace((5,), -1)".toList ∧
      b.str = ("The number of particle: -1\nThe number of single-particle state: 1\n" ++
        "All available single-particle states:\n    (5,)").toList :=
  ⟨⟨_, rfl, by decide +kernel⟩, _, rfl, by decide +kernel, by decide +kernel⟩

/-- **C112 (`HilbertSpace`).**  `repr(space)` and `str(space)` each determine the space: two spaces print alike exactly if they
have the same subspaces in the same order.  The constructor call that `repr` shows rebuilds the space. -/
theorem C112_space (ft : F64 → Txt) (hft : FloatText ft) {specs specs' : List HVal} {a b : HilbertSpace}
    (ha : HilbertSpace.init specs = .ok a) (hb : HilbertSpace.init specs' = .ok b) :
    (a.repr ft = b.repr ft ↔ a.specifiers = b.specifiers) ∧
    (a.str ft = b.str ft ↔ a.specifiers = b.specifiers) ∧
    HilbertSpace.init (a.specifiers.map standardForm) = .ok a := by
  have made : ∀ {specs : List HVal} {a : HilbertSpace}, HilbertSpace.init specs = .ok a →
      (∀ s ∈ a.specifiers, s.1 ≠ [] ∧ preprocess (standardForm s) = .ok s) ∧ pairwiseDisjoint a.specifiers = true := by
    intro specs a h
    obtain ⟨h1, h2⟩ := (C17_hilbert_space_ok specs a).1 h
    refine ⟨fun s hs => ?_, (pairwiseDisjoint_iff _).2 h2⟩
    have key : ∀ (l : List HVal) (m : List (List ℕ × HNum)), List.Forall₂ Denotes l m → ∀ s ∈ m, ∃ v, Denotes v s := by
      intro l m hlm
      induction hlm with
      | nil => simp
      | cons h _ ih =>
        intro s hs
        rcases List.mem_cons.1 hs with rfl | hs
        · exact ⟨_, h⟩
        · exact ih s hs
    obtain ⟨v, hv⟩ := key _ _ h1 s hs
    refine ⟨?_, C17_idempotent v s ((C17_standard_form v s).2 hv)⟩
    cases hv with
    | count n hn => simp; omega
    | pairCount spec n p hn hp hspec => simp; omega
    | pairStates spec c states p hne hc hp hspec => exact hne
  obtain ⟨a1, a2⟩ := made ha
  obtain ⟨b1, -⟩ := made hb
  refine ⟨⟨fun h => ?_, fun h => ?_⟩, ⟨fun h => ?_, fun h => ?_⟩, ?_⟩
  · unfold HilbertSpace.repr at h
    simp only [List.append_assoc] at h
    exact joinSpec_inj hft _ _ (fun s hs => (a1 s hs).1) (fun s hs => (b1 s hs).1) (List.append_cancel_left h)
  · unfold HilbertSpace.repr
    rw [h]
  · unfold HilbertSpace.str at h
    have nl : ∀ c : HilbertSpace, ∀ t ∈ (("subspace number: ".toList ++ decNat c.specifiers.length) ::
        "subspace specifiers:".toList :: c.specifiers.map fun s => "    ".toList ++ specifierText ft s), '\n' ∉ t := by
      intro c t ht
      simp only [List.mem_cons, List.mem_map] at ht
      rcases ht with rfl | rfl | ⟨s, -, rfl⟩
      · rw [List.mem_append, not_or]; exact ⟨by decide, not_mem_num (decNat_num _) (by decide)⟩
      · decide
      · rw [List.mem_append, not_or]; exact ⟨by decide, newline_specifier hft _⟩
    have h := pyJoin_inj '\n' _ _ (by simp) (by simp) (nl a) (nl b) h
    simp only [List.cons.injEq] at h
    have h := h.2.2
    have key : ∀ l l' : List (List ℕ × HNum), (∀ s ∈ l, s.1 ≠ []) → (∀ s ∈ l', s.1 ≠ []) →
        (l.map fun s => "    ".toList ++ specifierText ft s) = (l'.map fun s => "    ".toList ++ specifierText ft s) →
        l = l' := by
      intro l
      induction l with
      | nil => intro l' _ _ h; cases l' with
        | nil => rfl
        | cons _ _ => cases h
      | cons s l ih =>
        intro l' h1 h2 h
        cases l' with
        | nil => cases h
        | cons s' l' =>
          simp only [List.map_cons, List.cons.injEq] at h
          have e := List.append_cancel_left h.1
          rw [(specifierText_inj hft (r := []) (r' := []) (h1 s (by simp)) (h2 s' (by simp)) (by rw [e])).1,
            ih l' (fun t ht => h1 t (by simp [ht])) (fun t ht => h2 t (by simp [ht])) h.2]
    exact key _ _ (fun s hs => (a1 s hs).1) (fun s hs => (b1 s hs).1) h
  · unfold HilbertSpace.str
    rw [h]
  · unfold HilbertSpace.init
    have : (a.specifiers.map standardForm).mapM preprocess = .ok a.specifiers := by
      rw [mapM_ok_iff]
      have key : ∀ l : List (List ℕ × HNum), (∀ s ∈ l, preprocess (standardForm s) = .ok s) →
          List.Forall₂ (fun v s => preprocess v = .ok s) (l.map standardForm) l := by
        intro l
        induction l with
        | nil => intro _; exact .nil
        | cons s l ih => exact fun h => .cons (h s (by simp)) (ih fun t ht => h t (by simp [ht]))
      exact key _ fun s hs => (a1 s hs).2
    simp only [this, bind, Except.bind, a2, if_true]
    rfl

example : ∃ a, HilbertSpace.init [.list [.tuple [.int 0, .int 2], .int 1], .list [.tuple [.int 1, .int 3], .int 1]] = .ok a ∧
    a.repr fracText = "HilbertSpace(((0, 2), 1), ((1, 3), 1))".toList ∧
    a.str fracText = "subspace number: 2\nsubspace specifiers:\n    ((0, 2), 1)\n    ((1, 3), 1)".toList :=
  ⟨_, rfl, by decide +kernel, by decide +kernel⟩

/-- **C112 (`Bond`).**  `repr(bond)` determines the end points (with their types) and the direction flag; under one precision
setting, bonds that print alike are equal; the constructor call that `repr` shows rebuilds the bond. -/
theorem C112_bond (ft : F64 → Txt) (hft : FloatText ft) {z z' : ℤ} {p0 p1 q0 q1 : NpVec} {d d' : Bool} {a b : Bond}
    (ha : Bond.init z p0 p1 d = .ok a) (hb : Bond.init z' q0 q1 d' = .ok b) :
    (a.repr ft = b.repr ft ↔ a.p0 = b.p0 ∧ a.p1 = b.p1 ∧ a.directional = b.directional) ∧
    (z = z' → a.repr ft = b.repr ft → a = b ∧ a.eq b = true) ∧
    Bond.init z a.p0 a.p1 a.directional = .ok a := by
  have made : ∀ {z : ℤ} {p0 p1 : NpVec} {d : Bool} {a : Bond}, Bond.init z p0 p1 d = .ok a →
      a.p0 = p0 ∧ a.p1 = p1 ∧ a.directional = d ∧ p0.len ≠ 0 ∧ p1.len ≠ 0 := by
    intro z p0 p1 d a h
    unfold Bond.init at h
    simp only [bind_ok_iff] at h
    obtain ⟨_, h1, _, h2, t0, -, t1, -, h⟩ := h
    have h1 : p0.len = 1 ∨ p0.len = 2 ∨ p0.len = 3 := by
      by_contra hc
      rw [decide_eq_false hc] at h1
      cases h1
    have h2 : p1.len = p0.len := by
      by_contra hc
      rw [decide_eq_false hc] at h2
      cases h2
    split at h <;> (injection h with h; subst h; exact ⟨rfl, rfl, rfl, by omega, by omega⟩)
  obtain ⟨a1, a2, a3, a4, a5⟩ := made ha
  obtain ⟨b1, b2, b3, b4, b5⟩ := made hb
  have main : a.repr ft = b.repr ft ↔ a.p0 = b.p0 ∧ a.p1 = b.p1 ∧ a.directional = b.directional := by
    constructor
    · intro h
      unfold Bond.repr at h
      simp only [List.append_assoc] at h
      have h := List.append_cancel_left h
      obtain ⟨h1, h⟩ := tupleText_inj hft (NpVec.entries_ne_nil (by rw [a1]; exact a4))
        (NpVec.entries_ne_nil (by rw [b1]; exact b4)) h
      have h := List.append_cancel_left h
      obtain ⟨h2, h⟩ := tupleText_inj hft (NpVec.entries_ne_nil (by rw [a2]; exact a5))
        (NpVec.entries_ne_nil (by rw [b2]; exact b5)) h
      have h := List.append_cancel_left h
      refine ⟨NpVec.entries_inj (by rw [a1]; exact a4) h1, NpVec.entries_inj (by rw [a2]; exact a5) h2, ?_⟩
      revert h
      generalize a.directional = x
      generalize b.directional = y
      revert x y
      decide
    · rintro ⟨h1, h2, h3⟩
      unfold Bond.repr
      rw [h1, h2, h3]
  refine ⟨main, fun hz h => ?_, by rw [a1, a2, a3]; exact ha⟩
  obtain ⟨h1, h2, h3⟩ := main.1 h
  have e : a = b := by
    have ha' := ha
    rw [← a1, ← a2, ← a3, h1, h2, h3, b1, b2, b3, hz, hb] at ha'
    exact (Except.ok.inj ha').symm
  exact ⟨e, by rw [e]; unfold Bond.eq; simp⟩

example : ∃ a, Bond.init defaultZoom (.i64 [0, 1]) (.i64 [2, -3]) false = .ok a ∧
    a.repr fracText = "Bond(p0=(0, 1), p1=(2, -3), directional=False)".toList :=
  ⟨_, rfl, by decide +kernel⟩

/-- **C112 (`IndexTable`).**  `str(table)` shows one line per object, in the order of the table; it determines the index and the
class and attributes of every object. -/
theorem C112_table (ft : F64 → Txt) (hft : FloatText ft) {z z' s s' : ℤ} {objs objs' : List AnyObj}
    {a b : IndexTable AnyObj} (ha : IndexTable.init objs s = .ok a) (hb : IndexTable.init objs' s' = .ok b)
    (hz : ∀ o ∈ objs, MadeWith z o) (hz' : ∀ o ∈ objs', MadeWith z' o) :
    (a.str ft = b.str ft ↔
      List.Forall₂ (fun p q : ℤ × AnyObj => p.1 = q.1 ∧ SameAttributes p.2 q.2) a.iter b.iter) ∧
    (a.str ft).count '\n' = objs.length + 1 := by
  have mem : ∀ {objs : List AnyObj} {s : ℤ} {a : IndexTable AnyObj}, IndexTable.init objs s = .ok a →
      (∀ p ∈ a.index2object, p.2 ∈ objs) ∧ a.index2object.length = objs.length := by
    intro objs s a h
    obtain ⟨x, xs, -, rfl, -, -⟩ := init_ok h
    dsimp only
    refine ⟨fun p hp => ?_, by rw [enumFrom_length]⟩
    have key : ∀ (l : List AnyObj) (s : ℤ), ∀ p ∈ enumFrom s l, p.2 ∈ l := by
      intro l
      induction l with
      | nil => intro s p hp; simp [enumFrom] at hp
      | cons x l ih =>
        intro s p hp
        simp only [enumFrom, List.mem_cons] at hp
        rcases hp with rfl | hp
        · simp
        · exact List.mem_cons_of_mem _ (ih _ _ hp)
    exact key _ _ p hp
  obtain ⟨am, al⟩ := mem ha
  obtain ⟨bm, -⟩ := mem hb
  have line : ∀ p : ℤ × AnyObj, '\n' ∉ padRight 8 (decInt p.1) ++ p.2.repr ft := by
    intro p
    unfold padRight
    simp only [List.mem_append, not_or]
    refine ⟨⟨not_mem_num (decInt_num _) (by decide), fun h => ?_⟩, newline_repr hft _⟩
    exact absurd (List.eq_of_mem_replicate h) (by decide)
  have nl : ∀ c : IndexTable AnyObj, ∀ t ∈ ("Index   Object".toList :: "==============".toList ::
      c.index2object.map fun p => padRight 8 (decInt p.1) ++ p.2.repr ft), '\n' ∉ t := by
    intro c t ht
    simp only [List.mem_cons, List.mem_map] at ht
    rcases ht with rfl | rfl | ⟨p, -, rfl⟩
    · decide
    · decide
    · exact line p
  refine ⟨?_, ?_⟩
  · have key : ∀ l l' : List (ℤ × AnyObj), (∀ p ∈ l, MadeWith z p.2) → (∀ p ∈ l', MadeWith z' p.2) →
        ((l.map fun p => padRight 8 (decInt p.1) ++ p.2.repr ft) = (l'.map fun p => padRight 8 (decInt p.1) ++ p.2.repr ft) ↔
          List.Forall₂ (fun p q : ℤ × AnyObj => p.1 = q.1 ∧ SameAttributes p.2 q.2) l l') := by
      intro l
      induction l with
      | nil => intro l' _ _; cases l' <;> simp
      | cons p l ih =>
        intro l' h1 h2
        cases l' with
        | nil => simp
        | cons q l' =>
          simp only [List.map_cons, List.cons.injEq, List.forall₂_cons]
          rw [ih l' (fun t ht => h1 t (by simp [ht])) (fun t ht => h2 t (by simp [ht]))]
          refine and_congr_left fun _ => ?_
          rw [← (C77_repr_determines ft hft z z' p.2 q.2 (h1 p (by simp)) (h2 q (by simp))).1]
          constructor
          · intro h
            obtain ⟨c, u, e1, f1⟩ := repr_head ft p.2
            obtain ⟨d, v, e2, f2⟩ := repr_head ft q.2
            rw [e1, e2] at h ⊢
            exact padded_inj f1 f2 h
          · rintro ⟨h3, h4⟩
            rw [h3, h4]
    unfold IndexTable.iter
    rw [← key _ _ (fun p hp => hz _ (am p hp)) (fun p hp => hz' _ (bm p hp))]
    unfold IndexTable.str
    constructor
    · intro h
      have h := pyJoin_inj '\n' _ _ (by simp) (by simp) (nl a) (nl b) h
      simp only [List.cons.injEq] at h
      exact h.2.2
    · intro h
      rw [h]
  · unfold IndexTable.str
    have key : ∀ l : List Txt, (∀ t ∈ l, '\n' ∉ t) → (pyJoin "\n".toList l).count '\n' = l.length - 1 := by
      intro l
      induction l with
      | nil => intro _; rfl
      | cons t l ih =>
        intro h
        cases l with
        | nil => simpa [pyJoin] using List.count_eq_zero.2 (h t (by simp))
        | cons u l =>
          rw [pyJoin_cons _ _ _ (by simp), List.count_append, List.count_append,
            List.count_eq_zero.2 (h t (by simp)), ih fun v hv => h v (by simp [hv])]
          simp [Nat.add_comm]
    rw [key _ (nl a)]
    simp [al]

example : ∃ t, IndexTable.init [AnyObj.site ⟨[.int 0], [0]⟩, .site ⟨[.int 7], [70000]⟩] (-1) = .ok t ∧
    MadeWith defaultZoom (.site ⟨[.int 7], [70000]⟩) ∧
    t.str fracText = "Index   Object\n==============\n-1      SiteID(site=(0,))\n0       SiteID(site=(7,))".toList :=
  ⟨_, rfl, rfl, by decide +kernel⟩

namespace Color

private theorem field_num (n : ℕ) (hn : n < 256) : padLeft 4 (decNat n) = field (some n) := by
  have h : (List.range 256).all (fun n => decide (padLeft 4 (decNat n) = field (some n))) = true := by decide +kernel
  rw [List.all_eq_true] at h
  exact of_decide_eq_true (h n (List.mem_range.2 hn))

private theorem demo_aux (t : PyText) (withBg : Bool) (spaceNum : ℤ) (R : List ℕ) (hR : ∀ a ∈ R, a < 256) :
    (do
      let pre := List.replicate spaceNum.toNat ' '
      let line := fun fg bg => demoLine t pre (demoContent fg bg) (demoColor fg) (demoColor bg)
      let l0 ← line none none
      let l1 ← R.mapM fun fg => line (some fg) none
      if withBg then do
        let l2 ← R.mapM fun bg => line none (some bg)
        let l3 ← (R.flatMap fun fg => R.map fun bg => (fg, bg)).mapM fun p => line (some p.1) (some p.2)
        return l0 ++ l1.flatten ++ l2.flatten ++ l3.flatten
      else return l0 ++ l1.flatten : Py Str) =
    .ok (([(none, none)] ++ R.map (fun fg => ((some fg, none) : Option Nat × Option Nat)) ++
    if withBg then R.map (fun bg => ((none, some bg) : Option Nat × Option Nat)) ++
      R.flatMap fun fg => R.map fun bg => (some fg, some bg)
    else []).flatMap (shownLine spaceNum.toNat)) := by
  have num : ∀ n < 256, padLeft 4 (decNat n) = field (some n) := fun n hn => field_num n hn
  have ok : ∀ fg bg : Option ℕ, (∀ n, fg = some n → n < 256) → (∀ n, bg = some n → n < 256) →
      demoLine t (List.replicate spaceNum.toNat ' ') (demoContent fg bg) (demoColor fg) (demoColor bg) =
        .ok (shownLine spaceNum.toNat (fg, bg)) := by
    intro fg bg h1 h2
    have seq : ∀ (b : Bool) (c : Option ℕ), (∀ n, c = some n → n < 256) → Seq t 8 b (demoColor c) (select b c) := by
      intro b c hc
      cases c with
      | none => exact .other8
      | some n => exact .int8 (by omega) (by have := hc n rfl; omega)
    have fld : ∀ c : Option ℕ, (∀ n, c = some n → n < 256) →
        demoField c = field c := by
      intro c hc
      cases c with
      | none => rfl
      | some n => exact num n (hc n rfl)
    have hcol : coloring t (demoContent fg bg) (demoColor fg) (demoColor bg) false (.int 8) =
        .ok (select true fg ++ select false bg ++ demoContent fg bg ++ sgr "0".toList) :=
      ((C63_coloring_spec t _ _ _ false (.int 8)).1 _).2
        ⟨8, _, _, .eight, seq true fg h1, seq false bg h2, by simp⟩
    unfold demoLine
    have hint : List.intercalate " ".toList [demoContent fg bg] = demoContent fg bg := by
      simp [List.intercalate]
    have hp := ((C63_color_print t [demoContent fg bg] " ".toList "\n".toList (demoColor fg) (demoColor bg) false (.int 8)
      _).1).2 ⟨_, by rw [hint]; exact hcol, rfl⟩
    simp only [hp, bind, Except.bind, pure, Except.pure]
    unfold shownLine demoContent
    rw [fld fg h1, fld bg h2]
    simp [List.append_assoc]
  have loop : ∀ {α : Type} (l : List α) (f : α → Option ℕ × Option ℕ),
      (∀ a ∈ l, (∀ n, (f a).1 = some n → n < 256) ∧ ∀ n, (f a).2 = some n → n < 256) →
      l.mapM (fun a => demoLine t (List.replicate spaceNum.toNat ' ') (demoContent (f a).1 (f a).2)
        (demoColor (f a).1) (demoColor (f a).2)) = .ok (l.map fun a => shownLine spaceNum.toNat (f a)) := by
    intro α l f h
    rw [mapM_ok_iff]
    induction l with
    | nil => exact .nil
    | cons a l ih =>
      exact .cons (ok _ _ (h a (by simp)).1 (h a (by simp)).2) (ih fun b hb => h b (by simp [hb]))
  have l0 := ok none none (by simp) (by simp)
  have l1 := loop R (fun fg => (some fg, none)) (by
    intro a ha; exact ⟨fun n hn => by injection hn with hn; subst hn; exact hR _ ha, by simp⟩)
  have l2 := loop R (fun bg => (none, some bg)) (by
    intro a ha; exact ⟨by simp, fun n hn => by injection hn with hn; subst hn; exact hR _ ha⟩)
  have l3 := loop (R.flatMap fun fg => R.map fun bg => (fg, bg))
    (fun p => (some p.1, some p.2)) (by
      rintro ⟨x, y⟩ ha
      rw [List.mem_flatMap] at ha
      obtain ⟨u, hu, ha⟩ := ha
      rw [List.mem_map] at ha
      obtain ⟨v, hv, ha⟩ := ha
      injection ha with e1 e2
      subst e1 e2
      exact ⟨fun n hn => by injection hn with hn; subst hn; exact hR _ hu,
        fun n hn => by injection hn with hn; subst hn; exact hR _ hv⟩)
  simp only [l0, l1, l2, l3, bind, Except.bind, pure, Except.pure]
  cases withBg with
  | false =>
    simp only [Bool.false_eq_true, if_false, List.append_nil, List.flatMap_append, List.flatMap_cons, List.flatMap_nil,
      List.flatMap_map]
    rw [List.flatMap_def]
  | true =>
    simp only [if_true, List.flatMap_append, List.flatMap_cons, List.flatMap_nil, List.append_nil, List.flatMap_map,
      List.flatMap_assoc, ← List.flatMap_def, List.append_assoc]

/-- **C113.**  `color_demo(with_bg, space_num)` never fails and writes exactly one line for every combination it
announces, in order; each line names its colours and is shown in these colours (the 8-bit control sequences), and ends by
resetting the style. -/
theorem C113_color_demo (t : PyText) (withBg : Bool) (spaceNum : ℤ) :
    colorDemo t withBg spaceNum = .ok ((shownPairs withBg).flatMap (shownLine spaceNum.toNat)) :=
  demo_aux t withBg spaceNum (List.range 256) fun _ ha => List.mem_range.1 ha

/-- The line of red (1) on white (7), indented by two spaces; the numbers of lines without and with backgrounds. -/
example : shownLine 2 (some 1, some 7) =
      "  \x1b[38;5;1m\x1b[48;5;7mfg =    1, bg =    7\x1b[0m\n".toList ∧
    (shownPairs false).length = 257 ∧ (some 200, none) ∈ shownPairs false ∧ (some 1, some 7) ∈ shownPairs true := by
  refine ⟨by decide +kernel, by simp [shownPairs], ?_, ?_⟩
  · simp only [shownPairs, List.mem_append, List.mem_map, List.mem_range]
    exact .inl (.inr ⟨200, by omega, rfl⟩)
  · simp only [shownPairs, List.mem_append, List.mem_map, List.mem_range, if_true, List.mem_flatMap]
    exact .inr (.inr ⟨1, by omega, 7, by omega, rfl⟩)

end Color
end Verif
