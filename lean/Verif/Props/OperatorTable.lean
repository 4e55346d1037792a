import Verif.Model.OperatorTable
import Verif.Proofs.Order
import Verif.Props.IndexTable
/-!
# C76: operators as ordered objects and as keys of index tables
-/

namespace Verif
open Spec

/-- linear-order key of a SpinOperator -/
private def spinKey (s : SpinOperator) : ℤ ×ₗ List ℤ := toLex ((s.otype.char.toNat : ℤ), s.siteId.tuple)

private theorem char_inj (a b : SpinOtype) : (a.char.toNat : ℤ) = b.char.toNat ↔ a = b := by
  cases a <;> cases b <;> decide

private theorem char_inj' (a b : SpinOtype) : a.char = b.char ↔ a = b := by
  cases a <;> cases b <;> decide

private theorem spinRich_eq (op : CmpOp) (a b : SpinOperator) :
    a.rich op b = linRich op (spinKey a) (spinKey b) := by
  unfold SpinOperator.rich
  by_cases h1 : a.otype = b.otype
  · rw [if_neg (by simp [h1])]
    by_cases h2 : a.siteId.tuple = b.siteId.tuple
    · rw [if_neg (by simp [h2])]
      have : spinKey a = spinKey b := by simp [spinKey, h1, h2]
      cases op <;> simp [CmpOp.int, linRich, this]
    · rw [if_pos h2, tupleRich_eq]
      have h2' : ¬ b.siteId.tuple = a.siteId.tuple := fun h => h2 h.symm
      cases op <;> simp [linRich, spinKey, Prod.Lex.toLex_lt_toLex, h1,
        h2, h2', le_iff_lt_or_eq]
  · rw [if_pos (by rwa [ne_eq, char_inj'])]
    have h3 : ¬ (a.otype.char.toNat : ℤ) = b.otype.char.toNat := by rwa [char_inj]
    have h3' : ¬ (b.otype.char.toNat : ℤ) = a.otype.char.toNat := fun h => h3 h.symm
    rw [CmpOp.char, int_rich]
    cases op <;> simp only [linRich, spinKey, Prod.Lex.toLex_lt_toLex,
      h3, h3', false_and, or_false, toLex_inj, Prod.mk.injEq, ne_eq, le_iff_lt_or_eq]

/-- **C76** (SpinOperator).  The six comparisons of `SpinOperator` are one total order; `==` is
equality of the hashed tuples and agrees with "same type and same site"; operators are ordered by
type first (m < p < x < y < z) and by site within a type. -/
theorem C76_spinoperator_total_order :
    IsTotalOrder SpinOperator.rich ∧
    (∀ a b : SpinOperator, SpinOperator.rich .eq a b = true ↔ a.hashKey = b.hashKey) ∧
    (∀ a b : SpinOperator, SpinOperator.rich .eq a b = true ↔
      a.otype = b.otype ∧ SiteID.rich .eq a.siteId b.siteId = true) ∧
    (∀ a b : SpinOperator, SpinOperator.eq a b = SpinOperator.rich .eq a b) ∧
    (∀ a b : SpinOperator, a.otype = b.otype → ∀ op, SpinOperator.rich op a b = SiteID.rich op a.siteId b.siteId) ∧
    (∀ s t : SiteID, SpinOperator.rich .lt ⟨.m, s⟩ ⟨.p, t⟩ = true ∧
      SpinOperator.rich .lt ⟨.p, s⟩ ⟨.x, t⟩ = true ∧ SpinOperator.rich .lt ⟨.x, s⟩ ⟨.y, t⟩ = true ∧
      SpinOperator.rich .lt ⟨.y, s⟩ ⟨.z, t⟩ = true) := by
  have heq : ∀ a b : SpinOperator, SpinOperator.rich .eq a b = true ↔
      a.otype = b.otype ∧ a.siteId.tuple = b.siteId.tuple := by
    intro a b
    rw [← char_inj]
    simp [spinRich_eq, linRich, spinKey]
  refine ⟨isTotalOrder_of_key _ _ spinRich_eq, ?_, ?_, ?_, ?_, ?_⟩
  · intro a b
    rw [heq]; simp [SpinOperator.hashKey, char_inj']
  · intro a b
    rw [heq, siteRich_eq]; simp [linRich]
  · intro a b
    rw [Bool.eq_iff_iff, heq]; simp [SpinOperator.eq]
  · intro a b h op
    unfold SpinOperator.rich SiteID.rich
    rw [if_neg (by simp [h])]
    split
    · rfl
    · rename_i h2
      rw [ne_eq, not_not] at h2
      rw [h2, tupleRich_eq, int_rich]
      cases op <;> simp [linRich]
  · intro s t
    refine ⟨?_, ?_, ?_, ?_⟩ <;> simp [SpinOperator.rich, SpinOtype.char, CmpOp.char, CmpOp.int]

example : SpinOperator.rich .gt ⟨.z, ⟨[.int 0], [0]⟩⟩ ⟨.p, ⟨[.int 5], [50000]⟩⟩ = true ∧
    SpinOperator.rich .lt ⟨.z, ⟨[.int 0], [0]⟩⟩ ⟨.z, ⟨[.int 5], [50000]⟩⟩ = true := by decide

/-- **C76** (NumberOperator).  The six comparisons of `NumberOperator` are those of the
single-particle states, hence one total order. -/
theorem C76_numberoperator_total_order :
    IsTotalOrder NumberOperator.rich ∧
    (∀ op (a b : NumberOperator), NumberOperator.rich op a b = StateID.rich op a.state b.state) :=
  ⟨isTotalOrder_of_key (fun n : NumberOperator => stateKey n.state) _ (fun op _ _ => stateRich_eq op _ _),
    fun _ _ _ => rfl⟩

example : NumberOperator.rich .lt ⟨⟨[.int 0], 0, 1, [0]⟩⟩ ⟨⟨[.int 0], 1, 0, [0]⟩⟩ = true := by decide

/-- All five classes obey the contract that `IndexTable` needs. -/
instance : LawfulPyObj AnyObj where
  inst_self a := by cases a <;> rfl
  eq_refl a := by
    cases a <;> simp [PyObj.eq, AnyObj.eq, NumberOperator.rich, siteRich_eq, stateRich_eq, spinRich_eq, linRich, AoC.eq]
  eq_symm a b := by
    cases a <;> cases b <;>
      simp only [PyObj.eq, AnyObj.eq, NumberOperator.rich, siteRich_eq, stateRich_eq, spinRich_eq, linRich, AoC.eq,
        decide_eq_true_eq, Bool.false_eq_true, imp_self] <;> exact Eq.symm
  eq_trans a b c := by
    cases a <;> cases b <;> cases c <;>
      simp only [PyObj.eq, AnyObj.eq, NumberOperator.rich, siteRich_eq, stateRich_eq, spinRich_eq, linRich, AoC.eq,
        decide_eq_true_eq, Bool.false_eq_true, imp_self, false_implies, implies_true] <;> exact Eq.trans

private theorem eq_cls (e o : AnyObj) (he : AnyObj.eq e o = true) : e.cls = o.cls := by
  cases e <;> cases o <;> first | rfl | (exact absurd he Bool.false_ne_true)

private theorem isInstance_iff (o x : AnyObj) : PyObj.isInstance o (PyObj.typeOf x) = true ↔
    (o.cls = x.cls ∨ (o.cls = .state ∧ x.cls = .site)) := by
  change o.cls.sub x.cls = true ↔ _
  simp [AnyCls.sub]

/-- **C76** (getIndex).  In a table built from any collection of objects of these classes:
`getIndex` returns `start + k` exactly for the objects that are `==` to the `k`-th entry; two objects
found in the table have the same index exactly if they are `==`; an object whose class is not the
class of the first entry (or a subclass) raises TypeError, every other missing object KeyError. -/
theorem C76_getIndex (x : AnyObj) (xs : List AnyObj) (start : Int) (t : IndexTable AnyObj)
    (h : IndexTable.init (x :: xs) start = .ok t) :
    (∀ (o : AnyObj) (i : Int), o.getIndex t = .ok i ↔
      ∃ (k : ℕ) (e : AnyObj), (x :: xs)[k]? = some e ∧ i = start + k ∧ AnyObj.eq e o = true) ∧
    (∀ (o p : AnyObj) (i j : Int), o.getIndex t = .ok i → p.getIndex t = .ok j →
      (i = j ↔ AnyObj.eq o p = true)) ∧
    (∀ o : AnyObj, o.getIndex t = .error .typeError ↔ o.cls ≠ x.cls ∧ ¬ (o.cls = .state ∧ x.cls = .site)) ∧
    (∀ o : AnyObj, (o.cls = x.cls ∨ (o.cls = .state ∧ x.cls = .site)) →
      (∀ e ∈ x :: xs, AnyObj.eq e o = false) → o.getIndex t = .error .keyError) := by
  obtain ⟨hidx, hobj, hlen, hiter, hk, hoi, hko⟩ := C01_indextable_bijection _ _ _ h
  obtain ⟨hte, hke, hqe, -⟩ := C02_indextable_query_errors _ _ _ _ h
  have hcls : ∀ o : AnyObj, PyObj.isInstance o (PyObj.typeOf x) = true ↔
      (o.cls = x.cls ∨ (o.cls = .state ∧ x.cls = .site)) := fun o => isInstance_iff o x
  have hsub : ∀ e o : AnyObj, AnyObj.eq e o = true → e.cls = o.cls := eq_cls
  have hty : ∀ e ∈ x :: xs, PyObj.isInstance e (PyObj.typeOf x) = true := by
    obtain ⟨x', xs', h1, h2, -⟩ := ((C02_indextable_accepts (x :: xs) start).1).1 ⟨t, h⟩
    injection h1 with h3 h4
    subst h3
    exact h2
  have key : ∀ (o : AnyObj) (i : Int), o.getIndex t = .ok i ↔
      ∃ (k : ℕ) (e : AnyObj), (x :: xs)[k]? = some e ∧ i = start + k ∧ AnyObj.eq e o = true := by
    intro o i
    constructor
    · intro ho
      obtain ⟨e, he, heq⟩ := hko o i ho
      by_cases hr : i < start ∨ start + (x :: xs).length ≤ i
      · rw [hqe i hr] at he; cases he
      · push Not at hr
        obtain ⟨k, rfl⟩ : ∃ k : ℕ, i = start + k := ⟨(i - start).toNat, by omega⟩
        have hkl : k < (x :: xs).length := by omega
        have := (hk k _ (List.getElem?_eq_getElem hkl)).2
        rw [this] at he
        injection he with he
        exact ⟨k, e, by rw [← he, List.getElem?_eq_getElem hkl], rfl, heq⟩
    · rintro ⟨k, e, he, rfl, heq⟩
      by_contra hne
      have hin : PyObj.isInstance o (PyObj.typeOf x) = true := by
        have := hty e (List.mem_of_getElem? he)
        rw [hcls] at this ⊢
        rw [← hsub e o heq]; exact this
      obtain ⟨hq1, hq2⟩ := hk k e he
      cases hq : o.getIndex t with
      | ok j =>
        obtain ⟨e', he', heq'⟩ := hko o j hq
        have h3 := hoi j e' he'
        have : PyObj.eq e e' = true := LawfulPyObj.eq_trans _ _ _ heq (LawfulPyObj.eq_symm _ _ heq')
        -- the entries are pairwise different
        obtain ⟨e2, he2, heq2⟩ := hko e (start + k) hq1
        have hpw := (((C02_indextable_accepts (x :: xs) start).1).1 ⟨t, h⟩)
        obtain ⟨_, _, _, _, hpw⟩ := hpw
        by_cases hr : j < start ∨ start + (x :: xs).length ≤ j
        · rw [hqe j hr] at he'; cases he'
        · push Not at hr
          obtain ⟨l, rfl⟩ : ∃ l : ℕ, j = start + l := ⟨(j - start).toNat, by omega⟩
          have hll : l < (x :: xs).length := by omega
          have h4 := (hk l _ (List.getElem?_eq_getElem hll)).2
          rw [h4] at he'
          injection he' with he'
          obtain ⟨hkl, hke'⟩ := List.getElem?_eq_some_iff.mp he
          have hkl' : k = l := by
            rw [List.pairwise_iff_getElem] at hpw
            rcases lt_trichotomy k l with hlt | heq3 | hgt
            · have h5 := hpw k l hkl hll hlt
              rw [hke', he', this] at h5; cases h5
            · exact heq3
            · have h5 := hpw l k hll hkl hgt
              rw [hke', he', LawfulPyObj.eq_symm _ _ this] at h5; cases h5
          subst hkl'
          exact hne hq
      | error er =>
        unfold AnyObj.getIndex IndexTable.queryIndex at hq hne
        unfold IndexTable.queryIndex at hq1
        have hin' : PyObj.isInstance o t.objectType = true := by
          have h9 : PyObj.isInstance e t.objectType = true := by
            by_contra hb2
            rw [if_neg hb2] at hq1; cases hq1
          have hc : e.cls = o.cls := hsub e o heq
          change o.cls.sub t.objectType = true
          rw [← hc]; exact h9
        have h9 : PyObj.isInstance e t.objectType = true := by
          by_contra hb2
          rw [if_neg hb2] at hq1; cases hq1
        rw [if_pos h9] at hq1
        rw [if_pos hin'] at hq
        have : ∀ d : List (AnyObj × Int), dictGet PyObj.eq d o = dictGet PyObj.eq d e := by
          intro d
          induction d with
          | nil => rfl
          | cons a d ih =>
            obtain ⟨k', v⟩ := a
            simp only [dictGet]
            have : PyObj.eq k' o = PyObj.eq k' e := by
              rw [Bool.eq_iff_iff]
              exact ⟨fun h => LawfulPyObj.eq_trans _ _ _ h (LawfulPyObj.eq_symm _ _ heq),
                fun h => LawfulPyObj.eq_trans _ _ _ h heq⟩
            rw [this, ih]
        rw [this] at hq
        rw [hq] at hq1
        cases hq1
  refine ⟨key, ?_, ?_, ?_⟩
  · intro o p i j hi hj
    obtain ⟨k, e, he, rfl, heq⟩ := (key o i).1 hi
    obtain ⟨l, f, hf, rfl, hfq⟩ := (key p j).1 hj
    constructor
    · intro hkl
      have : k = l := by omega
      subst this
      rw [he] at hf
      injection hf with hf
      subst hf
      exact LawfulPyObj.eq_trans o e p (LawfulPyObj.eq_symm e o heq) hfq
    · intro hop
      have h1 := (key p (start + k)).2 ⟨k, e, he, rfl, LawfulPyObj.eq_trans e o p heq hop⟩
      rw [h1] at hj
      injection hj
  · intro o
    constructor
    · intro ho
      by_contra hc
      have hin : PyObj.isInstance o (PyObj.typeOf x) = true := by
        rw [hcls]
        by_contra hc2
        push Not at hc2
        exact hc ⟨hc2.1, fun ⟨h1, h2⟩ => hc2.2 h1 h2⟩
      by_cases hall : ∀ e ∈ x :: xs, PyObj.eq e o = false
      · have := hke o hin hall
        unfold AnyObj.getIndex at ho
        rw [this] at ho; cases ho
      · push Not at hall
        obtain ⟨e, he, heq⟩ := hall
        obtain ⟨k, hk'⟩ := List.getElem?_of_mem he
        rw [(key o (start + k)).2 ⟨k, e, hk', rfl, by rw [ne_eq, Bool.not_eq_false] at heq; exact heq⟩] at ho
        cases ho
    · rintro ⟨h1, h2⟩
      apply hte
      rw [Bool.eq_false_iff]
      intro h3
      rcases (hcls o).1 h3 with h3 | h3
      · exact h1 h3
      · exact h2 h3
  · intro o ho hall
    exact hke o ((hcls o).2 ho) hall

/-- **C76** (state and site indices).  With a table of single-particle states, two creation or
annihilation operators have the same state index exactly if `same_state` holds, an operator and the
number operator of the same state agree, and the index is that of the state itself; with a table of
sites, two spin operators have the same site index exactly if `same_site` holds.  A table of operators
instead of states raises TypeError. -/
theorem C76_state_site_index (x : AnyObj) (xs : List AnyObj) (start : Int) (t : IndexTable AnyObj)
    (h : IndexTable.init (x :: xs) start = .ok t) :
    (∀ a : AoC, a.getStateIndex t = (AnyObj.state a.state).getIndex t) ∧
    (∀ n : NumberOperator, n.getStateIndex t = (AnyObj.state n.state).getIndex t) ∧
    (∀ s : SpinOperator, s.getSiteIndex t = (AnyObj.site s.siteId).getIndex t) ∧
    (∀ (a b : AoC) (i j : Int), a.getStateIndex t = .ok i → b.getStateIndex t = .ok j →
      (i = j ↔ a.sameState b = true)) ∧
    (∀ (a : AoC) (n : NumberOperator) (i j : Int), a.getStateIndex t = .ok i → n.getStateIndex t = .ok j →
      (i = j ↔ a.state.rich .eq n.state = true)) ∧
    (∀ (a b : SpinOperator) (i j : Int), a.getSiteIndex t = .ok i → b.getSiteIndex t = .ok j →
      (i = j ↔ a.sameSite b = true)) ∧
    (x.cls = .aoc ∨ x.cls = .number ∨ x.cls = .spin → ∀ (a : AoC) (n : NumberOperator),
      a.getStateIndex t = .error .typeError ∧ n.getStateIndex t = .error .typeError) ∧
    (x.cls ≠ .site → ∀ s : SpinOperator, s.getSiteIndex t = .error .typeError) := by
  obtain ⟨h1, h2, h3, h4⟩ := C76_getIndex x xs start t h
  refine ⟨fun _ => rfl, fun _ => rfl, fun _ => rfl, ?_, ?_, ?_, ?_, ?_⟩
  · intro a b i j hi hj
    exact h2 (.state a.state) (.state b.state) i j hi hj
  · intro a n i j hi hj
    exact h2 (.state a.state) (.state n.state) i j hi hj
  · intro a b i j hi hj
    exact h2 (.site a.siteId) (.site b.siteId) i j hi hj
  · intro hx a n
    constructor
    · refine (h3 (.state a.state)).2 ?_
      rcases hx with hx | hx | hx <;> rw [hx] <;> simp [AnyObj.cls]
    · refine (h3 (.state n.state)).2 ?_
      rcases hx with hx | hx | hx <;> rw [hx] <;> simp [AnyObj.cls]
  · intro hx s
    refine (h3 (.site s.siteId)).2 ?_
    exact ⟨fun h => hx (by rw [← h]; rfl), by simp [AnyObj.cls]⟩

/-- A table of two operators is built, and queried with a third object that is `==` to one of them. -/
example : ∃ t, IndexTable.init [AnyObj.aoc ⟨.creation, ⟨[.int 0], 0, 0, [0]⟩⟩,
      AnyObj.aoc ⟨.annihilation, ⟨[.int 0], 0, 0, [0]⟩⟩] 3 = .ok t ∧
    (AnyObj.aoc ⟨.annihilation, ⟨[.flt (.fin 0)], 0, 0, [0]⟩⟩).getIndex t = .ok 4 ∧
    AoC.getStateIndex ⟨.creation, ⟨[.int 0], 0, 0, [0]⟩⟩ t = .error .typeError :=
  ⟨_, rfl, by decide, by decide⟩

end Verif
