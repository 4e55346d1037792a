import Verif.Proofs.IndexTable
/-!
# C01, C02: `IndexTable`
-/

namespace Verif
open PyObj

variable {α : Type _} [PyObj α]

/-- **C01.** A successfully built table is a bijection between the objects, in the given order,
and the contiguous indices `s, s+1, ...`. -/
theorem C01_indextable_bijection [LawfulPyObj α] (objs : List α) (s : Int) (t : IndexTable α)
    (h : IndexTable.init objs s = .ok t) :
    t.indices = (List.range objs.length).map (fun k : Nat => s + (k : Int)) ∧
    t.objects = objs ∧
    t.len = objs.length ∧
    t.iter = t.indices.zip objs ∧
    (∀ (k : Nat) (o : α), objs[k]? = some o → t.queryIndex o = .ok (s + k) ∧ t.queryObject (.int (s + k)) = .ok o) ∧
    (∀ i o, t.queryObject (.int i) = .ok o → t.queryIndex o = .ok i) ∧
    (∀ key i, t.queryIndex key = .ok i →
      ∃ o, t.queryObject (.int i) = .ok o ∧ PyObj.eq o key = true) := by
  obtain ⟨x, xs, hobjs, rfl, hty, hpw⟩ := init_ok h
  have hinst : ∀ y ∈ objs, isInstance y (typeOf x) = true := by
    intro y hy
    rw [hobjs] at hy
    rcases List.mem_cons.mp hy with rfl | hy
    · exact LawfulPyObj.inst_self _
    · exact hty y hy
  have hidx : ∀ k o, objs[k]? = some o → objs.findIdx? (fun o' => eq o' o) = some k := by
    intro k o hk
    obtain ⟨hk', rfl⟩ := List.getElem?_eq_some_iff.mp hk
    rw [List.findIdx?_eq_some_iff_getElem]
    refine ⟨hk', LawfulPyObj.eq_refl _, ?_⟩
    intro j hj
    have := List.pairwise_iff_getElem.mp hpw j k (by omega) hk' hj
    simp [this]
  have hqi : ∀ (k : Nat) (o : α), objs[k]? = some o →
      IndexTable.queryIndex ⟨(enumFrom s objs).map Prod.swap, enumFrom s objs, typeOf x,
        objs.length⟩ o = .ok (s + k) := by
    intro k o hk
    have hmem : o ∈ objs := List.mem_of_getElem? hk
    simp [IndexTable.queryIndex, hinst o hmem, dictGet_swap, hidx k o hk]
  have hqo : ∀ i, IndexTable.queryObject ⟨(enumFrom s objs).map Prod.swap, enumFrom s objs, typeOf x,
        objs.length⟩ (.int i) = match (if s ≤ i then objs[(i - s).toNat]? else none) with
        | some o => .ok o | none => raise .keyError := by
    intro i
    simp only [IndexTable.queryObject, dictGet_enum]
    rfl
  refine ⟨?_, ?_, rfl, ?_, ?_, ?_, ?_⟩
  · apply List.ext_getElem?
    intro k
    simp only [IndexTable.indices, List.getElem?_map, enumFrom_getElem?]
    by_cases hk : k < objs.length
    · simp [hk]
    · simp [hk]
  · apply List.ext_getElem?
    intro k
    simp only [IndexTable.objects, List.map_map, List.getElem?_map, enumFrom_getElem?]
    cases objs[k]? <;> simp
  · apply List.ext_getElem?
    intro k
    simp only [IndexTable.iter, IndexTable.indices, enumFrom_getElem?]
    by_cases hk : k < objs.length
    · simp [hk, List.zip, List.getElem?_zipWith, enumFrom_getElem?]
    · simp [hk, List.zip, List.getElem?_zipWith, enumFrom_getElem?]
  · intro k o hk
    refine ⟨hqi k o hk, ?_⟩
    rw [hqo]
    have : (s + (k : Int) - s).toNat = k := by omega
    rw [if_pos (by omega), this, hk]
  · intro i o hio
    rw [hqo] at hio
    by_cases hs : s ≤ i
    · rw [if_pos hs] at hio
      cases hg : objs[(i - s).toNat]? with
      | none => rw [hg] at hio; simp [raise] at hio
      | some o' =>
        rw [hg] at hio
        simp only [Except.ok.injEq] at hio
        subst hio
        rw [hqi _ _ hg]
        congr 1
        omega
    · rw [if_neg hs] at hio; simp [raise] at hio
  · intro key i hk
    unfold IndexTable.queryIndex at hk
    split at hk
    · simp only [dictGet_swap] at hk
      cases hf : objs.findIdx? (fun o => eq o key) with
      | none => rw [hf] at hk; simp [raise] at hk
      | some n =>
        rw [hf] at hk
        have hk : s + (n : Int) = i := by simpa using hk
        obtain ⟨hn, he, -⟩ := List.findIdx?_eq_some_iff_getElem.mp hf
        refine ⟨objs[n], ?_, he⟩
        rw [hqo, ← hk]
        have : (s + (n : Int) - s).toNat = n := by omega
        rw [if_pos (by omega), this, List.getElem?_eq_getElem hn]
    · simp [raise] at hk

/-- **C02** (construction).  `IndexTable(objects)` succeeds iff the collection is non-empty, every
object is an instance of the class of the first, and no object equals an earlier one; the first
offending object decides the exception. -/
theorem C02_indextable_accepts [LawfulPyObj α] (objs : List α) (s : Int) :
    ((∃ t, IndexTable.init objs s = .ok t) ↔
      ∃ x xs, objs = x :: xs ∧ (∀ y ∈ objs, isInstance y (typeOf x) = true) ∧
        objs.Pairwise (fun a b => PyObj.eq a b = false)) ∧
    (∀ x xs bad post, objs = x :: xs ++ bad :: post →
      (∀ y ∈ xs, isInstance y (typeOf x) = true) →
      (x :: xs).Pairwise (fun a b => PyObj.eq a b = false) →
      (isInstance bad (typeOf x) = false → IndexTable.init objs s = .error .typeError) ∧
      (isInstance bad (typeOf x) = true → (∃ y ∈ x :: xs, PyObj.eq y bad = true) →
        IndexTable.init objs s = .error .valueError)) ∧
    (objs = [] → IndexTable.init objs s = .error .unboundLocalError) := by
  have first : ∀ x xs bad post, objs = x :: xs ++ bad :: post →
      (∀ y ∈ xs, isInstance y (typeOf x) = true) →
      (x :: xs).Pairwise (fun a b => PyObj.eq a b = false) →
      (isInstance bad (typeOf x) = false ∨ ∃ y ∈ x :: xs, PyObj.eq y bad = true) →
      IndexTable.init objs s =
        if !isInstance bad (typeOf x) then raise .typeError else raise .valueError := by
    intro x xs bad post ho hi hp hbad
    rw [ho, List.cons_append, init_cons]
    have : (xs ++ bad :: post).zipIdx.find? (fun p => !isInstance p.1 (typeOf x) ||
        (x :: (xs ++ bad :: post).take p.2).any (fun y => eq y p.1)) = some (bad, xs.length) := by
      rw [List.find?_eq_some_iff_getElem]
      refine ⟨?_, xs.length, by simp, by simp, ?_⟩
      · simp only [List.take_left, Bool.or_eq_true, Bool.not_eq_true', List.any_eq_true]
        exact hbad
      · intro j hj
        simp only [List.getElem_zipIdx, Nat.zero_add, List.getElem_append_left hj]
        simp only [Bool.not_or, Bool.not_not, Bool.and_eq_true, Bool.not_eq_true',
          List.any_eq_false]
        refine ⟨hi _ (List.getElem_mem hj), ?_⟩
        intro y hy
        have hpp := List.pairwise_iff_getElem.mp hp
        rcases List.mem_cons.mp hy with rfl | hy
        · have := hpp 0 (j + 1) (by simp) (by simp; omega) (by omega)
          simpa using this
        · rw [List.take_append_of_le_length (by omega)] at hy
          obtain ⟨i, hi', rfl⟩ := List.mem_iff_getElem.mp hy
          simp only [List.length_take] at hi'
          have := hpp (i + 1) (j + 1) (by simp; omega) (by simp; omega) (by omega)
          simpa using this
    rw [this]
  refine ⟨⟨?_, ?_⟩, ?_, ?_⟩
  · rintro ⟨t, ht⟩
    obtain ⟨x, xs, ho, -, hi, hp⟩ := init_ok ht
    refine ⟨x, xs, ho, ?_, hp⟩
    intro y hy
    rw [ho] at hy
    rcases List.mem_cons.mp hy with rfl | hy
    · exact LawfulPyObj.inst_self _
    · exact hi y hy
  · rintro ⟨x, xs, rfl, hi, hp⟩
    rw [init_cons]
    have : xs.zipIdx.find? (fun p => !isInstance p.1 (typeOf x) ||
        (x :: xs.take p.2).any (fun y => eq y p.1)) = none := by
      rw [List.find?_eq_none]
      rintro ⟨y, k⟩ hk
      rw [List.mem_zipIdx_iff_getElem?] at hk
      simp only at hk
      obtain ⟨hk', rfl⟩ := List.getElem?_eq_some_iff.mp hk
      simp only [Bool.not_eq_true, Bool.or_eq_false_iff, Bool.not_eq_false', List.any_eq_false]
      refine ⟨hi _ (List.mem_cons_of_mem _ (List.getElem_mem hk')), ?_⟩
      intro y hy
      have hpp := List.pairwise_iff_getElem.mp hp
      rcases List.mem_cons.mp hy with rfl | hy
      · have := hpp 0 (k + 1) (by simp) (by simp; omega) (by omega)
        simpa using this
      · obtain ⟨i, hi', rfl⟩ := List.mem_iff_getElem.mp hy
        simp only [List.length_take] at hi'
        have := hpp (i + 1) (k + 1) (by simp; omega) (by simp; omega) (by omega)
        simpa using this
    rw [this]
    exact ⟨_, rfl⟩
  · intro x xs bad post ho hi hp
    refine ⟨fun hb => ?_, fun hb he => ?_⟩
    · rw [first x xs bad post ho hi hp (Or.inl hb), hb]; rfl
    · rw [first x xs bad post ho hi hp (Or.inr he), hb]; rfl
  · rintro rfl; rfl

/-- **C02** (queries).  On a table built from `x :: xs`, a query for an object of a foreign type
raises `TypeError`, for an unmanaged object `KeyError`; a query for an unmanaged index raises
`KeyError` and for a non-integer `TypeError`. -/
theorem C02_indextable_query_errors [LawfulPyObj α] (x : α) (xs : List α) (s : Int) (t : IndexTable α)
    (h : IndexTable.init (x :: xs) s = .ok t) :
    (∀ key, isInstance key (typeOf x) = false → t.queryIndex key = .error .typeError) ∧
    (∀ key, isInstance key (typeOf x) = true → (∀ o ∈ x :: xs, PyObj.eq o key = false) →
      t.queryIndex key = .error .keyError) ∧
    (∀ i : Int, (i < s ∨ s + (x :: xs).length ≤ i) → t.queryObject (.int i) = .error .keyError) ∧
    t.queryObject .other = .error .typeError := by
  obtain ⟨x', xs', hobjs, rfl, hty, hpw⟩ := init_ok h
  injection hobjs with h1 h2
  subst h1 h2
  refine ⟨?_, ?_, ?_, rfl⟩
  · intro key hk; simp [IndexTable.queryIndex, hk]
  · intro key hk hno
    have : (x :: xs).findIdx? (fun o => eq o key) = none := by
      rw [List.findIdx?_eq_none_iff]
      exact hno
    simp [IndexTable.queryIndex, hk, dictGet_swap, this]
  · intro i hi
    simp only [IndexTable.queryObject, dictGet_enum]
    rcases hi with hi | hi
    · rw [if_neg (by omega)]
    · rw [if_pos (by simp only [List.length_cons] at hi; omega),
        List.getElem?_eq_none (by simp only [List.length_cons] at hi ⊢; omega)]

/-! Non-vacuity: integers with two classes (even/odd would be a foreign type). -/

/-- test instance: `Sum Nat Nat` stands for two unrelated Python classes -/
instance : PyObj (Nat ⊕ Nat) where
  Ty := Bool
  typeOf := Sum.isLeft
  isInstance x t := x.isLeft == t
  eq a b := decide (a = b)

instance : LawfulPyObj (Nat ⊕ Nat) where
  inst_self := by intro a; exact beq_self_eq_true _
  eq_refl := by intro a; simp [PyObj.eq]
  eq_symm := by intro a b; simp only [PyObj.eq, decide_eq_true_eq]; exact Eq.symm
  eq_trans := by intro a b c; simp only [PyObj.eq, decide_eq_true_eq]; exact Eq.trans

example : ∃ t, IndexTable.init [Sum.inl 7, Sum.inl 3, (Sum.inl 5 : Nat ⊕ Nat)] 10 = .ok t ∧
    t.queryIndex (Sum.inl 3) = .ok 11 ∧ t.queryObject (.int 12) = .ok (Sum.inl 5) ∧
    t.queryIndex (Sum.inr 3) = .error .typeError ∧ t.queryObject (.int 13) = .error .keyError :=
  ⟨_, rfl, rfl, rfl, rfl, rfl⟩

example : IndexTable.init [Sum.inl 7, Sum.inr 3, (Sum.inl 7 : Nat ⊕ Nat)] 0 = .error .typeError ∧
    IndexTable.init [Sum.inl 7, Sum.inl 7, (Sum.inr 7 : Nat ⊕ Nat)] 0 = .error .valueError :=
  ⟨rfl, rfl⟩

end Verif
