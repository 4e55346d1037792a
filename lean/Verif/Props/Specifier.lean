import Verif.Proofs.Specifier
import Verif.Props.HilbertSpace
import Verif.Proofs.MatrixRepr
/-!
# C17-C19: specifier validation, agreement of the interfaces, no wrap-around
-/

set_option linter.unusedSimpArgs false

namespace Verif
open Spec

/-- **C17.** `is_valid_subspace_specifier` answers True exactly when `subspace_specifier_preprocess`
returns, False exactly when it raises ValueError, and both raise TypeError on the same inputs (a
particle number that cannot be compared with an integer). -/
theorem C17_valid_iff_preprocess (spec : HVal) :
    (isValidSubspaceSpecifier spec = .ok true ↔ ∃ r, preprocess spec = .ok r) ∧
    (isValidSubspaceSpecifier spec = .ok false ↔ preprocess spec = .error .valueError) ∧
    (∀ e, isValidSubspaceSpecifier spec = .error e ↔
      e = .typeError ∧ preprocess spec = .error .typeError) := by
  obtain ⟨h1, h2⟩ := preprocess_isValid spec
  cases hp : preprocess spec with
  | ok r =>
    have := h1 r hp
    simp [this]
  | error e =>
    rcases h2 e hp with ⟨h, rfl⟩ | ⟨h, rfl⟩
    · simp [h]
    · simp [h, eq_comm]

/-- **C17.** `subspace_specifier_preprocess` returns exactly the documented standard form. -/
theorem C17_standard_form (spec : HVal) (r : List ℕ × HNum) :
    preprocess spec = .ok r ↔ Denotes spec r := preprocess_iff spec r

/-- **C17.** Preprocessing is idempotent: the standard form is a specifier with the same standard
form. -/
theorem C17_idempotent (spec : HVal) (r : List ℕ × HNum) (h : preprocess spec = .ok r) :
    preprocess (standardForm r) = .ok r := by
  rw [preprocess_iff] at h
  have key : r.1 ≠ [] ∧ NumLe r.2 r.1.length := by
    cases h with
    | count n hn =>
      refine ⟨by simp; omega, ?_⟩
      simp [NumLe]
      try omega
    | pairCount spec n p hn hp hspec => exact ⟨by simp; omega, by simpa using hp⟩
    | pairStates spec c states p hne hc hp hspec => exact ⟨hne, hp⟩
  rw [preprocess_iff]
  refine .pairStates _ (.tuple (r.1.map (fun n : ℕ => .int n))) r.1 r.2 key.1 (.inl rfl) key.2 (.inl ?_)
  unfold standardForm numVal
  cases r.2 <;> rfl

/-- **C17.** `HilbertSpace(*specs)` succeeds exactly when every specifier denotes a subspace and no
two of the subspaces share a state. -/
theorem C17_hilbert_space_ok (specs : List HVal) (h : HilbertSpace) :
    HilbertSpace.init specs = .ok h ↔
      List.Forall₂ Denotes specs h.specifiers ∧
      h.specifiers.Pairwise (fun s t => ∀ x ∈ s.1, x ∉ t.1) := by
  unfold HilbertSpace.init
  rw [bind_ok_iff]
  have hiff : ∀ subs, specs.mapM preprocess = .ok subs ↔ List.Forall₂ Denotes specs subs := by
    intro subs
    rw [mapM_ok_iff]
    constructor <;> intro h <;> refine h.imp (fun a b hab => ?_)
    · exact (preprocess_iff a b).mp hab
    · exact (preprocess_iff a b).mpr hab
  constructor
  · rintro ⟨subs, hs, hd⟩
    split at hd
    · rename_i hpd
      cases hd
      exact ⟨(hiff _).mp hs, (pairwiseDisjoint_iff _).mp hpd⟩
    · cases hd
  · rintro ⟨h1, h2⟩
    refine ⟨h.specifiers, (hiff _).mpr h1, ?_⟩
    rw [if_pos ((pairwiseDisjoint_iff _).mpr h2)]
    rfl

/-- **C17.** When every particle number can be compared with an integer, the only exception the
constructor raises is ValueError, and it raises it exactly when some specifier is invalid or two
subspaces share a state; `base_vectors(*specs)` raises ValueError in the same cases. -/
theorem C17_value_error_iff (specs : List HVal)
    (hcmp : ∀ s ∈ specs, isValidSubspaceSpecifier s ≠ .error .typeError) :
    (∀ e, HilbertSpace.init specs = .error e → e = .valueError) ∧
    (HilbertSpace.init specs = .error .valueError ↔
      (∃ s ∈ specs, isValidSubspaceSpecifier s = .ok false) ∨
      ∃ subs, List.Forall₂ Denotes specs subs ∧
        ¬ subs.Pairwise (fun s t => ∀ x ∈ s.1, x ∉ t.1)) ∧
    (∀ container sort, container ≠ .other →
      (baseVectors specs container sort = .error .valueError ↔
        HilbertSpace.init specs = .error .valueError)) := by
  have hpre : ∀ s ∈ specs, ∀ e, preprocess s = .error e →
      e = .valueError ∧ isValidSubspaceSpecifier s = .ok false := by
    intro s hs e he
    rcases (preprocess_isValid s).2 e he with ⟨h, h'⟩ | ⟨h, -⟩
    · exact ⟨h', h⟩
    · exact absurd h (hcmp s hs)
  have hmap : ∀ e, specs.mapM preprocess = .error e →
      e = .valueError ∧ ∃ s ∈ specs, isValidSubspaceSpecifier s = .ok false := by
    intro e he
    obtain ⟨pre, s, post, rfl, -, hs⟩ := mapM_error_iff.mp he
    obtain ⟨h1, h2⟩ := hpre s (by simp) e hs
    exact ⟨h1, s, by simp, h2⟩
  have hinit : ∀ e, HilbertSpace.init specs = .error e ↔
      (specs.mapM preprocess = .error e) ∨
      (∃ subs, specs.mapM preprocess = .ok subs ∧ pairwiseDisjoint subs = false ∧
        e = .valueError) := by
    intro e
    unfold HilbertSpace.init
    cases hm : specs.mapM preprocess with
    | error e' => simp [bind, Except.bind]
    | ok subs =>
      simp only [bind, Except.bind]
      cases hd : pairwiseDisjoint subs
      · simp only [Bool.false_eq_true, if_false, raise, Except.error.injEq, reduceCtorEq, false_or,
          Except.ok.injEq, ↓existsAndEq, hd, true_and]
        exact eq_comm
      · simp [pure, Except.pure, hd]
  refine ⟨?_, ?_, ?_⟩
  · intro e he
    rcases (hinit e).mp he with h | ⟨_, _, _, h⟩
    · exact (hmap e h).1
    · exact h
  · rw [hinit]
    constructor
    · rintro (h | ⟨subs, h1, h2, -⟩)
      · exact .inl (hmap _ h).2
      · right
        rw [mapM_ok_iff] at h1
        refine ⟨subs, h1.imp (fun a b hab => (preprocess_iff a b).mp hab), ?_⟩
        rw [← pairwiseDisjoint_iff, h2]
        simp
    · rintro (⟨s, hs, hv⟩ | ⟨subs, h1, h2⟩)
      · left
        cases hm : specs.mapM preprocess with
        | error e => rw [(hmap e hm).1]
        | ok subs =>
          exfalso
          rw [mapM_ok_iff] at hm
          obtain ⟨j, hj, rfl⟩ := List.mem_iff_getElem.mp hs
          have := (preprocess_isValid _).1 _ (forall₂_getElem hm j hj)
          rw [hv] at this
          cases this
      · right
        refine ⟨subs, ?_, ?_, rfl⟩
        · rw [mapM_ok_iff]
          exact h1.imp (fun a b hab => (preprocess_iff a b).mpr hab)
        · rw [← pairwiseDisjoint_iff] at h2
          simpa using h2
  · intro container sort hc
    rw [hinit]
    unfold baseVectors
    have hassert : pyAssert (decide (container ≠ .other)) = .ok () := by simp [pyAssert, hc]
    rw [hassert]
    cases hm : specs.mapM preprocess with
    | error e' => simp [bind, Except.bind]
    | ok subs =>
      simp only [bind, Except.bind]
      cases hd : pairwiseDisjoint subs with
      | false => simp [raise, hd]
      | true =>
        simp only [if_true, hd, reduceCtorEq, false_or, Except.ok.injEq, ↓existsAndEq, Bool.true_eq_false, false_and, and_false, iff_false]
        cases hg : subs.mapM subspaceBases with
        | error e =>
          obtain ⟨pre, s, post, -, -, hs⟩ := mapM_error_iff.mp hg
          simp only
          intro he
          cases he
          unfold subspaceBases at hs
          split at hs <;> split at hs <;> cases hs
        | ok gens =>
          simp only
          rw [finishKets_error_iff]
          simp

/-- Non-vacuity of C17: a valid list of two subspaces, an invalid specifier (more particles than
states), two overlapping subspaces, and a non-numeric particle number. -/
example :
    HilbertSpace.init [.int 2, .list [.set [.int 4, .int 7], .int 1]] =
      .ok ⟨[([0, 1], .int (-1)), ([4, 7], .int 1)]⟩ ∧
    isValidSubspaceSpecifier (.tuple [.int 2, .int 3]) = .ok false ∧
    HilbertSpace.init [.int 2, .tuple [.tuple [.int 1], .int 0]] = .error .valueError ∧
    isValidSubspaceSpecifier (.tuple [.int 2, .other]) = .error .typeError :=
  ⟨rfl, rfl, rfl, rfl⟩

/-- **C18.** `HilbertSpace(*specs).base_vectors(...)` and `base_vectors(*specs, ...)` return the same
thing or raise the same exception. -/
theorem C18_class_and_function_agree (specs : List HVal) (container : Container) (sort : Bool)
    (hc : container ≠ .other) :
    (do let h ← HilbertSpace.init specs; h.baseVectors container sort) =
      baseVectors specs container sort := by
  unfold HilbertSpace.init HilbertSpace.baseVectors baseVectors
  have hassert : pyAssert (decide (container ≠ .other)) = .ok () := by simp [pyAssert, hc]
  rw [hassert]
  cases hm : specs.mapM preprocess with
  | error e' => simp [bind, Except.bind]
  | ok subs =>
    simp only [bind, Except.bind]
    cases hd : pairwiseDisjoint subs with
    | false => simp [raise]
    | true => simp [pure, Except.pure]

/-- **C18.** `SimpleHilbertSpace(states, M).base_vectors(...)` and `base_vectors((states, M), ...)`
return the same thing or raise the same exception, for every value `states` and integer `M`. -/
theorem C18_simple_agrees (states : HVal) (M : ℤ) (container : Container) (sort : Bool)
    (hc : container ≠ .other) :
    (do let h ← SimpleHilbertSpace.init states (.int M); h.baseVectors container sort) =
      baseVectors [.tuple [states, .int M]] container sort := by
  have hassert : pyAssert (decide (container ≠ .other)) = .ok () := by simp [pyAssert, hc]
  have hone : ∀ g : List (List ℕ), (cartProduct [g]).map (fun basis => ketOf basis.flatten) =
      g.map ketOf := by
    intro g
    simp [cartProduct, List.map_flatMap]
    induction g with
    | nil => rfl
    | cons a g ih => simp [ih]
  have hgen : ∀ (l : List ℕ), (l.length : ℤ) ≥ M →
      SimpleHilbertSpace.baseVectors ⟨l, M⟩ container sort =
      (do
        let gens ← [(l, HNum.int M)].mapM subspaceBases
        finishKets ((cartProduct gens).map (fun basis => ketOf basis.flatten)) container sort) := by
    intro l _
    unfold SimpleHilbertSpace.baseVectors
    rw [hassert]
    simp only [List.mapM_cons, List.mapM_nil, subspaceBases]
    by_cases h0 : M < 0
    · simp [h0, bind, Except.bind, pure, Except.pure, hone]
    · simp [h0, bind, Except.bind, pure, Except.pure, hone]
  unfold SimpleHilbertSpace.init baseVectors
  rw [hassert]
  simp only [List.mapM_cons, List.mapM_nil]
  have htp : (HVal.tuple [states, .int M]).posInt? = none := rfl
  have hts : (HVal.tuple [states, .int M]).sequence? = some [states, .int M] := rfl
  have hpair : ∀ l, pairwiseDisjoint [(l, HNum.int M)] = true := by simp [pairwiseDisjoint]
  cases hst : states.posInt? with
  | some n =>
    have hv : validStates? states = none := by
      obtain ⟨-, rfl⟩ := (posInt_iff _ _).mp hst
      rfl
    by_cases hM : (n : ℤ) < M
    · have : ¬ M ≤ (n : ℤ) := by omega
      simp [preprocess, htp, hts, hst, hv, geNum, HVal.num?, hM, this, bind,
        Except.bind, Except.map, raise]
    · have h' : M ≤ (n : ℤ) := by omega
      simp only [preprocess, htp, hts, hst, hv, geNum, HVal.num?, hM, h', bind,
        Except.bind, Except.map, pure, Except.pure, List.length_range, decide_true, if_true,
        if_false, hpair]
      rw [hgen _ (by simpa using h')]
      rfl
  | none =>
    cases hv : validStates? states with
    | none =>
      simp [preprocess, htp, hts, hst, hv, bind,
        Except.bind, raise]
    | some l =>
      by_cases hM : (l.length : ℤ) < M
      · have : ¬ M ≤ (l.length : ℤ) := by omega
        simp [preprocess, htp, hts, hst, hv, geNum, hM, this, bind,
          Except.bind, raise]
      · have h' : M ≤ (l.length : ℤ) := by omega
        simp only [preprocess, htp, hts, hst, hv, geNum, HVal.num?, hM, h', bind,
          Except.bind, pure, Except.pure, decide_true, if_true,
          if_false, hpair]
        rw [hgen _ (by simpa using h')]
        rfl

/-- The same subspaces up to the order of the subspaces and of the states inside each. -/
def SameUpToOrder (subs subs' : List (List ℕ × HNum)) : Prop :=
  ∃ mid, subs.Perm mid ∧ List.Forall₂ (fun s t => s.1.Perm t.1 ∧ s.2 = t.2) mid subs'

theorem SameUpToOrder.mem {subs subs' : List (List ℕ × HNum)} (h : SameUpToOrder subs subs') :
    (∀ s ∈ subs, ∃ t ∈ subs', s.1.Perm t.1 ∧ s.2 = t.2) ∧
    (∀ t ∈ subs', ∃ s ∈ subs, s.1.Perm t.1 ∧ s.2 = t.2) := by
  obtain ⟨mid, hp, hf⟩ := h
  have hlen := forall₂_length hf
  constructor
  · intro s hs
    obtain ⟨j, hj, rfl⟩ := List.mem_iff_getElem.mp (hp.mem_iff.mp hs)
    exact ⟨subs'[j]'(by omega), List.getElem_mem _, forall₂_getElem hf j hj⟩
  · intro t ht
    obtain ⟨j, hj, rfl⟩ := List.mem_iff_getElem.mp ht
    exact ⟨mid[j]'(by omega), hp.mem_iff.mpr (List.getElem_mem _), forall₂_getElem hf j (by omega)⟩

theorem SameUpToOrder.allStates_perm {subs subs' : List (List ℕ × HNum)}
    (h : SameUpToOrder subs subs') : (allStates subs).Perm (allStates subs') := by
  obtain ⟨mid, hp, hf⟩ := h
  have h1 : (allStates subs).Perm (allStates mid) := (hp.map _).flatten
  refine h1.trans ?_
  clear h1 hp
  induction hf with
  | nil => exact .refl _
  | cons h _ ih =>
    simp only [allStates, List.map_cons, List.flatten_cons]
    exact h.1.append ih

theorem SameUpToOrder.allowed {subs subs' : List (List ℕ × HNum)} (h : SameUpToOrder subs subs')
    (k : ℕ) : AllowedKet subs k ↔ AllowedKet subs' k := by
  obtain ⟨h1, h2⟩ := h.mem
  unfold AllowedKet
  constructor
  · rintro ⟨a, b⟩
    refine ⟨?_, ?_⟩
    · intro i hi
      obtain ⟨s, hs, hi⟩ := a i hi
      obtain ⟨t, ht, hp, -⟩ := h1 s hs
      exact ⟨t, ht, hp.mem_iff.mp hi⟩
    · intro t ht M hM h0
      obtain ⟨s, hs, hp, he⟩ := h2 t ht
      rw [← b s hs M (he.trans hM) h0, ((hp.filter _).length_eq)]
  · rintro ⟨a, b⟩
    refine ⟨?_, ?_⟩
    · intro i hi
      obtain ⟨s, hs, hi⟩ := a i hi
      obtain ⟨t, ht, hp, -⟩ := h2 s hs
      exact ⟨t, ht, hp.mem_iff.mpr hi⟩
    · intro t ht M hM h0
      obtain ⟨s, hs, hp, he⟩ := h1 t ht
      rw [← b s hs M (he.symm.trans hM) h0, ((hp.filter _).length_eq)]

/-- **C18.** With `sort=True`, permuting the specifiers and the states inside them does not change
the result (for subspaces without repeated states). -/
theorem C18_order_irrelevant (specs specs' : List HVal) (container : Container)
    (subs subs' : List (List ℕ × HNum)) (hsub : specs.mapM preprocess = .ok subs)
    (hsub' : specs'.mapM preprocess = .ok subs') (hrep : NoRepeats subs)
    (hsame : SameUpToOrder subs subs') (kets : List ℕ)
    (h : baseVectors specs container true = .ok kets) :
    baseVectors specs' container true = .ok kets := by
  obtain ⟨subs1, gens, hs, hd, hg, hf⟩ := baseVectors_ok h
  rw [hsub] at hs; cases hs
  have hassert : pyAssert (decide (container ≠ .other)) = .ok () := by
    unfold baseVectors at h
    cases hx : pyAssert (decide (container ≠ .other)) with
    | ok u => rfl
    | error e => rw [hx] at h; simp [bind, Except.bind] at h
  have hn : (allStates subs).Nodup := (allStates_nodup_iff subs).mpr ⟨hrep, hd⟩
  have hn' : (allStates subs').Nodup := hsame.allStates_perm.nodup_iff.mp hn
  obtain ⟨hrep', hd'⟩ := (allStates_nodup_iff subs').mp hn'
  have hg' : ∃ gens', subs'.mapM subspaceBases = .ok gens' := by
    cases hx : subs'.mapM subspaceBases with
    | ok g => exact ⟨g, rfl⟩
    | error e =>
      exfalso
      obtain ⟨pre, t, post, hsplit, -, ht⟩ := mapM_error_iff.mp hx
      obtain ⟨s, hs, hp, he⟩ := hsame.mem.2 t (by simp [hsplit])
      obtain ⟨j, hj, rfl⟩ := List.mem_iff_getElem.mp hs
      have hok := forall₂_getElem (mapM_ok_iff.mp hg) j hj
      unfold subspaceBases at ht hok
      rw [he] at hok
      split at ht
      · split at ht <;> cases ht
      · rename_i q hq
        rw [hq] at hok
        simp only at hok
        split at ht
        · cases ht
        · rename_i hneg
          rw [if_neg hneg] at hok
          cases hok
  obtain ⟨gens', hg'⟩ := hg'
  have hmem : ∀ k, k ∈ rawKets gens' ↔ k ∈ rawKets gens := by
    intro k
    rw [mem_rawKets hg hn, mem_rawKets hg' hn']
    exact (hsame.allowed k).symm
  have hfin : ∃ kets', finishKets (rawKets gens') container true = .ok kets' := by
    cases hx : finishKets (rawKets gens') container true with
    | ok r => exact ⟨r, rfl⟩
    | error e =>
      exfalso
      obtain ⟨-, ha, k, hk, hbig⟩ := finishKets_error_iff.mp hx
      have := (finishKets_ok hf).2 ha k ((hmem k).mp hk)
      omega
  obtain ⟨kets', hfin⟩ := hfin
  have hres : baseVectors specs' container true = .ok kets' := by
    unfold baseVectors
    rw [hassert, hsub']
    simp only [bind, Except.bind, hd', if_true]
    rw [hg']
    exact hfin
  rw [hres]
  congr 1
  apply eq_of_ascending
    (C15_base_vectors_ascending specs' container kets' hres subs' hsub' hrep').1
    (C15_base_vectors_ascending specs container kets h subs hsub hrep).1
  intro k
  rw [(finishKets_perm hfin).mem_iff, (finishKets_perm hf).mem_iff, hmem]

/-- Non-vacuity of C18: two presentations of the same space. -/
example : ∃ kets,
    baseVectors [.tuple [.list [.int 2, .int 0], .int 1], .tuple [.list [.int 1], .int (-1)]] =
      .ok kets ∧
    baseVectors [.tuple [.list [.int 1], .int (-1)], .tuple [.list [.int 0, .int 2], .int 1]] =
      .ok kets ∧ kets = [1, 3, 4, 6] ∧
    SameUpToOrder [([2, 0], .int 1), ([1], .int (-1))] [([1], .int (-1)), ([0, 2], .int 1)] :=
  ⟨_, rfl, rfl, rfl, _, List.Perm.swap _ _ _,
    .cons ⟨.refl _, rfl⟩ (.cons ⟨List.Perm.swap _ _ _, rfl⟩ .nil)⟩

/-- **C19.** With `container="array"`, `base_vectors` either returns exactly the mathematical kets
(those returned with `container="list"`), all below `2^64`, or raises OverflowError because one of
them is not below `2^64`.  No value is wrapped. -/
theorem C19_array_never_wraps (specs : List HVal) (sort : Bool) :
    (∀ kets, baseVectors specs .array sort = .ok kets ↔
      baseVectors specs .list sort = .ok kets ∧ ∀ k ∈ kets, k < 2 ^ 64) ∧
    (baseVectors specs .array sort = .error .overflowError ↔
      ∃ kets, baseVectors specs .list sort = .ok kets ∧ ∃ k ∈ kets, 2 ^ 64 ≤ k) ∧
    baseVectors specs .list sort ≠ .error .overflowError := by
  have hpre : ∀ s : HVal, preprocess s ≠ .error .overflowError := by
    intro s h
    rcases (preprocess_isValid s).2 _ h with ⟨-, h⟩ | ⟨-, h⟩ <;> cases h
  have hsb : ∀ s, subspaceBases s ≠ .error .overflowError := by
    intro s hs
    unfold subspaceBases at hs
    split at hs <;> split at hs <;> cases hs
  unfold baseVectors
  have e1 : pyAssert (decide (Container.array ≠ .other)) = .ok () := rfl
  have e2 : pyAssert (decide (Container.list ≠ .other)) = .ok () := rfl
  rw [e1, e2]
  cases hm : specs.mapM preprocess with
  | error e =>
    have : e ≠ .overflowError := by
      rintro rfl
      obtain ⟨_, s, _, -, -, hs⟩ := mapM_error_iff.mp hm
      exact hpre s hs
    simp [bind, Except.bind, this]
  | ok subs =>
    simp only [bind, Except.bind]
    cases hd : pairwiseDisjoint subs with
    | false => simp [raise, hd]
    | true =>
      simp only [if_true, hd]
      cases hg : subs.mapM subspaceBases with
      | error e =>
        have : e ≠ .overflowError := by
          rintro rfl
          obtain ⟨_, s, _, -, -, hs⟩ := mapM_error_iff.mp hg
          exact hsb s hs
        simp [this]
      | ok gens =>
        simp only
        generalize (cartProduct gens).map (fun basis => ketOf basis.flatten) = raw
        unfold finishKets
        simp only [reduceCtorEq, false_and, if_false, true_and]
        generalize (if sort = true then raw.insertionSort (· ≤ ·) else raw) = S
        by_cases hany : S.any (fun k => decide (2 ^ 64 ≤ k)) = true
        · rw [if_pos hany]
          rw [List.any_eq_true] at hany
          obtain ⟨k, hk, hk'⟩ := hany
          simp only [decide_eq_true_eq] at hk'
          refine ⟨?_, ?_, by simp⟩
          · intro kets
            simp only [raise, reduceCtorEq, Except.ok.injEq, false_iff, not_and, not_forall]
            rintro rfl
            exact ⟨k, hk, by omega⟩
          · simp only [Except.ok.injEq, ↓existsAndEq, true_and, true_iff, raise]
            exact ⟨k, hk, hk'⟩
        · rw [if_neg hany]
          rw [List.any_eq_true] at hany
          push Not at hany
          refine ⟨?_, ?_, by simp⟩
          · intro kets
            simp only [Except.ok.injEq, iff_self_and]
            rintro rfl k hk
            have := hany k hk
            simpa using this
          · simp only [reduceCtorEq, Except.ok.injEq, ↓existsAndEq, true_and, false_iff]
            rintro ⟨k, hk, hk'⟩
            exact hany k hk (by simpa using hk')

/-- **C19.** Valid disjoint subspaces with all states below 64 (none repeated, integer particle
numbers) never overflow. -/
theorem C19_below_64_succeeds (specs : List HVal) (subs : List (List ℕ × HNum))
    (hsub : specs.mapM preprocess = .ok subs) (hrep : NoRepeats subs)
    (hd : subs.Pairwise (fun s t => ∀ x ∈ s.1, x ∉ t.1))
    (hint : ∀ s ∈ subs, ∃ M : ℤ, s.2 = .int M) (h64 : ∀ s ∈ subs, ∀ i ∈ s.1, i < 64)
    (sort : Bool) : ∃ kets, baseVectors specs .array sort = .ok kets := by
  have hd' := (pairwiseDisjoint_iff subs).mpr hd
  have hn := (allStates_nodup_iff subs).mpr ⟨hrep, hd'⟩
  have hg : ∃ gens, subs.mapM subspaceBases = .ok gens := by
    cases hx : subs.mapM subspaceBases with
    | ok g => exact ⟨g, rfl⟩
    | error e =>
      exfalso
      obtain ⟨_, s, _, hsp, -, hs⟩ := mapM_error_iff.mp hx
      obtain ⟨M, hM⟩ := hint s (by simp [hsp])
      unfold subspaceBases at hs
      rw [hM] at hs
      simp only at hs
      split at hs <;> cases hs
  obtain ⟨gens, hg⟩ := hg
  unfold baseVectors
  have e1 : pyAssert (decide (Container.array ≠ .other)) = .ok () := rfl
  rw [e1, hsub]
  simp only [bind, Except.bind, hd', if_true]
  rw [hg]
  simp only
  change ∃ kets, finishKets (rawKets gens) _ _ = .ok kets
  cases hx : finishKets (rawKets gens) .array sort with
  | ok r => exact ⟨r, rfl⟩
  | error e =>
    exfalso
    obtain ⟨-, -, k, hk, hbig⟩ := finishKets_error_iff.mp hx
    obtain ⟨h1, -⟩ := (mem_rawKets hg hn k).mp hk
    have : k < 2 ^ 64 := by
      apply Nat.lt_pow_two_of_testBit
      intro i hi
      by_contra hcon
      obtain ⟨s, hs, his⟩ := h1 i (by simpa using hcon)
      have := h64 s hs i his
      omega
    omega

/-- **C19** for `matrix_function`: whatever the kernel tag, a term with a negative state index raises
ValueError (the shift) and otherwise a state index of 64 or more raises OverflowError. -/
theorem C19_matrix_function_indices (term : List (ℤ × Otype)) (right : List ℕ)
    (left : Option (List ℕ)) (c : ℂ) (tag : Classification) :
    ((∃ p ∈ term, p.1 < 0) →
      matrixFunctionCsr term right left c tag = .error .valueError) ∧
    ((∀ p ∈ term, 0 ≤ p.1) → (∃ p ∈ term, 64 ≤ p.1) →
      matrixFunctionCsr term right left c tag = .error .overflowError) := by
  have hprop : ∀ e, termArray term = .error e → matrixFunctionCsr term right left c tag = .error e := by
    intro e he
    simp [matrixFunctionCsr, matrixData, he, bind, Except.bind]
  constructor
  · rintro ⟨p, hp, hneg⟩
    apply hprop
    have : term.mapM termRow = .error .valueError := by
      cases hm : term.mapM termRow with
      | ok rows =>
        exfalso
        rw [mapM_ok_iff] at hm
        obtain ⟨j, hj, rfl⟩ := List.mem_iff_getElem.mp hp
        have := (termRow_ok (forall₂_getElem hm j hj)).1
        omega
      | error e =>
        obtain ⟨_, q, _, -, -, hq⟩ := mapM_error_iff.mp hm
        unfold termRow at hq
        split at hq <;> cases hq
        rfl
    simp [termArray, this, bind, Except.bind]
  · rintro h0 ⟨p, hp, hbig⟩
    apply hprop
    have : term.mapM termRow = .ok ((term.map (fun p => (p.1.toNat, p.2))).map mkRow) := by
      rw [mapM_ok_iff]
      apply forall₂_of_getElem (by simp)
      intro i hi
      have := h0 _ (List.getElem_mem hi)
      simp only [List.getElem_map, termRow, not_lt.mpr this, if_false]
      rfl
    unfold termArray
    rw [this]
    simp only [bind, Except.bind]
    rw [if_pos]
    rw [List.any_eq_true]
    refine ⟨mkRow (p.1.toNat, p.2), ?_, ?_⟩
    · simp only [List.map_map, List.mem_map]
      exact ⟨p, hp, rfl⟩
    · simp only [mkRow, Nat.one_shiftLeft, decide_eq_true_eq]
      exact Nat.pow_le_pow_right (by norm_num) (by omega)

/-- Non-vacuity of C19: state 63 fits, state 64 does not. -/
example :
    baseVectors [.tuple [.tuple [.int 63], .int 1]] .array = .ok [2 ^ 63] ∧
    baseVectors [.tuple [.tuple [.int 64], .int 1]] .array = .error .overflowError ∧
    baseVectors [.tuple [.tuple [.int 64], .int 1]] .list = .ok [2 ^ 64] := by
  refine ⟨?_, ?_, ?_⟩ <;> rfl

end Verif
