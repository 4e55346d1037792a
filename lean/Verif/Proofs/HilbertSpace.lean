import Verif.Model.HilbertSpace
import Verif.Proofs.Bits
import Verif.Proofs.PyLemmas
import Mathlib.Data.Nat.BitIndices
import Mathlib.Data.Nat.Choose.Sum
/-! Helper lemmas for the Hilbert-space model. -/

namespace Verif
open Spec

theorem testBit_ketOf (l : List ℕ) (h : l.Nodup) (i : ℕ) :
    (ketOf l).testBit i = true ↔ i ∈ l := by
  have hperm : (l.mergeSort (· ≤ ·)).Perm l := List.mergeSort_perm l _
  have hs : (l.mergeSort (· ≤ ·)).SortedLT := by
    have h1 : (l.mergeSort (· ≤ ·)).Pairwise (· ≤ ·) := by
      have := List.pairwise_mergeSort (le := fun a b : ℕ => decide (a ≤ b))
        (by intro a b c; simp; omega) (by intro a b; simp; omega) l
      simpa using this
    have h2 : (l.mergeSort (· ≤ ·)).Nodup := hperm.nodup_iff.mpr h
    exact ((h1.and h2).imp (fun h => lt_of_le_of_ne h.1 h.2)).sortedLT
  have hsum : ketOf l = ((l.mergeSort (· ≤ ·)).map (fun i => 2 ^ i)).sum := by
    unfold ketOf
    rw [(hperm.map _).sum_eq]
    simp [Nat.one_shiftLeft]
  rw [hsum, ← Nat.mem_bitIndices, Nat.bitIndices_sum_map_two_pow hs]
  exact hperm.mem_iff

theorem mem_combinations {α : Type _} (l : List α) (r : ℕ) (c : List α) :
    c ∈ combinations l r ↔ c.Sublist l ∧ c.length = r := by
  induction l generalizing r c with
  | nil =>
    cases r with
    | zero => simp [combinations]
    | succ r =>
      simp only [combinations, List.not_mem_nil, List.sublist_nil, false_iff, not_and]
      rintro rfl; simp
  | cons x xs ih =>
    cases r with
    | zero =>
      simp only [combinations, List.mem_singleton, List.length_eq_zero_iff]
      constructor
      · rintro rfl; simp
      · exact fun h => h.2
    | succ r =>
      simp only [combinations, List.mem_append, List.mem_map, ih]
      constructor
      · rintro (⟨c', ⟨h1, h2⟩, rfl⟩ | ⟨h1, h2⟩)
        · exact ⟨h1.cons_cons _, by simp [h2]⟩
        · exact ⟨h1.cons _, h2⟩
      · rintro ⟨h1, h2⟩
        cases h1 with
        | cons _ h => exact .inr ⟨h, h2⟩
        | cons_cons _ h => exact .inl ⟨_, ⟨h, by simpa using h2⟩, rfl⟩

theorem length_combinations {α : Type _} (l : List α) (r : ℕ) :
    (combinations l r).length = l.length.choose r := by
  induction l generalizing r with
  | nil => cases r <;> simp [combinations]
  | cons x xs ih =>
    cases r with
    | zero => simp [combinations]
    | succ r => simp [combinations, ih, Nat.choose_succ_succ]

theorem nodup_combinations {α : Type _} (l : List α) (h : l.Nodup) (r : ℕ) :
    (combinations l r).Nodup := by
  induction l generalizing r with
  | nil => cases r <;> simp [combinations]
  | cons x xs ih =>
    cases r with
    | zero => simp [combinations]
    | succ r =>
      rw [List.nodup_cons] at h
      simp only [combinations]
      rw [List.nodup_append]
      refine ⟨(ih h.2 r).map (fun a b hab => by simpa using hab), ih h.2 _, ?_⟩
      intro a ha b hb hab
      subst hab
      simp only [List.mem_map] at ha
      obtain ⟨c, -, rfl⟩ := ha
      rw [mem_combinations] at hb
      exact h.1 (hb.1.subset (by simp))

theorem mem_allCombinations {α : Type _} (l c : List α) :
    c ∈ allCombinations l ↔ c.Sublist l := by
  simp only [allCombinations, List.mem_flatMap, List.mem_range, mem_combinations]
  constructor
  · rintro ⟨_, _, h, _⟩; exact h
  · intro h; exact ⟨c.length, by have := h.length_le; omega, h, rfl⟩

theorem length_allCombinations {α : Type _} (l : List α) :
    (allCombinations l).length = 2 ^ l.length := by
  simp only [allCombinations, List.length_flatMap, length_combinations]
  rw [← Nat.sum_range_choose, Finset.sum_eq_multiset_sum, Finset.range_val, Multiset.range,
    Multiset.map_coe, Multiset.sum_coe]

theorem mem_cartProduct {α : Type _} (ls : List (List α)) (b : List α) :
    b ∈ cartProduct ls ↔ List.Forall₂ (fun x l => x ∈ l) b ls := by
  induction ls generalizing b with
  | nil => simp [cartProduct]
  | cons l ls ih =>
    simp only [cartProduct, List.mem_flatMap, List.mem_map, ih]
    constructor
    · rintro ⟨x, hx, b', hb', rfl⟩; exact .cons hx hb'
    · intro h
      cases h with
      | cons hx hb => exact ⟨_, hx, _, hb, rfl⟩

theorem length_cartProduct {α : Type _} (ls : List (List α)) :
    (cartProduct ls).length = (ls.map List.length).prod := by
  induction ls with
  | nil => simp [cartProduct]
  | cons l ls ih => simp [cartProduct, List.length_flatMap, ih]

theorem nodup_cartProduct {α : Type _} (ls : List (List α)) (h : ∀ l ∈ ls, l.Nodup) :
    (cartProduct ls).Nodup := by
  induction ls with
  | nil => simp [cartProduct]
  | cons l ls ih =>
    simp only [cartProduct]
    rw [List.nodup_flatMap]
    refine ⟨?_, ?_⟩
    · intro x _
      exact (ih (fun l hl => h l (by simp [hl]))).map (fun a b hab => by simpa using hab)
    · refine (h l (by simp)).imp ?_
      intro a b hab
      rw [Function.onFun, List.disjoint_left]
      intro c hc hc'
      simp only [List.mem_map] at hc hc'
      obtain ⟨_, _, rfl⟩ := hc
      obtain ⟨_, _, he⟩ := hc'
      exact hab (by simpa using (List.cons.inj he).1.symm)

theorem filter_mem_sublist {α : Type _} [DecidableEq α] {c l : List α} (h : c.Sublist l)
    (hn : l.Nodup) : l.filter (fun x => decide (x ∈ c)) = c := by
  induction h with
  | slnil => rfl
  | @cons c l x h ih =>
    rw [List.nodup_cons] at hn
    rw [List.filter_cons, if_neg, ih hn.2]
    simp only [decide_eq_true_eq]
    exact fun hx => hn.1 (h.subset hx)
  | @cons_cons c l x h ih =>
    rw [List.nodup_cons] at hn
    rw [List.filter_cons, if_pos (by simp)]
    congr 1
    conv_rhs => rw [← ih hn.2]
    apply List.filter_congr
    intro y hy
    have : y ≠ x := by rintro rfl; exact hn.1 hy
    simp [this]

/-- what a basis of one subspace is -/
def SubBasis (c : List ℕ) (s : List ℕ × HNum) : Prop :=
  c.Sublist s.1 ∧ ∀ M : ℤ, s.2 = .int M → 0 ≤ M → (c.length : ℤ) = M

theorem mem_subspaceBases {s : List ℕ × HNum} {g : List (List ℕ)} (h : subspaceBases s = .ok g)
    (c : List ℕ) : c ∈ g ↔ SubBasis c s := by
  unfold subspaceBases at h
  unfold SubBasis
  split at h
  · rename_i m hm
    split at h
    · rename_i hneg
      cases h
      rw [mem_allCombinations]
      refine ⟨fun h => ⟨h, ?_⟩, fun h => h.1⟩
      intro M hM h0
      rw [hm] at hM
      cases hM
      omega
    · rename_i hneg
      cases h
      rw [mem_combinations, hm]
      refine and_congr Iff.rfl ⟨?_, ?_⟩
      · intro h M hM h0
        cases hM
        omega
      · intro h
        have := h m rfl (by omega)
        omega
  · rename_i q hq
    split at h
    · cases h
      rw [mem_allCombinations]
      refine ⟨fun h => ⟨h, ?_⟩, fun h => h.1⟩
      intro M hM h0
      rw [hq] at hM
      cases hM
    · cases h

theorem nodup_subspaceBases {s : List ℕ × HNum} {g : List (List ℕ)} (h : subspaceBases s = .ok g)
    (hn : s.1.Nodup) : g.Nodup := by
  have hall : (allCombinations s.1).Nodup := by
    unfold allCombinations
    rw [List.nodup_flatMap]
    refine ⟨fun i _ => nodup_combinations _ hn _, ?_⟩
    refine List.nodup_range.imp ?_
    intro a b hab
    rw [Function.onFun, List.disjoint_left]
    intro c hc hc'
    rw [mem_combinations] at hc hc'
    exact hab (hc.2.symm.trans hc'.2)
  unfold subspaceBases at h
  split at h
  · split at h
    · cases h; exact hall
    · cases h; exact nodup_combinations _ hn _
  · split at h
    · cases h; exact hall
    · cases h

/-- dimension of one subspace -/
theorem length_subspaceBases {s : List ℕ × HNum} {g : List (List ℕ)} (h : subspaceBases s = .ok g) :
    (∀ M : ℤ, s.2 = .int M → 0 ≤ M → g.length = s.1.length.choose M.toNat) ∧
    ((∀ M : ℤ, s.2 = .int M → M < 0) → g.length = 2 ^ s.1.length) := by
  unfold subspaceBases at h
  split at h
  · rename_i m hm
    split at h
    · rename_i hneg
      cases h
      refine ⟨?_, fun _ => length_allCombinations _⟩
      intro M hM h0
      rw [hm] at hM; cases hM; omega
    · rename_i hneg
      cases h
      refine ⟨?_, ?_⟩
      · intro M hM h0
        rw [hm] at hM; cases hM
        exact length_combinations _ _
      · intro hall
        have := hall m hm
        omega
  · rename_i q hq
    split at h
    · cases h
      refine ⟨?_, fun _ => length_allCombinations _⟩
      intro M hM h0
      rw [hq] at hM; cases hM
    · cases h

/-- the states of all subspaces -/
def allStates (subs : List (List ℕ × HNum)) : List ℕ := (subs.map Prod.fst).flatten

theorem flatten_sublist {basis : List (List ℕ)} {subs : List (List ℕ × HNum)}
    (h : List.Forall₂ SubBasis basis subs) : basis.flatten.Sublist (allStates subs) := by
  induction h with
  | nil => exact .slnil
  | cons hc _ ih =>
    simp only [List.flatten_cons, allStates, List.map_cons]
    exact hc.1.append ih

/-- a basis is determined by which states it occupies -/
theorem basis_recover {basis : List (List ℕ)} {subs : List (List ℕ × HNum)}
    (h : List.Forall₂ SubBasis basis subs) (hn : (allStates subs).Nodup) :
    basis = subs.map (fun s => s.1.filter (fun i => decide (i ∈ basis.flatten))) := by
  induction h with
  | nil => rfl
  | @cons c s basis subs hc hrest ih =>
    have hn' : (s.1 ++ allStates subs).Nodup := by simpa [allStates] using hn
    rw [List.nodup_append] at hn'
    obtain ⟨h1, h2, h3⟩ := hn'
    have hsub := flatten_sublist hrest
    simp only [List.map_cons, List.flatten_cons, List.cons.injEq]
    constructor
    · conv_lhs => rw [← filter_mem_sublist hc.1 h1]
      apply List.filter_congr
      intro i hi
      have : i ∉ basis.flatten := fun hb => h3 i hi i (hsub.subset hb) rfl
      simp [this]
    · conv_lhs => rw [ih h2]
      apply List.map_congr_left
      intro s' hs'
      apply List.filter_congr
      intro i hi
      have hmem : i ∈ allStates subs := by
        simp only [allStates, List.mem_flatten, List.mem_map]
        exact ⟨s'.1, ⟨s', hs', rfl⟩, hi⟩
      have : i ∉ c := fun hc' => h3 i (hc.1.subset hc') i hmem rfl
      simp [this]

theorem forall₂_mem_bases {basis : List (List ℕ)} {subs : List (List ℕ × HNum)}
    {gens : List (List (List ℕ))} (hg : subs.mapM subspaceBases = .ok gens) :
    List.Forall₂ (fun x l => x ∈ l) basis gens ↔ List.Forall₂ SubBasis basis subs := by
  rw [mapM_ok_iff] at hg
  induction hg generalizing basis with
  | nil => simp
  | @cons s g subs gens h _ ih =>
    constructor
    · intro hb
      cases hb with
      | cons hx hb => exact .cons ((mem_subspaceBases h _).mp hx) (ih.mp hb)
    · intro hb
      cases hb with
      | cons hx hb => exact .cons ((mem_subspaceBases h _).mpr hx) (ih.mpr hb)

/-- the kets before sorting -/
def rawKets (gens : List (List (List ℕ))) : List ℕ :=
  (cartProduct gens).map (fun basis => ketOf basis.flatten)

theorem mem_rawKets {subs : List (List ℕ × HNum)} {gens : List (List (List ℕ))}
    (hg : subs.mapM subspaceBases = .ok gens) (hn : (allStates subs).Nodup) (k : ℕ) :
    k ∈ rawKets gens ↔
      (∀ i, k.testBit i = true → ∃ s ∈ subs, i ∈ s.1) ∧
      ∀ s ∈ subs, ∀ M : ℤ, s.2 = .int M → 0 ≤ M →
        ((s.1.filter (fun i => k.testBit i)).length : ℤ) = M := by
  unfold rawKets
  simp only [List.mem_map, mem_cartProduct, forall₂_mem_bases hg]
  constructor
  · rintro ⟨basis, hb, rfl⟩
    have hsub := flatten_sublist hb
    have hnd : basis.flatten.Nodup := hsub.nodup hn
    refine ⟨?_, ?_⟩
    · intro i hi
      rw [testBit_ketOf _ hnd] at hi
      have := hsub.subset hi
      simp only [allStates, List.mem_flatten, List.mem_map] at this
      obtain ⟨_, ⟨s, hs, rfl⟩, hi⟩ := this
      exact ⟨s, hs, hi⟩
    · intro s hs M hM h0
      have hrec := basis_recover hb hn
      obtain ⟨j, hj, rfl⟩ := List.mem_iff_getElem.mp hs
      have hlen := forall₂_length hb
      have hbj := forall₂_getElem hb j (by omega)
      have : basis[j]'(by omega) = subs[j].1.filter (fun i => decide (i ∈ basis.flatten)) := by
        conv_lhs => rw [List.getElem_of_eq hrec]
        simp
      rw [← hbj.2 M hM h0, this]
      congr 2
      apply List.filter_congr
      intro i _
      rw [Bool.eq_iff_iff, testBit_ketOf _ hnd]
      simp
  · rintro ⟨h1, h2⟩
    have hb : List.Forall₂ SubBasis (subs.map (fun s => s.1.filter (fun i => k.testBit i))) subs := by
      apply forall₂_of_getElem (by simp)
      intro j hj
      simp only [List.length_map] at hj
      simp only [List.getElem_map]
      exact ⟨List.filter_sublist, fun M hM h0 => h2 _ (List.getElem_mem hj) M hM h0⟩
    refine ⟨_, hb, ?_⟩
    have hnd := (flatten_sublist hb).nodup hn
    apply Nat.eq_of_testBit_eq
    intro i
    rw [Bool.eq_iff_iff, testBit_ketOf _ hnd]
    simp only [List.mem_flatten, List.mem_map]
    constructor
    · rintro ⟨_, ⟨s, hs, rfl⟩, hi⟩
      exact (List.mem_filter.mp hi).2
    · intro hi
      obtain ⟨s, hs, his⟩ := h1 i hi
      exact ⟨_, ⟨s, hs, rfl⟩, List.mem_filter.mpr ⟨his, hi⟩⟩

theorem nodup_rawKets {subs : List (List ℕ × HNum)} {gens : List (List (List ℕ))}
    (hg : subs.mapM subspaceBases = .ok gens) (hn : (allStates subs).Nodup) :
    (rawKets gens).Nodup := by
  unfold rawKets
  apply List.Nodup.map_on
  · intro b1 h1 b2 h2 heq
    rw [mem_cartProduct, forall₂_mem_bases hg] at h1 h2
    rw [basis_recover h1 hn, basis_recover h2 hn]
    apply List.map_congr_left
    intro s _
    apply List.filter_congr
    intro i _
    have n1 := (flatten_sublist h1).nodup hn
    have n2 := (flatten_sublist h2).nodup hn
    rw [Bool.eq_iff_iff]
    simp only [decide_eq_true_eq]
    rw [← testBit_ketOf _ n1, ← testBit_ketOf _ n2, heq]
  · apply nodup_cartProduct
    intro g hgm
    rw [mapM_ok_iff] at hg
    obtain ⟨j, hj, rfl⟩ := List.mem_iff_getElem.mp hgm
    have hlen := forall₂_length hg
    refine nodup_subspaceBases (forall₂_getElem hg j (by omega)) ?_
    have hmem : subs[j] ∈ subs := List.getElem_mem _
    have : subs[j].1.Sublist (allStates subs) := by
      unfold allStates
      exact List.sublist_flatten_of_mem (List.mem_map_of_mem hmem)
    exact this.nodup hn

theorem pairwiseDisjoint_iff (subs : List (List ℕ × HNum)) :
    pairwiseDisjoint subs = true ↔ subs.Pairwise (fun s t => ∀ x ∈ s.1, x ∉ t.1) := by
  induction subs with
  | nil => simp [pairwiseDisjoint]
  | cons s ss ih =>
    simp only [pairwiseDisjoint, Bool.and_eq_true, ih, List.pairwise_cons, List.all_eq_true,
      disjointStates, Bool.not_eq_true', List.contains_eq_mem, decide_eq_false_iff_not]

theorem allStates_nodup_iff (subs : List (List ℕ × HNum)) :
    (allStates subs).Nodup ↔ (∀ s ∈ subs, s.1.Nodup) ∧ pairwiseDisjoint subs = true := by
  rw [pairwiseDisjoint_iff]
  unfold allStates
  rw [List.nodup_flatten, List.pairwise_map]
  simp only [List.mem_map, forall_exists_index, and_imp, forall_apply_eq_imp_iff₂]
  apply and_congr Iff.rfl
  constructor
  · exact fun h => h.imp (fun hd x hx hx' => hd hx hx')
  · exact fun h => h.imp (fun hd x hx hx' => hd x hx hx')

theorem finishKets_eq (kets : List ℕ) (container : Container) (sort : Bool) :
    ∃ S, S = (if sort then kets.insertionSort (· ≤ ·) else kets) ∧
      S.Perm kets ∧ finishKets kets container sort =
        if container = .array ∧ S.any (fun k => decide (2 ^ 64 ≤ k)) = true
        then .error .overflowError else .ok S := by
  refine ⟨_, rfl, ?_, rfl⟩
  split
  · exact List.perm_insertionSort _ _
  · exact .refl _

theorem finishKets_ok {kets res : List ℕ} {container : Container} {sort : Bool}
    (h : finishKets kets container sort = .ok res) :
    res = (if sort then kets.insertionSort (· ≤ ·) else kets) ∧
    (container = .array → ∀ k ∈ kets, k < 2 ^ 64) := by
  obtain ⟨S, hS, hp, heq⟩ := finishKets_eq kets container sort
  rw [heq] at h
  split at h
  · cases h
  · rename_i hc
    cases h
    refine ⟨hS, ?_⟩
    intro ha k hk
    by_contra hcon
    apply hc
    refine ⟨ha, ?_⟩
    rw [List.any_eq_true]
    exact ⟨k, hp.mem_iff.mpr hk, by simpa using hcon⟩

theorem finishKets_error_iff {kets : List ℕ} {container : Container} {sort : Bool} {e : PyErr} :
    finishKets kets container sort = .error e ↔
      e = .overflowError ∧ container = .array ∧ ∃ k ∈ kets, 2 ^ 64 ≤ k := by
  obtain ⟨S, hS, hp, heq⟩ := finishKets_eq kets container sort
  rw [heq]
  have hany : (S.any (fun k => decide (2 ^ 64 ≤ k))) = true ↔ ∃ k ∈ kets, 2 ^ 64 ≤ k := by
    rw [List.any_eq_true]
    simp only [decide_eq_true_eq, hp.mem_iff]
  split
  · rename_i h
    rw [hany] at h
    constructor
    · intro he; cases he; exact ⟨rfl, h⟩
    · rintro ⟨rfl, -⟩; rfl
  · rename_i h
    rw [hany] at h
    constructor
    · intro he; cases he
    · rintro ⟨-, h'⟩; exact absurd h' h

theorem finishKets_perm {kets res : List ℕ} {container : Container} {sort : Bool}
    (h : finishKets kets container sort = .ok res) : res.Perm kets := by
  rw [(finishKets_ok h).1]
  split
  · exact List.perm_insertionSort _ _
  · exact .refl _

theorem finishKets_sorted {kets res : List ℕ} {container : Container}
    (h : finishKets kets container true = .ok res) : res.Pairwise (· ≤ ·) := by
  rw [(finishKets_ok h).1, if_pos rfl]
  exact List.pairwise_insertionSort _ _

/-- what a successful `base_vectors(...)` went through -/
theorem baseVectors_ok {specs : List HVal} {container : Container} {sort : Bool} {kets : List ℕ}
    (h : baseVectors specs container sort = .ok kets) :
    ∃ subs gens, specs.mapM preprocess = .ok subs ∧ pairwiseDisjoint subs = true ∧
      subs.mapM subspaceBases = .ok gens ∧
      finishKets (rawKets gens) container sort = .ok kets := by
  unfold baseVectors at h
  rw [bind_ok_iff] at h
  obtain ⟨_, -, h⟩ := h
  rw [bind_ok_iff] at h
  obtain ⟨subs, hs, h⟩ := h
  split at h
  · rename_i hd
    rw [bind_ok_iff] at h
    obtain ⟨gens, hg, h⟩ := h
    exact ⟨subs, gens, hs, hd, hg, h⟩
  · cases h

/-- two ascending duplicate-free lists with the same members are equal -/
theorem eq_of_ascending {a b : List ℕ} (ha : a.Pairwise (· < ·)) (hb : b.Pairwise (· < ·))
    (h : ∀ x, x ∈ a ↔ x ∈ b) : a = b := by
  have na : a.Nodup := ha.imp (fun h => Nat.ne_of_lt h)
  have nb : b.Nodup := hb.imp (fun h => Nat.ne_of_lt h)
  have hp : a.Perm b := (List.perm_ext_iff_of_nodup na nb).mpr h
  exact hp.eq_of_pairwise (fun _ _ _ _ h1 h2 => absurd h1 (Nat.lt_asymm h2)) ha hb

end Verif
