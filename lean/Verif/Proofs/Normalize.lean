import Verif.Proofs.Particle
import Verif.Spec.Inversions
/-! Helper lemmas for `normalize`. -/

namespace Verif
open Spec

/-- Reachability by swapping adjacent, inverted operators on different states, counting swaps. -/
inductive Swaps : List AoC → ℕ → List AoC → ℕ → Prop
  | refl (l c) : Swaps l c l c
  | swap {l c l' c'} (pre : List AoC) (x y : AoC) (post : List AoC) (hgt : x.gt y = true)
      (hne : x.state.hashKey ≠ y.state.hashKey) (hl : l = pre ++ x :: y :: post)
      (h : Swaps (pre ++ y :: x :: post) (c + 1) l' c') : Swaps l c l' c'

theorem Swaps.trans {l c m d n e} (h : Swaps l c m d) (h' : Swaps m d n e) : Swaps l c n e := by
  induction h with
  | refl => exact h'
  | swap pre x y post hgt hne hl _ ih => exact .swap pre x y post hgt hne hl (ih h')

theorem rich_ne_iff (a b : StateID) : a.rich .ne b = true ↔ a.hashKey ≠ b.hashKey := by
  simp [stateRich_eq, linRich, stateKey_eq_iff]

theorem normInner_step (todo : ℕ) (pre : List AoC) (x y : AoC) (rest : List AoC) (c : ℕ) :
    normInner (todo + 1) pre.length (pre ++ x :: y :: rest) c =
      if x.gt y then
        if x.state.rich .ne y.state then
          normInner todo (pre.length + 1) (pre ++ y :: x :: rest) (c + 1)
        else .error (.swapFermion x y)
      else normInner todo (pre.length + 1) (pre ++ x :: y :: rest) c := by
  rw [normInner]
  have e1 : (pre ++ x :: y :: rest)[pre.length + 1]? = some y := by
    rw [List.getElem?_append_right (Nat.le_succ _)]
    simp
  have hset : ((pre ++ x :: y :: rest).set pre.length y).set (pre.length + 1) x =
      pre ++ y :: x :: rest := by simp
  simp only [List.getElem?_append_right (Nat.le_refl _), Nat.sub_self, List.getElem?_cons_zero, e1,
    hset]

theorem normInner_swaps (todo i : ℕ) (l : List AoC) (c : ℕ) (hl : i + todo < l.length ∨ todo = 0) :
    (∀ l' c', normInner todo i l c = .ok (l', c') → Swaps l c l' c') ∧
    (∀ e, normInner todo i l c = .error e → ∃ x y pre post c',
      e = .swapFermion x y ∧ Swaps l c (pre ++ x :: y :: post) c' ∧ x.gt y = true ∧
      x.state.hashKey = y.state.hashKey) := by
  induction todo generalizing i l c with
  | zero =>
    refine ⟨?_, ?_⟩
    · intro l' c' h; simp only [normInner] at h; cases h; exact .refl _ _
    · intro e h; simp only [normInner] at h; cases h
  | succ todo ih =>
    have hl : i + (todo + 1) < l.length := by omega
    have h0 : i < l.length := by omega
    have h1 : i + 1 < l.length := by omega
    obtain ⟨pre, x, y, post, rfl, rfl⟩ : ∃ pre x y post, l = pre ++ x :: y :: post ∧
        pre.length = i :=
      ⟨l.take i, l[i], l[i + 1], l.drop (i + 2), by
        rw [List.getElem_cons_drop, List.getElem_cons_drop, List.take_append_drop], by
        simp; omega⟩
    rw [normInner_step]
    by_cases hgt : x.gt y = true
    · by_cases hne : x.state.rich .ne y.state = true
      · rw [if_pos hgt, if_pos hne]
        have := ih (pre.length + 1) (pre ++ y :: x :: post) (c + 1) (by
          simp only [List.length_append, List.length_cons] at hl ⊢; omega)
        refine ⟨?_, ?_⟩
        · intro l' c' h
          exact .swap _ _ _ _ hgt ((rich_ne_iff _ _).mp hne) rfl (this.1 l' c' h)
        · intro e h
          obtain ⟨x', y', pre', post', c', he, hs, hg, hk⟩ := this.2 e h
          exact ⟨x', y', pre', post', c', he,
            .swap _ _ _ _ hgt ((rich_ne_iff _ _).mp hne) rfl hs, hg, hk⟩
      · rw [if_pos hgt, if_neg hne]
        refine ⟨fun l' c' h => (by cases h), ?_⟩
        intro e h
        cases h
        refine ⟨_, _, pre, post, c, rfl, .refl _ _, hgt, ?_⟩
        rw [rich_ne_iff] at hne
        simpa using hne
    · rw [if_neg hgt]
      exact ih (pre.length + 1) _ c (by omega)

theorem Swaps.length {l c l' c'} (h : Swaps l c l' c') : l.length = l'.length := by
  induction h with
  | refl => rfl
  | swap pre x y post hgt hne hl _ ih => rw [← ih, hl]; simp

theorem normOuter_swaps (r : ℕ) (l : List AoC) (c : ℕ) (hl : r ≤ l.length) :
    (∀ l' c', normOuter r l c = .ok (l', c') → Swaps l c l' c') ∧
    (∀ e, normOuter r l c = .error e → ∃ x y pre post c',
      e = .swapFermion x y ∧ Swaps l c (pre ++ x :: y :: post) c' ∧ x.gt y = true ∧
      x.state.hashKey = y.state.hashKey) := by
  induction r using Nat.strong_induction_on generalizing l c with
  | _ r ih =>
    match r with
    | 0 | 1 =>
      refine ⟨?_, ?_⟩
      · intro l' c' h; simp only [normOuter] at h; cases h; exact .refl _ _
      · intro e h; simp only [normOuter] at h; cases h
    | r + 2 =>
      have hin := normInner_swaps (r + 1) 0 l c (by omega)
      rw [normOuter]
      refine ⟨?_, ?_⟩
      · intro l' c' h
        rw [bind_ok_iff] at h
        obtain ⟨⟨m, d⟩, hm, h⟩ := h
        have s1 := hin.1 m d hm
        have := ih (r + 1) (by omega) m d (by rw [← s1.length]; omega)
        exact s1.trans (this.1 _ _ h)
      · intro e h
        rw [bind_error_iff] at h
        rcases h with h | ⟨⟨m, d⟩, hm, h⟩
        · exact hin.2 e h
        · have s1 := hin.1 m d hm
          have := ih (r + 1) (by omega) m d (by rw [← s1.length]; omega)
          obtain ⟨x, y, pre, post, c', he, hs, hg, hk⟩ := this.2 e h
          exact ⟨x, y, pre, post, c', he, s1.trans hs, hg, hk⟩

theorem Swaps.perm {l c l' c'} (h : Swaps l c l' c') : l.Perm l' := by
  induction h with
  | refl => exact List.Perm.refl _
  | swap pre x y post hgt hne hl _ ih =>
    refine List.Perm.trans ?_ ih
    rw [hl]
    exact List.Perm.append_left _ (List.Perm.swap _ _ _)

theorem inversions_append (l m : List AoC) :
    inversions (l ++ m) = inversions l + inversions m +
      (l.map (fun x => (m.filter (fun y => x.gt y)).length)).sum := by
  induction l with
  | nil => simp [inversions]
  | cons x l ih =>
    simp only [List.cons_append, inversions, ih, List.filter_append, List.length_append,
      List.map_cons, List.sum_cons]
    omega

theorem aoc_gt_iff (a b : AoC) : a.gt b = true ↔ aocKey b < aocKey a := by
  simp [aoc_gt_eq]

theorem Swaps.inversions {l c l' c'} (h : Swaps l c l' c') :
    c + Spec.inversions l = c' + Spec.inversions l' := by
  induction h with
  | refl => rfl
  | swap pre x y post hgt hne hl _ ih =>
    rw [← ih, hl]
    have hyx : y.gt x = false := by
      rw [Bool.eq_false_iff]
      intro h
      rw [aoc_gt_iff] at h hgt
      exact lt_asymm h hgt
    simp only [inversions_append]
    have e1 : Spec.inversions (x :: y :: post) = Spec.inversions (y :: x :: post) + 1 := by
      simp only [Spec.inversions, List.filter_cons, hgt, hyx, if_true, Bool.false_eq_true, if_false,
        List.length_cons]
      omega
    have e2 : ∀ z : AoC, ((x :: y :: post).filter (fun y => z.gt y)).length =
        ((y :: x :: post).filter (fun y => z.gt y)).length := by
      intro z
      exact ((List.Perm.swap y x post).filter _).length_eq
    simp only [e1, e2]
    omega

theorem annBefore_iff (l : List AoC) : AnnihilatorBeforeCreator l ↔
    ∃ a b : AoC, [a, b].Sublist l ∧ a.otype = .annihilation ∧ b.otype = .creation ∧
      a.state.hashKey = b.state.hashKey := by
  constructor
  · rintro ⟨pre, s, mid, t, post, rfl, h⟩
    refine ⟨⟨.annihilation, s⟩, ⟨.creation, t⟩, ?_, rfl, rfl, h⟩
    rw [List.append_assoc]
    apply List.Sublist.trans _ (List.sublist_append_right _ _)
    rw [List.cons_append]
    apply List.Sublist.cons_cons
    apply List.Sublist.trans _ (List.sublist_append_right _ _)
    exact List.Sublist.cons_cons _ (List.nil_sublist _)
  · rintro ⟨a, b, hs, ha, hb, h⟩
    rw [List.cons_sublist_iff] at hs
    obtain ⟨l1, l2, rfl, h1, h2⟩ := hs
    obtain ⟨p, q, rfl⟩ := List.append_of_mem h1
    have h2 : b ∈ l2 := by simpa using h2
    obtain ⟨p', q', rfl⟩ := List.append_of_mem h2
    refine ⟨p, a.state, q ++ p', b.state, q', ?_, h⟩
    rcases a with ⟨_, _⟩
    rcases b with ⟨_, _⟩
    simp only at ha hb
    subst ha hb
    simp

/-- swapping adjacent operators of different states keeps the forbidden pattern -/
theorem annBefore_swap (pre : List AoC) (x y : AoC) (post : List AoC)
    (hne : x.state.hashKey ≠ y.state.hashKey)
    (h : AnnihilatorBeforeCreator (pre ++ x :: y :: post)) :
    AnnihilatorBeforeCreator (pre ++ y :: x :: post) := by
  rw [annBefore_iff] at h ⊢
  obtain ⟨a, b, hs, ha, hb, hk⟩ := h
  refine ⟨a, b, ?_, ha, hb, hk⟩
  rw [List.sublist_append_iff] at hs ⊢
  obtain ⟨l1, l2, he, h1, h2⟩ := hs
  refine ⟨l1, l2, he, h1, ?_⟩
  rcases l1 with _ | ⟨a', _ | ⟨b', l1⟩⟩
  · simp only [List.nil_append] at he
    subst he
    rcases h2 with _ | h2 | h2
    · rename_i h2
      rcases h2 with _ | h2 | h2
      · rename_i h2; exact .cons _ (.cons _ h2)
      · rename_i h2
        exact .cons_cons _ (.cons _ h2)
    · rename_i h2
      rcases h2 with _ | h2 | h2
      · rename_i h2; exact .cons _ (.cons_cons _ h2)
      · exact absurd hk hne
  · simp only [List.cons_append, List.nil_append, List.cons.injEq] at he
    obtain ⟨rfl, rfl⟩ := he
    have : b ∈ x :: y :: post := by simpa using h2
    have : b ∈ y :: x :: post := by
      simp only [List.mem_cons] at this ⊢; tauto
    simpa using this
  · simp only [List.cons_append, List.cons.injEq] at he
    obtain ⟨_, _, he⟩ := he
    have := congrArg List.length he
    simp at this
    have h2e : l2 = [] := by cases l2 with
      | nil => rfl
      | cons => simp at this
    rw [h2e]; exact List.nil_sublist _

theorem Swaps.annBefore {l c l' c'} (h : Swaps l c l' c') :
    AnnihilatorBeforeCreator l ↔ AnnihilatorBeforeCreator l' := by
  induction h with
  | refl => exact Iff.rfl
  | swap pre x y post hgt hne hl _ ih =>
    rw [← ih, hl]
    exact ⟨annBefore_swap pre x y post hne, annBefore_swap pre y x post (Ne.symm hne)⟩

/-- an inverted pair on one state is annihilator, creator -/
theorem gt_same_state {x y : AoC} (h : x.gt y = true) (hk : x.state.hashKey = y.state.hashKey) :
    x.otype = .annihilation ∧ y.otype = .creation := by
  have hk' := (stateKey_eq_iff _ _).mpr hk
  rcases x with ⟨⟨⟩, s⟩ <;> rcases y with ⟨⟨⟩, t⟩ <;>
    simp_all [AoC.gt, stateRich_eq, linRich]

/-- ascending in the AoC order -/
def Ascending (l : List AoC) : Prop := l.Pairwise (fun a b => a.le b = true)

theorem aoc_le_iff (a b : AoC) : a.le b = true ↔ aocKey a ≤ aocKey b := by
  have := aocRich_eq .le a b
  simp only [AoC.rich, linRich] at this
  rw [this]; simp

theorem normInner_max (todo : ℕ) (pre : List AoC) (x : AoC) (rest : List AoC) (c : ℕ)
    (hle : todo ≤ rest.length) (hpre : ∀ p ∈ pre, aocKey p ≤ aocKey x) (l' : List AoC) (c' : ℕ)
    (h : normInner todo pre.length (pre ++ x :: rest) c = .ok (l', c')) :
    ∃ pre' z, l' = pre' ++ z :: rest.drop todo ∧ pre'.length = pre.length + todo ∧
      ∀ p ∈ pre', aocKey p ≤ aocKey z := by
  induction todo generalizing pre x rest c with
  | zero =>
    simp only [normInner] at h
    cases h
    exact ⟨pre, x, by simp, by simp, hpre⟩
  | succ todo ih =>
    cases rest with
    | nil => simp at hle
    | cons y rest =>
      rw [normInner_step] at h
      by_cases hgt : x.gt y = true
      · rw [if_pos hgt] at h
        split at h
        · rw [show pre ++ y :: x :: rest = (pre ++ [y]) ++ x :: rest by simp,
            show pre.length + 1 = (pre ++ [y]).length by simp] at h
          have := ih (pre ++ [y]) x rest (c + 1) (by simpa using hle) (by
            intro p hp
            rcases List.mem_append.mp hp with hp | hp
            · exact hpre p hp
            · simp only [List.mem_singleton] at hp
              subst hp
              exact le_of_lt ((aoc_gt_iff _ _).mp hgt)) h
          obtain ⟨pre', z, h1, h2, h3⟩ := this
          exact ⟨pre', z, by simpa using h1, by simp at h2; omega, h3⟩
        · cases h
      · rw [if_neg hgt] at h
        have hxy : aocKey x ≤ aocKey y := by
          rw [aoc_gt_iff] at hgt; exact not_lt.mp hgt
        rw [show pre ++ x :: y :: rest = (pre ++ [x]) ++ y :: rest by simp,
          show pre.length + 1 = (pre ++ [x]).length by simp] at h
        have := ih (pre ++ [x]) y rest c (by simpa using hle) (by
            intro p hp
            rcases List.mem_append.mp hp with hp | hp
            · exact le_trans (hpre p hp) hxy
            · simp only [List.mem_singleton] at hp
              subst hp
              exact hxy) h
        obtain ⟨pre', z, h1, h2, h3⟩ := this
        exact ⟨pre', z, by simpa using h1, by simp at h2; omega, h3⟩

theorem normOuter_sorted (r : ℕ) (front back : List AoC) (c : ℕ) (hr : front.length = r)
    (hback : back.Pairwise (fun a b => aocKey a ≤ aocKey b))
    (hfb : ∀ a ∈ front, ∀ b ∈ back, aocKey a ≤ aocKey b) (l' : List AoC) (c' : ℕ)
    (h : normOuter r (front ++ back) c = .ok (l', c')) :
    l'.Pairwise (fun a b => aocKey a ≤ aocKey b) := by
  induction r using Nat.strong_induction_on generalizing front back c with
  | _ r ih =>
    match r with
    | 0 | 1 =>
      simp only [normOuter] at h
      cases h
      rw [List.pairwise_append]
      refine ⟨?_, hback, hfb⟩
      rcases front with _ | ⟨a, _ | ⟨b, l⟩⟩
      · simp
      · simp
      · simp at hr
    | r + 2 =>
      rw [normOuter, bind_ok_iff] at h
      obtain ⟨⟨m, d⟩, hm, h⟩ := h
      have hsw := (normInner_swaps (r + 1) 0 (front ++ back) c (by simp; omega)).1 m d hm
      rcases front with _ | ⟨x, front⟩
      · simp at hr
      · have hlen : front.length = r + 1 := by simpa using hr
        have := normInner_max (r + 1) [] x (front ++ back) c (by simp; omega) (by simp) m d
          (by simpa using hm)
        obtain ⟨pre', z, h1, h2, h3⟩ := this
        have hd : (front ++ back).drop (r + 1) = back := by rw [← hlen]; simp
        rw [hd] at h1
        have hp : (x :: front).Perm (pre' ++ [z]) := by
          have := hsw.perm
          rw [h1, show pre' ++ z :: back = (pre' ++ [z]) ++ back by simp] at this
          exact (List.perm_append_right_iff back).mp this
        subst h1
        refine ih (r + 1) (by omega) pre' (z :: back) d (by simpa using h2) ?_ ?_ h
        · rw [List.pairwise_cons]
          refine ⟨?_, hback⟩
          intro b hb
          exact hfb z (hp.mem_iff.mpr (by simp)) b hb
        · intro a ha b hb
          rcases List.mem_cons.mp hb with rfl | hb
          · exact h3 a ha
          · exact hfb a (hp.mem_iff.mpr (by simp [ha])) b hb

end Verif
