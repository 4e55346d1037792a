import Verif.Proofs.LatticeSearch
import Mathlib.Data.List.ProdSigma
/-!
Helper lemmas about `bonds`.
-/

namespace Verif.Latt

variable {n m k : ℕ}

/-- The sites of the translates `T`, translate by translate. -/
def copies (points : Fin n → Pt m) (v : Fin k → Pt m) (T : List (Fin k → ℤ)) : List (Pt m) :=
  T.flatMap fun c => (List.finRange n).map fun i => comb v c + points i

theorem copies_length (points : Fin n → Pt m) (v : Fin k → Pt m) (T : List (Fin k → ℤ)) :
    (copies points v T).length = T.length * n := by
  unfold copies
  induction T with
  | nil => simp
  | cons c T ih => rw [List.flatMap_cons, List.length_append, ih]; simp; ring

theorem copies_get (points : Fin n → Pt m) (v : Fin k → Pt m) (T : List (Fin k → ℤ)) (q : ℕ)
    (hq : q < T.length) (i : Fin n) :
    (copies points v T)[q * n + i]? = some (comb v T[q] + points i) := by
  unfold copies
  induction T generalizing q with
  | nil => simp at hq
  | cons c T ih =>
    rw [List.flatMap_cons]
    cases q with
    | zero => rw [List.getElem?_append_left (by simp)]; simp
    | succ q =>
      rw [List.getElem?_append_right (by simp; nlinarith)]
      have := ih q (by simpa using hq)
      rw [List.length_map, List.length_finRange,
        show (q + 1) * n + (i : ℕ) - n = q * n + i by rw [Nat.succ_mul]; omega, this]
      simp

theorem bondLoop_ok {prec : ℕ} {L : Lat n m k} {sites : List (Pt m)} {fold : Bool} :
    ∀ {pairs : List (Fin sites.length × Fin sites.length)} {intra inter I J : List (LBond m)},
    bondLoop prec L sites fold pairs intra inter = some (.ok (I, J)) →
    I = intra ++ (pairs.filter fun p => decide ((p.2 : ℕ) < n)).map
      (fun p => (sites.get p.1, sites.get p.2)) ∧
    J = inter ++ (pairs.filter fun p => decide (¬ (p.2 : ℕ) < n ∧ (p.1 : ℕ) < n)).map
      (fun p => (sites.get p.1, if fold then foldPt prec L (sites.get p.2) else sites.get p.2)) ∧
    ∀ p ∈ pairs, ¬ (p.2 : ℕ) < n → (p.1 : ℕ) < n →
      ∃ r, decompose prec L (sites.get p.2) = some (.ok r)
  | [], intra, inter, I, J, h => by
    simp only [bondLoop, Option.some.injEq, Except.ok.injEq, Prod.mk.injEq] at h
    obtain ⟨rfl, rfl⟩ := h
    simp
  | (a, b) :: rest, intra, inter, I, J, h => by
    unfold bondLoop at h
    dsimp only at h
    by_cases h1 : (b : ℕ) < n
    · rw [if_pos h1] at h
      obtain ⟨e1, e2, e3⟩ := bondLoop_ok h
      refine ⟨?_, ?_, ?_⟩
      · rw [e1, List.filter_cons_of_pos (by simpa using h1)]; simp
      · rw [e2, List.filter_cons_of_neg (by simpa using fun h => absurd h1 (not_lt.2 h))]
      · intro p hp
        rcases List.mem_cons.1 hp with rfl | hp
        · intro h; exact absurd h1 h
        · exact e3 p hp
    · rw [if_neg h1] at h
      by_cases h2 : (a : ℕ) < n
      · rw [if_pos h2] at h
        split at h
        · simp at h
        · simp at h
        · rename_i eqv d hd
          obtain ⟨e1, e2, e3⟩ := bondLoop_ok h
          refine ⟨?_, ?_, ?_⟩
          · rw [e1, List.filter_cons_of_neg (by simpa using h1)]
          · rw [e2, List.filter_cons_of_pos (by simpa using ⟨not_lt.1 h1, h2⟩)]
            have : foldPt prec L (sites.get b) = eqv := by unfold foldPt; rw [hd]
            rw [List.map_cons, List.append_assoc, List.singleton_append, this]
          · intro p hp
            rcases List.mem_cons.1 hp with rfl | hp
            · intro _ _; exact ⟨_, hd⟩
            · exact e3 p hp
      · rw [if_neg h2] at h
        obtain ⟨e1, e2, e3⟩ := bondLoop_ok h
        refine ⟨?_, ?_, ?_⟩
        · rw [e1, List.filter_cons_of_neg (by simpa using h1)]
        · rw [e2, List.filter_cons_of_neg (by simpa using fun _ => not_lt.1 h2)]
        · intro p hp
          rcases List.mem_cons.1 hp with rfl | hp
          · intro _ h; exact absurd h h2
          · exact e3 p hp

/-- If every boundary site can be decomposed, the loop succeeds. -/
theorem bondLoop_total {prec : ℕ} {L : Lat n m k} {sites : List (Pt m)} {fold : Bool} :
    ∀ {pairs : List (Fin sites.length × Fin sites.length)} {intra inter : List (LBond m)},
    (∀ p ∈ pairs, ∃ r, decompose prec L (sites.get p.2) = some (.ok r)) →
    ∃ I J, bondLoop prec L sites fold pairs intra inter = some (.ok (I, J))
  | [], intra, inter, _ => ⟨_, _, rfl⟩
  | (a, b) :: rest, intra, inter, h => by
    have ih := fun intra inter => bondLoop_total (fold := fold) (intra := intra) (inter := inter)
      fun p hp => h p (List.mem_cons_of_mem _ hp)
    obtain ⟨⟨r, d⟩, hr⟩ := h (a, b) List.mem_cons_self
    unfold bondLoop
    dsimp only at hr ⊢
    by_cases h1 : (b : ℕ) < n
    · rw [if_pos h1]; exact ih _ _
    · rw [if_neg h1]
      by_cases h2 : (a : ℕ) < n
      · rw [if_pos h2, hr]; exact ih _ _
      · rw [if_neg h2]; exact ih _ _

/-- Two duplicate-free lists with corresponding members have the same images. -/
theorem map_perm_map {α β γ : Type} {l : List α} {l' : List β} (hl : l.Nodup) (hl' : l'.Nodup)
    (e : β → α) (he : ∀ x ∈ l', ∀ y ∈ l', e x = e y → x = y) (hm : ∀ a, a ∈ l ↔ ∃ b ∈ l', e b = a)
    (f : α → γ) (g : β → γ) (hfg : ∀ b ∈ l', f (e b) = g b) : (l.map f).Perm (l'.map g) := by
  have h1 : l.Perm (l'.map e) := by
    rw [List.perm_ext_iff_of_nodup hl (hl'.map_on he)]
    intro a
    rw [hm, List.mem_map]
  refine (h1.map f).trans ?_
  rw [List.map_map]
  rw [List.map_congr_left (g := g) fun b hb => by simpa using hfg b hb]

theorem mem_prod {α β : Type} {l : List α} {l' : List β} {p : α × β} :
    p ∈ l.product l' ↔ p.1 ∈ l ∧ p.2 ∈ l' := by
  obtain ⟨a, b⟩ := p; exact List.mem_product

/-- The pairs of the loop, sorted into intra- and intercluster bonds. -/
theorem bonds_core {prec : ℕ} {L : Lat n m k} {H : List (Fin k → ℤ)} (hH : H.Nodup) {fold : Bool}
    {sites : List (Pt m)} (hsites : sites = copies L.points L.vectors (0 :: H)) {P : ℝ → Prop}
    {pairs : List (Fin sites.length × Fin sites.length)} (hnd : pairs.Nodup)
    (hmem : ∀ p, p ∈ pairs ↔ p.1 < p.2 ∧ P (ndist (sites.get p.1) (sites.get p.2)))
    {I J : List (LBond m)} (h : bondLoop prec L sites fold pairs [] [] = some (.ok (I, J))) :
    I.Perm (intraBonds L.points P) ∧
    J.Perm (interBonds L.points L.vectors H P fun c j =>
      if fold then foldPt prec L (L.points j + comb L.vectors c) else L.points j + comb L.vectors c) := by
  classical
  obtain ⟨e1, e2, -⟩ := bondLoop_ok h
  rw [List.nil_append] at e1 e2
  have hlen : sites.length = (H.length + 1) * n := by
    rw [hsites, copies_length]; simp
  have hget0 : ∀ (i : Fin n) (hi : (i : ℕ) < sites.length), sites.get ⟨i, hi⟩ = L.points i := by
    intro i hi
    have := copies_get L.points L.vectors (0 :: H) 0 (by simp) i
    rw [← hsites] at this
    simp only [zero_mul, zero_add, List.getElem_cons_zero, comb_zero] at this
    rw [List.getElem?_eq_getElem hi] at this
    simpa using this
  have hget : ∀ (q : ℕ) (hq : q < H.length) (j : Fin n) (hi : (q + 1) * n + j < sites.length),
      sites.get ⟨(q + 1) * n + j, hi⟩ = L.points j + comb L.vectors H[q] := by
    intro q hq j hi
    have := copies_get L.points L.vectors (0 :: H) (q + 1) (by simpa using hq) j
    rw [← hsites, List.getElem?_eq_getElem hi] at this
    simpa [add_comm] using this
  constructor
  · rw [e1, intraBonds]
    have hlt : ∀ i : Fin n, (i : ℕ) < sites.length := by
      intro i; have := i.2; rw [hlen, Nat.succ_mul]; omega
    refine map_perm_map (hnd.filter _)
      (((List.nodup_finRange n).product (List.nodup_finRange n)).filter _)
      (fun p => (⟨p.1, hlt p.1⟩, ⟨p.2, hlt p.2⟩)) ?_ ?_ _ _ ?_
    · rintro ⟨x1, x2⟩ - ⟨y1, y2⟩ - hxy
      simp only [Prod.mk.injEq, Fin.mk.injEq] at hxy ⊢
      exact ⟨Fin.ext hxy.1, Fin.ext hxy.2⟩
    · rintro ⟨a, b⟩
      simp only [List.mem_filter, hmem, decide_eq_true_iff]
      constructor
      · rintro ⟨⟨hab, hP⟩, hb⟩
        have hab' : (a : ℕ) < b := hab
        have ha : (a : ℕ) < n := by omega
        refine ⟨(⟨a, ha⟩, ⟨b, hb⟩), ⟨?_, ?_, ?_⟩, rfl⟩
        · simp
        · exact hab
        · have h1 := hget0 ⟨a, ha⟩ a.2
          have h2 := hget0 ⟨b, hb⟩ b.2
          rw [← h1, ← h2]; exact hP
      · rintro ⟨⟨i, j⟩, ⟨_, hij, hP⟩, he⟩
        simp only [Prod.mk.injEq] at he
        obtain ⟨rfl, rfl⟩ := he
        refine ⟨⟨hij, ?_⟩, j.2⟩
        rw [hget0, hget0]; exact hP
    · rintro ⟨i, j⟩ _
      simp only [hget0]
  · rw [e2, interBonds]
    -- index the translations by their position
    let idx : List (ℕ × (Fin n × Fin n)) :=
      (((List.range H.length).product ((List.finRange n).product (List.finRange n)))).filter
        fun p => decide (P (ndist (L.points p.2.1) (L.points p.2.2 + comb L.vectors (H.getD p.1 0))))
    have hidx : idx.Nodup := (List.nodup_range.product
      ((List.nodup_finRange n).product (List.nodup_finRange n))).filter _
    let g : Fin n → (Fin k → ℤ) → Fin n → LBond m := fun i c j => (L.points i,
      if fold then foldPt prec L (L.points j + comb L.vectors c) else L.points j + comb L.vectors c)
    have hbound : ∀ p ∈ idx, (p.1 + 1) * n + p.2.2 < sites.length ∧ (p.2.1 : ℕ) < sites.length := by
      rintro ⟨q, i, j⟩ hp
      rw [List.mem_filter, mem_prod] at hp
      have hq : q < H.length := by simpa using hp.1.1
      have h1 := i.2
      have h2 := j.2
      have h3 : (q + 1) * n ≤ H.length * n := Nat.mul_le_mul_right n hq
      have h4 : (H.length + 1) * n = H.length * n + n := Nat.succ_mul _ _
      dsimp only
      rw [hlen]
      omega
    -- positions of translations
    have hgetD : ∀ q (hq : q < H.length), H.getD q 0 = H[q] := by
      intro q hq; rw [List.getD_eq_getElem?_getD, List.getElem?_eq_getElem hq]; rfl
    have step1 : ((pairs.filter fun p => decide (¬ (p.2 : ℕ) < n ∧ (p.1 : ℕ) < n)).map
        (fun p => (sites.get p.1,
          if fold then foldPt prec L (sites.get p.2) else sites.get p.2))).Perm
        (idx.map fun p => g p.2.1 (H.getD p.1 0) p.2.2) := by
      have hne : idx = [] ∨ 0 < sites.length := by
        rcases idx with _ | ⟨p, l⟩
        · exact Or.inl rfl
        · right; have := (hbound p List.mem_cons_self).2; omega
      by_cases hs : 0 < sites.length
      · let clip : ℕ → Fin sites.length := fun x => if hx : x < sites.length then ⟨x, hx⟩ else ⟨0, hs⟩
        have hclip : ∀ x (hx : x < sites.length), clip x = ⟨x, hx⟩ := fun x hx => dif_pos hx
        refine map_perm_map (hnd.filter _) hidx
          (fun p => (clip p.2.1, clip ((p.1 + 1) * n + p.2.2))) ?_ ?_ _ _ ?_
        · rintro ⟨q, i, j⟩ hx ⟨q', i', j'⟩ hy hxy
          have b1 := hbound _ hx
          have b2 := hbound _ hy
          dsimp only at b1 b2 hxy
          rw [hclip _ b1.1, hclip _ b1.2, hclip _ b2.1, hclip _ b2.2] at hxy
          simp only [Prod.mk.injEq, Fin.mk.injEq] at hxy ⊢
          have hn : 0 < n := by have := i.2; omega
          have hj : (j : ℕ) = j' := by
            have := congrArg (· % n) hxy.2
            simpa [Nat.mul_add_mod_of_lt, Nat.mod_eq_of_lt j.2, Nat.mod_eq_of_lt j'.2,
              Nat.mul_comm _ n] using this
          have hq : q = q' := by
            have h3 := hxy.2
            rw [hj] at h3
            have h4 : (q + 1) * n = (q' + 1) * n := by omega
            have := Nat.eq_of_mul_eq_mul_right hn h4
            omega
          exact ⟨hq, Fin.ext hxy.1, Fin.ext hj⟩
        · rintro ⟨a, b⟩
          simp only [List.mem_filter, hmem, decide_eq_true_iff]
          constructor
          · rintro ⟨⟨hab, hP⟩, hb, ha⟩
            have hn : 0 < n := by omega
            have hb2 := b.2
            have hbl : (b : ℕ) < (H.length + 1) * n := by omega
            have hdiv := Nat.div_add_mod (b : ℕ) n
            have hmod := Nat.mod_lt (b : ℕ) hn
            have hq1 : 1 ≤ (b : ℕ) / n := (Nat.le_div_iff_mul_le hn).2 (by omega)
            have hq2 : (b : ℕ) / n < H.length + 1 := (Nat.div_lt_iff_lt_mul hn).2 hbl
            obtain ⟨q, hq⟩ : ∃ q, (b : ℕ) / n = q + 1 := ⟨(b : ℕ) / n - 1, by omega⟩
            have hbq : (q + 1) * n + (b : ℕ) % n = b := by rw [← hq, Nat.mul_comm]; exact hdiv
            have hqH : q < H.length := by omega
            have hg := hget q hqH ⟨(b : ℕ) % n, hmod⟩ (by dsimp only; omega)
            have hb' : (⟨(q + 1) * n + (b : ℕ) % n, by omega⟩ : Fin sites.length) = b := Fin.ext hbq
            refine ⟨(q, ⟨a, ha⟩, ⟨(b : ℕ) % n, hmod⟩), ?_, ?_⟩
            · rw [List.mem_filter]
              refine ⟨by simp [mem_prod, hqH], ?_⟩
              simp only [decide_eq_true_iff]
              rw [hgetD q hqH, ← hg, ← hget0 ⟨a, ha⟩ a.2]
              dsimp only at hg ⊢
              rw [hb']
              exact hP
            · rw [Prod.mk.injEq]
              refine ⟨hclip _ a.2, ?_⟩
              dsimp only
              rw [hclip _ (by omega)]
              exact hb'
          · rintro ⟨⟨q, i, j⟩, hp, he⟩
            have b1 := hbound _ hp
            rw [List.mem_filter, mem_prod, decide_eq_true_iff] at hp
            have hq : q < H.length := by simpa using hp.1.1
            dsimp only at b1 he
            rw [hclip _ b1.1, hclip _ b1.2, Prod.mk.injEq] at he
            obtain ⟨rfl, rfl⟩ := he
            have h1 := i.2
            have h2 : n ≤ (q + 1) * n := Nat.le_mul_of_pos_left n (Nat.succ_pos q)
            refine ⟨⟨?_, ?_⟩, ?_, i.2⟩
            · show (i : ℕ) < (q + 1) * n + j; omega
            · rw [hget0, hget q hq, ← hgetD q hq]; exact hp.2
            · show ¬ (q + 1) * n + (j : ℕ) < n; omega
        · rintro ⟨q, i, j⟩ hp
          have b1 := hbound _ hp
          rw [List.mem_filter, mem_prod] at hp
          have hq : q < H.length := by simpa using hp.1.1
          dsimp only at b1 ⊢
          rw [hclip _ b1.1, hclip _ b1.2, hget0, hget q hq, hgetD q hq]
      · rw [hne.resolve_right hs]
        have : pairs = [] := by
          rcases pairs with _ | ⟨p, l⟩
          · rfl
          · exact absurd (lt_of_le_of_lt (Nat.zero_le _) p.1.2) hs
        rw [this]; simp
    refine step1.trans ?_
    refine (map_perm_map ((hH.product
      ((List.nodup_finRange n).product (List.nodup_finRange n))).filter _) hidx
      (fun p => (H.getD p.1 0, p.2)) ?_ ?_ _ _ ?_).symm
    · rintro ⟨q, x⟩ hx ⟨q', x'⟩ hy hxy
      rw [List.mem_filter, mem_prod] at hx hy
      have hq : q < H.length := by simpa using hx.1.1
      have hq' : q' < H.length := by simpa using hy.1.1
      dsimp only at hxy
      rw [hgetD q hq, hgetD q' hq', Prod.mk.injEq] at hxy
      rw [Prod.mk.injEq]
      exact ⟨(List.Nodup.getElem_inj_iff hH).1 hxy.1, hxy.2⟩
    · rintro ⟨c, i, j⟩
      rw [List.mem_filter]
      change ((c, i, j) ∈ H.product ((List.finRange n).product (List.finRange n)) ∧ _) ↔ _
      rw [mem_prod]
      constructor
      · rintro ⟨⟨h1, h2⟩, h3⟩
        obtain ⟨q, hq, rfl⟩ := List.mem_iff_getElem.1 h1
        refine ⟨(q, i, j), ?_, ?_⟩
        · rw [List.mem_filter, mem_prod]
          refine ⟨⟨by simpa using hq, h2⟩, ?_⟩
          rw [decide_eq_true_iff] at h3 ⊢
          dsimp only at h3 ⊢
          rw [hgetD q hq]; exact h3
        · dsimp only; rw [hgetD q hq]
      · rintro ⟨⟨q, i', j'⟩, hp, he⟩
        rw [List.mem_filter, mem_prod] at hp
        have hq : q < H.length := by simpa using hp.1.1
        dsimp only at he
        rw [Prod.mk.injEq] at he
        obtain ⟨rfl, he2⟩ := he
        rw [Prod.mk.injEq] at he2
        obtain ⟨rfl, rfl⟩ := he2
        refine ⟨⟨?_, hp.1.2⟩, ?_⟩
        · rw [hgetD q hq]; exact List.getElem_mem hq
        · have := hp.2
          rw [decide_eq_true_iff] at this ⊢; exact this
    · rintro ⟨q, i, j⟩ _; rfl

end Verif.Latt
