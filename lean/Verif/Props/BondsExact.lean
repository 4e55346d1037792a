import Verif.Proofs.NearestBonds
import Verif.Props.DistanceExact
import Verif.Props.LatticeComplete
/-!
# C65: exactly when `bonds(nth, only=False)` is complete

`C65_exactly_when` is a necessary and sufficient condition for every lattice, `nth` and history.
-/

namespace Verif.Latt

open Verif.LDB

variable {n m k : ℕ}

/-- On the way out to the translation `c`, every shell of translations (largest coefficient equal to `t`)
has two points at most `ref` apart. -/
def ReachedByShells (points : Fin n → Pt m) (vectors : Fin k → Pt m) (ref : ℝ) (c : Fin k → ℤ) : Prop :=
  ∀ t : ℤ, 1 ≤ t → (∃ q, t ≤ |c q|) →
    ∃ c' : Fin k → ℤ, (∀ q, |c' q| ≤ t) ∧ (∃ q, |c' q| = t) ∧
      ∃ i j, ndist (points i + comb vectors c') (points j) ≤ ref

theorem listsBonds_iff_reached {prec : ℕ} {S : Set (Pt m)} {L : Lat n m k} (ht : ExactTiling S L.points L.vectors)
    {intra inter : List (LBond m)} {hi : ℝ} (h0 : 0 ≤ hi) {P Q : ℝ → Prop} {s : ℤ} {H : List (Fin k → ℤ)}
    (h2 : ∀ d, P d ↔ Q d ∧ d ≤ hi + tol prec) (h3 : IsHalfBox H s) (h4 : IsScope L.points L.vectors hi s)
    (h5 : intra.Perm (intraBonds L.points P))
    (h6 : inter.Perm (interBonds L.points L.vectors H P fun c j => L.points j + comb L.vectors c)) :
    ListsBonds S L.points L.vectors (fun x => 0 < x ∧ Q x ∧ x ≤ hi + tol prec) intra inter ↔
      ∀ i j (c : Fin k → ℤ), Q (ndist (L.points i) (L.points j + comb L.vectors c)) →
        ndist (L.points i) (L.points j + comb L.vectors c) ≤ hi + tol prec →
        ReachedByShells L.points L.vectors hi c := by
  constructor
  · intro hl i j c hQ hd t ht1 ⟨q, hq⟩
    have hst : s < t → False := by
      intro hlt
      have hcne : c ≠ 0 := by
        rintro rfl
        simp at hq; omega
      have hne : L.points i + comb L.vectors 0 ≠ L.points j + comb L.vectors c := fun e =>
        hcne (tiling_inj ht e).2.symm
      have hpos : 0 < ndist (L.points i + comb L.vectors 0) (L.points j + comb L.vectors c) :=
        dist_pos ⟨_, ht.inside i 0, _, ht.inside j c, hne, rfl⟩
      obtain ⟨b, ⟨hb, hsame⟩, -⟩ := hl.each _ (ht.inside i 0) _ (ht.inside j c) ⟨hpos, by
        rw [comb_zero, add_zero]; exact ⟨hQ, hd⟩⟩
      rcases List.mem_append.1 hb with hb | hb
      · obtain ⟨i', j', _, _, rfl⟩ := mem_intraBonds.1 (h5.mem_iff.1 hb)
        have e0 : ((L.points i', L.points j') : LBond m) = (L.points i', L.points j' + comb L.vectors 0) := by
          rw [comb_zero, add_zero]
        rw [e0] at hsame
        rcases (sameBond_iff ht).1 hsame with ⟨-, -, e⟩ | ⟨-, -, e⟩
        · rw [sub_zero] at e; exact hcne e.symm
        · rw [zero_sub] at e; exact hcne (neg_eq_zero.1 e.symm)
      · obtain ⟨c', hc', i', j', _, rfl⟩ := mem_interBonds.1 (h6.mem_iff.1 hb)
        have hbox := (h3.inBox c' hc').2 q
        rcases (sameBond_iff ht).1 hsame with ⟨-, -, e⟩ | ⟨-, -, e⟩
        · rw [sub_zero] at e
          rw [e] at hbox; omega
        · rw [zero_sub] at e
          rw [e, Pi.neg_apply, abs_neg] at hbox; omega
    obtain ⟨c', ⟨hc1, hc2⟩, hp⟩ := h4.first (t - 1) (by omega) (by
      by_contra hc; exact hst (by omega))
    rw [sub_add_cancel] at hc1 hc2
    exact ⟨c', hc1, hc2, hp⟩
  · intro hr
    have hl : ListsBonds S L.points L.vectors (fun x => 0 < x ∧ Q x ∧ x ≤ hi + tol prec) (intraBonds L.points P)
        (interBonds L.points L.vectors H P fun c j => L.points j + comb L.vectors c) := by
      refine listsBonds_of_half ht ?_ (by simp) h3.nodup (fun c hc => (h3.inBox c hc).1) ?_
      · intro a ha b hb hab
        rw [h2]
        exact ⟨fun h => ⟨dist_pos ⟨a, ha, b, hb, hab, rfl⟩, h⟩, fun h => h.2⟩
      · intro i j c hc hd
        refine h3.half c hc fun q => ?_
        by_contra hcon
        push Not at hcon
        have hs0 : 0 ≤ s := by
          by_contra hneg
          have hs' : s = -1 := by have := h4.ge; omega
          have := h4.far 0 ⟨fun i => by simp [hs'], q, by simp [hs']⟩ i i
          rw [comb_zero, add_zero, ndist_self] at this
          linarith
        obtain ⟨c', hc1, hc2, i', j', hle⟩ := hr i j c hd.2.1 hd.2.2 (s + 1) (by omega) ⟨q, by omega⟩
        have := h4.far c' ⟨hc1, hc2⟩ i' j'
        linarith
    exact hl.perm h5 h6

/-- **C65 (exactly when).** `hi` is the answer of `neighbor_distance(nth)` in the current state, whatever
was called before.  `bonds(nth, only=False)` lists every pair of sites of the infinite lattice at most
`hi` plus the tolerance apart, each once up to translations, if and only if for each such pair, the shells
of translations out to it are reached: each of them has some two points at most `hi` (without the
tolerance) apart. -/
theorem C65_exactly_when (order : List (Fin k → ℤ) → List (Fin k → ℤ)) (horder : ∀ l, (order l).Perm l)
    (porder : ∀ N : ℕ, List (Fin N × Fin N) → List (Fin N × Fin N))
    (hporder : ∀ N l, (porder N l).Perm l) {prec : ℕ} {S : Set (Pt m)} {L L' : Lat n m k} {nth : ℤ}
    (ht : ExactTiling S L.points L.vectors) {intra inter : List (LBond m)}
    (h : bonds order porder prec L nth false false = some (L', .ok (intra, some inter))) {hi : ℝ}
    (hhi : (neighborDistance order prec L nth).2 = .ok hi) (h0 : 0 ≤ hi) :
    ListsBonds S L.points L.vectors (fun x => 0 < x ∧ x ≤ hi + tol prec) intra inter ↔
      ∀ i j (c : Fin k → ℤ), ndist (L.points i) (L.points j + comb L.vectors c) ≤ hi + tol prec →
        ReachedByShells L.points L.vectors hi c := by
  obtain ⟨hi', P, s, H, h1, h2, h3, h4, h5, h6, -⟩ := C51_bonds_exact order horder porder hporder h
  rw [hhi] at h1
  have := Except.ok.inj h1
  subst this
  simp only [Bool.false_eq_true, if_false] at h6
  unfold LengthRange at h2
  rw [if_neg (by simp)] at h2
  have key := listsBonds_iff_reached (Q := fun _ => True) ht h0 (by simpa using h2) h3 h4 h5 h6
  simpa using key

/-- **C65 (exactly when, only the nth neighbours).** With `only=True` (the default) and `nth ≥ 2` let `hi` and `lo` be the answers
of `neighbor_distance(nth)` and of a following `neighbor_distance(nth - 1)`.  `bonds(nth)` lists every pair of sites of
the infinite lattice more than `lo` and at most `hi` apart (both up to the tolerance), each once up to
translations, if and only if the shells of translations out to each such pair are reached. -/
theorem C65_only_exactly_when (order : List (Fin k → ℤ) → List (Fin k → ℤ)) (horder : ∀ l, (order l).Perm l)
    (porder : ∀ N : ℕ, List (Fin N × Fin N) → List (Fin N × Fin N))
    (hporder : ∀ N l, (porder N l).Perm l) {prec : ℕ} {S : Set (Pt m)} {L L' : Lat n m k} {nth : ℤ} (hn : 1 < nth)
    (ht : ExactTiling S L.points L.vectors) {intra inter : List (LBond m)}
    (h : bonds order porder prec L nth true false = some (L', .ok (intra, some inter))) {hi lo : ℝ}
    (hhi : (neighborDistance order prec L nth).2 = .ok hi) (h0 : 0 ≤ hi)
    (hlo : (neighborDistance order prec (neighborDistance order prec L nth).1 (nth - 1)).2 = .ok lo) :
    ListsBonds S L.points L.vectors (fun x => 0 < x ∧ lo + tol prec < x ∧ x ≤ hi + tol prec) intra inter ↔
      ∀ i j (c : Fin k → ℤ), lo + tol prec < ndist (L.points i) (L.points j + comb L.vectors c) →
        ndist (L.points i) (L.points j + comb L.vectors c) ≤ hi + tol prec →
        ReachedByShells L.points L.vectors hi c := by
  obtain ⟨hi', P, s, H, h1, h2, h3, h4, h5, h6, -⟩ := C51_bonds_exact order horder porder hporder h
  rw [hhi] at h1
  have := Except.ok.inj h1
  subst this
  simp only [Bool.false_eq_true, if_false] at h6
  unfold LengthRange at h2
  rw [if_pos ⟨rfl, hn⟩] at h2
  obtain ⟨lo', hl', h2⟩ := h2
  rw [hlo] at hl'
  have := Except.ok.inj hl'
  subst this
  exact listsBonds_iff_reached (Q := fun d => lo + tol prec < d) ht h0 h2 h3 h4 h5 h6

/-- **C65 (chains).** On chains of every size, for every `nth` and after every history of calls,
`bonds(nth, only=False)` lists every pair of sites at most `nth` apart, exactly once. -/
theorem C65_chain {prec : ℕ} (hp : 1 ≤ prec) {n0 n1 n2 : ℤ} (h0 : 1 ≤ n0) (h1 : 1 ≤ n1) (h2 : 1 ≤ n2) :
    ∃ (n : ℕ) (L0 : Lat n 1 1), latticeGenerator prec "chain" n0 n1 n2 = .ok ⟨n, 1, 1, L0⟩ ∧
      ∀ (order : List (Fin 1 → ℤ) → List (Fin 1 → ℤ)), (∀ l, (order l).Perm l) →
      ∀ (porder : ∀ N : ℕ, List (Fin N × Fin N) → List (Fin N × Fin N)), (∀ N l, (porder N l).Perm l) →
      ∀ (calls : List Call) (nth : ℕ), 1 ≤ nth →
      ∃ L' intra inter, bonds order porder prec (calls.foldl (after order porder prec) L0) nth false false =
          some (L', .ok (intra, some inter)) ∧
        ListsBonds chainSites L0.points L0.vectors (fun x => 0 < x ∧ x ≤ nth) intra inter := by
  obtain ⟨L, hL, hinit, hC, hin⟩ := chain_lattice hp h0 h1 h2
  refine ⟨_, L, hL, fun order horder porder hporder calls nth hn => ?_⟩
  have hd := chain_distance hp hinit hC order horder porder calls nth
  have inv0 := (cacheInv_init hinit).1
  have inv := cacheInv_history horder (porder := porder) inv0 calls
  have hn1 : 1 ≤ n0.toNat := by omega
  obtain ⟨L', intra, inter, hb⟩ := C51_bonds_succeed order horder porder hinit inv.vectors_eq
    (bs_history' calls L) le_rfl hn1
    (fun i c => findsTranslate_congr inv.points_eq inv.vectors_eq (C49_finds_chain_partial hinit hin i c))
    (nth := (nth : ℤ)) (by omega) false false hd
  refine ⟨L', intra, inter, hb, ?_⟩
  have htol : tol prec < 1 := by
    have h3 : (10 : ℝ) ≤ 10 ^ prec := by
      calc (10 : ℝ) = 10 ^ 1 := by norm_num
        _ ≤ 10 ^ prec := pow_le_pow_right₀ (by norm_num) hp
    unfold tol
    rw [div_lt_one (by linarith)]; linarith
  have key := (C65_exactly_when order horder porder hporder (S := chainSites)
    (by rw [inv.points_eq, inv.vectors_eq]; exact hC.tiling) hb hd (Nat.cast_nonneg nth)).2 (by
      rw [inv.points_eq, inv.vectors_eq]
      intro i j c hle t ht1 ⟨q, hq⟩
      have := hC.shells (nth := (nth : ℤ)) htol i j c (by exact_mod_cast hle) t ht1 q hq
      exact_mod_cast this)
  rw [inv.points_eq, inv.vectors_eq] at key
  have htp := tol_pos prec
  have same : ∀ s ∈ chainSites, ∀ t ∈ chainSites, (0 < ndist s t ∧ ndist s t ≤ (nth : ℝ) + tol prec ↔
      0 < ndist s t ∧ ndist s t ≤ nth) := by
    intro s hs t ht
    refine ⟨fun ⟨g1, g2⟩ => ⟨g1, ?_⟩, fun ⟨g1, g2⟩ => ⟨g1, by linarith⟩⟩
    have hst : s ≠ t := fun e => by rw [e, ndist_self] at g1; exact lt_irrefl _ g1
    obtain ⟨z, _, e⟩ := chain_distances.1 ⟨s, hs, t, ht, hst, rfl⟩
    rw [e] at g2 ⊢
    have : (z : ℝ) < ((nth + 1 : ℤ) : ℝ) := by push_cast; linarith
    have : z < nth + 1 := by exact_mod_cast this
    exact_mod_cast (by omega : z ≤ nth)
  have site0 : ∀ i, L.points i ∈ chainSites := fun i => by
    have := hC.tiling.inside i 0; rwa [comb_zero, add_zero] at this
  refine ⟨fun b hb => ?_, fun b hb => ?_, key.nodup, fun s hs t ht hP => key.each s hs t ht ((same s hs t ht).2 hP)⟩
  · obtain ⟨⟨i, e1⟩, ⟨j, e2⟩, g⟩ := key.inside b hb
    exact ⟨⟨i, e1⟩, ⟨j, e2⟩, (same _ (by rw [e1]; exact site0 i) _ (by rw [e2]; exact site0 j)).1 g⟩
  · obtain ⟨⟨i, e1⟩, e2, e3, g⟩ := key.across b hb
    exact ⟨⟨i, e1⟩, e2, e3, (same _ (by rw [e1]; exact site0 i) _ e2).1 g⟩

/-- A chain of two sites: `bonds(3, only=False)` after `neighbor_distance(2)` contains the bond from site 0
to site 3. -/
example : ∃ (n : ℕ) (L0 : Lat n 1 1), latticeGenerator 4 "chain" 2 1 1 = .ok ⟨n, 1, 1, L0⟩ ∧
    ∃ L' intra inter, bonds id (fun _ => id) 4 (after id (fun _ => id) 4 L0 (.neighborDistance 2)) 3 false false =
      some (L', .ok (intra, some inter)) ∧
    ∃! b, b ∈ intra ++ inter ∧ SameBond L0.vectors b (![0], ![3]) := by
  obtain ⟨n, L0, h1, h2⟩ := C65_chain (prec := 4) (by norm_num) (n0 := 2) (n1 := 1) (n2 := 1) (by norm_num) le_rfl le_rfl
  obtain ⟨L', intra, inter, h3, h4⟩ := h2 id (fun l => List.Perm.refl l) (fun _ => id)
    (fun _ l => List.Perm.refl l) [.neighborDistance 2] 3 (by norm_num)
  refine ⟨n, L0, h1, L', intra, inter, h3, h4.each _ ⟨0, by simp⟩ _ ⟨3, by simp⟩ ?_⟩
  rw [ndist_pt1]
  norm_num

/-- **C65 (chains, only the nth neighbours).** On chains of every size, for every `nth ≥ 2` and after every history
of calls, `bonds(nth)` lists every pair of sites exactly `nth` apart, exactly once. -/
theorem C65_only_chain {prec : ℕ} (hp : 1 ≤ prec) {n0 n1 n2 : ℤ} (h0 : 1 ≤ n0) (h1 : 1 ≤ n1) (h2 : 1 ≤ n2) :
    ∃ (n : ℕ) (L0 : Lat n 1 1), latticeGenerator prec "chain" n0 n1 n2 = .ok ⟨n, 1, 1, L0⟩ ∧
      ∀ (order : List (Fin 1 → ℤ) → List (Fin 1 → ℤ)), (∀ l, (order l).Perm l) →
      ∀ (porder : ∀ N : ℕ, List (Fin N × Fin N) → List (Fin N × Fin N)), (∀ N l, (porder N l).Perm l) →
      ∀ (calls : List Call) (nth : ℕ), 2 ≤ nth →
      ∃ L' intra inter, bonds order porder prec (calls.foldl (after order porder prec) L0) nth true false =
          some (L', .ok (intra, some inter)) ∧
        ListsBonds chainSites L0.points L0.vectors (fun x => x = nth) intra inter := by
  obtain ⟨L, hL, hinit, hC, hin⟩ := chain_lattice hp h0 h1 h2
  refine ⟨_, L, hL, fun order horder porder hporder calls nth hn => ?_⟩
  have hd := chain_distance hp hinit hC order horder porder calls nth
  have inv0 := (cacheInv_init hinit).1
  have inv := cacheInv_history horder (porder := porder) inv0 calls
  have hn1 : 1 ≤ n0.toNat := by omega
  have hlo : (neighborDistance order prec (neighborDistance order prec
      (calls.foldl (after order porder prec) L) nth).1 ((nth : ℤ) - 1)).2 = .ok ((nth : ℝ) - 1) := by
    have := chain_distance hp hinit hC order horder porder (calls ++ [Call.neighborDistance nth]) (nth - 1)
    rw [List.foldl_append] at this
    have e : ((nth - 1 : ℕ) : ℤ) = (nth : ℤ) - 1 := by omega
    have e' : ((nth - 1 : ℕ) : ℝ) = (nth : ℝ) - 1 := by
      rw [Nat.cast_sub (by omega)]; simp
    rw [e, e'] at this
    exact this
  obtain ⟨L', intra, inter, hb⟩ := C51_bonds_succeed order horder porder hinit inv.vectors_eq
    (bs_history' calls L) le_rfl hn1
    (fun i c => findsTranslate_congr inv.points_eq inv.vectors_eq (C49_finds_chain_partial hinit hin i c))
    (nth := (nth : ℤ)) (by omega) true false hd
  refine ⟨L', intra, inter, hb, ?_⟩
  have htol : tol prec < 1 := by
    have h3 : (10 : ℝ) ≤ 10 ^ prec := by
      calc (10 : ℝ) = 10 ^ 1 := by norm_num
        _ ≤ 10 ^ prec := pow_le_pow_right₀ (by norm_num) hp
    unfold tol
    rw [div_lt_one (by linarith)]; linarith
  have key := (C65_only_exactly_when order horder porder hporder (S := chainSites) (by omega)
    (by rw [inv.points_eq, inv.vectors_eq]; exact hC.tiling) hb hd (Nat.cast_nonneg nth) hlo).2 (by
      rw [inv.points_eq, inv.vectors_eq]
      intro i j c _ hle t ht1 ⟨q, hq⟩
      have := hC.shells (nth := (nth : ℤ)) htol i j c (by exact_mod_cast hle) t ht1 q hq
      exact_mod_cast this)
  rw [inv.points_eq, inv.vectors_eq] at key
  have htp := tol_pos prec
  have hn2 : (2 : ℝ) ≤ nth := by exact_mod_cast hn
  have same : ∀ s ∈ chainSites, ∀ t ∈ chainSites, (0 < ndist s t ∧ (nth : ℝ) - 1 + tol prec < ndist s t ∧
      ndist s t ≤ (nth : ℝ) + tol prec ↔ ndist s t = nth) := by
    intro s hs t ht
    refine ⟨fun ⟨g1, g3, g2⟩ => ?_, fun g => ⟨by linarith, by linarith, by linarith⟩⟩
    have hst : s ≠ t := fun e => by rw [e, ndist_self] at g1; exact lt_irrefl _ g1
    obtain ⟨z, _, e⟩ := chain_distances.1 ⟨s, hs, t, ht, hst, rfl⟩
    rw [e] at g2 g3 ⊢
    have : (z : ℝ) < ((nth + 1 : ℤ) : ℝ) := by push_cast; linarith
    have a : z < nth + 1 := by exact_mod_cast this
    have : ((nth - 1 : ℤ) : ℝ) < (z : ℝ) := by push_cast; linarith
    have b : (nth : ℤ) - 1 < z := by exact_mod_cast this
    exact_mod_cast (by omega : z = nth)
  have site0 : ∀ i, L.points i ∈ chainSites := fun i => by
    have := hC.tiling.inside i 0; rwa [comb_zero, add_zero] at this
  refine ⟨fun b hb => ?_, fun b hb => ?_, key.nodup, fun s hs t ht hP => key.each s hs t ht ((same s hs t ht).2 hP)⟩
  · obtain ⟨⟨i, e1⟩, ⟨j, e2⟩, g⟩ := key.inside b hb
    exact ⟨⟨i, e1⟩, ⟨j, e2⟩, (same _ (by rw [e1]; exact site0 i) _ (by rw [e2]; exact site0 j)).1 g⟩
  · obtain ⟨⟨i, e1⟩, e2, e3, g⟩ := key.across b hb
    exact ⟨⟨i, e1⟩, e2, e3, (same _ (by rw [e1]; exact site0 i) _ e2).1 g⟩

end Verif.Latt
