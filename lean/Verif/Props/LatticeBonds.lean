import Verif.Proofs.LatticeBonds
import Verif.Props.LatticeDecompose
/-!
# C51: the lists returned by `bonds`

Concrete cases that meet the hypotheses: `Props/LatticeBondsExamples.lean` (square lattice, every `nth`) and
`Props/ChainBonds.lean`.
-/

namespace Verif.Latt

variable {n m k : ℕ}

theorem neighborDistance_state (order : List (Fin k → ℤ) → List (Fin k → ℤ)) (prec : ℕ) (L : Lat n m k)
    (nth : ℤ) : (neighborDistance order prec L nth).1.points = L.points ∧
      (neighborDistance order prec L nth).1.vectors = L.vectors ∧
      (neighborDistance order prec L nth).1.bs = L.bs := by
  unfold neighborDistance
  split_ifs
  · exact ⟨rfl, rfl, rfl⟩
  · split
    · exact ⟨rfl, rfl, rfl⟩
    · dsimp only
      split <;> exact ⟨rfl, rfl, rfl⟩

theorem mem_queryPairs {sites : List (Pt m)} {r : ℝ} {p : Fin sites.length × Fin sites.length} :
    p ∈ queryPairs sites r ↔ p.1 < p.2 ∧ ndist (sites.get p.1) (sites.get p.2) ≤ r := by
  classical
  unfold queryPairs
  rw [List.mem_filter, decide_eq_true_iff]
  refine and_iff_right ?_
  simp only [List.mem_flatMap, List.mem_map]
  exact ⟨p.1, List.mem_finRange _, p.2, List.mem_finRange _, rfl⟩

theorem nodup_queryPairs (sites : List (Pt m)) (r : ℝ) : (queryPairs sites r).Nodup := by
  classical
  unfold queryPairs
  exact ((List.nodup_finRange _).product (List.nodup_finRange _)).filter _

/-- `only` and `nth` select lengths: at most the nth neighbour distance, and above the previous one if
only the nth neighbours are wanted (up to the tolerance). -/
def LengthRange (order : List (Fin k → ℤ) → List (Fin k → ℤ)) (prec : ℕ) (L : Lat n m k) (nth : ℤ)
    (only : Bool) (hi : ℝ) (P : ℝ → Prop) : Prop :=
  if only ∧ 1 < nth then
    ∃ lo, (neighborDistance order prec (neighborDistance order prec L nth).1 (nth - 1)).2 = .ok lo ∧
      ∀ d, P d ↔ lo + tol prec < d ∧ d ≤ hi + tol prec
  else ∀ d, P d ↔ d ≤ hi + tol prec

theorem translations_half (order : List (Fin k → ℤ) → List (Fin k → ℤ))
    (horder : ∀ l, (order l).Perm l) (s : ℤ) :
    ∃ H, translations order s true = 0 :: H ∧ IsHalfBox H s := by
  obtain ⟨H, h1, h2, h3, h4⟩ := C50_half_mesh order horder s
  rw [List.nodup_cons] at h2
  exact ⟨H, h1, h2.2, fun c hc => ⟨fun h0 => h2.1 (h0 ▸ hc), h3 c hc⟩, h4⟩

/-- **C51.** Whenever `bonds(nth)` returns, for any iteration order of its sets: `intra` lists every
pair of cluster points of the requested length exactly once, `inter` lists every (cluster point,
translated cluster point) of the requested length exactly once for one of each two opposite
translations of the searched box, and there is nothing else.  The box is the one whose outer edge keeps
all copies of the cluster farther away than the nth neighbour distance. -/
theorem C51_bonds_exact (order : List (Fin k → ℤ) → List (Fin k → ℤ))
    (horder : ∀ l, (order l).Perm l)
    (porder : ∀ N : ℕ, List (Fin N × Fin N) → List (Fin N × Fin N))
    (hporder : ∀ N l, (porder N l).Perm l) {prec : ℕ} {L L' : Lat n m k} {nth : ℤ} {only fold : Bool}
    {intra inter : List (LBond m)}
    (h : bonds order porder prec L nth only fold = some (L', .ok (intra, some inter))) :
    ∃ hi P s H, (neighborDistance order prec L nth).2 = .ok hi ∧
      LengthRange order prec L nth only hi P ∧ IsHalfBox H s ∧
      IsScope L.points L.vectors hi s ∧
      intra.Perm (intraBonds L.points P) ∧
      inter.Perm (interBonds L.points L.vectors H P fun c j =>
        if fold then foldPt prec L' (L.points j + comb L.vectors c)
        else L.points j + comb L.vectors c) ∧
      L'.points = L.points ∧ L'.vectors = L.vectors ∧ L'.bs = L.bs := by
  classical
  unfold bonds at h
  by_cases h1 : nth < 0
  · rw [if_pos h1] at h; simp at h
  rw [if_neg h1] at h
  by_cases h2 : nth = 0
  · rw [if_pos h2] at h; simp at h
  rw [if_neg h2] at h
  obtain ⟨s1, s2, s3⟩ := neighborDistance_state order prec L nth
  revert h
  rcases hnd : neighborDistance order prec L nth with ⟨L1, _ | hi⟩
  · intro h; simp at h
  rw [hnd] at s1 s2 s3
  dsimp only at s1 s2 s3 ⊢
  intro h
  split at h
  · simp at h
  · simp at h
  · rename_i s hs
    obtain ⟨_, _, hs0, hfar, hmin⟩ := guessScope_ok hs
    have hfar' : IsScope L.points L.vectors hi s := by
      refine ⟨hs0, fun c hc i j => ?_, fun s' h9 h10 => ?_⟩
      · have := hfar c ((mem_edge s c).2 hc) i j
        rwa [s1, s2] at this
      · have := hmin s' h9 h10
        unfold edgeFar at this
        push Not at this
        obtain ⟨c, hc, i, j, hij⟩ := this
        rw [s1, s2] at hij
        exact ⟨c, (mem_edge s' c).1 hc, i, j, hij⟩
    obtain ⟨H, hH, hHalf⟩ := translations_half order horder s
    have hsites : sitesFactory order L1 s true = copies L.points L.vectors (0 :: H) := by
      unfold sitesFactory copies; rw [hH, s1, s2]
    by_cases ho : only = true ∧ 1 < nth
    · rw [if_pos ho] at h
      obtain ⟨t1, t2, t3⟩ := neighborDistance_state order prec L1 (nth - 1)
      revert h
      rcases hnd2 : neighborDistance order prec L1 (nth - 1) with ⟨L2, _ | lo⟩
      · intro h; simp at h
      rw [hnd2] at t1 t2 t3
      dsimp only at t1 t2 t3 ⊢
      intro h
      split at h
      · simp at h
      · simp at h
      · rename_i I J hloop
        simp only [Option.some.injEq, Prod.mk.injEq, Except.ok.injEq] at h
        obtain ⟨rfl, rfl, rfl⟩ := h
        have core := bonds_core (L := L2) (P := fun d => lo + tol prec < d ∧ d ≤ hi + tol prec)
          hHalf.nodup (by rw [t1, t2, s1, s2]; exact hsites)
          ((hporder _ _).nodup_iff.2 ((nodup_queryPairs _ _).filter _)) (fun p => by
            rw [(hporder _ _).mem_iff, List.mem_filter, mem_queryPairs, decide_eq_true_iff,
              mem_queryPairs]
            constructor
            · rintro ⟨⟨a, b⟩, c⟩
              exact ⟨a, not_le.1 fun hc => c ⟨a, hc⟩, b⟩
            · rintro ⟨a, b, c⟩
              exact ⟨⟨a, c⟩, fun hc => absurd hc.2 (not_le.2 b)⟩) hloop
        rw [t1, t2, s1, s2] at core
        refine ⟨hi, _, s, H, rfl, ?_, hHalf, hfar', core.1, core.2, t1.trans s1, t2.trans s2,
          t3.trans s3⟩
        unfold LengthRange
        rw [if_pos ho, hnd]
        dsimp only
        rw [hnd2]
        exact ⟨lo, rfl, fun d => Iff.rfl⟩
    · rw [if_neg ho] at h
      split at h
      · simp at h
      · simp at h
      · rename_i I J hloop
        simp only [Option.some.injEq, Prod.mk.injEq, Except.ok.injEq] at h
        obtain ⟨rfl, rfl, rfl⟩ := h
        have core := bonds_core (L := L1) (P := fun d => d ≤ hi + tol prec)
          hHalf.nodup (by rw [s1, s2]; exact hsites)
          ((hporder _ _).nodup_iff.2 (nodup_queryPairs _ _)) (fun p => by
            rw [(hporder _ _).mem_iff, mem_queryPairs]) hloop
        rw [s1, s2] at core
        refine ⟨hi, _, s, H, rfl, ?_, hHalf, hfar', core.1, core.2, s1, s2, s3⟩
        unfold LengthRange
        rw [if_neg ho]
        exact fun d => Iff.rfl

/-- **C51 (`nth = 0`).** The onsite bonds: each cluster point once, and no intercluster list; a negative
`nth` is refused. -/
theorem C51_onsite (order : List (Fin k → ℤ) → List (Fin k → ℤ))
    (porder : ∀ N : ℕ, List (Fin N × Fin N) → List (Fin N × Fin N)) (prec : ℕ) (L : Lat n m k)
    (only fold : Bool) :
    bonds order porder prec L 0 only fold =
      some (L, .ok ((List.finRange n).map fun i => (L.points i, L.points i), none)) ∧
    ∀ nth < 0, bonds order porder prec L nth only fold = some (L, .error .assertionError) := by
  constructor
  · unfold bonds; rw [if_neg (by norm_num), if_pos rfl]
  · intro nth h; unfold bonds; rw [if_pos h]

/-- `decompose` reads only the points and the vectors. -/
theorem decompose_congr {prec : ℕ} {L L' : Lat n m k} (hp : L'.points = L.points)
    (hv : L'.vectors = L.vectors) (site : Pt m) : decompose prec L' site = decompose prec L site := by
  have hs : ∀ db disp, searching prec L' db disp = searching prec L db disp := by
    intro db disp; unfold searching; rw [hp, hv]
  have he : ∀ ref s, edgeFar L' ref s ↔ edgeFar L ref s := by
    intro ref s; unfold edgeFar; rw [hp, hv]
  have hl : ∀ ref fuel s, guessLoop L' ref fuel s = guessLoop L ref fuel s := by
    intro ref fuel
    induction fuel with
    | zero => intro s; rfl
    | succ fuel ih =>
      intro s
      unfold guessLoop
      rw [ih]
      by_cases h : edgeFar L ref s
      · rw [if_pos h, if_pos ((he ref s).2 h)]
      · rw [if_neg h, if_neg fun h' => h ((he ref s).1 h')]
  have hg : ∀ ref, guessScope L' ref = guessScope L ref := by
    intro ref
    have hl' : guessLoop L' ref = guessLoop L ref := by funext fuel s; exact hl ref fuel s
    by_cases hk : k = 0
    · unfold guessScope; rw [if_pos hk, if_pos hk]
    by_cases hn : n = 0
    · unfold guessScope; rw [if_neg hk, if_neg hk, if_pos hn, if_pos hn]
    by_cases h : ∃ fuel s, guessLoop L ref fuel (-1) = some s
    · have e1 : ∃ s, guessScope L ref = some (.ok s) := by
        unfold guessScope; rw [if_neg hk, if_neg hn, dif_pos h]; exact ⟨_, rfl⟩
      have e2 : ∃ s, guessScope L' ref = some (.ok s) := by
        unfold guessScope; rw [if_neg hk, if_neg hn, dif_pos (by rw [hl']; exact h)]; exact ⟨_, rfl⟩
      obtain ⟨s, hs⟩ := e1
      obtain ⟨s', hs'⟩ := e2
      obtain ⟨_, _, a1, a2, a3⟩ := guessScope_ok hs
      obtain ⟨_, _, b1, b2, b3⟩ := guessScope_ok hs'
      rcases lt_trichotomy s s' with hlt | heq | hgt
      · exact absurd ((he ref s).2 a2) (b3 s a1 hlt)
      · rw [hs, hs', heq]
      · exact absurd ((he ref s').1 b2) (a3 s' b1 hgt)
    · unfold guessScope
      rw [if_neg hk, if_neg hk, if_neg hn, if_neg hn, dif_neg h, dif_neg (by rw [hl']; exact h)]
  unfold decompose
  simp only [hs, hg, hp]

/-- When all translates of cluster points are found (C49), the folded endpoint of a bond is the
original point. -/
theorem foldPt_translate {prec : ℕ} {L L' : Lat n m k} (hp : L'.points = L.points)
    (hv : L'.vectors = L.vectors) {j : Fin n} {c : Fin k → ℤ} (hf : FindsTranslate prec L j c) :
    foldPt prec L' (L.points j + comb L.vectors c) = L.points j := by
  unfold foldPt
  rw [decompose_congr hp hv, hf.1]

/-- **C51 (fold).** If the translates of cluster points can be decomposed (see C49 for when), folding
replaces the far endpoint of each intercluster bond by the cluster point it is a copy of. -/
theorem C51_bonds_fold (order : List (Fin k → ℤ) → List (Fin k → ℤ))
    (horder : ∀ l, (order l).Perm l)
    (porder : ∀ N : ℕ, List (Fin N × Fin N) → List (Fin N × Fin N))
    (hporder : ∀ N l, (porder N l).Perm l) {prec : ℕ} {L L' : Lat n m k}
    (hf : ∀ i c, FindsTranslate prec L i c) {nth : ℤ} {only : Bool} {intra inter : List (LBond m)}
    (h : bonds order porder prec L nth only true = some (L', .ok (intra, some inter))) :
    ∃ hi P s H, (neighborDistance order prec L nth).2 = .ok hi ∧
      LengthRange order prec L nth only hi P ∧ IsHalfBox H s ∧
      IsScope L.points L.vectors hi s ∧
      intra.Perm (intraBonds L.points P) ∧
      inter.Perm (interBonds L.points L.vectors H P fun _ j => L.points j) := by
  obtain ⟨hi, P, s, H, h1, h2, h3, h4, h5, h6, h7, h8, _⟩ :=
    C51_bonds_exact order horder porder hporder h
  refine ⟨hi, P, s, H, h1, h2, h3, h4, h5, ?_⟩
  simp only [if_true] at h6
  convert h6 using 2
  funext c j
  rw [foldPt_translate h7 h8 (hf j c)]

theorem neighborDistance_lower {order : List (Fin k → ℤ) → List (Fin k → ℤ)} {prec : ℕ}
    {L L1 : Lat n m k} {nth : ℤ} {d : ℝ} (h : neighborDistance order prec L nth = (L1, .ok d))
    {q : ℤ} (hq0 : 0 ≤ q) (hq : q ≤ nth) :
    ∃ d', neighborDistance order prec L1 q = (L1, .ok d') := by
  have hlen : nth.toNat < L1.allDist.length := by
    unfold neighborDistance at h
    split_ifs at h with h1
    · simp at h
    split at h
    · rename_i d' hd
      simp only [Prod.mk.injEq] at h
      rw [← h.1]
      exact (List.getElem?_eq_some_iff.1 hd).1
    · dsimp only at h
      split at h
      · rename_i d' hd
        simp only [Prod.mk.injEq] at h
        rw [← h.1]
        exact (List.getElem?_eq_some_iff.1 hd).1
      · simp at h
  have hq' : q.toNat < L1.allDist.length := by omega
  unfold neighborDistance
  rw [if_neg (by omega), List.getElem?_eq_getElem hq']
  exact ⟨_, rfl⟩

/-- **C51 (success).** For an accepted lattice with at least one point and one vector, whose translated
points can be decomposed, `bonds(nth)` returns whenever `neighbor_distance(nth)` does. -/
theorem C51_bonds_succeed (order : List (Fin k → ℤ) → List (Fin k → ℤ))
    (horder : ∀ l, (order l).Perm l)
    (porder : ∀ N : ℕ, List (Fin N × Fin N) → List (Fin N × Fin N))
    {prec : ℕ} {points : Fin n → Pt m} {vectors : Fin k → Pt m} {L0 L : Lat n m k}
    (hL0 : init prec points vectors = .ok L0) (hv : L.vectors = L0.vectors) (hb : L.bs = L0.bs) (hk : 1 ≤ k) (hn : 1 ≤ n)
    (hf : ∀ i c, FindsTranslate prec L i c) {nth : ℤ} (hnth : 1 ≤ nth) (only fold : Bool) {d : ℝ}
    (hd : (neighborDistance order prec L nth).2 = .ok d) :
    ∃ L' intra inter, bonds order porder prec L nth only fold = some (L', .ok (intra, some inter)) := by
  classical
  obtain ⟨h1, h2, h3, _⟩ := C46_reciprocal_dual hL0
  obtain ⟨s1, s2, s3⟩ := neighborDistance_state order prec L nth
  rcases hnd : neighborDistance order prec L nth with ⟨L1, r⟩
  rw [hnd] at hd s1 s2 s3
  dsimp only at hd s1 s2 s3
  subst hd
  obtain ⟨s, hs⟩ := guessScope_terminates (L := L1) (by rw [s3, s2, hb, hv]; exact h3) (by omega)
    (by omega) d
  obtain ⟨H, hH, hHalf⟩ := translations_half order horder s
  -- every site is a translate of a cluster point
  have hsite : ∀ (L2 : Lat n m k), L2.points = L.points → L2.vectors = L.vectors →
      ∀ p ∈ sitesFactory order L1 s true, ∃ r, decompose prec L2 p = some (.ok r) := by
    intro L2 t1 t2 p hp'
    unfold sitesFactory at hp'
    rw [List.mem_flatMap] at hp'
    obtain ⟨c, _, hc⟩ := hp'
    rw [List.mem_map] at hc
    obtain ⟨i, _, rfl⟩ := hc
    rw [decompose_congr t1 t2, s1, s2, add_comm, (hf i c).1]
    exact ⟨_, rfl⟩
  unfold bonds
  rw [if_neg (by omega), if_neg (by omega), hnd]
  dsimp only
  rw [hs]
  dsimp only
  by_cases ho : only = true ∧ 1 < nth
  · rw [if_pos ho]
    obtain ⟨d', hd'⟩ := neighborDistance_lower hnd (q := nth - 1) (by omega) (by omega)
    rw [hd']
    dsimp only
    obtain ⟨I, J, hIJ⟩ := bondLoop_total (prec := prec) (L := L1) (fold := fold)
      (sites := sitesFactory order L1 s true)
      (pairs := porder _ ((queryPairs (sitesFactory order L1 s true) (d + tol prec)).filter fun p =>
        decide (p ∉ queryPairs (sitesFactory order L1 s true) (d' + tol prec))))
      (intra := []) (inter := []) (fun p _ => hsite L1 s1 s2 _ (List.get_mem _ _))
    rw [hIJ]
    exact ⟨_, _, _, rfl⟩
  · rw [if_neg ho]
    obtain ⟨I, J, hIJ⟩ := bondLoop_total (prec := prec) (L := L1) (fold := fold)
      (sites := sitesFactory order L1 s true)
      (pairs := porder _ (queryPairs (sitesFactory order L1 s true) (d + tol prec)))
      (intra := []) (inter := []) (fun p _ => hsite L1 s1 s2 _ (List.get_mem _ _))
    rw [hIJ]
    exact ⟨_, _, _, rfl⟩

end Verif.Latt
