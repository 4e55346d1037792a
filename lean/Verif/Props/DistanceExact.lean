import Verif.Proofs.DistanceRect
/-!
# C52: exactly when `neighbor_distance(nth)` is right after every history

`C52_exactly_when` is a necessary and sufficient condition, for every lattice and every `nth`, for
`neighbor_distance(nth)` to be the `nth` distance of the infinite lattice (rounded to the float precision)
whatever was called before.
-/

namespace Verif.Latt

open Verif.LDB

variable {n m k : ℕ}

/-- **C52 (exactly when).** `d` is the `nth` distance of the infinite lattice, and the distances up to it are
told apart by the float precision.  `neighbor_distance(nth)` is `d` rounded, after every history of calls
and for every iteration order, if and only if
either the cluster itself has at least `nth` distances, and then shows all distances up to `d`;
or it has fewer, and then the search for `nth` sees all distances up to `d`, and so does each search for an
earlier one that finds `nth` distances. -/
theorem C52_exactly_when {prec nth : ℕ} {S : Set (Pt m)} {points : Fin n → Pt m} {vectors : Fin k → Pt m}
    {L0 : Lat n m k} (h0 : init prec points vectors = .ok L0) (ht : ExactTiling S points vectors) {d : ℝ}
    (hn : 1 ≤ nth) (hd : IsNthDistance S nth d) (hw : WellSpaced prec S d) :
    (∀ (order : List (Fin k → ℤ) → List (Fin k → ℤ)), (∀ l, (order l).Perm l) →
      ∀ (porder : ∀ N : ℕ, List (Fin N × Fin N) → List (Fin N × Fin N)) (calls : List Call),
      (neighborDistance order prec (calls.foldl (after order porder prec) L0) nth).2 =
        .ok (roundTo prec d)) ↔
    (nth ≤ distancesSeen prec points vectors 0 ∧ SeesAll S points vectors d 0) ∨
    (distancesSeen prec points vectors 0 < nth ∧ SeesAll S points vectors d nth ∧
      ∀ s, distancesSeen prec points vectors 0 < s → s < nth →
        nth ≤ distancesSeen prec points vectors s → SeesAll S points vectors d s) := by
  have hres := hw.resolved
  have hp : (10 : ℝ) ^ prec ≠ 0 := by positivity
  have fwd : ∀ {s : ℕ} {l : List ℤ} (hs : Shows prec points vectors s l) (hlen : nth ≤ l.length),
      ((l[nth - 1] : ℤ) : ℝ) / 10 ^ prec = roundTo prec d → SeesAll S points vectors d s := by
    intro s l hs hlen e
    refine hs.seesAll ht hres hd hn ?_
    have := (div_left_inj' hp).1 e
    rw [List.getElem?_eq_getElem (by omega)]
    exact congrArg some (by exact_mod_cast this)
  have bwd : ∀ {s : ℕ} {l : List ℤ}, Shows prec points vectors s l → SeesAll S points vectors d s →
      ∃ hlen : nth ≤ l.length, ((l[nth - 1] : ℤ) : ℝ) / 10 ^ prec = roundTo prec d := by
    intro s l hs hc
    have := full_get (hs.full ht hc) hres hd le_rfl
    obtain ⟨h1, h2⟩ := List.getElem?_eq_some_iff.1 this
    exact ⟨by omega, by rw [h2]; rfl⟩
  obtain ⟨inv0, l0, hl0, hs0⟩ := cacheInv_init h0
  constructor
  · intro h
    have hid : ∀ l : List (Fin k → ℤ), (id l).Perm l := fun l => List.Perm.refl l
    have h1 := h id hid (fun _ => id)
    have hfirst := h1 []
    rw [List.foldl_nil] at hfirst
    rcases Nat.lt_or_ge l0.length nth with hlt | hge
    · right
      refine ⟨by rwa [← hs0.length], ?_, fun s hs hsn hsee => ?_⟩
      · obtain ⟨l', hs', e⟩ := answer_searched (order := id) hid hn inv0 hl0 hlt
        rw [hfirst] at e
        split at e
        · rename_i h'
          exact fwd hs' h' (Except.ok.inj e).symm
        · simp [raise] at e
      · have hcall := h1 [.neighborDistance s]
        rw [List.foldl_cons, List.foldl_nil] at hcall
        change (neighborDistance id prec (neighborDistance id prec L0 s).1 nth).2 = _ at hcall
        have hnone : L0.allDist[s]? = none := by
          rw [hl0, List.getElem?_eq_none_iff]
          simp only [List.length_cons, List.length_map]
          rw [hs0.length]; omega
        obtain ⟨l', e, hs'⟩ := search_shows (order := id) (prec := prec) hid inv0.points_eq inv0.vectors_eq s hnone
        have hlen : nth ≤ l'.length := by rwa [hs'.length]
        rw [answer_cached (order := id) hn e hlen] at hcall
        exact fwd hs' hlen (Except.ok.inj hcall)
    · left
      refine ⟨by rwa [← hs0.length], ?_⟩
      rw [answer_cached (order := id) hn hl0 hge] at hfirst
      exact fwd hs0 hge (Except.ok.inj hfirst)
  · intro h order horder porder calls
    have inv := cacheInv_history horder (porder := porder) inv0 calls
    have mono : ∀ {s t : ℕ}, s ≤ t → SeesAll S points vectors d s → SeesAll S points vectors d t :=
      fun hst hs x hx hxd => box_mono hst (hs x hx hxd)
    obtain ⟨s, l, hl, hs, hor⟩ := inv.cache
    rcases Nat.lt_or_ge l.length nth with hlt | hge
    · have hall : SeesAll S points vectors d nth := by
        rcases h with h | h
        · exact mono (Nat.zero_le _) h.2
        · exact h.2.1
      obtain ⟨l', hs', e⟩ := answer_searched (order := order) horder hn inv hl hlt
      obtain ⟨hlen, e2⟩ := bwd hs' hall
      rw [e, dif_pos hlen, e2]
    · have hall : SeesAll S points vectors d s := by
        rcases h with h | ⟨h1, h2, h3⟩
        · exact mono (Nat.zero_le _) h.2
        · rcases hor with rfl | hor
          · rw [hs.length] at hge; omega
          · rcases Nat.lt_or_ge s nth with h4 | h4
            · exact h3 s hor h4 (by rwa [← hs.length])
            · exact mono h4 h2
      obtain ⟨hlen, e2⟩ := bwd hs hall
      rw [answer_cached (order := order) hn hl hlen, e2]

/-- On a cluster that is a chain. -/
theorem chain_distance {n prec : ℕ} (hp : 1 ≤ prec) {n0 : ℤ} {L : Lat n 1 1}
    (hinit : init prec L.points L.vectors = .ok L) (hC : ChainCluster L.points L.vectors n0)
    (order : List (Fin 1 → ℤ) → List (Fin 1 → ℤ)) (horder : ∀ l, (order l).Perm l)
    (porder : ∀ N : ℕ, List (Fin N × Fin N) → List (Fin N × Fin N)) (calls : List Call) (nth : ℕ) :
    (neighborDistance order prec (calls.foldl (after order porder prec) L) nth).2 = .ok (nth : ℝ) := by
  have h0 := hC.pos
  have ht := hC.tiling
  rcases Nat.eq_zero_or_pos nth with rfl | hn
  · simpa using (C52_neighbor_distance_partial order horder porder hinit calls 0).1
  have sees : ∀ s : ℕ, (nth : ℤ) ≤ (2 * s + 1) * n0 - 1 → SeesAll chainSites L.points L.vectors nth s := by
    intro s hs x hx hle
    obtain ⟨z, hz, rfl⟩ := chain_distances.1 hx
    have : z ≤ nth := by exact_mod_cast hle
    exact (hC.box s z).2 ⟨z, by omega, by omega, rfl⟩
  have key := (C52_exactly_when hinit ht hn (chain_isNth nth hn) (chain_wellSpaced hp _)).2 (by
    rcases Nat.lt_or_ge (distancesSeen prec L.points L.vectors 0) nth with h | h
    · refine Or.inr ⟨h, sees nth ?_, fun s _ _ hs => sees s ?_⟩
      · nlinarith
      · have := hC.seen (prec := prec) s
        omega
    · refine Or.inl ⟨h, sees 0 ?_⟩
      have := hC.seen (prec := prec) 0
      omega) order horder porder calls
  rw [key]
  have := roundTo_intCast prec nth
  rw [Int.cast_natCast] at this
  rw [this]

/-- **C52 (chains).** On chains of every size `neighbor_distance(nth)` is `nth` for every `nth`, after every
history of calls. -/
theorem C52_chain {prec : ℕ} (hp : 1 ≤ prec) {n0 n1 n2 : ℤ} (h0 : 1 ≤ n0) (h1 : 1 ≤ n1) (h2 : 1 ≤ n2) :
    ∃ (n : ℕ) (L0 : Lat n 1 1), latticeGenerator prec "chain" n0 n1 n2 = .ok ⟨n, 1, 1, L0⟩ ∧
      ∀ (order : List (Fin 1 → ℤ) → List (Fin 1 → ℤ)), (∀ l, (order l).Perm l) →
      ∀ (porder : ∀ N : ℕ, List (Fin N × Fin N) → List (Fin N × Fin N)) (calls : List Call) (nth : ℕ),
      (neighborDistance order prec (calls.foldl (after order porder prec) L0) nth).2 = .ok (nth : ℝ) := by
  obtain ⟨L, hL, hinit, hC, -⟩ := chain_lattice hp h0 h1 h2
  refine ⟨_, L, hL, fun order horder porder calls nth => ?_⟩
  exact chain_distance hp hinit hC order horder porder calls nth

/-- **C52 (the answer depends on earlier calls).** One site, translation vectors `(1, 0)` and `(0, 10)`:
`neighbor_distance(3)` on the new lattice is `3`, which is right, but after `neighbor_distance(1)` it is
`10`. -/
theorem C52_history_dependent {prec : ℕ} (hp : 2 ≤ prec) (order : List (Fin 2 → ℤ) → List (Fin 2 → ℤ))
    (horder : ∀ l, (order l).Perm l) :
    ∃ L : Lat 1 2 2, init prec ![![0, 0]] ![![1, 0], ![0, 10]] = .ok L ∧
      (neighborDistance order prec L 3).2 = .ok 3 ∧
      (neighborDistance order prec (neighborDistance order prec L 1).1 3).2 = .ok 10 := by
  obtain ⟨L, hL⟩ := rect_init prec
  refine ⟨L, hL, ?_, ?_⟩
  · obtain ⟨inv0, l0, hl0, hs0⟩ := cacheInv_init hL
    have hlen0 : l0.length = 0 := by rw [hs0.length, rect_seen_zero]
    obtain ⟨l', hs', e⟩ := answer_searched (nth := 3) (order := order) horder (by norm_num) inv0 hl0 (by omega)
    have hall : SeesAll rectSites rectPoints rectVectors 3 3 := by
      intro x hx hle
      rcases rect_small hx hle with rfl | rfl | rfl
      · exact (rect_box 3 _).2 ⟨1, 0, by norm_num, by norm_num, by norm_num, by norm_num⟩
      · exact (rect_box 3 _).2 ⟨2, 0, by norm_num, by norm_num, by norm_num, by
          rw [show (((2 : ℤ) ^ 2 + 100 * 0 ^ 2 : ℤ) : ℝ) = 2 ^ 2 by norm_num, Real.sqrt_sq (by norm_num)]⟩
      · exact (rect_box 3 _).2 ⟨3, 0, by norm_num, by norm_num, by norm_num, by
          rw [show (((3 : ℤ) ^ 2 + 100 * 0 ^ 2 : ℤ) : ℝ) = 3 ^ 2 by norm_num, Real.sqrt_sq (by norm_num)]⟩
    have hget := full_get (hs'.full rect_tiling hall) (rect_wellSpaced hp).resolved rect_third le_rfl
    obtain ⟨g1, g2⟩ := List.getElem?_eq_some_iff.1 hget
    have r3 := roundTo_intCast prec 3
    refine e.trans ?_
    rw [dif_pos (by omega)]
    unfold roundTo at r3
    rw [g2]
    push_cast at r3
    rw [r3]
  · obtain ⟨inv0, l0, hl0, hs0⟩ := cacheInv_init hL
    have hlen0 : l0.length = 0 := by rw [hs0.length, rect_seen_zero]
    have hnone : L.allDist[1]? = none := by
      rw [hl0, List.getElem?_eq_none_iff]; simp [hlen0]
    obtain ⟨l', e, hs'⟩ := search_shows (order := order) (prec := prec) horder inv0.points_eq inv0.vectors_eq 1 hnone
    have hget := rect_first hs'
    obtain ⟨g1, g2⟩ := List.getElem?_eq_some_iff.1 hget
    have := answer_cached (order := order) (nth := 3) (by norm_num) e (by omega)
    have h3 : (neighborDistance order prec (neighborDistance order prec L 1).1 3).2 =
        .ok (((l'[3 - 1] : ℤ) : ℝ) / 10 ^ prec) := congrArg Prod.snd this
    rw [h3]
    have hp' : (10 : ℝ) ^ prec ≠ 0 := by positivity
    have e10 : ((l'[3 - 1] : ℤ) : ℝ) / 10 ^ prec = 10 := by
      change ((l'[2] : ℤ) : ℝ) / 10 ^ prec = 10
      rw [g2]
      push_cast
      field_simp
    rw [e10]

/-- The condition of `C52_exactly_when` fails there, and the theorem applies. -/
example {L : Lat 1 2 2} (hL : init 4 ![![0, 0]] ![![1, 0], ![0, 10]] = .ok L) :
    ¬ ∀ (order : List (Fin 2 → ℤ) → List (Fin 2 → ℤ)), (∀ l, (order l).Perm l) →
      ∀ (porder : ∀ N : ℕ, List (Fin N × Fin N) → List (Fin N × Fin N)) (calls : List Call),
      (neighborDistance order 4 (calls.foldl (after order porder 4) L) (3 : ℕ)).2 = .ok (roundTo 4 3) := by
  intro h
  have key := (C52_exactly_when (prec := 4) (points := rectPoints) (vectors := rectVectors) hL rect_tiling
    (by norm_num) rect_third (rect_wellSpaced (by norm_num))).1 h
  rcases key with ⟨h1, -⟩ | ⟨-, -, h3⟩
  · rw [rect_seen_zero] at h1; omega
  · have hsh := shows_copies (prec := 4) (points := rectPoints) (v := rectVectors)
      (C50_full_mesh (k := 2) id (fun l => List.Perm.refl l) ((1 : ℕ) : ℤ) (by omega)).1
      fun c => (C50_full_mesh (k := 2) id (fun l => List.Perm.refl l) ((1 : ℕ) : ℤ) (by omega)).2.2 c
    have hlen := (List.getElem?_eq_some_iff.1 (rect_first hsh)).1
    have := h3 1 (by rw [rect_seen_zero]; omega) (by norm_num) (by rw [← hsh.length]; omega) 3 rect_third.1 le_rfl
    obtain ⟨a, b, ha, hb, -, e⟩ := (rect_box 1 3).1 this
    have ha' := abs_le.1 ha
    have h9 : ((a ^ 2 + 100 * b ^ 2 : ℤ) : ℝ) = 9 := by
      rw [← Real.sq_sqrt (show (0 : ℝ) ≤ ((a ^ 2 + 100 * b ^ 2 : ℤ) : ℝ) by push_cast; positivity), ← e]
      norm_num
    have h9' : a ^ 2 + 100 * b ^ 2 = 9 := by exact_mod_cast h9
    have hb0 : b = 0 := by
      by_contra hb0
      have := Int.one_le_abs hb0
      nlinarith [sq_abs b, sq_nonneg a]
    subst hb0
    have : a = 2 ∨ a = 1 ∨ a = 0 ∨ a = -1 ∨ a = -2 := by push_cast at ha'; omega
    rcases this with rfl | rfl | rfl | rfl | rfl <;> norm_num at h9'

end Verif.Latt
