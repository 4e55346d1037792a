import Verif.Proofs.DemoGreen
import Verif.Props.Demo
/-!
# Lemmas for C86: one Hilbert space, exact solver
-/

namespace Verif.Demo

open Latt LDB Spec Matrix Lanczos GF

section

variable {zoom : ℤ} {coordOf : ℝ → Coord} {n S : ℕ} {st : ℕ → ℕ → StateID} {table : IndexTable StateID}
  {B : List ℕ} {t : ℝ}

theorem isAdj_add {A A' P P' : Module.End ℂ Fock} (h : IsAdj A A') (h' : IsAdj P P') : IsAdj (A + P) (A' + P') := by
  intro S T
  have h1 := h S T
  have h2 := h' S T
  unfold matrixElement at h1 h2 ⊢
  rw [LinearMap.add_apply, LinearMap.add_apply, Finsupp.add_apply, Finsupp.add_apply, h1, h2, map_add]

theorem isAdj_self_add {A A' : Module.End ℂ Fock} (h : IsAdj A A') (h' : IsAdj A' A) : IsAdj (A + A') (A + A') := by
  intro S T
  have h1 := h S T
  have h2 := h' S T
  unfold matrixElement at h1 h2 ⊢
  rw [LinearMap.add_apply, LinearMap.add_apply, Finsupp.add_apply, Finsupp.add_apply, h1, h2, map_add, add_comm]

theorem isAdj_ring (n S : ℕ) (t : ℝ) : IsAdj (ringHamiltonian n S t) (ringHamiltonian n S t) := by
  have h := isAdj_smul (isAdj_sum (s := Finset.range n) fun i _ => isAdj_sum (s := Finset.range S) fun s _ =>
    isAdj_self_add (isAdj_hop (s * n + (i + 1) % n) (s * n + i)) (isAdj_hop (s * n + i) (s * n + (i + 1) % n))) (t : ℂ)
  have e : star (t : ℂ) = t := Complex.conj_ofReal t
  rw [e] at h
  exact h

theorem ring_hermitian (B : List ℕ) (n S : ℕ) (t : ℝ) : (opMat B (ringHamiltonian n S t)).IsHermitian :=
  opMat_adj (isAdj_ring n S t)

theorem termOperator_hop (a b : ℕ) :
    termOperator [((a : ℤ), .creation), ((b : ℤ), .annihilation)] = create a * annihilate b := by
  simp [termOperator, fockProduct, fockOp]

theorem mapsTo_ring (hn : 1 ≤ n) (h : HopClosed n S B) (t : ℝ) : MapsTo (ringHamiltonian n S t) B B := by
  unfold ringHamiltonian hopPair
  refine MapsTo.smul (.sum fun i hi => .sum fun s hs => ?_) _
  have hi := Finset.mem_range.1 hi
  have hs := Finset.mem_range.1 hs
  have hj : (i + 1) % n < n := Nat.mod_lt _ hn
  refine MapsTo.add ?_ ?_
  · rw [← termOperator_hop, mapsTo_iff_image]
    exact h s hs i hi _ hj
  · rw [← termOperator_hop, mapsTo_iff_image]
    exact h s hs _ hj i hi

/-- On the full Fock space all operators are represented. -/
theorem mapsTo_full {N q : ℕ} (hq : q < N) (o : Otype) :
    MapsTo (fockOf o q) (List.range (2 ^ N)) (List.range (2 ^ N)) := by
  rw [← termOperator_single, mapsTo_iff_image]
  intro k hk k' s him
  rw [List.mem_range] at hk ⊢
  refine image_full (n := N) ?_ hk him
  intro p hp
  rw [List.mem_singleton] at hp
  subst hp
  dsimp only
  omega

theorem site_lt {s i : ℕ} (hs : s < S) (hi : i < n) : s * n + i < S * n := by
  have : (s + 1) * n ≤ S * n := Nat.mul_le_mul_right n hs
  rw [Nat.add_mul] at this
  omega

/-- The index of the state of an operator. -/
def idxOf (table : IndexTable StateID) (a : AoC) : ℕ :=
  match table.queryIndex a.state with
  | .ok i => i.toNat
  | .error _ => 0

theorem idxOf_eq {a : AoC} {q : ℕ} (h : table.queryIndex a.state = .ok (q : ℤ)) : idxOf table a = q := by
  unfold idxOf
  rw [h]
  simp

/-- The excited states of one sector. -/
theorem excited_sector {Ts : List ℕ} (hTs : ∀ s ∈ Ts, s < S) (h64 : S * n ≤ 64)
    (hq : ∀ s < S, ∀ i < n, table.queryIndex (st s i) = .ok ((s * n + i : ℕ) : ℤ)) {left : Option (List ℕ)}
    (hL : (left.getD B).Pairwise (· < ·)) (hne : B ≠ [] → left.getD B ≠ []) (GS : Vec B.length)
    {ops : List AoC} (hops : ∀ a ∈ ops, ∃ p ∈ sites Ts n, a.state = st p.1 p.2 ∧
      MapsTo (fockOf a.otype (p.1 * n + p.2)) B (left.getD B)) :
    ∃ ex, excitedStates table B left GS ops = .ok ex ∧
      (∀ p ∈ sites Ts n, ∀ a ∈ ops, a.state = st p.1 p.2 →
        ex a = some (opMat2 (left.getD B) B (fockOf a.otype (p.1 * n + p.2)) *ᵥ GS)) ∧
      ∀ a ∉ ops, ex a = none := by
  have hidx : ∀ p ∈ sites Ts n, ∀ a : AoC, a.state = st p.1 p.2 →
      table.queryIndex a.state = .ok ((p.1 * n + p.2 : ℕ) : ℤ) := by
    intro p hp a ha
    rw [ha]
    exact hq _ (hTs _ (mem_sites.1 hp).1) _ (mem_sites.1 hp).2
  refine ⟨_, excitedStates_ok hL hne GS (idx := idxOf table) ?_ ?_ ?_, ?_, ?_⟩
  · intro a ha
    obtain ⟨p, hp, h1, -⟩ := hops a ha
    rw [idxOf_eq (hidx p hp a h1)]
    have := site_lt (hTs _ (mem_sites.1 hp).1) (mem_sites.1 hp).2
    omega
  · intro a ha
    obtain ⟨p, hp, h1, -⟩ := hops a ha
    rw [idxOf_eq (hidx p hp a h1), hidx p hp a h1]
  · intro a ha
    obtain ⟨p, hp, h1, h2⟩ := hops a ha
    rw [idxOf_eq (hidx p hp a h1)]
    exact h2
  · intro p hp a ha h1
    rw [if_pos ha, idxOf_eq (hidx p hp a h1)]
  · intro a ha
    rw [if_neg ha]

/-- The dict of Green functions of the exact solver. -/
theorem gfsExact_ok (h : States zoom coordOf n st) (hn : 1 ≤ n) (hS : 1 ≤ S) (h64 : S * n ≤ 64)
    (hq : ∀ s < S, ∀ i < n, table.queryIndex (st s i) = .ok ((s * n + i : ℕ) : ℤ))
    (hB : B.Pairwise (· < ·)) (hfull : ∀ q < S * n, ∀ o, MapsTo (fockOf o q) B B)
    (GE : ℝ) (GS : Vec B.length) (omegas : List ℝ) {eta : ℝ} (heta : eta ≠ 0) (g : Garbage omegas.length) :
    ∃ D, gfsExact zoom ⟨table, B, opMat B (ringHamiltonian n S t)⟩
        ((sites (List.range S) n).map fun p => (opA st p, opC st p)) GE GS omegas eta g =
        .ok ⟨((sites (List.range S) n).map (opA st)).flatMap fun A =>
          ((sites (List.range S) n).map (opC st)).map fun B => (A, B), D⟩ ∧
      ∀ wi : Fin omegas.length, ∃ x y : ℕ × ℕ → Vec B.length,
        (∀ p ∈ sites (List.range S) n,
          shifted (zOf (omegas.get wi) eta) GE (opMat B (ringHamiltonian n S t)) "-" *ᵥ x p =
            opMat2 B B (create (p.1 * n + p.2)) *ᵥ GS) ∧
        (∀ p ∈ sites (List.range S) n,
          shifted (zOf (omegas.get wi) eta) GE (opMat B (ringHamiltonian n S t)) "+" *ᵥ y p =
            opMat2 B B (annihilate (p.1 * n + p.2)) *ᵥ GS) ∧
        ∀ p ∈ sites (List.range S) n, ∀ q ∈ sites (List.range S) n, ∃ row, D (opA st p, opC st q) = some row ∧
          row wi = vdot (opMat2 B B (create (p.1 * n + p.2)) *ᵥ GS) (x q) +
            vdot (opMat2 B B (annihilate (q.1 * n + q.2)) *ᵥ GS) (y p) := by
  set Ts := List.range S with hTs'
  set l := sites Ts n with hl
  have hTs : ∀ s ∈ Ts, s < S := fun s hs => List.mem_range.1 hs
  have hlt : ∀ p ∈ l, p.1 * n + p.2 < S * n := fun p hp =>
    site_lt (hTs _ (mem_sites.1 hp).1) (mem_sites.1 hp).2
  set ops := l.map fun p => (opA st p, opC st p) with hops
  have hfst : ops.map Prod.fst = l.map (opA st) := by rw [hops, List.map_map]; rfl
  have hsnd : ops.map Prod.snd = l.map (opC st) := by rw [hops, List.map_map]; rfl
  obtain ⟨ex, hex, hex1, -⟩ := excited_sector (B := B) (left := none) hTs h64 hq hB (fun h => h) GS
    (ops := ops.flatMap fun p => [p.1, p.2]) (by
      intro a ha
      obtain ⟨r, hr, ha⟩ := List.mem_flatMap.1 ha
      obtain ⟨p, hp, rfl⟩ := List.mem_map.1 hr
      refine ⟨p, hp, ?_, hfull _ (hlt p hp) _⟩
      simp only [List.mem_cons, List.not_mem_nil, or_false] at ha
      rcases ha with rfl | rfl <;> rfl)
  have exA : ∀ p ∈ l, ex (opA st p) = some (opMat2 B B (annihilate (p.1 * n + p.2)) *ᵥ GS) := by
    intro p hp
    exact hex1 p hp (opA st p) (List.mem_flatMap.2 ⟨_, List.mem_map.2 ⟨p, hp, rfl⟩, by simp⟩) rfl
  have exC : ∀ p ∈ l, ex (opC st p) = some (opMat2 B B (create (p.1 * n + p.2)) *ᵥ GS) := by
    intro p hp
    exact hex1 p hp (opC st p) (List.mem_flatMap.2 ⟨_, List.mem_map.2 ⟨p, hp, rfl⟩, by simp⟩) rfl
  have hherm := ring_hermitian B n S t
  have hne : l ≠ [] := by
    intro h0
    have : (0, 0) ∈ l := mem_sites.2 ⟨List.mem_range.2 (by omega), by omega⟩
    rw [h0] at this
    cases this
  have hsingle : ∀ omega, ∀ p ∈ l, ∀ q ∈ l, ∀ x y,
      shifted (zOf omega eta) GE (opMat B (ringHamiltonian n S t)) "-" *ᵥ x =
        opMat2 B B (create (q.1 * n + q.2)) *ᵥ GS →
      shifted (zOf omega eta) GE (opMat B (ringHamiltonian n S t)) "+" *ᵥ y =
        opMat2 B B (annihilate (p.1 * n + p.2)) *ᵥ GS →
      rgfExactSingle (daggerOf zoom) omega (opA st p) (opC st q) GE (opMat B (ringHamiltonian n S t)) ex eta "+" =
        .ok (vdot (opMat2 B B (create (p.1 * n + p.2)) *ᵥ GS) x +
          vdot (opMat2 B B (annihilate (q.1 * n + q.2)) *ᵥ GS) y) := by
    intro omega p hp q hq x y hx hy
    rw [rgfExactSingle_ok_iff]
    refine ⟨_, _, exactSingle_ok_iff.2 ⟨_, opMat2 B B (create (p.1 * n + p.2)) *ᵥ GS, x, exC q hq, ?_, solve_ok_iff.2 ⟨shifted_isUnit hherm heta _, hx⟩, rfl⟩,
      exactSingle_ok_iff.2 ⟨_, opMat2 B B (annihilate (q.1 * n + q.2)) *ᵥ GS, y, exA p hp, ?_, solve_ok_iff.2 ⟨shifted_isUnit hherm heta _, hy⟩, rfl⟩, ?_⟩
    · rw [dagger_opA h (mem_sites.1 hp).2]; exact exC p hp
    · rw [dagger_opC h (mem_sites.1 hq).2]; exact exA q hq
    · rw [if_pos rfl]
  obtain ⟨hr1, hr2⟩ := C59_rgf_exact_multiple (dagger := daggerOf zoom) (omegas := omegas) (As := ops.map Prod.fst)
    (Bs := ops.map Prod.snd) (GE := GE) (HM := opMat B (ringHamiltonian n S t)) (excited := ex) (eta := eta)
    (sign := "+") (struct := "dict") (g _ _) (g _ _) (fun p k => g _ _ (p.1, p.2, k))
  have hsol : ∀ omega : ℝ, ∃ x y : ℕ × ℕ → Vec B.length,
      (∀ p ∈ l, shifted (zOf omega eta) GE (opMat B (ringHamiltonian n S t)) "-" *ᵥ x p =
        opMat2 B B (create (p.1 * n + p.2)) *ᵥ GS) ∧
      ∀ p ∈ l, shifted (zOf omega eta) GE (opMat B (ringHamiltonian n S t)) "+" *ᵥ y p =
        opMat2 B B (annihilate (p.1 * n + p.2)) *ᵥ GS := by
    intro omega
    choose x hx using fun p : ℕ × ℕ => solve_exists (shifted_isUnit hherm (omega := omega) (GE := GE) heta "-")
      (opMat2 B B (create (p.1 * n + p.2)) *ᵥ GS)
    choose y hy using fun p : ℕ × ℕ => solve_exists (shifted_isUnit hherm (omega := omega) (GE := GE) heta "+")
      (opMat2 B B (annihilate (p.1 * n + p.2)) *ᵥ GS)
    exact ⟨x, y, fun p _ => (solve_ok_iff.1 (hx p)).2, fun p _ => (solve_ok_iff.1 (hy p)).2⟩
  obtain ⟨r, hr⟩ := hr2 (by rw [hfst]; simpa using hne) (by rw [hsnd]; simpa using hne) (by
    intro omega _ A hA C hC
    rw [hfst] at hA
    rw [hsnd] at hC
    obtain ⟨p, hp, rfl⟩ := List.mem_map.1 hA
    obtain ⟨q, hq, rfl⟩ := List.mem_map.1 hC
    obtain ⟨x, y, hx, hy⟩ := hsol omega
    exact ⟨_, hsingle omega p hp q hq _ _ (hx q hq) (hy p hp)⟩)
  obtain ⟨htab, hdict⟩ := hr1 r hr
  cases r with
  | array G => exact absurd (hdict.2 rfl) (by simp [GFs.IsDict])
  | dict D =>
    refine ⟨D, ?_, ?_⟩
    · unfold gfsExact
      dsimp only
      rw [hex]
      simp only [bind, Except.bind]
      rw [hr]
      dsimp only [GfDict.of]
      rw [hfst, hsnd, firstOccurrences_nodup (keys_nodup h (nodup_sites List.nodup_range)
        fun p hp => (mem_sites.1 hp).2)]
    · intro wi
      obtain ⟨x, y, hx, hy⟩ := hsol (omegas.get wi)
      refine ⟨x, y, hx, hy, fun p hp q hq => ?_⟩
      obtain ⟨h1, h2⟩ := htab (opA st p) (opC st q)
      obtain ⟨row, hrow⟩ := Option.ne_none_iff_exists'.1 (h1.2 (by
        rw [hfst, hsnd]; exact ⟨List.mem_map.2 ⟨p, hp, rfl⟩, List.mem_map.2 ⟨q, hq, rfl⟩⟩))
      refine ⟨row, hrow, ?_⟩
      have h3 := h2 row hrow wi
      change rgfExactSingle _ _ _ _ _ _ _ _ _ = _ at h3
      rw [hsingle _ p hp q hq _ _ (hx q hq) (hy p hp)] at h3
      exact (Except.ok.inj h3).symm

end

end Verif.Demo
