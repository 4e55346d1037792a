import Verif.Props.Particle
import Verif.Props.Spin
import Verif.Props.Precision
import Verif.Proofs.MatrixAlgebra
/-!
# C90: what the constructors accept, and the relations between spin operators
-/

namespace Verif
open Spec

/-- **C90 (sites).** `SiteID(site)` succeeds exactly for one, two or three coordinates that can all be converted; integer
coordinates always can.  Any other number of coordinates is an AssertionError. -/
theorem C90_site_constructor (zoom : ℤ) (site : List Coord) :
    ((∃ s, SiteID.init zoom site = .ok s) ↔
      (1 ≤ site.length ∧ site.length ≤ 3) ∧ ∀ c ∈ site, ∃ k, c.zoomInt zoom = .ok k) ∧
    (¬ (1 ≤ site.length ∧ site.length ≤ 3) → SiteID.init zoom site = .error .assertionError) ∧
    ∀ ns : List ℤ, site = ns.map Coord.int → 1 ≤ ns.length → ns.length ≤ 3 →
      SiteID.init zoom site = .ok ⟨site, ns.map (zoom * ·)⟩ := by
  have h3 : (site.length = 1 ∨ site.length = 2 ∨ site.length = 3) ↔ (1 ≤ site.length ∧ site.length ≤ 3) := by omega
  have hbad : ¬ (1 ≤ site.length ∧ site.length ≤ 3) → SiteID.init zoom site = .error .assertionError := by
    intro h
    unfold SiteID.init pyAssert
    rw [decide_eq_false (mt h3.1 h)]
    rfl
  refine ⟨⟨?_, ?_⟩, hbad, ?_⟩
  · rintro ⟨s, hs⟩
    have hl : 1 ≤ site.length ∧ site.length ≤ 3 := by
      by_contra h
      rw [hbad h] at hs
      cases hs
    refine ⟨hl, fun c hc => ?_⟩
    have := siteInit_ok hs
    obtain ⟨i, hi, rfl⟩ := List.getElem_of_mem hc
    exact ⟨_, forall₂_getElem this i hi⟩
  · rintro ⟨hl, hc⟩
    have hm : ∃ t, site.mapM (Coord.zoomInt zoom) = .ok t := by
      cases hm : site.mapM (Coord.zoomInt zoom) with
      | ok t => exact ⟨t, rfl⟩
      | error e =>
        obtain ⟨pre, c, post, rfl, -, h⟩ := mapM_error_iff.1 hm
        obtain ⟨k, hk⟩ := hc c (by simp)
        rw [hk] at h
        cases h
    obtain ⟨t, ht⟩ := hm
    refine ⟨⟨site, t⟩, ?_⟩
    unfold SiteID.init pyAssert
    rw [decide_eq_true (h3.2 hl), ht]
    rfl
  · rintro ns rfl h1 h2
    have ht : (ns.map Coord.int).mapM (Coord.zoomInt zoom) = .ok (ns.map (zoom * ·)) := by
      rw [mapM_ok_iff, List.forall₂_map_left_iff, List.forall₂_map_right_iff, List.forall₂_same]
      intro x _
      rfl
    unfold SiteID.init pyAssert
    rw [decide_eq_true (h3.2 (by rw [List.length_map]; exact ⟨h1, h2⟩)), ht]
    rfl

/-- **C90 (states).** `StateID(site, spin, orbit)` succeeds exactly if `spin` and `orbit` are not negative and the site is
accepted. -/
theorem C90_state_constructor (zoom : ℤ) (site : List Coord) (spin orbit : ℤ) :
    ((∃ s, StateID.init zoom site spin orbit = .ok s) ↔
      0 ≤ spin ∧ 0 ≤ orbit ∧ ∃ id, SiteID.init zoom site = .ok id) ∧
    (spin < 0 ∨ orbit < 0 → StateID.init zoom site spin orbit = .error .assertionError) := by
  unfold StateID.init pyAssert
  by_cases h1 : 0 ≤ spin
  · by_cases h2 : 0 ≤ orbit
    · rw [decide_eq_true h1, decide_eq_true h2]
      cases hs : SiteID.init zoom site with
      | ok id => exact ⟨⟨fun _ => ⟨h1, h2, id, rfl⟩, fun _ => ⟨_, rfl⟩⟩, fun h => by omega⟩
      | error e =>
        refine ⟨⟨?_, ?_⟩, fun h => by omega⟩
        · rintro ⟨s, h⟩; cases h
        · rintro ⟨-, -, id, h⟩; cases h
    · rw [decide_eq_true h1, decide_eq_false h2]
      refine ⟨⟨?_, fun h => absurd h.2.1 h2⟩, fun _ => rfl⟩
      rintro ⟨s, h⟩; cases h
  · rw [decide_eq_false h1]
    refine ⟨⟨?_, fun h => absurd h.1 h1⟩, fun _ => rfl⟩
    rintro ⟨s, h⟩; cases h

/-- **C90 (fermionic operators).** `AoC(otype, site, spin, orbit)` succeeds exactly if `otype` is 0 or 1 and the state is
accepted; any other `otype` is an AssertionError. -/
theorem C90_aoc_constructor (zoom otype : ℤ) (site : List Coord) (spin orbit : ℤ) :
    (∀ a, AoC.init zoom otype site spin orbit = .ok a ↔
      StateID.init zoom site spin orbit = .ok a.state ∧
        (otype = 1 ∧ a.otype = .creation ∨ otype = 0 ∧ a.otype = .annihilation)) ∧
    (otype ≠ 0 → otype ≠ 1 → AoC.init zoom otype site spin orbit = .error .assertionError) := by
  unfold AoC.init pyAssert
  by_cases h01 : otype = 0 ∨ otype = 1
  · rw [decide_eq_true h01]
    refine ⟨fun a => ?_, fun h h' => by omega⟩
    cases hs : StateID.init zoom site spin orbit with
    | error e => exact ⟨fun h => (by cases h), fun h => (by cases h.1)⟩
    | ok st =>
      obtain ⟨o, st'⟩ := a
      rcases h01 with rfl | rfl
      · constructor
        · intro h; cases h; exact ⟨rfl, .inr ⟨rfl, rfl⟩⟩
        · rintro ⟨h1, ⟨h2, -⟩ | ⟨-, h3⟩⟩
          · omega
          · cases h1; dsimp only at h3; subst h3; rfl
      · constructor
        · intro h; cases h; exact ⟨rfl, .inl ⟨rfl, rfl⟩⟩
        · rintro ⟨h1, ⟨-, h3⟩ | ⟨h2, -⟩⟩
          · cases h1; dsimp only at h3; subst h3; rfl
          · omega
  · rw [decide_eq_false h01]
    refine ⟨fun a => ⟨fun h => (by cases h), fun h => absurd ?_ h01⟩, fun _ _ => rfl⟩
    rcases h.2 with h | h
    · exact .inr h.1
    · exact .inl h.1

/-- **C90 (spin operators).** `SpinOperator(otype, site)` succeeds exactly if `otype` is one of `"x"`, `"y"`, `"z"`, `"p"`,
`"m"` and the site is accepted; any other `otype` is an AssertionError. -/
theorem C90_spin_constructor (zoom : ℤ) (otype : String) (site : List Coord) :
    ((∃ s, SpinOperator.init zoom otype site = .ok s) ↔
      otype ∈ ["x", "y", "z", "p", "m"] ∧ ∃ id, SiteID.init zoom site = .ok id) ∧
    (otype ∉ ["x", "y", "z", "p", "m"] → SpinOperator.init zoom otype site = .error .assertionError) := by
  by_cases hm : otype ∈ ["x", "y", "z", "p", "m"]
  · refine ⟨?_, fun h => absurd hm h⟩
    have : ∃ o, SpinOtype.ofString? otype = some o := by
      simp only [List.mem_cons, List.not_mem_nil, or_false] at hm
      rcases hm with rfl | rfl | rfl | rfl | rfl <;> exact ⟨_, rfl⟩
    obtain ⟨o, ho⟩ := this
    unfold SpinOperator.init
    rw [ho]
    cases hs : SiteID.init zoom site with
    | ok id => exact ⟨fun _ => ⟨hm, id, rfl⟩, fun _ => ⟨_, rfl⟩⟩
    | error e =>
      refine ⟨?_, ?_⟩
      · rintro ⟨s, h⟩; cases h
      · rintro ⟨-, id, h⟩; cases h
  · have ho : SpinOtype.ofString? otype = none := by
      simp only [List.mem_cons, List.not_mem_nil, or_false, not_or] at hm
      obtain ⟨h1, h2, h3, h4, h5⟩ := hm
      unfold SpinOtype.ofString?
      split <;> first | rfl | (exfalso; simp_all)
    unfold SpinOperator.init
    rw [ho]
    refine ⟨⟨?_, fun h => absurd h.1 hm⟩, fun _ => rfl⟩
    rintro ⟨s, h⟩; cases h

/-- **C90 (relations).** For a spin operator built under the current precision: `s.conjugate_of(r)` holds iff `r` is the
operator returned by `s.dagger()`, that is, has its type and an equal site; `same_site` iff the sites are equal. -/
theorem C90_spin_relations (zoom : ℤ) (otype : String) (site : List Coord) (s : SpinOperator)
    (h : SpinOperator.init zoom otype site = .ok s) (r : SpinOperator) :
    ∃ d, s.dagger zoom = .ok d ∧ s.conjugateOf zoom r = .ok (d.eq r) ∧
      (s.conjugateOf zoom r = .ok true ↔ (match s.otype with | .p => r.otype = .m | .m => r.otype = .p | o => r.otype = o) ∧
        s.siteId.tuple = r.siteId.tuple) ∧
      (s.sameSite r = true ↔ s.siteId.tuple = r.siteId.tuple) := by
  have hb : s.BuiltUnder zoom := by
    unfold SpinOperator.init at h
    split at h
    · cases h
    · obtain ⟨id, h1, h2⟩ := bind_ok_iff.1 h
      cases h2
      unfold SpinOperator.BuiltUnder
      dsimp only
      have : id.site = site := by
        unfold SiteID.init at h1
        obtain ⟨_, -, h1⟩ := bind_ok_iff.1 h1
        obtain ⟨t, -, h1⟩ := bind_ok_iff.1 h1
        cases h1
        rfl
      rw [this]
      exact h1
  have hd := spinDagger_eq hb
  refine ⟨_, hd, ?_, ?_, ?_⟩
  · unfold SpinOperator.conjugateOf
    rw [hd]
    rfl
  · unfold SpinOperator.conjugateOf
    rw [hd]
    obtain ⟨o, id⟩ := s
    simp only [bind, Except.bind, pure, Except.pure, SpinOperator.eq, Except.ok.injEq, decide_eq_true_eq]
    cases o <;> simp [SpinOtype.adj, eq_comm]
  · unfold SpinOperator.sameSite
    rw [siteRich_eq]
    simp [linRich]

/-- **C90 (matrices of one operator).** If `a.matrix_repr(table, right_bases, left_bases)` succeeds for a table that knows
the state of `a` under `i` and a left basis without repetitions, it has the shape of the bases and its entries are the
matrix elements of the creation (annihilation) operator of state `i`; without `left_bases` the right basis is used on both
sides. -/
theorem C90_aoc_matrix (a : AoC) (table : IndexTable StateID) (i : ℕ) (hi : table.queryIndex a.state = .ok (i : ℤ))
    (right : List ℕ) (left : Option (List ℕ)) (hL : (left.getD right).Nodup) (M : Csr)
    (hM : a.matrixRepr table right left = .ok M) :
    M.nrow = (left.getD right).length ∧ M.ncol = right.length ∧
    ∀ (r j : ℕ) (hr : r < (left.getD right).length) (hj : j < right.length),
      M.get r j = matrixElement (match a.otype with | .creation => create i | .annihilation => annihilate i)
        (occ (left.getD right)[r]) (occ right[j]) := by
  unfold AoC.matrixRepr at hM
  rw [hi] at hM
  change matrixFunctionCsr [((i : ℤ), a.otype)] right left 1 .general = .ok M at hM
  obtain ⟨-, -, -, h1, h2, -, -⟩ := csr_ok_iff.mp hM
  refine ⟨h1, h2, fun r j hr hj => ?_⟩
  rw [general_csr_get hM hL r j hr hj, one_mul]
  obtain ⟨o, st⟩ := a
  cases o <;> simp [termOperator, fockProduct, fockOp]

/-- Accepted and refused calls. -/
example : (∃ s, SiteID.init defaultZoom [.int 1, .int 2, .int 3] = .ok s) ∧
    SiteID.init defaultZoom [.int 1, .int 2, .int 3, .int 4] = .error .assertionError ∧
    StateID.init defaultZoom [.int 1] (-1) = .error .assertionError ∧
    AoC.init defaultZoom 2 [.int 1] = .error .assertionError ∧
    SpinOperator.init defaultZoom "w" [.int 1] = .error .assertionError :=
  ⟨⟨_, ((C90_site_constructor defaultZoom _).2.2 [1, 2, 3] rfl (by decide) (by decide))⟩,
    (C90_site_constructor defaultZoom _).2.1 (by decide), (C90_state_constructor defaultZoom _ _ _).2 (by decide),
    (C90_aoc_constructor defaultZoom 2 _ _ _).2 (by decide) (by decide), (C90_spin_constructor defaultZoom "w" _).2 (by decide)⟩

/-- `S^+` and `S^-` on one site are conjugate to each other, `S^+` is not conjugate to itself. -/
example : ∃ s r, SpinOperator.init defaultZoom "p" [.int 0] = .ok s ∧ SpinOperator.init defaultZoom "m" [.int 0] = .ok r ∧
    s.conjugateOf defaultZoom r = .ok true ∧ s.conjugateOf defaultZoom s = .ok false ∧ s.sameSite r = true := by
  refine ⟨⟨.p, ⟨[.int 0], [0]⟩⟩, ⟨.m, ⟨[.int 0], [0]⟩⟩, rfl, rfl, ?_, rfl, ?_⟩
  · obtain ⟨d, -, -, h, -⟩ := C90_spin_relations defaultZoom "p" [.int 0] ⟨.p, ⟨[.int 0], [0]⟩⟩ rfl ⟨.m, ⟨[.int 0], [0]⟩⟩
    exact h.2 ⟨rfl, rfl⟩
  · obtain ⟨d, -, -, -, h⟩ := C90_spin_relations defaultZoom "p" [.int 0] ⟨.p, ⟨[.int 0], [0]⟩⟩ rfl ⟨.m, ⟨[.int 0], [0]⟩⟩
    exact h.2 rfl

/-- A creation operator between two different bases: `<1| c_0^dagger |0> = 1`. -/
example : ∃ (a : AoC) (table : IndexTable StateID) (M : Csr), a.matrixRepr table [0] (some [1]) = .ok M ∧ M.get 0 0 = 1 := by
  obtain ⟨s0, h0⟩ : ∃ s, StateID.init defaultZoom [.int 0] = .ok s := ⟨_, rfl⟩
  obtain ⟨table, ht⟩ : ∃ t, IndexTable.init [s0] 0 = .ok t := by cases h0; exact ⟨_, rfl⟩
  have hq : table.queryIndex s0 = .ok ((0 : ℕ) : ℤ) := by cases h0; cases ht; rfl
  have hd : matrixData [(((0 : ℕ) : ℤ), .creation)] [0] (some [1]) .general = .ok [(0, 0, 1)] := rfl
  obtain ⟨M, hM, hget⟩ := csr_of_data (c := 1) hd (by simp)
  refine ⟨⟨.creation, s0⟩, table, M, ?_, ?_⟩
  · unfold AoC.matrixRepr
    dsimp only
    rw [hq]
    exact hM
  · rw [hget]
    norm_num

end Verif
