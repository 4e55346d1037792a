import Verif.Proofs.Su2
import Verif.Props.Factory
import Verif.Props.FreeFermion
/-!
# C99: spin-rotation symmetry of Hamiltonians made by the factories
-/

namespace Verif

open Spec Matrix Demo Su2

/-- One of the usual spin-independent interactions.  An orbital is a pair of a site and an orbit index. -/
inductive SpinfulPart where
  /-- `coeff * sum_spin c_{o0,spin}^dagger c_{o1,spin}` -/
  | hop (o0 o1 : List Coord × ℤ) (coeff : ℂ)
  /-- `coeff * n_{o,up} n_{o,down}` -/
  | hubbard (o : List Coord × ℤ) (coeff : ℂ)
  /-- `coeff * sum_{spin0, spin1} n_{o0,spin0} n_{o1,spin1}` -/
  | coulomb (o0 o1 : List Coord × ℤ) (coeff : ℂ)
  /-- `coeff * (n_{o,up} + n_{o,down})` -/
  | potential (o : List Coord × ℤ) (coeff : ℂ)
  /-- singlet pairing, of particles (`which = "p"`) or of holes (`which = "h"`):
  `coeff * (c_{o0,up} c_{o1,down} - c_{o0,down} c_{o1,up})` -/
  | singlet (o0 o1 : List Coord × ℤ) (coeff : ℂ) (particle : Bool)

/-- The calls of the term factories (`HoppingFactory`, `HubbardFactory`, `CoulombFactory`, `CPFactory`,
`PairingFactory`, factory.py:88-341) that make the part; up is spin 1, down is spin 0 (constant.py:23-24). -/
def SpinfulPart.build (zoom : ℤ) : SpinfulPart → List (Py ParticleTerm)
  | .hop o0 o1 z =>
    [hoppingFactory zoom o0.1 o1.1 1 (some 1) o0.2 (some o1.2) z, hoppingFactory zoom o0.1 o1.1 0 (some 0) o0.2 (some o1.2) z]
  | .hubbard o z => [hubbardFactory zoom o.1 o.2 z]
  | .coulomb o0 o1 z =>
    [coulombFactory zoom o0.1 o1.1 1 1 o0.2 o1.2 z, coulombFactory zoom o0.1 o1.1 1 0 o0.2 o1.2 z,
      coulombFactory zoom o0.1 o1.1 0 1 o0.2 o1.2 z, coulombFactory zoom o0.1 o1.1 0 0 o0.2 o1.2 z]
  | .potential o z => [cpFactory zoom o.1 1 o.2 z, cpFactory zoom o.1 0 o.2 z]
  | .singlet o0 o1 z p =>
    [pairingFactory zoom o0.1 o1.1 1 0 o0.2 o1.2 z (if p then "p" else "h"),
      pairingFactory zoom o0.1 o1.1 0 1 o0.2 o1.2 (-z) (if p then "p" else "h")]

/-- All orbitals of the part are in the list. -/
def SpinfulPart.Over (orbs : List (List Coord × ℤ)) : SpinfulPart → Prop
  | .hop o0 o1 _ => o0 ∈ orbs ∧ o1 ∈ orbs
  | .hubbard o _ => o ∈ orbs
  | .coulomb o0 o1 _ => o0 ∈ orbs ∧ o1 ∈ orbs
  | .potential o _ => o ∈ orbs
  | .singlet o0 o1 _ _ => o0 ∈ orbs ∧ o1 ∈ orbs

/-- The two orbitals have different states (`StateID(...) == StateID(...)` is false). -/
def OrbitalsDiffer (zoom : ℤ) (a b : List Coord × ℤ) : Prop :=
  ∀ sa sb, StateID.init zoom a.1 1 a.2 = .ok sa → StateID.init zoom b.1 1 b.2 = .ok sb → sa.rich .eq sb = false

/-- `[matrix of each term on B]`: every call succeeds and every term can be represented; `M` is the sum of the
matrices. -/
def BuildsMatrix (table : IndexTable StateID) (B : List ℕ) (calls : List (Py ParticleTerm))
    (M : Matrix (Fin B.length) (Fin B.length) ℂ) : Prop :=
  ∃ ts Ms, List.Forall₂ (fun call t => call = .ok t) calls ts ∧
    List.Forall₂ (fun t M => (ParticleTerm.matrixRepr t table B).2 = .ok M) ts Ms ∧ M = sumMatrix B.length Ms

section proof

variable {zoom : ℤ}

theorem state_of_ok {site : List Coord} {spin orbit : ℤ} {st : StateID} (h : StateID.init zoom site spin orbit = .ok st) :
    ∃ id, SiteID.init zoom site = .ok id ∧ 0 ≤ spin ∧ 0 ≤ orbit ∧
      st = ⟨id.site, spin.toNat, orbit.toNat, id.tuple⟩ := by
  unfold StateID.init at h
  by_cases h1 : 0 ≤ spin
  · by_cases h2 : 0 ≤ orbit
    · cases hs : SiteID.init zoom site with
      | error e => simp [pyAssert, h1, h2, hs, bind, Except.bind] at h
      | ok id =>
        simp [pyAssert, h1, h2, hs, bind, Except.bind, pure, Except.pure] at h
        exact ⟨id, rfl, h1, h2, h.symm⟩
    · simp [pyAssert, h1, h2, bind, Except.bind, throw, throwThe, MonadExceptOf.throw] at h
  · simp [pyAssert, h1, bind, Except.bind, throw, throwThe, MonadExceptOf.throw] at h

theorem other_spin {site : List Coord} {orbit : ℤ} {st : StateID} (h : StateID.init zoom site 1 orbit = .ok st) :
    ∃ sd, StateID.init zoom site 0 orbit = .ok sd ∧ sd.siteTuple = st.siteTuple ∧ sd.orbit = st.orbit ∧ sd.spin = 0 ∧
      st.spin = 1 := by
  obtain ⟨id, h1, -, h2, rfl⟩ := state_of_ok h
  refine ⟨⟨id.site, 0, orbit.toNat, id.tuple⟩, ?_, rfl, rfl, rfl, rfl⟩
  unfold StateID.init
  simp [pyAssert, h1, h2, bind, Except.bind, pure, Except.pure]

theorem forall₂_of_map {α : Type*} {l : List α} {f : α → Py ParticleTerm} {g : α → ParticleTerm}
    (h : ∀ a ∈ l, f a = .ok (g a)) {ts : List ParticleTerm}
    (hf : List.Forall₂ (fun call t => call = .ok t) (l.map f) ts) : ts = l.map g := by
  induction l generalizing ts with
  | nil => cases hf; rfl
  | cons a l ih =>
    cases hf with
    | cons h1 h2 =>
      rw [h a List.mem_cons_self] at h1
      cases h1
      rw [ih (fun b hb => h b (List.mem_cons_of_mem _ hb)) h2]
      rfl

variable {table : IndexTable StateID} {m : ℕ} {orb : Fin m → List Coord × ℤ} {su sd : Fin m → StateID}

/-- the terms of a part and their operator -/
theorem part_terms (hsu : ∀ i, StateID.init zoom (orb i).1 1 (orb i).2 = .ok (su i))
    (hsd : ∀ i, StateID.init zoom (orb i).1 0 (orb i).2 = .ok (sd i))
    (hu : Function.Injective fun i => idx table (su i)) (hd : Function.Injective fun i => idx table (sd i))
    (hud : ∀ i j, idx table (su i) ≠ idx table (sd j)) {g : SpinfulPart} {orbs : List (List Coord × ℤ)}
    (horb : ∀ o ∈ orbs, ∃ i, orb i = o) (hg : g.Over orbs) :
    ∃ ts : List ParticleTerm, g.build zoom = ts.map .ok ∧ (∀ t ∈ ts, t.checkCompatibility = true) ∧
      Commute ((ts.map (opOf table)).sum) (Su2.flip (fun i => idx table (su i)) fun i => idx table (sd i)) ∧
      Commute ((ts.map (opOf table)).sum) (Su2.flip (fun i => idx table (sd i)) fun i => idx table (su i)) := by
  have hdu : ∀ i j, idx table (sd i) ≠ idx table (su j) := fun i j => (hud j i).symm
  cases g with
  | hop o0 o1 z =>
    obtain ⟨x, rfl⟩ := horb _ hg.1
    obtain ⟨y, rfl⟩ := horb _ hg.2
    obtain ⟨t1, b1, a1, c1, k1, -⟩ := C36_hopping_factory zoom (orb x).1 (orb y).1 1 (orb x).2 (some 1) (some (orb y).2) z _ _
      (hsu x) (hsu y)
    obtain ⟨t2, b2, a2, c2, k2, -⟩ := C36_hopping_factory zoom (orb x).1 (orb y).1 0 (orb x).2 (some 0) (some (orb y).2) z _ _
      (hsd x) (hsd y)
    have e : ([t1, t2].map (opOf table)).sum = z • (create (idx table (su x)) * annihilate (idx table (su y)) +
        create (idx table (sd x)) * annihilate (idx table (sd y))) := by
      simp [opOf, a1, a2, c1, c2, fockProduct, fockOp, smul_add]
    refine ⟨[t1, t2], by simp [SpinfulPart.build, b1, b2], by simp [k1, k2], ?_, ?_⟩
    · rw [e]; exact (flip_hop hu hd hud x y).smul_left z
    · rw [e, add_comm]; exact (flip_hop hd hu hdu x y).smul_left z
  | hubbard o z =>
    obtain ⟨x, rfl⟩ := horb _ hg
    obtain ⟨t, b, a, c, k, -⟩ := C36_hubbard_factory zoom (orb x).1 (orb x).2 z _ _ (hsu x) (hsd x)
    have e : ([t].map (opOf table)).sum = z • (create (idx table (su x)) * annihilate (idx table (su x)) *
        (create (idx table (sd x)) * annihilate (idx table (sd x)))) := by
      simp [opOf, a, c, fockProduct, fockOp, mul_assoc]
    refine ⟨[t], by simp [SpinfulPart.build, b], by simp [k], ?_, ?_⟩
    · rw [e]; exact (flip_hubbard hu hd hud x).smul_left z
    · rw [e, number_comm (hud x x)]; exact (flip_hubbard hd hu hdu x).smul_left z
  | coulomb o0 o1 z =>
    obtain ⟨x, rfl⟩ := horb _ hg.1
    obtain ⟨y, rfl⟩ := horb _ hg.2
    obtain ⟨t1, b1, a1, c1, k1, -⟩ := C36_coulomb_factory zoom (orb x).1 (orb y).1 1 1 (orb x).2 (orb y).2 z _ _
      (hsu x) (hsu y)
    obtain ⟨t2, b2, a2, c2, k2, -⟩ := C36_coulomb_factory zoom (orb x).1 (orb y).1 1 0 (orb x).2 (orb y).2 z _ _
      (hsu x) (hsd y)
    obtain ⟨t3, b3, a3, c3, k3, -⟩ := C36_coulomb_factory zoom (orb x).1 (orb y).1 0 1 (orb x).2 (orb y).2 z _ _
      (hsd x) (hsu y)
    obtain ⟨t4, b4, a4, c4, k4, -⟩ := C36_coulomb_factory zoom (orb x).1 (orb y).1 0 0 (orb x).2 (orb y).2 z _ _
      (hsd x) (hsd y)
    have e : ([t1, t2, t3, t4].map (opOf table)).sum =
        z • ((create (idx table (su x)) * annihilate (idx table (su x)) +
          create (idx table (sd x)) * annihilate (idx table (sd x))) *
          (create (idx table (su y)) * annihilate (idx table (su y)) +
          create (idx table (sd y)) * annihilate (idx table (sd y)))) := by
      simp [opOf, a1, a2, a3, a4, c1, c2, c3, c4, fockProduct, fockOp, smul_add, mul_add, add_mul, mul_assoc]
      abel
    refine ⟨[t1, t2, t3, t4], by simp [SpinfulPart.build, b1, b2, b3, b4], by simp [k1, k2, k3, k4], ?_, ?_⟩
    · rw [e]; exact ((flip_hop hu hd hud x x).mul_left (flip_hop hu hd hud y y)).smul_left z
    · rw [e, add_comm (create (idx table (su x)) * _), add_comm (create (idx table (su y)) * _)]
      exact ((flip_hop hd hu hdu x x).mul_left (flip_hop hd hu hdu y y)).smul_left z
  | potential o z =>
    obtain ⟨x, rfl⟩ := horb _ hg
    obtain ⟨t1, b1, a1, c1, k1, -⟩ := (C36_cp_factory zoom (orb x).1 1 (orb x).2 z).2 _ (hsu x)
    obtain ⟨t2, b2, a2, c2, k2, -⟩ := (C36_cp_factory zoom (orb x).1 0 (orb x).2 z).2 _ (hsd x)
    have e : ([t1, t2].map (opOf table)).sum = z • (create (idx table (su x)) * annihilate (idx table (su x)) +
        create (idx table (sd x)) * annihilate (idx table (sd x))) := by
      simp [opOf, a1, a2, c1, c2, fockProduct, fockOp, smul_add]
    refine ⟨[t1, t2], by simp [SpinfulPart.build, b1, b2], by simp [k1, k2], ?_, ?_⟩
    · rw [e]; exact (flip_hop hu hd hud x x).smul_left z
    · rw [e, add_comm]; exact (flip_hop hd hu hdu x x).smul_left z
  | singlet o0 o1 z p =>
    obtain ⟨x, rfl⟩ := horb _ hg.1
    obtain ⟨y, rfl⟩ := horb _ hg.2
    obtain ⟨b1, b1', -⟩ := C36_pairing_factory zoom (orb x).1 (orb y).1 1 0 (orb x).2 (orb y).2 z
      (if p then "p" else "h") _ _ (hsu x) (hsd y)
    obtain ⟨b2, b2', -⟩ := C36_pairing_factory zoom (orb x).1 (orb y).1 0 1 (orb x).2 (orb y).2 (-z)
      (if p then "p" else "h") _ _ (hsd x) (hsu y)
    cases p with
    | true =>
      have b1 := b1' (.inl rfl)
      have b2 := b2' (.inl rfl)
      refine ⟨[⟨[⟨.creation, su x⟩, ⟨.creation, sd y⟩], z, .general⟩, ⟨[⟨.creation, sd x⟩, ⟨.creation, su y⟩], -z, .general⟩], ?_,
        by simp [ParticleTerm.checkCompatibility], ?_, ?_⟩
      · change [_, _] = [_, _]
        rw [← b1, ← b2]
      · have h := flip_pair_create hd hud x y z
        simpa [opOf, fockProduct, fockOp] using h
      · have h := flip_pair_create hu hdu x y (-z)
        rw [add_comm, neg_neg] at h
        simpa [opOf, fockProduct, fockOp] using h
    | false =>
      have b1 := b1 (.inl rfl)
      have b2 := b2 (.inl rfl)
      refine ⟨[⟨[⟨.annihilation, su x⟩, ⟨.annihilation, sd y⟩], z, .general⟩, ⟨[⟨.annihilation, sd x⟩, ⟨.annihilation, su y⟩], -z, .general⟩], ?_,
        by simp [ParticleTerm.checkCompatibility], ?_, ?_⟩
      · change [_, _] = [_, _]
        rw [← b1, ← b2]
      · have h := flip_pair_annihilate hu hud x y z
        simpa [opOf, fockProduct, fockOp] using h
      · have h := flip_pair_annihilate hd hdu x y (-z)
        rw [add_comm, neg_neg] at h
        simpa [opOf, fockProduct, fockOp] using h

theorem forall₂_ok {ts ts' : List ParticleTerm} (h : List.Forall₂ (fun (call : Py ParticleTerm) t => call = .ok t)
    (ts'.map .ok) ts) : ts = ts' := by
  induction ts' generalizing ts with
  | nil => cases h; rfl
  | cons a l ih =>
    cases h with
    | cons h1 h2 =>
      cases h1
      rw [ih h2]

theorem parts_terms (hsu : ∀ i, StateID.init zoom (orb i).1 1 (orb i).2 = .ok (su i))
    (hsd : ∀ i, StateID.init zoom (orb i).1 0 (orb i).2 = .ok (sd i))
    (hu : Function.Injective fun i => idx table (su i)) (hd : Function.Injective fun i => idx table (sd i))
    (hud : ∀ i j, idx table (su i) ≠ idx table (sd j)) {orbs : List (List Coord × ℤ)}
    (horb : ∀ o ∈ orbs, ∃ i, orb i = o) {gs : List SpinfulPart} (hg : ∀ g ∈ gs, g.Over orbs) :
    ∃ ts : List ParticleTerm, gs.flatMap (SpinfulPart.build zoom) = ts.map .ok ∧ (∀ t ∈ ts, t.checkCompatibility = true) ∧
      Commute ((ts.map (opOf table)).sum) (Su2.flip (fun i => idx table (su i)) fun i => idx table (sd i)) ∧
      Commute ((ts.map (opOf table)).sum) (Su2.flip (fun i => idx table (sd i)) fun i => idx table (su i)) := by
  induction gs with
  | nil => exact ⟨[], rfl, by simp, by simp [Commute.zero_left], by simp [Commute.zero_left]⟩
  | cons g gs ih =>
    obtain ⟨ts, e, k, c1, c2⟩ := ih fun g h => hg g (List.mem_cons_of_mem _ h)
    obtain ⟨ts', e', k', c1', c2'⟩ := part_terms hsu hsd hu hd hud horb (hg g List.mem_cons_self)
    refine ⟨ts' ++ ts, by simp [e, e'], ?_, ?_, ?_⟩
    · intro t ht
      rcases List.mem_append.mp ht with h | h
      · exact k' t h
      · exact k t h
    · rw [List.map_append, List.sum_append]; exact c1'.add_left c1
    · rw [List.map_append, List.sum_append]; exact c2'.add_left c2

theorem hop_terms {orbs : List (List Coord × ℤ)} {spin0 spin1 : ℤ} {s0 s1 : Fin orbs.length → StateID}
    (h0 : ∀ i : Fin orbs.length, StateID.init zoom orbs[i].1 spin0 orbs[i].2 = .ok (s0 i))
    (h1 : ∀ i : Fin orbs.length, StateID.init zoom orbs[i].1 spin1 orbs[i].2 = .ok (s1 i)) :
    ∃ ts : List ParticleTerm,
      (orbs.map fun o => hoppingFactory zoom o.1 o.1 spin0 (some spin1) o.2) = ts.map .ok ∧
      (∀ t ∈ ts, t.checkCompatibility = true) ∧
      (ts.map (opOf table)).sum = Su2.flip (fun i => idx table (s0 i)) fun i => idx table (s1 i) := by
  have hc : ∀ i : Fin orbs.length, ∃ t, hoppingFactory zoom orbs[i].1 orbs[i].1 spin0 (some spin1) orbs[i].2 = .ok t ∧
      t.checkCompatibility = true ∧
      opOf table t = create (idx table (s0 i)) * annihilate (idx table (s1 i)) := by
    intro i
    obtain ⟨t, b, a, c, k, -⟩ := C36_hopping_factory zoom orbs[i].1 orbs[i].1 spin0 orbs[i].2 (some spin1) none 1 _ _
      (h0 i) (h1 i)
    exact ⟨t, b, k, by simp [opOf, a, c, fockProduct, fockOp]⟩
  choose t b k e using hc
  refine ⟨List.ofFn t, ?_, ?_, ?_⟩
  · apply List.ext_getElem
    · simp
    · intro n hn hn'
      simp only [List.getElem_map, List.getElem_ofFn]
      exact b ⟨n, by simpa using hn⟩
  · intro t' ht'
    obtain ⟨i, rfl⟩ := (List.mem_ofFn' _ _).mp ht'
    exact k i
  · rw [List.map_ofFn, List.sum_ofFn]
    exact Finset.sum_congr rfl fun i _ => e i

theorem cp_terms {orbs : List (List Coord × ℤ)} {spin : ℤ} {s0 : Fin orbs.length → StateID}
    (h0 : ∀ i : Fin orbs.length, StateID.init zoom orbs[i].1 spin orbs[i].2 = .ok (s0 i)) :
    ∃ t : Fin orbs.length → ParticleTerm,
      (orbs.map fun o => cpFactory zoom o.1 spin o.2) = (List.ofFn t).map .ok ∧
      (∀ t' ∈ List.ofFn t, t'.checkCompatibility = true) ∧
      (∀ i, ∃ a ∈ (t i).aocs, a.state = s0 i) ∧
      ((List.ofFn t).map (opOf table)).sum = ∑ i, create (idx table (s0 i)) * annihilate (idx table (s0 i)) := by
  have hc : ∀ i : Fin orbs.length, ∃ t, cpFactory zoom orbs[i].1 spin orbs[i].2 = .ok t ∧
      t.checkCompatibility = true ∧ (∃ a ∈ t.aocs, a.state = s0 i) ∧
      opOf table t = create (idx table (s0 i)) * annihilate (idx table (s0 i)) := by
    intro i
    obtain ⟨t, b, a, c, k, -⟩ := (C36_cp_factory zoom orbs[i].1 spin orbs[i].2 1).2 _ (h0 i)
    exact ⟨t, b, k, ⟨⟨.creation, s0 i⟩, by simp [a], rfl⟩, by simp [opOf, a, c, fockProduct, fockOp]⟩
  choose t b k k' e using hc
  refine ⟨t, ?_, ?_, k', ?_⟩
  · apply List.ext_getElem
    · simp
    · intro n hn hn'
      simp only [List.getElem_map, List.getElem_ofFn]
      exact b ⟨n, by simpa using hn⟩
  · intro t' ht'
    obtain ⟨i, rfl⟩ := (List.mem_ofFn' _ _).mp ht'
    exact k i
  · rw [List.map_ofFn, List.sum_ofFn]
    exact Finset.sum_congr rfl fun i _ => e i

end proof

/-- **C99.** Let `orbs` be different orbitals, `parts` any list of spin-independent parts over them, and `B` any
ascending basis on which all terms involved can be represented (every basis closed under spin flips and the parts:
a sector of fixed particle number, or the whole space).  Let `A` be the matrix of the parts, `P` and `Q` the matrices
of the total spin raising and lowering operators made by `HoppingFactory`, `U` and `D` the matrices of the numbers of
up and down particles made by `CPFactory`.  Then `Q` is the adjoint of `P`, `[P, Q] = U - D`, and `A`, its adjoint and
the Hamiltonian `A + A^dagger` commute with the whole spin algebra.  So raising or lowering the spin of an eigenvector
of the Hamiltonian gives an eigenvector with the same energy (or zero). -/
theorem C99_spin_symmetry (objs : List StateID) (s : ℤ) (table : IndexTable StateID)
    (hT : IndexTable.init objs s = .ok table) (zoom : ℤ) (orbs : List (List Coord × ℤ))
    (hdiff : orbs.Pairwise (OrbitalsDiffer zoom)) (parts : List SpinfulPart) (hparts : ∀ g ∈ parts, g.Over orbs)
    (B : List ℕ) (hB : B.Pairwise (· < ·)) (A P Q U D : Matrix (Fin B.length) (Fin B.length) ℂ)
    (hA : BuildsMatrix table B (parts.flatMap (SpinfulPart.build zoom)) A)
    (hP : BuildsMatrix table B (orbs.map fun o => hoppingFactory zoom o.1 o.1 1 (some 0) o.2) P)
    (hQ : BuildsMatrix table B (orbs.map fun o => hoppingFactory zoom o.1 o.1 0 (some 1) o.2) Q)
    (hU : BuildsMatrix table B (orbs.map fun o => cpFactory zoom o.1 1 o.2) U)
    (hD : BuildsMatrix table B (orbs.map fun o => cpFactory zoom o.1 0 o.2) D) :
    Q = Pᴴ ∧ P * Q - Q * P = U - D ∧
      (∀ H ∈ [A, Aᴴ, A + Aᴴ], Commute H P ∧ Commute H Q ∧ Commute H (U - D)) ∧
      ∀ (v : Fin B.length → ℂ) (E : ℂ), (A + Aᴴ) *ᵥ v = E • v →
        (A + Aᴴ) *ᵥ (P *ᵥ v) = E • (P *ᵥ v) ∧ (A + Aᴴ) *ᵥ (Q *ᵥ v) = E • (Q *ᵥ v) := by
  have hBn : B.Nodup := hB.imp fun h => Nat.ne_of_lt h
  obtain ⟨tU, mU, bU, rU, rfl⟩ := hU
  obtain ⟨tD, mD, bD, rD, rfl⟩ := hD
  obtain ⟨tP, mP, bP, rP, rfl⟩ := hP
  obtain ⟨tQ, mQ, bQ, rQ, rfl⟩ := hQ
  obtain ⟨tA, mA, bA, rA, rfl⟩ := hA
  -- the states
  have hst : ∀ i : Fin orbs.length, ∃ st, StateID.init zoom orbs[i].1 1 orbs[i].2 = .ok st := by
    intro i
    cases h : StateID.init zoom orbs[i].1 1 orbs[i].2 with
    | ok st => exact ⟨st, rfl⟩
    | error e =>
      have h1 := (C36_cp_factory zoom orbs[i].1 1 orbs[i].2 1).1 e h
      have hlen := bU.length_eq
      rw [List.length_map] at hlen
      have h2 := bU.get (i := i) (by simp) (by omega)
      simp only [List.get_eq_getElem, List.getElem_map] at h2
      rw [Fin.getElem_fin] at h1
      rw [h1] at h2
      exact absurd h2 (by simp)
  choose su hsu using hst
  have hst' := fun i => other_spin (hsu i)
  choose sd hsd d1 d2 d3 d4 using hst'
  obtain ⟨uT, eU, kU, aU, oU⟩ := cp_terms (table := table) hsu
  obtain ⟨dT, eD, kD, aD, oD⟩ := cp_terms (table := table) hsd
  rw [eU] at bU
  rw [eD] at bD
  cases forall₂_ok bU
  cases forall₂_ok bD
  obtain ⟨MU, -, iU⟩ := terms_matrix hT hB kU rU
  obtain ⟨MD, -, iD⟩ := terms_matrix hT hB kD rD
  have qU : ∀ i, ∃ n : ℤ, 0 ≤ n ∧ table.queryIndex (su i) = .ok n := by
    intro i
    obtain ⟨a, ha, hs⟩ := aU i
    have := iU _ ((List.mem_ofFn' _ _).mpr ⟨i, rfl⟩) a ha
    rwa [hs] at this
  have qD : ∀ i, ∃ n : ℤ, 0 ≤ n ∧ table.queryIndex (sd i) = .ok n := by
    intro i
    obtain ⟨a, ha, hs⟩ := aD i
    have := iD _ ((List.mem_ofFn' _ _).mpr ⟨i, rfl⟩) a ha
    rwa [hs] at this
  have key : ∀ {a b : StateID}, (∃ n : ℤ, 0 ≤ n ∧ table.queryIndex a = .ok n) →
      (∃ n : ℤ, 0 ≤ n ∧ table.queryIndex b = .ok n) → idx table a = idx table b → a.hashKey = b.hashKey := by
    rintro a b ⟨n, hn, ha⟩ ⟨n', hn', hb⟩ h
    simp only [idx, ha, hb, Except.toOption, Option.getD_some] at h
    have : n = n' := by omega
    subst this
    exact queryIndex_inj hT ha hb
  have inj : ∀ i j, (su i).hashKey = (su j).hashKey → i = j := by
    intro i j h
    by_contra hne
    have h' := (stateEq_iff (su i) (su j)).mpr h
    rcases lt_or_gt_of_ne hne with hlt | hlt
    · have := List.pairwise_iff_getElem.mp hdiff i j i.2 j.2 hlt (su i) (su j) (hsu i) (hsu j)
      change (su i).rich .eq (su j) = true at h'
      rw [this] at h'
      simp at h'
    · have := List.pairwise_iff_getElem.mp hdiff j i j.2 i.2 hlt (su j) (su i) (hsu j) (hsu i)
      have h'' := (stateEq_iff (su j) (su i)).mpr h.symm
      change (su j).rich .eq (su i) = true at h''
      rw [this] at h''
      simp at h''
  have hu : Function.Injective fun i => idx table (su i) := fun i j h => inj i j (key (qU i) (qU j) h)
  have hd : Function.Injective fun i => idx table (sd i) := by
    intro i j h
    have h1 := key (qD i) (qD j) h
    simp only [StateID.hashKey, Prod.mk.injEq] at h1
    refine inj i j ?_
    simp only [StateID.hashKey, Prod.mk.injEq]
    exact ⟨by rw [← d1, ← d1]; exact h1.1, by rw [d4, d4], by rw [← d2, ← d2]; exact h1.2.2⟩
  have hud : ∀ i j, idx table (su i) ≠ idx table (sd j) := by
    intro i j h
    have h1 := key (qU i) (qD j) h
    simp only [StateID.hashKey, Prod.mk.injEq, d3, d4] at h1
    exact absurd h1.2.1 (by norm_num)
  obtain ⟨tP', eP, kP, oP⟩ := hop_terms (table := table) hsu hsd
  obtain ⟨tQ', eQ, kQ, oQ⟩ := hop_terms (table := table) hsd hsu
  rw [eP] at bP
  rw [eQ] at bQ
  cases forall₂_ok bP
  cases forall₂_ok bQ
  obtain ⟨MP, cP, -⟩ := terms_matrix hT hB kP rP
  obtain ⟨MQ, cQ, -⟩ := terms_matrix hT hB kQ rQ
  obtain ⟨tA', eA, kA, oA, oA'⟩ := parts_terms (table := table) (orb := fun i : Fin orbs.length => orbs[i]) hsu hsd hu hd hud
    (orbs := orbs) (fun o ho => by
      obtain ⟨n, hn, rfl⟩ := List.mem_iff_getElem.mp ho
      exact ⟨⟨n, hn⟩, rfl⟩) hparts
  rw [eA] at bA
  cases forall₂_ok bA
  obtain ⟨MA, cA, -⟩ := terms_matrix hT hB kA rA
  rw [oU] at MU
  rw [oD] at MD
  rw [oP] at MP cP
  rw [oQ] at MQ cQ
  have hadj : sumMatrix B.length mQ = (sumMatrix B.length mP)ᴴ := by
    rw [MP, MQ]
    exact (Demo.opMat_adj isAdj_flip).symm
  have hcomm : sumMatrix B.length mP * sumMatrix B.length mQ - sumMatrix B.length mQ * sumMatrix B.length mP =
      sumMatrix B.length mU - sumMatrix B.length mD := by
    have h := congrArg (opMat B) (flip_flip hu hd)
    rw [map_add, map_add, opMat_eq_opMat2 B (_ * _), opMat_eq_opMat2 B (Su2.flip _ _ * _), ← opMat2_mul hBn cQ,
      ← opMat2_mul hBn cP] at h
    rw [MP, MQ, MU, MD]
    exact sub_eq_sub_iff_add_eq_add.mpr (h.trans (add_comm _ _))
  have hAP : Commute (sumMatrix B.length mA) (sumMatrix B.length mP) := by
    have h := congrArg (opMat B) oA.eq
    rw [opMat_eq_opMat2 B (_ * _), opMat_eq_opMat2 B (Su2.flip _ _ * _), ← opMat2_mul hBn cP, ← opMat2_mul hBn cA] at h
    rw [MA, MP]
    exact h
  have hAQ : Commute (sumMatrix B.length mA) (sumMatrix B.length mQ) := by
    have h := congrArg (opMat B) oA'.eq
    rw [opMat_eq_opMat2 B (_ * _), opMat_eq_opMat2 B (Su2.flip _ _ * _), ← opMat2_mul hBn cQ, ← opMat2_mul hBn cA] at h
    rw [MA, MQ]
    exact h
  generalize sumMatrix B.length mA = A at *
  generalize sumMatrix B.length mP = P at *
  generalize sumMatrix B.length mQ = Q at *
  generalize sumMatrix B.length mU = U at *
  generalize sumMatrix B.length mD = D at *
  have hadj' : P = Qᴴ := by rw [hadj, conjTranspose_conjTranspose]
  have hAP' : Commute Aᴴ P := by
    have := congrArg conjTranspose hAQ.eq
    rw [conjTranspose_mul, conjTranspose_mul, ← hadj'] at this
    exact this.symm
  have hAQ' : Commute Aᴴ Q := by
    have := congrArg conjTranspose hAP.eq
    rw [conjTranspose_mul, conjTranspose_mul, ← hadj] at this
    exact this.symm
  have hall : ∀ H ∈ [A, Aᴴ, A + Aᴴ], Commute H P ∧ Commute H Q := by
    intro H hH
    simp only [List.mem_cons, List.not_mem_nil, or_false] at hH
    rcases hH with rfl | rfl | rfl
    · exact ⟨hAP, hAQ⟩
    · exact ⟨hAP', hAQ'⟩
    · exact ⟨hAP.add_left hAP', hAQ.add_left hAQ'⟩
  refine ⟨hadj, hcomm, ?_, ?_⟩
  · intro H hH
    obtain ⟨h1, h2⟩ := hall H hH
    refine ⟨h1, h2, ?_⟩
    rw [← hcomm]
    exact (h1.mul_right h2).sub_right (h2.mul_right h1)
  · intro v E hv
    obtain ⟨h1, h2⟩ := hall (A + Aᴴ) (by simp)
    constructor
    · rw [mulVec_mulVec, h1.eq, ← mulVec_mulVec, hv, mulVec_smul]
    · rw [mulVec_mulVec, h2.eq, ← mulVec_mulVec, hv, mulVec_smul]

/-! ### The hypotheses of C99 can be met -/

/-- every orbital of the list has its two states among the first `n` states of the table -/
def OrbitalsIn (table : IndexTable StateID) (zoom : ℤ) (n : ℕ) (orbs : List (List Coord × ℤ)) : Prop :=
  ∀ o ∈ orbs, ∀ spin ∈ [(1 : ℤ), 0], ∃ st, StateID.init zoom o.1 spin o.2 = .ok st ∧
    ∃ i < n, table.queryIndex st = .ok (i : ℕ)

/-- the part conserves the number of particles -/
def SpinfulPart.Conserving : SpinfulPart → Prop
  | .singlet _ _ _ _ => False
  | _ => True

theorem represent_of_maps {objs : List StateID} {s : ℤ} {table : IndexTable StateID}
    (hT : IndexTable.init objs s = .ok table) {n : ℕ} (h64 : n ≤ 64) {B : List ℕ} (hB : B.Pairwise (· < ·))
    {t : ParticleTerm} (hct : t.checkCompatibility = true) (hne : t.aocs ≠ [])
    (hi : ∀ a ∈ t.aocs, ∃ i < n, table.queryIndex a.state = .ok (i : ℕ))
    (hm : MapsTo (fockProduct (t.aocs.map fun a => (idx table a.state, a.otype))) B B) :
    ∃ M, (ParticleTerm.matrixRepr t table B).2 = .ok M := by
  have hind : ({ t with classification := .general } : ParticleTerm).indexed table =
      .ok (t.aocs.map (indexedAoC table)) := by
    rw [indexed_ok_iff]
    exact ⟨fun a ha => by obtain ⟨i, -, h⟩ := hi a ha; exact ⟨_, h⟩, rfl⟩
  have hv : ValidTerm (t.aocs.map (indexedAoC table)) := by
    refine ⟨by simpa using hne, ?_⟩
    intro p hp
    obtain ⟨a, ha, rfl⟩ := List.mem_map.mp hp
    obtain ⟨i, hin, h⟩ := hi a ha
    simp only [indexedAoC, h, Except.toOption, Option.getD_some]
    omega
  have e : termOperator (t.aocs.map (indexedAoC table)) =
      fockProduct (t.aocs.map fun a => (idx table a.state, a.otype)) := by
    unfold termOperator
    rw [List.map_map]
    rfl
  obtain ⟨M, hM⟩ := general_csr_of (right := B) (left := none) t.coeff hv hB (fun h => h)
    (mapsTo_iff_image.1 (by rw [e]; exact hm))
  refine ⟨M, ?_⟩
  rw [C23_compatible_terms_partial objs s table hT t B none hct fun _ => ⟨rfl, hB⟩, matrixRepr_none, hind]
  exact hM

/-- a factory call whose term can be represented -/
def Representable (table : IndexTable StateID) (B : List ℕ) (call : Py ParticleTerm) : Prop :=
  ∃ t M, call = .ok t ∧ (ParticleTerm.matrixRepr t table B).2 = .ok M

theorem buildsMatrix_of {table : IndexTable StateID} {B : List ℕ} {calls : List (Py ParticleTerm)}
    (h : ∀ call ∈ calls, Representable table B call) : ∃ M, BuildsMatrix table B calls M := by
  have : ∃ ts Ms, List.Forall₂ (fun call t => call = .ok t) calls ts ∧
      List.Forall₂ (fun t M => (ParticleTerm.matrixRepr t table B).2 = .ok M) ts Ms := by
    induction calls with
    | nil => exact ⟨[], [], .nil, .nil⟩
    | cons call calls ih =>
      obtain ⟨ts, Ms, h1, h2⟩ := ih fun c hc => h c (List.mem_cons_of_mem _ hc)
      obtain ⟨t, M, h3, h4⟩ := h call List.mem_cons_self
      exact ⟨t :: ts, M :: Ms, .cons h3 h1, .cons h4 h2⟩
  obtain ⟨ts, Ms, h1, h2⟩ := this
  exact ⟨_, ts, Ms, h1, h2, rfl⟩

section representable

variable {objs : List StateID} {s : ℤ} {table : IndexTable StateID} {n : ℕ} {B : List ℕ} {zoom : ℤ}

theorem hopping_representable (hT : IndexTable.init objs s = .ok table) (h64 : n ≤ 64) (hB : B.Pairwise (· < ·))
    (hmaps : ∀ i < n, ∀ j < n, MapsTo (create i * annihilate j) B B) {site0 site1 : List Coord} {spin0 spin1 orbit0 : ℤ}
    {orbit1 : Option ℤ} {z : ℂ} {a b : StateID} (ha : StateID.init zoom site0 spin0 orbit0 = .ok a)
    (hb : StateID.init zoom site1 spin1 (orbit1.getD orbit0) = .ok b) {i j : ℕ} (hi : i < n) (hj : j < n)
    (hai : table.queryIndex a = .ok (i : ℕ)) (hbj : table.queryIndex b = .ok (j : ℕ)) :
    Representable table B (hoppingFactory zoom site0 site1 spin0 (some spin1) orbit0 orbit1 z) := by
  obtain ⟨t, e, aocs, c, k, -⟩ := C36_hopping_factory zoom site0 site1 spin0 orbit0 (some spin1) orbit1 z a b ha hb
  obtain ⟨M, hM⟩ := represent_of_maps hT h64 hB k (by simp [aocs])
    (by
      intro x hx
      simp only [aocs, List.mem_cons, List.not_mem_nil, or_false] at hx
      rcases hx with rfl | rfl
      · exact ⟨i, hi, hai⟩
      · exact ⟨j, hj, hbj⟩)
    (by
      have := hmaps i hi j hj
      simpa [aocs, fockProduct, fockOp, idx, hai, hbj, Except.toOption] using this)
  exact ⟨t, M, e, hM⟩

theorem cp_representable (hT : IndexTable.init objs s = .ok table) (h64 : n ≤ 64) (hB : B.Pairwise (· < ·))
    (hmaps : ∀ i < n, ∀ j < n, MapsTo (create i * annihilate j) B B) {site : List Coord} {spin orbit : ℤ} {z : ℂ}
    {a : StateID} (ha : StateID.init zoom site spin orbit = .ok a) {i : ℕ} (hi : i < n)
    (hai : table.queryIndex a = .ok (i : ℕ)) : Representable table B (cpFactory zoom site spin orbit z) := by
  obtain ⟨t, e, aocs, c, k, -⟩ := (C36_cp_factory zoom site spin orbit z).2 a ha
  obtain ⟨M, hM⟩ := represent_of_maps hT h64 hB k (by simp [aocs])
    (by
      intro x hx
      simp only [aocs, List.mem_cons, List.not_mem_nil, or_false] at hx
      rcases hx with rfl | rfl
      · exact ⟨i, hi, hai⟩
      · exact ⟨i, hi, hai⟩)
    (by
      have := hmaps i hi i hi
      simpa [aocs, fockProduct, fockOp, idx, hai, Except.toOption] using this)
  exact ⟨t, M, e, hM⟩

theorem twoNumber_representable (hT : IndexTable.init objs s = .ok table) (h64 : n ≤ 64) (hB : B.Pairwise (· < ·))
    (hmaps : ∀ i < n, ∀ j < n, MapsTo (create i * annihilate j) B B) {call : Py ParticleTerm} {t : ParticleTerm}
    (e : call = .ok t) {a b : StateID}
    (aocs : t.aocs = [⟨.creation, a⟩, ⟨.annihilation, a⟩, ⟨.creation, b⟩, ⟨.annihilation, b⟩])
    (k : t.checkCompatibility = true) {i j : ℕ} (hi : i < n) (hj : j < n)
    (hai : table.queryIndex a = .ok (i : ℕ)) (hbj : table.queryIndex b = .ok (j : ℕ)) :
    Representable table B call := by
  obtain ⟨M, hM⟩ := represent_of_maps hT h64 hB k (by simp [aocs])
    (by
      intro x hx
      simp only [aocs, List.mem_cons, List.not_mem_nil, or_false] at hx
      rcases hx with rfl | rfl | rfl | rfl
      · exact ⟨i, hi, hai⟩
      · exact ⟨i, hi, hai⟩
      · exact ⟨j, hj, hbj⟩
      · exact ⟨j, hj, hbj⟩)
    (by
      have := MapsTo.mul (hB.imp fun h => Nat.ne_of_lt h) (hmaps i hi i hi) (hmaps j hj j hj)
      simpa [aocs, fockProduct, fockOp, idx, hai, hbj, Except.toOption, mul_assoc] using this)
  exact ⟨t, M, e, hM⟩

theorem pairing_representable (hT : IndexTable.init objs s = .ok table) (h64 : n ≤ 64) (hB : B.Pairwise (· < ·))
    (hmaps : ∀ o : Otype, ∀ i < n, MapsTo (fockOp o i) B B) {o : Otype} {a b : StateID} {z : ℂ} {i j : ℕ} (hi : i < n)
    (hj : j < n) (hai : table.queryIndex a = .ok (i : ℕ)) (hbj : table.queryIndex b = .ok (j : ℕ)) :
    Representable table B (.ok ⟨[⟨o, a⟩, ⟨o, b⟩], z, .general⟩) := by
  obtain ⟨M, hM⟩ := represent_of_maps (t := ⟨[⟨o, a⟩, ⟨o, b⟩], z, .general⟩) hT h64 hB
    (by simp [ParticleTerm.checkCompatibility]) (by simp)
    (by
      intro x hx
      simp only [List.mem_cons, List.not_mem_nil, or_false] at hx
      rcases hx with rfl | rfl
      · exact ⟨i, hi, hai⟩
      · exact ⟨j, hj, hbj⟩)
    (by
      have := MapsTo.mul (hB.imp fun h => Nat.ne_of_lt h) (hmaps o i hi) (hmaps o j hj)
      simpa [fockProduct, idx, hai, hbj, Except.toOption] using this)
  exact ⟨_, M, rfl, hM⟩

theorem part_representable (hT : IndexTable.init objs s = .ok table) (h64 : n ≤ 64) (hB : B.Pairwise (· < ·))
    (hmaps : ∀ i < n, ∀ j < n, MapsTo (create i * annihilate j) B B) {orbs : List (List Coord × ℤ)}
    (horbs : OrbitalsIn table zoom n orbs) {g : SpinfulPart} (hg : g.Over orbs)
    (hcon : g.Conserving ∨ ∀ o : Otype, ∀ i < n, MapsTo (fockOp o i) B B) :
    ∀ call ∈ g.build zoom, Representable table B call := by
  cases g with
  | hop o0 o1 z =>
    obtain ⟨a1, ha1, i1, hi1, q1⟩ := horbs o0 hg.1 1 (by simp)
    obtain ⟨b1, hb1, j1, hj1, r1⟩ := horbs o1 hg.2 1 (by simp)
    obtain ⟨a0, ha0, i0, hi0, q0⟩ := horbs o0 hg.1 0 (by simp)
    obtain ⟨b0, hb0, j0, hj0, r0⟩ := horbs o1 hg.2 0 (by simp)
    intro call hcall
    simp only [SpinfulPart.build, List.mem_cons, List.not_mem_nil, or_false] at hcall
    rcases hcall with rfl | rfl
    · exact hopping_representable hT h64 hB hmaps ha1 hb1 hi1 hj1 q1 r1
    · exact hopping_representable hT h64 hB hmaps ha0 hb0 hi0 hj0 q0 r0
  | hubbard o z =>
    obtain ⟨a1, ha1, i1, hi1, q1⟩ := horbs o hg 1 (by simp)
    obtain ⟨a0, ha0, i0, hi0, q0⟩ := horbs o hg 0 (by simp)
    intro call hcall
    simp only [SpinfulPart.build, List.mem_cons, List.not_mem_nil, or_false] at hcall
    subst hcall
    obtain ⟨t, e, aocs, -, k, -⟩ := C36_hubbard_factory zoom o.1 o.2 z _ _ ha1 ha0
    exact twoNumber_representable hT h64 hB hmaps e aocs k hi1 hi0 q1 q0
  | coulomb o0 o1 z =>
    have main : ∀ spin0 ∈ [(1 : ℤ), 0], ∀ spin1 ∈ [(1 : ℤ), 0],
        Representable table B (coulombFactory zoom o0.1 o1.1 spin0 spin1 o0.2 o1.2 z) := by
      intro spin0 h0 spin1 h1
      obtain ⟨a, ha, i, hi, q⟩ := horbs o0 hg.1 spin0 h0
      obtain ⟨b, hb, j, hj, r⟩ := horbs o1 hg.2 spin1 h1
      obtain ⟨t, e, aocs, -, k, -⟩ := C36_coulomb_factory zoom o0.1 o1.1 spin0 spin1 o0.2 o1.2 z _ _ ha hb
      exact twoNumber_representable hT h64 hB hmaps e aocs k hi hj q r
    intro call hcall
    simp only [SpinfulPart.build, List.mem_cons, List.not_mem_nil, or_false] at hcall
    rcases hcall with rfl | rfl | rfl | rfl <;> exact main _ (by simp) _ (by simp)
  | potential o z =>
    obtain ⟨a1, ha1, i1, hi1, q1⟩ := horbs o hg 1 (by simp)
    obtain ⟨a0, ha0, i0, hi0, q0⟩ := horbs o hg 0 (by simp)
    intro call hcall
    simp only [SpinfulPart.build, List.mem_cons, List.not_mem_nil, or_false] at hcall
    rcases hcall with rfl | rfl
    · exact cp_representable hT h64 hB hmaps ha1 hi1 q1
    · exact cp_representable hT h64 hB hmaps ha0 hi0 q0
  | singlet o0 o1 z p =>
    have hmaps2 := hcon.resolve_left (fun h => h)
    have main : ∀ spin0 ∈ [(1 : ℤ), 0], ∀ spin1 ∈ [(1 : ℤ), 0], ∀ z : ℂ,
        Representable table B (pairingFactory zoom o0.1 o1.1 spin0 spin1 o0.2 o1.2 z (if p then "p" else "h")) := by
      intro spin0 h0 spin1 h1 z
      obtain ⟨a, ha, i, hi, q⟩ := horbs o0 hg.1 spin0 h0
      obtain ⟨b, hb, j, hj, r⟩ := horbs o1 hg.2 spin1 h1
      obtain ⟨e1, e2, -⟩ := C36_pairing_factory zoom o0.1 o1.1 spin0 spin1 o0.2 o1.2 z (if p then "p" else "h") _ _ ha hb
      cases p with
      | true =>
        rw [e2 (.inl rfl)]
        exact pairing_representable hT h64 hB hmaps2 hi hj q r
      | false =>
        rw [e1 (.inl rfl)]
        exact pairing_representable hT h64 hB hmaps2 hi hj q r
    intro call hcall
    simp only [SpinfulPart.build, List.mem_cons, List.not_mem_nil, or_false] at hcall
    rcases hcall with rfl | rfl <;> exact main _ (by simp) _ (by simp) _

theorem all_represent (hT : IndexTable.init objs s = .ok table) (h64 : n ≤ 64) (hB : B.Pairwise (· < ·))
    (hmaps : ∀ i < n, ∀ j < n, MapsTo (create i * annihilate j) B B) {orbs : List (List Coord × ℤ)}
    (horbs : OrbitalsIn table zoom n orbs) {parts : List SpinfulPart} (hparts : ∀ g ∈ parts, g.Over orbs)
    (hcon : (∀ g ∈ parts, g.Conserving) ∨ ∀ o : Otype, ∀ i < n, MapsTo (fockOp o i) B B) :
    ∃ A P Q U D : Matrix (Fin B.length) (Fin B.length) ℂ,
      BuildsMatrix table B (parts.flatMap (SpinfulPart.build zoom)) A ∧
      BuildsMatrix table B (orbs.map fun o => hoppingFactory zoom o.1 o.1 1 (some 0) o.2) P ∧
      BuildsMatrix table B (orbs.map fun o => hoppingFactory zoom o.1 o.1 0 (some 1) o.2) Q ∧
      BuildsMatrix table B (orbs.map fun o => cpFactory zoom o.1 1 o.2) U ∧
      BuildsMatrix table B (orbs.map fun o => cpFactory zoom o.1 0 o.2) D := by
  have hhop : ∀ spin0 ∈ [(1 : ℤ), 0], ∀ spin1 ∈ [(1 : ℤ), 0],
      ∃ M, BuildsMatrix table B (orbs.map fun o => hoppingFactory zoom o.1 o.1 spin0 (some spin1) o.2) M := by
    intro spin0 h0 spin1 h1
    refine buildsMatrix_of fun call hcall => ?_
    obtain ⟨o, ho, rfl⟩ := List.mem_map.mp hcall
    obtain ⟨a, ha, i, hi, q⟩ := horbs o ho spin0 h0
    obtain ⟨b, hb, j, hj, r⟩ := horbs o ho spin1 h1
    exact hopping_representable (orbit1 := none) hT h64 hB hmaps ha hb hi hj q r
  have hcp : ∀ spin ∈ [(1 : ℤ), 0], ∃ M, BuildsMatrix table B (orbs.map fun o => cpFactory zoom o.1 spin o.2) M := by
    intro spin h0
    refine buildsMatrix_of fun call hcall => ?_
    obtain ⟨o, ho, rfl⟩ := List.mem_map.mp hcall
    obtain ⟨a, ha, i, hi, q⟩ := horbs o ho spin h0
    exact cp_representable hT h64 hB hmaps ha hi q
  obtain ⟨A, hA⟩ := buildsMatrix_of (table := table) (B := B) (calls := parts.flatMap (SpinfulPart.build zoom)) (by
    intro call hcall
    obtain ⟨g, hg, h⟩ := List.mem_flatMap.mp hcall
    exact part_representable hT h64 hB hmaps horbs (hparts g hg) (hcon.imp (fun h => h g hg) id) call h)
  obtain ⟨P, hP⟩ := hhop 1 (by simp) 0 (by simp)
  obtain ⟨Q, hQ⟩ := hhop 0 (by simp) 1 (by simp)
  obtain ⟨U, hU⟩ := hcp 1 (by simp)
  obtain ⟨D, hD⟩ := hcp 0 (by simp)
  exact ⟨A, P, Q, U, D, hA, hP, hQ, hU, hD⟩

end representable

/-- **C99** (the hypotheses are met).  If the states of the orbitals are among the first `n <= 64` of the table, all
terms of C99 can be represented on every particle-number sector `base_vectors((n, N))` when no part is a pairing, and
on the whole space, the `2^n` kets, in any case. -/
theorem C99_representable (objs : List StateID) (s : ℤ) (table : IndexTable StateID)
    (hT : IndexTable.init objs s = .ok table) (zoom : ℤ) (n : ℕ) (hn : 0 < n) (h64 : n ≤ 64)
    (orbs : List (List Coord × ℤ)) (horbs : OrbitalsIn table zoom n orbs) (parts : List SpinfulPart)
    (hparts : ∀ g ∈ parts, g.Over orbs) (B : List ℕ)
    (hB : (∃ N ≤ n, baseVectors [.tuple [.int n, .int N]] = .ok B ∧ ∀ g ∈ parts, g.Conserving) ∨
      B = List.range (2 ^ n)) :
    B.Pairwise (· < ·) ∧ ∃ A P Q U D : Matrix (Fin B.length) (Fin B.length) ℂ,
      BuildsMatrix table B (parts.flatMap (SpinfulPart.build zoom)) A ∧
      BuildsMatrix table B (orbs.map fun o => hoppingFactory zoom o.1 o.1 1 (some 0) o.2) P ∧
      BuildsMatrix table B (orbs.map fun o => hoppingFactory zoom o.1 o.1 0 (some 1) o.2) Q ∧
      BuildsMatrix table B (orbs.map fun o => cpFactory zoom o.1 1 o.2) U ∧
      BuildsMatrix table B (orbs.map fun o => cpFactory zoom o.1 0 o.2) D := by
  rcases hB with ⟨N, hN, hB, hcon⟩ | rfl
  · obtain ⟨B', hB', hasc, hl⟩ := sector_basis hn h64 hN
    rw [hB] at hB'
    cases hB'
    exact ⟨hasc, all_represent hT h64 hasc (fun i hi j hj => Free.mapsTo_hop hl ⟨i, hi⟩ ⟨j, hj⟩) horbs hparts (.inl hcon)⟩
  · have hasc : (List.range (2 ^ n)).Pairwise (· < ·) := List.pairwise_lt_range
    have hm : ∀ o : Otype, ∀ i < n, MapsTo (fockOp o i) (List.range (2 ^ n)) (List.range (2 ^ n)) := by
      intro o i hi
      have := mapsTo_full hi o
      cases o <;> exact this
    refine ⟨hasc, all_represent hT h64 hasc (fun i hi j hj => ?_) horbs hparts (.inr hm)⟩
    exact MapsTo.mul List.nodup_range (hm .creation i hi) (hm .annihilation j hj)

/-- Non-vacuity of C99 and of `C99_representable`: two sites with all kinds of parts. -/
example :
    ∃ (u0 d0 u1 d1 : StateID) (table : IndexTable StateID), IndexTable.init [u0, d0, u1, d1] 0 = .ok table ∧
      StateID.init defaultZoom [.int 0] 1 0 = .ok u0 ∧ StateID.init defaultZoom [.int 0] 0 0 = .ok d0 ∧
      StateID.init defaultZoom [.int 1] 1 0 = .ok u1 ∧ StateID.init defaultZoom [.int 1] 0 0 = .ok d1 ∧
      OrbitalsIn table defaultZoom 4 [([.int 0], 0), ([.int 1], 0)] ∧
      [([Coord.int 0], (0 : ℤ)), ([.int 1], 0)].Pairwise (OrbitalsDiffer defaultZoom) ∧
      ∀ g ∈ [SpinfulPart.hop ([.int 0], 0) ([.int 1], 0) Complex.I, .hubbard ([.int 0], 0) 4, .hubbard ([.int 1], 0) 4,
        .coulomb ([.int 0], 0) ([.int 1], 0) 2, .potential ([.int 1], 0) (-1),
        .singlet ([.int 0], 0) ([.int 1], 0) 3 true], g.Over [([.int 0], 0), ([.int 1], 0)] := by
  refine ⟨_, _, _, _, _, rfl, rfl, rfl, rfl, rfl, ?_, ?_, ?_⟩
  · intro o ho spin hspin
    simp only [List.mem_cons, List.not_mem_nil, or_false] at ho hspin
    rcases ho with rfl | rfl <;> rcases hspin with rfl | rfl
    · exact ⟨_, rfl, 0, by norm_num, rfl⟩
    · exact ⟨_, rfl, 1, by norm_num, rfl⟩
    · exact ⟨_, rfl, 2, by norm_num, rfl⟩
    · exact ⟨_, rfl, 3, by norm_num, rfl⟩
  · simp only [List.pairwise_cons, List.mem_singleton, forall_eq, List.not_mem_nil, false_imp_iff, implies_true,
      List.Pairwise.nil, and_true]
    intro sa sb ha hb
    cases ha
    cases hb
    rfl
  · intro g hg
    simp only [List.mem_cons, List.not_mem_nil, or_false] at hg
    rcases hg with rfl | rfl | rfl | rfl | rfl | rfl <;> simp [SpinfulPart.Over]

end Verif
