import Verif.Spec.LatticeBand
import Verif.Proofs.Coordination
import Verif.Proofs.HubbardH
import Verif.Proofs.RingGreen
import Verif.Props.FreeFermion
import Verif.Props.LatticeDatabase
import Mathlib.LinearAlgebra.LinearIndependent.Lemmas
import Mathlib.Data.Fintype.EquivFin
import Mathlib.Logic.Equiv.Fin.Basic
/-!
# Lemmas for C107: the tight-binding model of a built-in lattice
-/

namespace Verif.LDB

open Verif.Latt Classical

section degree

variable {n m k : ℕ} {S : Set (Pt m)} {points : Fin n → Pt m} {v : Fin k → Pt m} {P : ℝ → Prop}
  {intra inter : List (Pt m × Pt m)}

theorem list_sum_ite {α : Type*} [DecidableEq α] {l : List α} (hl : l.Nodup) (q : α → Prop)
    [DecidablePred q] (g : α → ℂ) :
    (l.map fun b => if q b then g b else 0).sum = ∑ b ∈ l.toFinset.filter q, g b := by
  rw [Finset.sum_filter, List.sum_toFinset _ hl]

/-- The values of a periodic function at the neighbours of a point, collected from the bonds. -/
theorem weighted_degree (ht : ExactTiling S points v) (hl : ListsBonds S points v P intra inter) (hP : ¬ P 0)
    {fold : Pt m → Pt m} (hfold : ∀ j c, fold (points j + comb v c) = points j) (i : Fin n) {f : Pt m → ℂ}
    (hf : Periodic v f) :
    ((intra ++ inter).map fun b => if b.1 = points i then f b.2 else 0).sum +
      ((intra ++ inter).map fun b => if fold b.2 = points i then f b.1 else 0).sum =
      ∑ᶠ x ∈ {x | x ∈ S ∧ P (ndist (points i) x)}, f x := by
  rw [list_sum_ite hl.nodup (fun b => b.1 = points i) fun b => f b.2,
    list_sum_ite hl.nodup (fun b => fold b.2 = points i) fun b => f b.1]
  set B := (intra ++ inter).toFinset with hB
  have hmem : ∀ {b : Pt m × Pt m}, b ∈ B → b ∈ intra ++ inter := fun h => List.mem_toFinset.mp h
  have hback : ∀ b ∈ B.filter (fun b => fold b.2 = points i), ∃ c, b.2 = points i + comb v c := by
    intro b hb
    obtain ⟨h1, h2⟩ := Finset.mem_filter.mp hb
    obtain ⟨-, h3, -⟩ := listed ht hl (hmem h1)
    obtain ⟨⟨j, c⟩, hj, -⟩ := ht.covers _ h3
    refine ⟨c, ?_⟩
    dsimp only at hj
    rw [hj, hfold] at h2
    rw [hj, h2]
  have hsite : ∀ t, t ∈ S → P (ndist (points i) t) →
      ∀ b ∈ B, ∀ b' ∈ B, SameBond v b (points i, t) → SameBond v b' (points i, t) → b = b' := by
    intro t hs hp b hb b' hb' h h'
    have hi : points i ∈ S := by
      have := ht.inside i 0
      rwa [comb_zero, add_zero] at this
    obtain ⟨x, -, hx⟩ := hl.each _ hi _ hs hp
    rw [hx b ⟨hmem hb, h⟩, hx b' ⟨hmem hb', h'⟩]
  set f2 : Pt m × Pt m → Pt m := fun b => b.1 - b.2 + points i with hf2
  have hin1 : ∀ b ∈ B.filter (fun b => b.1 = points i), b.2 ∈ S ∧ P (ndist (points i) b.2) ∧
      SameBond v b (points i, b.2) := by
    intro b hb
    obtain ⟨h1, h2⟩ := Finset.mem_filter.mp hb
    obtain ⟨-, h3, h4⟩ := listed ht hl (hmem h1)
    refine ⟨h3, by rw [← h2]; exact h4, 0, Or.inl ⟨?_, ?_⟩⟩
    · rw [comb_zero, add_zero]; exact h2
    · rw [comb_zero, add_zero]
  have hin2 : ∀ b ∈ B.filter (fun b => fold b.2 = points i), f2 b ∈ S ∧ P (ndist (points i) (f2 b)) ∧
      SameBond v b (points i, f2 b) ∧ f (f2 b) = f b.1 := by
    intro b hb
    obtain ⟨c, hc⟩ := hback b hb
    obtain ⟨h1, -⟩ := Finset.mem_filter.mp hb
    obtain ⟨⟨j, hj⟩, -, h4⟩ := listed ht hl (hmem h1)
    have e : f2 b = points j + comb v (-c) := by
      rw [hf2, comb_neg]
      dsimp only
      rw [hj, hc]
      abel
    refine ⟨by rw [e]; exact ht.inside j _, ?_, ⟨-c, Or.inr ⟨?_, ?_⟩⟩, by rw [e, hf, hj]⟩
    · rw [ndist_comm, ndist_sub (f2 b) (points i) b.1 b.2 (by rw [hf2]; dsimp only; abel)]
      exact h4
    · rw [e, hj]
    · rw [comb_neg, hc]; dsimp only; abel
  have hset : {t | t ∈ S ∧ P (ndist (points i) t)} =
      (((B.filter (fun b => b.1 = points i)).image Prod.snd ∪
        (B.filter (fun b => fold b.2 = points i)).image f2 : Finset (Pt m)) : Set (Pt m)) := by
    ext t
    simp only [Set.mem_ofPred_eq, Finset.coe_union, Finset.coe_image, Set.mem_union, Set.mem_image,
      Finset.mem_coe]
    constructor
    · rintro ⟨hs, hp⟩
      have hi : points i ∈ S := by
        have := ht.inside i 0
        rwa [comb_zero, add_zero] at this
      obtain ⟨b, ⟨hb, c, hc⟩, -⟩ := hl.each _ hi _ hs hp
      have hbB : b ∈ B := List.mem_toFinset.mpr hb
      obtain ⟨⟨j, hj⟩, -, -⟩ := listed ht hl hb
      rcases hc with ⟨h1, h2⟩ | ⟨h1, h2⟩
      · left
        dsimp only at h1 h2
        have : points j + comb v c = points i + comb v 0 := by rw [comb_zero, add_zero, ← hj, h1]
        obtain ⟨-, rfl⟩ := tiling_inj' ht this
        rw [comb_zero, add_zero] at h1 h2
        exact ⟨b, Finset.mem_filter.mpr ⟨hbB, h1⟩, h2⟩
      · right
        dsimp only at h1 h2
        have e : b.2 = points i + comb v (-c) := by rw [comb_neg, ← h2]; abel
        refine ⟨b, Finset.mem_filter.mpr ⟨hbB, by rw [e, hfold]⟩, ?_⟩
        rw [hf2]
        dsimp only
        rw [← h1, ← h2]
        abel
    · rintro (⟨b, hb, rfl⟩ | ⟨b, hb, rfl⟩)
      · exact ⟨(hin1 b hb).1, (hin1 b hb).2.1⟩
      · exact ⟨(hin2 b hb).1, (hin2 b hb).2.1⟩
  rw [hset, finsum_mem_coe_finset, Finset.sum_union, Finset.sum_image, Finset.sum_image]
  · congr 1
    exact Finset.sum_congr rfl fun b hb => ((hin2 b hb).2.2.2).symm
  · intro b hb b' hb' e
    have hb := Finset.mem_coe.mp hb
    have hb' := Finset.mem_coe.mp hb'
    obtain ⟨h1, h2, h3, -⟩ := hin2 b hb
    obtain ⟨-, -, h3', -⟩ := hin2 b' hb'
    have e : f2 b = f2 b' := e
    rw [← e] at h3'
    exact hsite _ h1 h2 b (Finset.mem_filter.mp hb).1 b' (Finset.mem_filter.mp hb').1 h3 h3'
  · intro b hb b' hb' e
    have hb := Finset.mem_filter.mp (Finset.mem_coe.mp hb)
    have hb' := Finset.mem_filter.mp (Finset.mem_coe.mp hb')
    exact Prod.ext (hb.2.trans hb'.2.symm) e
  · rw [Finset.disjoint_left]
    intro t h1 h2
    obtain ⟨b, hb, rfl⟩ := Finset.mem_image.mp h1
    obtain ⟨b', hb', e⟩ := Finset.mem_image.mp h2
    obtain ⟨g1, g2, g3⟩ := hin1 b hb
    obtain ⟨-, -, g3', -⟩ := hin2 b' hb'
    rw [e] at g3'
    have hbb : b = b' := hsite _ g1 g2 b (Finset.mem_filter.mp hb).1 b'
      (Finset.mem_filter.mp hb').1 g3 g3'
    subst hbb
    have h5 : b.1 = points i := (Finset.mem_filter.mp hb).2
    rw [hf2] at e
    dsimp only at e
    rw [← h5] at e g2
    have : b.1 = b.2 := by
      funext a
      have := congrFun e a
      simp only [Pi.add_apply, Pi.sub_apply] at this
      linarith
    rw [this, ndist_self] at g2
    exact hP g2

end degree

section states

open Demo

variable {n m k : ℕ} {zoom : ℤ} {coordOf : ℝ → Coord} {points : Fin n → Pt m}

/-- The states of the script. -/
structure PtStates (zoom : ℤ) (coordOf : ℝ → Coord) (points : Fin n → Pt m) (st : ℕ → Fin n → StateID) : Prop where
  init_eq : ∀ (s : ℕ) i, StateID.init zoom (siteOf coordOf (points i)) (s : ℤ) = .ok (st s i)
  inj : ∀ s s' i i', (st s i).hashKey = (st s' i').hashKey → s = s' ∧ i = i'

theorem siteEq_iff (a b : SiteID) : a.rich .eq b = true ↔ a.tuple = b.tuple := by
  unfold SiteID.rich
  simp [tupleRich_eq, linRich]

theorem ptStates_of (h : Distinguishes zoom coordOf points) : ∃ st, PtStates zoom coordOf points st := by
  obtain ⟨site, h1, h2⟩ := h
  refine ⟨fun s i => ⟨(site i).site, s, 0, (site i).tuple⟩, fun s i => ?_, fun s s' i i' e => ?_⟩
  · unfold StateID.init
    rw [h1]
    simp [pyAssert, bind, Except.bind, pure, Except.pure]
  · simp only [StateID.hashKey, Prod.mk.injEq, and_true] at e
    exact ⟨e.2, h2 i i' ((siteEq_iff _ _).2 e.1)⟩

/-- The script's table maps point `i` with spin `s` to `s n + i`. -/
theorem ptTable_ok {st : ℕ → Fin n → StateID} (h : PtStates zoom coordOf points st) (hn : 1 ≤ n) {Sn : ℕ}
    (hS : 1 ≤ Sn) {L : Lat n m k} (hL : L.points = points) :
    ∃ table objs, stateTable zoom coordOf L ((List.range Sn).map fun s : ℕ => (s : ℤ)) = .ok table ∧
      IndexTable.init objs 0 = .ok table ∧
      ∀ s < Sn, ∀ i : Fin n, table.queryIndex (st s i) = .ok ((s * n + i : ℕ) : ℤ) := by
  set sN : ℕ → ℕ → StateID := fun s i => st s ⟨i % n, Nat.mod_lt _ hn⟩ with hsN
  have hval : ∀ s (i : Fin n), sN s i = st s i := by
    intro s i
    simp only [hsN, Nat.mod_eq_of_lt i.2]
  set objs := (List.range (Sn * n)).map fun q => sN (q / n) (q % n) with hobjs
  have hpairs : (((List.range Sn).map fun s : ℕ => (s : ℤ)).flatMap fun s =>
      (List.finRange n).map fun i => (s, i)).mapM
      (fun p : ℤ × Fin n => StateID.init zoom (siteOf coordOf (L.points p.2)) p.1) = .ok objs := by
    have h1 : objs = (((List.range Sn).map fun s : ℕ => (s : ℤ)).flatMap fun s =>
      (List.finRange n).map fun i => (s, i)).map (fun p : ℤ × Fin n => st p.1.toNat p.2) := by
      rw [hobjs, ← flatMap_range, List.flatMap_map, List.map_flatMap]
      congr 1
      funext s
      rw [List.map_map, ← List.map_coe_finRange_eq_range, List.map_map]
      exact List.map_congr_left fun i _ => hval s i
    rw [h1]
    refine mapM_ok_map fun p hp => ?_
    obtain ⟨s, hs, hp⟩ := List.mem_flatMap.1 hp
    obtain ⟨s', -, rfl⟩ := List.mem_map.1 hs
    obtain ⟨i, -, rfl⟩ := List.mem_map.1 hp
    dsimp only
    rw [hL, Int.toNat_natCast]
    exact h.init_eq s' i
  have hpos : 0 < Sn * n := Nat.mul_pos hS hn
  obtain ⟨table, ht⟩ : ∃ table, IndexTable.init objs 0 = .ok table := by
    refine (C02_indextable_accepts objs 0).1.2 ?_
    obtain ⟨q, hq⟩ : ∃ q, Sn * n = q + 1 := ⟨Sn * n - 1, by omega⟩
    refine ⟨sN 0 0, (List.range q).map (fun q => sN ((q + 1) / n) ((q + 1) % n)), ?_, fun _ _ => rfl, ?_⟩
    · rw [hobjs, hq, List.range_succ_eq_map, List.map_cons, List.map_map, Nat.zero_div, Nat.zero_mod]
      rfl
    · rw [hobjs, List.pairwise_map]
      refine List.nodup_range.imp_of_mem ?_
      intro a b _ _ hab
      rw [Bool.eq_false_iff]
      intro he
      have hk := (stateEq_iff _ _).1 he
      obtain ⟨h1, h2⟩ := h.inj _ _ _ _ hk
      have h2 := congrArg Fin.val h2
      simp only [Nat.mod_mod] at h2
      apply hab
      rw [← Nat.div_add_mod a n, ← Nat.div_add_mod b n, h1, h2]
  refine ⟨table, objs, ?_, ht, fun s hs i => ?_⟩
  · unfold stateTable
    rw [hpairs]
    exact ht
  · have hq : s * n + i < Sn * n := by
      have : (s + 1) * n ≤ Sn * n := Nat.mul_le_mul_right n hs
      rw [Nat.add_mul] at this
      have := i.2
      omega
    have := ((C01_indextable_bijection objs 0 table ht).2.2.2.2.1 (s * n + i) (st s i) (by
      rw [hobjs, List.getElem?_map, List.getElem?_range hq]
      have e1 : (s * n + i) / n = s := by
        rw [mul_comm, Nat.mul_add_div hn, Nat.div_eq_of_lt i.2, add_zero]
      have e2 : (s * n + i) % n = i := by
        rw [mul_comm, Nat.mul_add_mod, Nat.mod_eq_of_lt i.2]
      simp only [Option.map_some, e1, e2, hval])).1
    rw [this]; simp

/-- the index of a state -/
def slot {n Sn : ℕ} (s : Fin Sn) (i : Fin n) : Fin (Sn * n) := finProdFinEquiv (s, i)

theorem slot_val {n Sn : ℕ} (s : Fin Sn) (i : Fin n) : (slot s i : ℕ) = s * n + i := by
  simp [slot, finProdFinEquiv]
  ring

/-- the one-particle matrix of hopping terms -/
noncomputable def hopMatrix {n Sn : ℕ} (t : ℂ) (prs : List (Fin Sn × Fin n × Fin n)) :
    Matrix (Fin (Sn * n)) (Fin (Sn * n)) ℂ :=
  (prs.map fun x => Matrix.single (slot x.1 x.2.1) (slot x.1 x.2.2) t +
    Matrix.single (slot x.1 x.2.2) (slot x.1 x.2.1) t).sum

open Free in
theorem quadratic_list_sum {M : ℕ} {α : Type*} (l : List α) (F : α → Matrix (Fin M) (Fin M) ℂ) :
    quadratic (l.map F).sum = (l.map fun x => quadratic (F x)).sum := by
  induction l with
  | nil => exact quadratic_zero
  | cons a l ih => rw [List.map_cons, List.sum_cons, quadratic_add, ih]; rfl

theorem termLoop_pts {st : ℕ → Fin n → StateID} (h : PtStates zoom coordOf points st) {prec : ℕ} {L : Lat n m k}
    {ix : Pt m → Fin n} {t : ℂ} {Sn : ℕ} (bs : List (Pt m × Pt m))
    (hd : ∀ b ∈ bs, (∃ y, decompose prec L b.1 = some (.ok (points (ix b.1), y))) ∧
      ∃ y, decompose prec L b.2 = some (.ok (points (ix b.2), y)))
    {T : ℕ → Fin n → Fin n → ParticleTerm}
    (hT : ∀ (s : ℕ) i j, hoppingFactory zoom (siteOf coordOf (points i)) (siteOf coordOf (points j)) (spin0 := (s : ℤ))
      (coeff := t) = .ok (T s i j)) :
    termLoop zoom coordOf prec L ((List.range Sn).map fun s : ℕ => (s : ℤ)) t bs =
      some (.ok ((bs.flatMap fun b => (List.finRange Sn).map fun s => (s, ix b.1, ix b.2)).map
        fun x => T x.1 x.2.1 x.2.2)) := by
  induction bs with
  | nil => rfl
  | cons b bs ih =>
    obtain ⟨⟨y, hy⟩, y', hy'⟩ := hd b (by simp)
    have hm : ((List.range Sn).map fun s : ℕ => (s : ℤ)).mapM (fun s => hoppingFactory zoom
        (siteOf coordOf (points (ix b.1))) (siteOf coordOf (points (ix b.2)))
        (spin0 := s) (coeff := t)) = .ok (((List.finRange Sn).map fun s => (s, ix b.1, ix b.2)).map
          fun x => T x.1 x.2.1 x.2.2) := by
      have : (((List.finRange Sn).map fun s => (s, ix b.1, ix b.2)).map fun x => T x.1 x.2.1 x.2.2) =
          ((List.range Sn).map fun s : ℕ => (s : ℤ)).map fun s => T s.toNat (ix b.1) (ix b.2) := by
        rw [← List.map_coe_finRange_eq_range, List.map_map, List.map_map, List.map_map]; rfl
      rw [this]
      refine mapM_ok_map fun s hs => ?_
      obtain ⟨s', -, rfl⟩ := List.mem_map.1 hs
      rw [Int.toNat_natCast]
      exact hT s' _ _
    unfold termLoop
    rw [hy]
    dsimp only
    rw [hy']
    dsimp only
    rw [hm]
    dsimp only
    rw [ih fun b hb => hd b (List.mem_cons_of_mem _ hb), List.flatMap_cons, List.map_append]

open Free Spec in
/-- What the script computes. -/
theorem setup_ok {st : ℕ → Fin n → StateID} (h : PtStates zoom coordOf points st) (hn : 1 ≤ n) {Sn : ℕ}
    (hS : 1 ≤ Sn) (h64 : Sn * n ≤ 64) {prec : ℕ} {L L' : Lat n m k} (hL : L.points = points)
    {order : List (Fin k → ℤ) → List (Fin k → ℤ)}
    {porder : ∀ N : ℕ, List (Fin N × Fin N) → List (Fin N × Fin N)} {intra inter : List (Pt m × Pt m)}
    (hb : bonds order porder prec L 1 true false = some (L', .ok (intra, some inter)))
    {ix : Pt m → Fin n}
    (hd : ∀ b ∈ intra ++ inter, (∃ y, decompose prec L' b.1 = some (.ok (points (ix b.1), y))) ∧
      ∃ y, decompose prec L' b.2 = some (.ok (points (ix b.2), y)))
    (hne : intra ++ inter ≠ []) (t : ℝ) {N : ℕ} {specs : List HVal} {kets : List ℕ}
    (hk : baseVectors specs = .ok kets) (hasc : kets.Pairwise (· < ·)) (hl : ListsSector (Sn * n) N kets) :
    ∃ table, clusterSetup order porder zoom coordOf prec L ((List.range Sn).map fun s : ℕ => (s : ℤ)) t specs =
      some (.ok ⟨table, kets, opMat kets (quadratic (hopMatrix t
        ((intra ++ inter).flatMap fun b => (List.finRange Sn).map fun s => (s, ix b.1, ix b.2))))⟩) := by
  have : Nonempty ParticleTerm := ⟨⟨[], 0, .general⟩⟩
  have hex : ∀ (s : ℕ) (i j : Fin n), ∃ T, hoppingFactory zoom (siteOf coordOf (points i)) (siteOf coordOf (points j))
      (spin0 := (s : ℤ)) (coeff := t) = .ok T ∧ T.aocs = [⟨.creation, st s i⟩, ⟨.annihilation, st s j⟩] ∧
      T.coeff = t ∧ T.checkCompatibility = true := by
    intro s i j
    obtain ⟨T, h1, h2, h3, h4, -⟩ := C36_hopping_factory zoom (siteOf coordOf (points i)) (siteOf coordOf (points j))
      s 0 none none t (st s i) (st s j) (h.init_eq s i) (h.init_eq s j)
    exact ⟨T, h1, h2, h3, h4⟩
  choose T hT hT2 hT3 hT4 using hex
  obtain ⟨table, objs, ht1, ht2, ht3⟩ := ptTable_ok h hn hS hL
  refine ⟨table, ?_⟩
  set prs := (intra ++ inter).flatMap fun b => (List.finRange Sn).map fun s => (s, ix b.1, ix b.2) with hprs
  have hterms : hoppingTerms order porder zoom coordOf prec L ((List.range Sn).map fun s : ℕ => (s : ℤ)) t =
      some (.ok (prs.map fun x => T x.1 x.2.1 x.2.2)) := by
    unfold hoppingTerms
    rw [hb]
    exact termLoop_pts h _ hd hT
  have hprs0 : prs ≠ [] := by
    obtain ⟨b, bs', hbs⟩ := List.exists_cons_of_ne_nil hne
    obtain ⟨q, rfl⟩ : ∃ q, Sn = q + 1 := ⟨Sn - 1, by omega⟩
    rw [hprs, hbs, List.flatMap_cons, List.finRange_succ]
    simp
  have hH : hamiltonian table kets (prs.map fun x => T x.1 x.2.1 x.2.2) =
      .ok (opMat kets (quadratic (hopMatrix t prs))) := by
    have := hamiltonian_of (table := table) (B := kets) (prs.map fun x => (T x.1 x.2.1 x.2.2,
      (t : ℂ) • (create (slot x.1 x.2.1 : ℕ) * annihilate (slot x.1 x.2.2 : ℕ)),
      (t : ℂ) • (create (slot x.1 x.2.2 : ℕ) * annihilate (slot x.1 x.2.1 : ℕ)))) (by simpa using hprs0) ?_
    · rw [List.map_map, List.map_map] at this
      rw [show (prs.map fun x => T x.1 x.2.1 x.2.2) = prs.map (Prod.fst ∘ fun x => (T x.1 x.2.1 x.2.2,
        (t : ℂ) • (create (slot x.1 x.2.1 : ℕ) * annihilate (slot x.1 x.2.2 : ℕ)),
        (t : ℂ) • (create (slot x.1 x.2.2 : ℕ) * annihilate (slot x.1 x.2.1 : ℕ)))) from rfl, this]
      congr 2
      unfold hopMatrix
      rw [quadratic_list_sum]
      congr 1
      refine List.map_congr_left fun x _ => ?_
      rw [quadratic_add, quadratic_single, quadratic_single]
      rfl
    · intro y hy
      obtain ⟨x, -, rfl⟩ := List.mem_map.1 hy
      dsimp only
      refine ⟨?_, ?_⟩
      · have := isAdj_smul (isAdj_hop (slot x.1 x.2.1 : ℕ) (slot x.1 x.2.2 : ℕ)) (t : ℂ)
        rwa [show star (t : ℂ) = t from Complex.conj_ofReal t] at this
      · have hv : ValidTerm [(((slot x.1 x.2.1 : ℕ) : ℤ), Otype.creation), (((slot x.1 x.2.2 : ℕ) : ℤ), .annihilation)] := by
          refine ⟨by simp, fun p hp => ?_⟩
          have h1 := (slot x.1 x.2.1).2
          have h2 := (slot x.1 x.2.2).2
          simp only [List.mem_cons, List.not_mem_nil, or_false] at hp
          rcases hp with rfl | rfl <;> dsimp only <;> omega
        have he : termOperator [(((slot x.1 x.2.1 : ℕ) : ℤ), Otype.creation),
            (((slot x.1 x.2.2 : ℕ) : ℤ), .annihilation)] =
            create (slot x.1 x.2.1 : ℕ) * annihilate (slot x.1 x.2.2 : ℕ) := by
          simp [termOperator, fockProduct, fockOp]
        have := term_matrix ht2 hasc (hT4 x.1 x.2.1 x.2.2)
          (term := [(((slot x.1 x.2.1 : ℕ) : ℤ), .creation), (((slot x.1 x.2.2 : ℕ) : ℤ), .annihilation)]) ?_ hv ?_
        · obtain ⟨M, h1, h2⟩ := this
          exact ⟨M, h1, by rw [h2, hT3, he]⟩
        · rw [hT2, mapM_ok_iff]
          refine .cons ?_ (.cons ?_ .nil)
          · rw [slot_val]; simp [ht3 x.1 x.1.2 x.2.1, bind, Except.bind, pure, Except.pure]
          · rw [slot_val]; simp [ht3 x.1 x.1.2 x.2.2, bind, Except.bind, pure, Except.pure]
        · rw [he]
          exact mapsTo_hop hl _ _
  unfold clusterSetup
  rw [hterms]
  dsimp only
  rw [hk]
  simp only [bind, Except.bind, ht1, hH]
  rfl

end states

section algebra

open Matrix

variable {n m k : ℕ}

theorem hopMatrix_isHermitian {Sn : ℕ} (t : ℝ) (prs : List (Fin Sn × Fin n × Fin n)) :
    (hopMatrix (t : ℂ) prs).IsHermitian := by
  unfold hopMatrix
  induction prs with
  | nil => exact Matrix.isHermitian_zero
  | cons x prs ih =>
    rw [List.map_cons, List.sum_cons]
    refine Matrix.IsHermitian.add ?_ ih
    unfold Matrix.IsHermitian
    rw [Matrix.conjTranspose_add, Matrix.conjTranspose_single, Matrix.conjTranspose_single, add_comm]
    congr 1 <;> rw [show star (t : ℂ) = t from Complex.conj_ofReal t]

theorem slot_inj {Sn : ℕ} {s s' : Fin Sn} {i i' : Fin n} : slot s i = slot s' i' ↔ s = s' ∧ i = i' := by
  unfold slot
  rw [finProdFinEquiv.apply_eq_iff_eq, Prod.mk.injEq]

/-- The hopping matrix applied to amplitudes. -/
theorem hopMatrix_mulVec {Sn : ℕ} (t : ℂ) (prs : List (Fin Sn × Fin n × Fin n)) (g : Fin Sn → Fin n → ℂ)
    (s : Fin Sn) (i : Fin n) :
    ∑ x : Fin Sn × Fin n, hopMatrix t prs (slot s i) (slot x.1 x.2) * g x.1 x.2 =
      t * ((prs.map fun x => if x.1 = s ∧ x.2.1 = i then g s x.2.2 else 0).sum +
        (prs.map fun x => if x.1 = s ∧ x.2.2 = i then g s x.2.1 else 0).sum) := by
  have hsingle : ∀ (a b : Fin Sn × Fin n), ∑ x : Fin Sn × Fin n,
      Matrix.single (slot a.1 a.2) (slot b.1 b.2) t (slot s i) (slot x.1 x.2) * g x.1 x.2 =
      if a.1 = s ∧ a.2 = i then t * g b.1 b.2 else 0 := by
    intro a b
    rw [Finset.sum_eq_single b]
    · rw [Matrix.single_apply]
      by_cases h : a.1 = s ∧ a.2 = i
      · rw [if_pos ⟨slot_inj.2 h, rfl⟩, if_pos h]
      · rw [if_neg fun h' => h (slot_inj.1 h'.1), if_neg h, zero_mul]
    · intro x _ hx
      rw [Matrix.single_apply, if_neg, zero_mul]
      intro h
      have := slot_inj.1 h.2
      exact hx (Prod.ext this.1 this.2).symm
    · intro h; exact absurd (Finset.mem_univ b) h
  unfold hopMatrix
  induction prs with
  | nil => simp
  | cons y prs ih =>
    simp only [List.map_cons, List.sum_cons, Matrix.add_apply, add_mul, Finset.sum_add_distrib]
    rw [ih, hsingle (y.1, y.2.1) (y.1, y.2.2), hsingle (y.1, y.2.2) (y.1, y.2.1)]
    dsimp only
    have e : ∀ (z w : Fin n), (if y.1 = s ∧ z = i then t * g y.1 w else 0) =
        t * if y.1 = s ∧ z = i then g s w else 0 := by
      intro z w
      by_cases h : y.1 = s ∧ z = i
      · rw [if_pos h, if_pos h, h.1]
      · rw [if_neg h, if_neg h, mul_zero]
    rw [e, e]
    ring

theorem sum_flatMap_spin {Sn : ℕ} {α : Type*} (bs : List α) (F : α → Fin n × Fin n) (q : Fin n × Fin n → Prop)
    [DecidablePred q] (w : Fin n × Fin n → ℂ) (s : Fin Sn) :
    ((bs.flatMap fun b => (List.finRange Sn).map fun s => (s, F b)).map
      fun x => if x.1 = s ∧ q x.2 then w x.2 else 0).sum = (bs.map fun b => if q (F b) then w (F b) else 0).sum := by
  induction bs with
  | nil => rfl
  | cons b bs ih =>
    rw [List.flatMap_cons, List.map_append, List.sum_append, ih, List.map_cons, List.sum_cons, List.map_map]
    congr 1
    rw [← Fin.sum_univ_def, Finset.sum_eq_single s]
    · simp
    · intro s' _ hs'
      simp [hs']
    · intro h; exact absurd (Finset.mem_univ s) h

/-- A matrix with an invertible matrix of eigenvectors. -/
theorem charpoly_of_eigen {ι κ : Type*} [Fintype ι] [DecidableEq ι] [Fintype κ] [DecidableEq κ] (e : κ ≃ ι)
    (H : Matrix ι ι ℂ) (W : κ → ι → ℂ) (hW : LinearIndependent ℂ W) (E : κ → ℂ)
    (hE : ∀ q i, ∑ j, H i j * W q j = E q * W q i) :
    H.charpoly = ∏ q, (Polynomial.X - Polynomial.C (E q)) := by
  set P : Matrix ι ι ℂ := Matrix.of fun i j => W (e.symm j) i with hP
  have hlin : LinearIndependent ℂ P.col := by
    have := (linearIndependent_equiv e.symm).2 hW
    exact this
  have hu : IsUnit P := Matrix.linearIndependent_cols_iff_isUnit.1 hlin
  obtain ⟨u, hu⟩ := hu
  have hHP : H * P = P * Matrix.diagonal fun j => E (e.symm j) := by
    ext i j
    rw [Matrix.mul_diagonal, Matrix.mul_apply]
    simp only [hP, Matrix.of_apply]
    rw [hE, mul_comm]
  have hH : H = u.val * (Matrix.diagonal fun j => E (e.symm j)) * u⁻¹.val := by
    rw [hu, ← hHP, ← hu, Matrix.mul_assoc, Units.mul_inv, Matrix.mul_one]
  rw [hH, Matrix.coe_units_inv, Matrix.charpoly_units_conj, Matrix.charpoly_diagonal]
  exact Equiv.prod_comp e.symm fun q => Polynomial.X - Polynomial.C (E q)

theorem roots_real {ι : Type*} [Fintype ι] (a : ι → ℝ) :
    (∏ i, (Polynomial.X - Polynomial.C ((a i : ℝ) : ℂ))).roots = (Finset.univ.val.map a).map ((↑) : ℝ → ℂ) := by
  have : ∏ i, (Polynomial.X - Polynomial.C ((a i : ℝ) : ℂ)) =
      (((Finset.univ.val.map a).map ((↑) : ℝ → ℂ)).map fun z : ℂ => Polynomial.X - Polynomial.C z).prod := by
    rw [Multiset.map_map, Multiset.map_map]
    rfl
  rw [this, Polynomial.roots_multiset_prod_X_sub_C]

theorem energySums_eq {ι : Type*} [Fintype ι] (N : ℕ) (a : ι → ℝ) : energySums N a =
    (((Finset.univ.val.map a).powersetCard N).map fun s => Polynomial.X - Polynomial.C ((s.sum : ℝ) : ℂ)).prod := by
  unfold energySums
  rw [Multiset.powersetCard_map, Multiset.map_map, ← Finset.map_val_val_powersetCard, Multiset.map_map]
  rfl

/-- Two lists of numbers with the same polynomial have the same sums. -/
theorem energySums_congr {ι κ : Type*} [Fintype ι] [Fintype κ] (N : ℕ) (a : ι → ℝ) (b : κ → ℝ)
    (h : ∏ i, (Polynomial.X - Polynomial.C ((a i : ℝ) : ℂ)) = ∏ i, (Polynomial.X - Polynomial.C ((b i : ℝ) : ℂ))) :
    energySums N a = energySums N b := by
  have hm : Finset.univ.val.map a = Finset.univ.val.map b := by
    have := congrArg Polynomial.roots h
    rw [roots_real, roots_real] at this
    exact Multiset.map_injective Complex.ofReal_injective this
  rw [energySums_eq, energySums_eq, hm]

end algebra

section core

open Demo Free Spec

variable {n m k : ℕ} {prec : ℕ}

theorem points_history {order : List (Fin k → ℤ) → List (Fin k → ℤ)}
    {porder : ∀ N : ℕ, List (Fin N × Fin N) → List (Fin N × Fin N)} (calls : List Call)
    (M : Lat n m k) : (calls.foldl (after order porder prec) M).points = M.points ∧
      (calls.foldl (after order porder prec) M).vectors = M.vectors := by
  induction calls generalizing M with
  | nil => exact ⟨rfl, rfl⟩
  | cons c calls ih =>
    rw [List.foldl_cons, (ih _).1, (ih _).2]
    have hn : ∀ (M : Lat n m k) q, (neighborDistance order prec M q).1.points = M.points ∧
        (neighborDistance order prec M q).1.vectors = M.vectors :=
      fun M q => ⟨(neighborDistance_state order prec M q).1, (neighborDistance_state order prec M q).2.1⟩
    cases c with
    | neighborDistance q => exact hn M q
    | bonds q only fold =>
      unfold after
      dsimp only
      split
      · rename_i L' r hb
        rcases bonds_state hb with rfl | rfl | rfl
        · exact ⟨rfl, rfl⟩
        · exact hn M q
        · rw [(hn _ _).1, (hn _ _).2]
          exact hn M q
      · exact ⟨rfl, rfl⟩

/-- The one-particle matrix of the script, and what it does. -/
theorem band_core {S : Set (Pt m)} {d : ℝ} (hd0 : d ≠ 0) {z count : ℕ} (hz : 0 < z) (hc0 : 1 ≤ count)
    (hc : Coordination S d z) {r : Py Built} {L0 : Lat count m m} (hr : r = .ok ⟨count, m, m, L0⟩)
    (ht : ExactTiling S L0.points L0.vectors) (hf : FindsNearest prec S d r) (hfold : FoldsEverySite prec S r)
    {order : List (Fin m → ℤ) → List (Fin m → ℤ)} (horder : ∀ l, (order l).Perm l)
    {porder : ∀ N : ℕ, List (Fin N × Fin N) → List (Fin N × Fin N)} (hporder : ∀ N l, (porder N l).Perm l)
    (calls : List Call) {zoom : ℤ} {coordOf : ℝ → Coord} (hst : Distinguishes zoom coordOf L0.points) {Sn : ℕ}
    (hS : 1 ≤ Sn) (h64 : Sn * count ≤ 64) (t : ℝ) :
    ∃ h : Matrix (Fin (Sn * count)) (Fin (Sn * count)) ℂ, h.IsHermitian ∧
      (∀ N kets, baseVectors [.tuple [.int ((Sn * count : ℕ) : ℤ), .int (N : ℕ)]] = .ok kets →
        kets.Pairwise (· < ·) → ListsSector (Sn * count) N kets →
        ∃ table, clusterSetup order porder zoom coordOf prec (calls.foldl (after order porder prec) L0)
          ((List.range Sn).map fun s : ℕ => (s : ℤ)) t [.tuple [.int ((Sn * count : ℕ) : ℤ), .int (N : ℕ)]] =
          some (.ok ⟨table, kets, opMat kets (quadratic h)⟩)) ∧
      ∀ f : Fin Sn → Pt m → ℂ, (∀ s, Periodic L0.vectors (f s)) → ∀ s i,
        ∑ x : Fin Sn × Fin count, h (slot s i) (slot x.1 x.2) * f x.1 (L0.points x.2) =
          hops S d t (f s) (L0.points i) := by
  obtain ⟨st, hst⟩ := ptStates_of hst
  obtain ⟨n1, L1, e1, h1⟩ := hf
  rw [hr] at e1
  cases Except.ok.inj e1
  obtain ⟨n2, L2, e2, h2⟩ := hfold
  rw [hr] at e2
  cases Except.ok.inj e2
  obtain ⟨-, ⟨L', intra, inter, hb, hl⟩, -⟩ := h1 order horder porder hporder calls true
  obtain ⟨hp0, hv0⟩ := points_history (order := order) (porder := porder) (prec := prec) calls L0
  obtain ⟨-, -, -, -, -, -, -, -, -, -, hpts, hvec, -⟩ := C51_bonds_exact order horder porder hporder hb
  have hP : ¬ (fun x : ℝ => x = d) 0 := fun e => hd0 e.symm
  have hsite : ∀ i, L0.points i ∈ S := fun i => by
    have := ht.inside i 0
    rwa [comb_zero, add_zero] at this
  set ix : Pt m → Fin count := fun s => if h : ∃ q : Fin count × (Fin m → ℤ), s = L0.points q.1 + comb L0.vectors q.2
    then h.choose.1 else ⟨0, hc0⟩ with hix
  have hixv : ∀ j c, ix (L0.points j + comb L0.vectors c) = j := by
    intro j c
    have h : ∃ q : Fin count × (Fin m → ℤ), L0.points j + comb L0.vectors c = L0.points q.1 + comb L0.vectors q.2 :=
      ⟨(j, c), rfl⟩
    simp only [hix, dif_pos h]
    exact (tiling_inj' ht h.choose_spec).1.symm
  have hixp : ∀ j, ix (L0.points j) = j := fun j => by
    have := hixv j 0
    rwa [comb_zero, add_zero] at this
  have hdec : ∀ s ∈ S, ∃ y, decompose prec L' s = some (.ok (L0.points (ix s), y)) := by
    intro s hs
    obtain ⟨q, ⟨hq1, hq2, -⟩, -⟩ := h2 s hs
    refine ⟨comb L0.vectors q.2, ?_⟩
    rw [decompose_congr (hpts.trans hp0) (hvec.trans hv0), hq2]
    rw [hq1, hixv]
  have hbs : ∀ b ∈ intra ++ inter, (∃ y, decompose prec L' b.1 = some (.ok (L0.points (ix b.1), y))) ∧
      ∃ y, decompose prec L' b.2 = some (.ok (L0.points (ix b.2), y)) := by
    intro b hb
    obtain ⟨⟨i, hi⟩, h2, -⟩ := listed ht hl hb
    exact ⟨hdec _ (hi ▸ hsite i), hdec _ h2⟩
  have hne : intra ++ inter ≠ [] := by
    intro h0
    have hnc := hc _ (hsite ⟨0, hc0⟩)
    have : ({x | x ∈ S ∧ ndist (L0.points ⟨0, hc0⟩) x = d} : Set (Pt m)).Nonempty := by
      rw [Set.nonempty_iff_ne_empty]
      intro h1
      rw [h1, Set.ncard_empty] at hnc
      omega
    obtain ⟨x, hx1, hx2⟩ := this
    obtain ⟨b, ⟨hb, -⟩, -⟩ := hl.each _ (hsite ⟨0, hc0⟩) _ hx1 hx2
    rw [h0] at hb
    simp at hb
  set prs := (intra ++ inter).flatMap fun b => (List.finRange Sn).map fun s => (s, ix b.1, ix b.2) with hprs
  refine ⟨hopMatrix t prs, hopMatrix_isHermitian t prs, fun N kets hk hasc hls => ?_, fun f hf s i => ?_⟩
  · exact setup_ok hst hc0 hS h64 hp0 hb hbs hne t hk hasc hls
  · rw [hopMatrix_mulVec (t : ℂ) prs (fun s j => f s (L0.points j)) s i]
    unfold hops
    congr 1
    have hfold' : ∀ j c, (fun s => L0.points (ix s)) (L0.points j + comb L0.vectors c) = L0.points j := by
      intro j c
      dsimp only
      rw [hixv]
    have := weighted_degree (fold := fun s => L0.points (ix s)) ht hl hP hfold' i (hf s)
    rw [← this]
    have hinj := tiling_points_inj ht
    congr 1
    · refine (sum_flatMap_spin (intra ++ inter) (fun b => (ix b.1, ix b.2)) (fun p => p.1 = i)
        (fun p => f s (L0.points p.2)) s).trans ?_
      congr 1
      refine List.map_congr_left fun b hb => ?_
      obtain ⟨⟨j, hj⟩, h2, -⟩ := listed ht hl hb
      dsimp only
      have e1 : ix b.1 = i ↔ b.1 = L0.points i := by
        rw [hj, hixp, hinj.eq_iff]
      have e2 : f s (L0.points (ix b.2)) = f s b.2 := by
        obtain ⟨q, hq, -⟩ := ht.covers _ h2
        rw [hq, hixv, hf s]
      simp only [e1, e2]
    · refine (sum_flatMap_spin (intra ++ inter) (fun b => (ix b.1, ix b.2)) (fun p => p.2 = i)
        (fun p => f s (L0.points p.1)) s).trans ?_
      congr 1
      refine List.map_congr_left fun b hb => ?_
      obtain ⟨⟨j, hj⟩, h2, -⟩ := listed ht hl hb
      dsimp only
      have e1 : ix b.2 = i ↔ L0.points (ix b.2) = L0.points i := hinj.eq_iff.symm
      have e2 : f s (L0.points (ix b.1)) = f s b.1 := by
        rw [hj, hixp]
      simp only [e1, e2]

end core

section waves

open Complex

variable {n m k : ℕ} {S : Set (Pt m)} {d : ℝ} {D : Finset (Pt m)}

theorem planeWave_add (q p p' : Pt m) : planeWave q (p + p') = planeWave q p * planeWave q p' := by
  unfold planeWave
  rw [← Complex.exp_add, ← mul_add, ← Complex.ofReal_add, ← Finset.sum_add_distrib]
  simp only [Pi.add_apply, mul_add]

theorem planeWave_zero (q : Pt m) : planeWave q 0 = 1 := by simp [planeWave]

theorem planeWave_ne_zero (q p : Pt m) : planeWave q p ≠ 0 := Complex.exp_ne_zero _

theorem periodic_planeWave {v : Fin k → Pt m} {q : Pt m} (h : Allowed v q) : Periodic v (planeWave q) := by
  intro p c
  rw [planeWave_add]
  choose z hz using h
  have : planeWave q (comb v c) = 1 := by
    unfold planeWave
    have e : ∑ a, q a * comb v c a = 2 * Real.pi * ((∑ i, c i * z i : ℤ) : ℝ) := by
      unfold comb
      simp only [Finset.mul_sum]
      rw [Finset.sum_comm]
      push_cast
      rw [Finset.mul_sum]
      refine Finset.sum_congr rfl fun i _ => ?_
      have := hz i
      calc ∑ a, q a * ((c i : ℝ) * v i a) = c i * ∑ a, q a * v i a := by
            rw [Finset.mul_sum]
            exact Finset.sum_congr rfl fun a _ => by ring
        _ = _ := by rw [this]; ring
    rw [e, Complex.exp_eq_one_iff]
    exact ⟨∑ i, c i * z i, by push_cast; ring⟩
  rw [this, mul_one]

theorem neighbours_symm (hD : NeighbourVectors S d D) (hne : S.Nonempty) {x : Pt m} (hx : x ∈ D) : -x ∈ D := by
  obtain ⟨s, hs⟩ := hne
  obtain ⟨h1, h2⟩ := (hD s hs (s + x)).2 ⟨x, hx, rfl⟩
  obtain ⟨y, hy, e⟩ := (hD _ h1 s).1 ⟨hs, by rw [ndist_comm]; exact h2⟩
  have : y = -x := by
    have : s + x + y = s := e.symm
    have : y = s - (s + x) := by rw [eq_sub_iff_add_eq', this]
    rw [this]; abel
  rwa [← this]

theorem sum_planeWave (hD : NeighbourVectors S d D) (hne : S.Nonempty) (q : Pt m) :
    ∑ x ∈ D, planeWave q x = ((∑ x ∈ D, Real.cos (∑ a, q a * x a) : ℝ) : ℂ) := by
  have h1 : ∑ x ∈ D, planeWave q x = ∑ x ∈ D, planeWave q (-x) := by
    refine Finset.sum_nbij' (fun x => -x) (fun x => -x) ?_ ?_ ?_ ?_ ?_
    · intro x hx; exact neighbours_symm hD hne hx
    · intro x hx; exact neighbours_symm hD hne hx
    · intro x _; exact neg_neg x
    · intro x _; exact neg_neg x
    · intro x _; rw [neg_neg]
  have h2 : ∀ x : Pt m, planeWave q x + planeWave q (-x) = 2 * (Real.cos (∑ a, q a * x a) : ℂ) := by
    intro x
    unfold planeWave
    have : ∑ a, q a * (-x) a = -∑ a, q a * x a := by
      rw [← Finset.sum_neg_distrib]
      exact Finset.sum_congr rfl fun a _ => by rw [Pi.neg_apply]; ring
    rw [this, Complex.ofReal_cos, Complex.two_cos]
    push_cast
    congr 2 <;> ring
  have h3 : 2 * ∑ x ∈ D, planeWave q x = 2 * ((∑ x ∈ D, Real.cos (∑ a, q a * x a) : ℝ) : ℂ) := by
    rw [two_mul]
    nth_rewrite 2 [h1]
    rw [← Finset.sum_add_distrib, Complex.ofReal_sum, Finset.mul_sum]
    exact Finset.sum_congr rfl fun x _ => h2 x
  exact mul_left_cancel₀ two_ne_zero h3

theorem hops_planeWave (hD : NeighbourVectors S d D) (t : ℝ) (q : Pt m) {s : Pt m} (hs : s ∈ S) :
    hops S d t (planeWave q) s = (bandEnergy t D q : ℂ) * planeWave q s := by
  unfold hops bandEnergy
  have : {x | x ∈ S ∧ ndist s x = d} = ((D.image fun x => s + x : Finset (Pt m)) : Set (Pt m)) := by
    ext x
    simp only [Set.mem_ofPred_eq, hD s hs x, Finset.coe_image, Set.mem_image, Finset.mem_coe]
    exact ⟨fun ⟨y, h1, h2⟩ => ⟨y, h1, h2.symm⟩, fun ⟨y, h1, h2⟩ => ⟨y, h1, h2.symm⟩⟩
  rw [this, finsum_mem_coe_finset, Finset.sum_image fun x _ y _ e => add_left_cancel e]
  simp only [planeWave_add]
  rw [← Finset.mul_sum, sum_planeWave hD ⟨s, hs⟩, Complex.ofReal_mul]
  ring

/-- Different plane waves are independent on the cluster. -/
theorem planeWaves_independent {points : Fin n → Pt m} {v : Fin k → Pt m} (ht : ExactTiling S points v)
    (hB : Bravais S) (hn : 0 < n) {ι : Type*} (q : ι → Pt m) (hq : ∀ x, Allowed v (q x))
    (hne : ∀ x y, x ≠ y → ¬ Equivalent S (q x) (q y)) :
    LinearIndependent ℂ fun x i => planeWave (q x) (points i) := by
  have hsite : ∀ i, points i ∈ S := fun i => by
    have := ht.inside i 0
    rwa [comb_zero, add_zero] at this
  set o := points ⟨0, hn⟩ with ho
  have hoS : o ∈ S := hsite _
  let G : AddSubgroup (Pt m) :=
    { carrier := {g | o + g ∈ S}
      add_mem' := fun {a b} ha hb => by
        have := hB _ ha _ hb _ hoS
        rwa [show o + a + (o + b) - o = o + (a + b) by abel] at this
      zero_mem' := by
        change o + 0 ∈ S
        rw [add_zero]; exact hoS
      neg_mem' := fun {a} ha => by
        have := hB _ hoS _ hoS _ ha
        rwa [show o + o - (o + a) = o + -a by abel] at this }
  let χ : ι → (Multiplicative G →* ℂ) := fun x =>
    { toFun := fun g => planeWave (q x) (g.toAdd : Pt m)
      map_one' := planeWave_zero _
      map_mul' := fun a b => planeWave_add _ _ _ }
  have hχ : Function.Injective χ := by
    intro x y hxy
    by_contra hne'
    refine hne x y hne' fun s hs t ht => ?_
    have hg : t - s ∈ G := by
      change o + (t - s) ∈ S
      rw [← add_sub_assoc]
      exact hB _ hoS _ ht _ hs
    exact DFunLike.congr_fun hxy (Multiplicative.ofAdd (⟨t - s, hg⟩ : G))
  have hlin := (linearIndependent_monoidHom (Multiplicative G) ℂ).comp χ hχ
  rw [linearIndependent_iff'] at hlin ⊢
  intro F c hc x hx
  have h0 : ∀ s ∈ S, ∑ x ∈ F, c x * planeWave (q x) s = 0 := by
    intro s hs
    obtain ⟨p, hp, -⟩ := ht.covers s hs
    have := congrFun hc p.1
    simp only [Finset.sum_apply, Pi.smul_apply, smul_eq_mul, Pi.zero_apply] at this
    rw [hp, ← this]
    exact Finset.sum_congr rfl fun x _ => by rw [periodic_planeWave (hq x)]
  have h1 := hlin F (fun x => c x * planeWave (q x) o) (by
    funext g
    have hg : o + (g.toAdd : Pt m) ∈ S := g.toAdd.2
    have := h0 _ hg
    simp only [Finset.sum_apply, Pi.smul_apply, smul_eq_mul, Pi.zero_apply, Function.comp]
    rw [← this]
    refine Finset.sum_congr rfl fun x _ => ?_
    rw [planeWave_add, ← mul_assoc]
    rfl) x hx
  exact (mul_eq_zero.1 h1).resolve_right (planeWave_ne_zero _ _)

theorem spinful_independent {Sn : ℕ} {ι : Type*} [Fintype ι] {W : ι → Fin n → ℂ} (hW : LinearIndependent ℂ W) :
    LinearIndependent ℂ fun (x : Fin Sn × ι) (y : Fin Sn × Fin n) => if x.1 = y.1 then W x.2 y.2 else 0 := by
  rw [Fintype.linearIndependent_iff] at hW ⊢
  intro c hc x
  refine hW (fun q => c (x.1, q)) ?_ x.2
  funext i
  have := congrFun hc (x.1, i)
  simp only [Finset.sum_apply, Pi.smul_apply, smul_eq_mul, Pi.zero_apply] at this ⊢
  rw [← this, Fintype.sum_prod_type, Finset.sum_eq_single x.1]
  · simp
  · intro s _ hs
    simp [hs]
  · intro h; exact absurd (Finset.mem_univ _) h

end waves

section examples

variable {m : ℕ} {S : Set (Pt m)} {d : ℝ}

/-- Vectors that lead to as many neighbours as there are. -/
theorem neighbours_of_coord {z : ℕ} (hc : Coordination S d z) (hz : 0 < z) {D : Finset (Pt m)} (hD : D.card = z)
    (hin : ∀ s ∈ S, ∀ y ∈ D, s + y ∈ S) (hlen : ∀ y ∈ D, ndist 0 y = d) : NeighbourVectors S d D := by
  intro s hs x
  have hsub : ((D.image fun y => s + y : Finset (Pt m)) : Set (Pt m)) ⊆ {x | x ∈ S ∧ ndist s x = d} := by
    intro x hx
    obtain ⟨y, hy, rfl⟩ := Finset.mem_image.1 (Finset.mem_coe.1 hx)
    refine ⟨hin s hs y hy, ?_⟩
    rw [← hlen y hy]
    exact ndist_sub _ _ _ _ (by abel)
  have hcard : (D.image fun y => s + y).card = z := by
    rw [Finset.card_image_of_injective _ (add_right_injective s), hD]
  have hnc := hc s hs
  have hfin : {x | x ∈ S ∧ ndist s x = d}.Finite := by
    by_contra h
    rw [Set.Infinite.ncard h] at hnc
    omega
  have heq := Set.eq_of_subset_of_ncard_le hsub (by rw [hnc, Set.ncard_coe_finset, hcard]) hfin
  have : x ∈ {x | x ∈ S ∧ ndist s x = d} ↔ x ∈ ((D.image fun y => s + y : Finset (Pt m)) : Set (Pt m)) := by rw [heq]
  rw [Set.mem_ofPred_eq] at this
  rw [this, Finset.mem_coe, Finset.mem_image]
  exact ⟨fun ⟨y, h1, h2⟩ => ⟨y, h1, h2.symm⟩, fun ⟨y, h1, h2⟩ => ⟨y, h1, h2.symm⟩⟩

theorem phase_inj {n : ℕ} (a b : Fin n)
    (h : Complex.exp (Complex.I * ((2 * Real.pi * (a : ℕ) / n : ℝ) : ℂ)) =
      Complex.exp (Complex.I * ((2 * Real.pi * (b : ℕ) / n : ℝ) : ℂ))) : a = b := by
  have hn : (0 : ℝ) < n := by exact_mod_cast (Nat.zero_le _).trans_lt a.2
  obtain ⟨z, hz⟩ := Complex.exp_eq_exp_iff_exists_int.1 h
  have h1 : ((2 * Real.pi * (a : ℕ) / n : ℝ) : ℂ) = ((2 * Real.pi * (b : ℕ) / n + z * (2 * Real.pi) : ℝ) : ℂ) := by
    apply mul_left_cancel₀ Complex.I_ne_zero
    rw [hz]
    push_cast
    ring
  have h2 := Complex.ofReal_injective h1
  have hpi := Real.pi_pos
  have h3 : ((a : ℕ) : ℝ) = (b : ℕ) + z * n := by
    field_simp at h2
    linarith
  have h4 : ((a : ℕ) : ℤ) = (b : ℕ) + z * n := by exact_mod_cast h3
  have ha := a.2
  have hb := b.2
  have hz0 : z = 0 := by
    rcases lt_trichotomy z 0 with hz | hz | hz
    · nlinarith
    · exact hz
    · nlinarith
  rw [hz0] at h4
  exact Fin.ext (by omega)

end examples

end Verif.LDB
