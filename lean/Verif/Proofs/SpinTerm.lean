import Verif.Proofs.Spin
import Verif.Proofs.StableSort
import Verif.Proofs.Order
import Verif.Props.IndexTable
/-! Spin operators resolved through an index table. -/

namespace Verif
open Spec

theorem siteEq_iff (a b : SiteID) : PyObj.eq a b = true ↔ a.tuple = b.tuple := by
  change a.rich .eq b = true ↔ _
  simp [siteRich_eq, linRich]

theorem siteLt_iff (a b : SiteID) : a.rich .lt b = true ↔ a.tuple < b.tuple := by
  simp [siteRich_eq, linRich]

/-- equal sites have the same index (any table) -/
theorem siteIndex_congr (table : IndexTable SiteID) (a b : SiteID) (h : a.tuple = b.tuple) :
    table.queryIndex a = table.queryIndex b := by
  have : ∀ d : List (SiteID × ℤ), dictGet PyObj.eq d a = dictGet PyObj.eq d b := by
    intro d
    induction d with
    | nil => rfl
    | cons x d ih =>
      simp only [dictGet, ih]
      have : PyObj.eq x.1 a = PyObj.eq x.1 b := by
        rw [Bool.eq_iff_iff, siteEq_iff, siteEq_iff, h]
      rw [this]
  unfold IndexTable.queryIndex
  rw [this]
  rfl

/-- different sites have different indices (tables built by the constructor) -/
theorem siteIndex_inj {objs : List SiteID} {s : ℤ} {table : IndexTable SiteID}
    (hT : IndexTable.init objs s = .ok table) {a b : SiteID} {i : ℤ}
    (ha : table.queryIndex a = .ok i) (hb : table.queryIndex b = .ok i) :
    a.tuple = b.tuple := by
  have hinv := (C01_indextable_bijection objs s table hT).2.2.2.2.2.2
  obtain ⟨o, ho, hoa⟩ := hinv a i ha
  obtain ⟨o', ho', hob⟩ := hinv b i hb
  rw [ho] at ho'
  cases ho'
  rw [siteEq_iff] at hoa hob
  rw [← hoa, hob]

/-- indices of a table starting at 0 are below its length -/
theorem siteIndex_range {objs : List SiteID} {table : IndexTable SiteID}
    (hT : IndexTable.init objs 0 = .ok table) {a : SiteID} {i : ℤ}
    (ha : table.queryIndex a = .ok i) : 0 ≤ i ∧ i < table.len := by
  obtain ⟨hind, -, hlen, hiter, -, -, hinv⟩ := C01_indextable_bijection objs 0 table hT
  obtain ⟨o, ho, -⟩ := hinv a i ha
  have hmem : i ∈ table.indices := by
    unfold IndexTable.queryObject at ho
    simp only at ho
    split at ho
    · rename_i o' hget
      unfold IndexTable.indices
      revert hget
      generalize table.index2object = d
      induction d with
      | nil => simp [dictGet]
      | cons x d ih =>
        simp only [dictGet]
        split
        · rename_i h
          intro _
          have : x.1 = i := by simpa using h
          simp [this]
        · intro h
          simp [ih h]
    · cases ho
  rw [hind] at hmem
  simp only [List.mem_map, List.mem_range, Int.zero_add] at hmem
  obtain ⟨k, hk, rfl⟩ := hmem
  rw [hlen]
  omega

/-- the `(index, otype)` pair of a spin operator -/
def indexedSpin (table : IndexTable SiteID) (s : SpinOperator) : ℤ × SpinOtype :=
  ((table.queryIndex s.siteId).toOption.getD 0, s.otype)

theorem indexedSpin_of_ok {table : IndexTable SiteID} {s : SpinOperator} {i : ℤ}
    (h : table.queryIndex s.siteId = .ok i) : indexedSpin table s = (i, s.otype) := by
  simp [indexedSpin, h, Except.toOption]

theorem spinIndexed_ok_iff {t : SpinInteraction} {table : IndexTable SiteID}
    {ops : List (ℤ × SpinOtype)} :
    t.indexed table = .ok ops ↔
      (∀ s ∈ t.operators, ∃ i, table.queryIndex s.siteId = .ok i) ∧
        ops = t.operators.map (indexedSpin table) := by
  unfold SpinInteraction.indexed
  rw [mapM_ok_iff]
  constructor
  · intro h
    have key : ∀ s p, (do let i ← table.queryIndex s.siteId; return (i, s.otype) : Py (ℤ × SpinOtype)) =
        .ok p → (∃ i, table.queryIndex s.siteId = .ok i) ∧ p = indexedSpin table s := by
      intro s p hp
      rw [bind_ok_iff] at hp
      obtain ⟨i, hi, hp⟩ := hp
      cases hp
      exact ⟨⟨i, hi⟩, (indexedSpin_of_ok hi).symm⟩
    have hlen := forall₂_length h
    constructor
    · intro s hs
      obtain ⟨j, hj, rfl⟩ := List.mem_iff_getElem.mp hs
      exact (key _ _ (forall₂_getElem h j hj)).1
    · apply List.ext_getElem (by simp [hlen])
      intro j h1 h2
      have := (key _ _ (forall₂_getElem h j (by omega))).2
      rw [this]; simp
  · rintro ⟨h1, rfl⟩
    apply forall₂_of_getElem (by simp)
    intro j hj
    obtain ⟨i, hi⟩ := h1 _ (List.getElem_mem hj)
    simp only [List.getElem_map, indexedSpin_of_ok hi, hi]
    rfl

end Verif
