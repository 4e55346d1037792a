import Verif.Model.IndexTable
/-! Helper lemmas for the `IndexTable` properties. -/

namespace Verif
open PyObj

/-- the enumeration of a list starting at `s` -/
def enumFrom {α : Type _} : Int → List α → List (Int × α)
  | _, [] => []
  | s, x :: xs => (s, x) :: enumFrom (s + 1) xs

theorem enumFrom_append {α : Type _} (s : Int) (l m : List α) :
    enumFrom s (l ++ m) = enumFrom s l ++ enumFrom (s + l.length) m := by
  induction l generalizing s with
  | nil => simp [enumFrom]
  | cons x l ih =>
    simp only [List.cons_append, enumFrom, ih, List.length_cons]
    congr 3
    push_cast
    omega

theorem enumFrom_getElem? {α : Type _} (s : Int) (l : List α) (k : Nat) :
    (enumFrom s l)[k]? = (l[k]?).map (fun x => (s + k, x)) := by
  induction l generalizing s k with
  | nil => simp [enumFrom]
  | cons x l ih =>
    cases k with
    | zero => simp [enumFrom]
    | succ k =>
      simp only [enumFrom, List.getElem?_cons_succ, ih]
      congr 1
      funext y
      congr 1
      push_cast
      omega

theorem enumFrom_length {α : Type _} (s : Int) (l : List α) : (enumFrom s l).length = l.length := by
  induction l generalizing s with
  | nil => rfl
  | cons x l ih => simp [enumFrom, ih]

theorem mem_enumFrom {α : Type _} (s : Int) (l : List α) (p : Int × α) (h : p ∈ enumFrom s l) :
    s ≤ p.1 ∧ p.1 < s + l.length := by
  induction l generalizing s with
  | nil => simp [enumFrom] at h
  | cons x l ih =>
    simp only [enumFrom, List.mem_cons, List.length_cons] at h ⊢
    rcases h with rfl | h
    · push_cast; constructor
      · exact Int.le_refl _
      · show s < _; omega
    · have := ih _ h; push_cast; omega

theorem dictGet_isSome {κ υ : Type _} (eq : κ → κ → Bool) (d : List (κ × υ)) (k : κ) :
    (dictGet eq d k).isSome = d.any (fun p => eq p.1 k) := by
  induction d with
  | nil => rfl
  | cons p d ih =>
    simp only [dictGet, List.any_cons]
    cases h : eq p.1 k <;> simp [ih]

theorem dictSet_of_not_mem {κ υ : Type _} (eq : κ → κ → Bool) (d : List (κ × υ)) (k : κ) (v : υ)
    (h : d.any (fun p => eq p.1 k) = false) : dictSet eq d k v = d ++ [(k, v)] := by
  induction d with
  | nil => rfl
  | cons p d ih =>
    simp only [List.any_cons, Bool.or_eq_false_iff] at h
    simp [dictSet, h.1, ih h.2]

/-- no object of the list equals an earlier one, nor one in `seen` -/
def fresh {α : Type _} [PyObj α] : List α → List α → Bool
  | _, [] => true
  | seen, x :: xs => !(seen.any (fun y => eq y x)) && fresh (seen ++ [x]) xs

/-- state of the loop after the prefix `seen` -/
theorem initLoop_spec {α : Type _} [PyObj α] (start : Int) (t : Ty α) :
    ∀ (rest seen : List α), seen ≠ [] →
    IndexTable.initLoop start rest (start + seen.length) (some t)
      ((enumFrom start seen).map Prod.swap) (enumFrom start seen) =
    (match rest.zipIdx.find? (fun p => !isInstance p.1 t ||
        (seen ++ rest.take p.2).any (fun y => eq y p.1)) with
     | none => .ok (some t, (enumFrom start (seen ++ rest)).map Prod.swap,
                    enumFrom start (seen ++ rest))
     | some p => if !isInstance p.1 t then raise .typeError else raise .valueError)
  | [], seen, _ => by simp [IndexTable.initLoop]
  | item :: rest, seen, hne => by
    have hlen : 0 < seen.length := by cases seen <;> simp_all
    have hne' : start + (seen.length : Int) ≠ start := by omega
    have hany : ((enumFrom start seen).map Prod.swap).any (fun p => eq p.1 item) =
        seen.any (fun y => eq y item) := by
      clear hne hlen hne'
      induction seen generalizing start with
      | nil => rfl
      | cons x xs ih => simp [enumFrom, ih]
    unfold IndexTable.initLoop
    simp only [hne', if_false, dictGet_isSome, hany]
    simp only [List.zipIdx_cons, List.find?_cons, List.take_zero, List.append_nil]
    by_cases h1 : isInstance item t = true
    · by_cases h2 : seen.any (fun y => eq y item) = true
      · simp [h1, h2]
      · simp only [Bool.not_eq_true] at h2
        simp only [h1, h2, Bool.not_true, Bool.or_false, Bool.false_eq_true, if_false]
        rw [dictSet_of_not_mem _ _ _ _ (hany.trans h2)]
        rw [dictSet_of_not_mem]
        · have := initLoop_spec start t rest (seen ++ [item]) (by simp)
          rw [enumFrom_append] at this
          simp only [enumFrom, List.map_append, List.map_cons, List.map_nil, Prod.swap,
            List.length_append, List.length_singleton] at this
          push_cast at this
          rw [← Int.add_assoc] at this
          rw [this]
          simp only [List.append_assoc, List.singleton_append]
          rw [show rest.zipIdx (0 + 1) = rest.zipIdx.map (fun p => (p.1, p.2 + 1)) by
            rw [List.zipIdx_succ]]
          rw [List.find?_map]
          simp only [Function.comp_def, List.take_succ_cons]
          cases List.find? (fun p : α × Nat => !isInstance p.1 t ||
            List.any (seen ++ item :: List.take p.2 rest) (fun y => eq y p.1)) rest.zipIdx <;> simp
        · rw [Bool.eq_false_iff]
          simp only [ne_eq, List.any_eq_true, not_exists, not_and]
          intro p hp
          have := mem_enumFrom _ _ _ hp
          simp only [beq_iff_eq]; omega
    · simp only [Bool.not_eq_true] at h1
      simp [h1]

/-- closed form of the constructor on a non-empty collection -/
theorem init_cons {α : Type _} [PyObj α] (start : Int) (x : α) (xs : List α) :
    IndexTable.init (x :: xs) start =
    (match xs.zipIdx.find? (fun p => !isInstance p.1 (typeOf x) ||
        (x :: xs.take p.2).any (fun y => eq y p.1)) with
     | none => .ok ⟨(enumFrom start (x :: xs)).map Prod.swap, enumFrom start (x :: xs),
          typeOf x, (x :: xs).length⟩
     | some p => if !isInstance p.1 (typeOf x) then raise .typeError else raise .valueError) := by
  have := initLoop_spec start (typeOf x) xs [x] (by simp)
  simp only [enumFrom, List.map_cons, List.map_nil, List.length_singleton,
    List.singleton_append, Prod.swap] at this
  unfold IndexTable.init IndexTable.initLoop
  simp only [dictGet, dictSet, if_true, Option.isSome_none, Bool.false_eq_true, if_false]
  push_cast at this
  rw [this]
  cases List.find? (fun p : α × Nat => !isInstance p.1 (typeOf x) ||
      List.any (x :: xs.take p.2) (fun y => eq y p.1)) xs.zipIdx with
  | none => simp [enumFrom, enumFrom_length]
  | some p =>
    cases hb : isInstance p.1 (typeOf x) <;> simp [hb, raise]

theorem init_ok {α : Type _} [PyObj α] {start : Int} {objs : List α} {t : IndexTable α}
    (h : IndexTable.init objs start = .ok t) :
    ∃ x xs, objs = x :: xs ∧
      t = ⟨(enumFrom start objs).map Prod.swap, enumFrom start objs, typeOf x, objs.length⟩ ∧
      (∀ y ∈ xs, isInstance y (typeOf x) = true) ∧
      objs.Pairwise (fun a b => eq a b = false) := by
  cases objs with
  | nil => simp [IndexTable.init, IndexTable.initLoop] at h
  | cons x xs =>
    rw [init_cons] at h
    split at h
    · rename_i hn
      injection h with h
      refine ⟨x, xs, rfl, h.symm, ?_, ?_⟩
      · intro y hy
        rw [List.find?_eq_none] at hn
        obtain ⟨k, hk, rfl⟩ := List.mem_iff_getElem.mp hy
        have := hn (xs[k], k) (by rw [List.mem_zipIdx_iff_getElem?]; simp [hk])
        simp only [Bool.not_eq_true, Bool.or_eq_false_iff, Bool.not_eq_false'] at this
        exact this.1
      · rw [List.find?_eq_none] at hn
        rw [List.pairwise_iff_getElem]
        intro i j hi hj hij
        cases j with
        | zero => omega
        | succ j =>
          simp only [List.length_cons] at hj
          have hj' : j < xs.length := by omega
          have := hn (xs[j], j) (by rw [List.mem_zipIdx_iff_getElem?]; simp [hj'])
          simp only [Bool.not_eq_true, Bool.or_eq_false_iff, Bool.not_eq_false',
            List.any_eq_false] at this
          have h2 := this.2 ((x :: xs)[i]) (by
            cases i with
            | zero => simp
            | succ i =>
              simp only [List.getElem_cons_succ, List.mem_cons]
              right
              rw [List.mem_iff_getElem]
              exact ⟨i, by simp; omega, by simp⟩)
          simpa using h2
    · split at h <;> simp [raise] at h

theorem dictGet_enum {α : Type _} [PyObj α] (s : Int) (objs : List α) (i : Int) :
    dictGet (· == ·) (enumFrom s objs) i =
      (if s ≤ i then objs[(i - s).toNat]? else none) := by
  induction objs generalizing s with
  | nil => simp [enumFrom, dictGet]
  | cons x xs ih =>
    simp only [enumFrom, dictGet, beq_iff_eq]
    by_cases h : s = i
    · subst h; simp
    · rw [if_neg h, ih]
      by_cases h2 : s ≤ i
      · have h3 : s + 1 ≤ i := by omega
        rw [if_pos h2, if_pos h3, show (i - s).toNat = (i - (s + 1)).toNat + 1 by omega]
        simp
      · rw [if_neg h2, if_neg (by omega)]

theorem dictGet_swap {α : Type _} [PyObj α] (s : Int) (objs : List α) (k : α) :
    dictGet eq ((enumFrom s objs).map Prod.swap) k =
      (objs.findIdx? (fun o => eq o k)).map (fun n => s + (n : Int)) := by
  induction objs generalizing s with
  | nil => simp [enumFrom, dictGet]
  | cons x xs ih =>
    simp only [enumFrom, List.map_cons, Prod.swap, dictGet, List.findIdx?_cons]
    by_cases h : eq x k = true
    · simp [h]
    · rw [if_neg h, ih, if_neg h]
      cases List.findIdx? (fun o => eq o k) xs <;> simp
      omega
end Verif
