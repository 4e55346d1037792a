import Verif.Proofs.LatticeBonds
/-!
Helper lemmas about `neighbor_distance`.
-/

namespace Verif.Latt

variable {n m k : ℕ}

theorem rint_near (x : ℝ) : |(rint x : ℝ) - x| ≤ 1 / 2 := by
  have h1 := Int.floor_le x
  have h2 := Int.lt_floor_add_one x
  unfold rint
  rw [abs_le]
  split_ifs <;> push_cast <;> constructor <;> linarith

theorem rint_intCast (z : ℤ) : rint (z : ℝ) = z := by
  unfold rint
  rw [Int.floor_intCast, if_pos (by norm_num)]

theorem rint_mono {x y : ℝ} (h : x ≤ y) : rint x ≤ rint y := by
  by_contra hcon
  push Not at hcon
  have hf := Int.floor_mono h
  have e1 := abs_le.1 (rint_near x)
  have e2 := abs_le.1 (rint_near y)
  have hc : (rint y : ℝ) + 1 ≤ rint x := by exact_mod_cast hcon
  have hxy : x = y := by linarith
  rw [hxy] at hcon; exact lt_irrefl _ hcon

theorem rint_lt {x y : ℝ} (h : x + 1 < y) : rint x < rint y := by
  have e1 := abs_le.1 (rint_near x)
  have e2 := abs_le.1 (rint_near y)
  have : (rint x : ℝ) < rint y := by linarith
  exact_mod_cast this

theorem mem_pdist {l : List (Pt m)} {x : ℝ} :
    x ∈ pdist l ↔ ∃ (a b : ℕ) (p q : Pt m), a < b ∧ l[a]? = some p ∧ l[b]? = some q ∧ x = ndist p q := by
  induction l with
  | nil => simp [pdist]
  | cons r l ih =>
    rw [pdist, List.mem_append, List.mem_map, ih]
    constructor
    · rintro (⟨q, hq, rfl⟩ | ⟨a, b, p, q, hab, ha, hb, rfl⟩)
      · obtain ⟨b, hb, rfl⟩ := List.mem_iff_getElem.1 hq
        exact ⟨0, b + 1, r, l[b], by omega, rfl, by simp [hb], rfl⟩
      · exact ⟨a + 1, b + 1, p, q, by omega, by simpa using ha, by simpa using hb, rfl⟩
    · rintro ⟨a, b, p, q, hab, ha, hb, rfl⟩
      cases b with
      | zero => omega
      | succ b =>
        cases a with
        | zero =>
          left
          simp only [List.getElem?_cons_zero, Option.some.injEq, List.getElem?_cons_succ] at ha hb
          exact ⟨q, List.mem_of_getElem? hb, by rw [ha]⟩
        | succ a =>
          right
          simp only [List.getElem?_cons_succ] at ha hb
          exact ⟨a, b, p, q, by omega, ha, hb, rfl⟩

/-- The rounded, sorted distances without the leading zero. -/
noncomputable def zs (prec : ℕ) (ds : List ℝ) : List ℤ :=
  (ds.map fun d => rint (d * 10 ^ prec)).toFinset.sort (· ≤ ·)

theorem distances_eq (prec : ℕ) (ds : List ℝ) :
    distances prec ds = 0 :: (zs prec ds).map fun z : ℤ => (z : ℝ) / 10 ^ prec := rfl

theorem mem_zs {prec : ℕ} {ds : List ℝ} {z : ℤ} :
    z ∈ zs prec ds ↔ ∃ d ∈ ds, z = rint (d * 10 ^ prec) := by
  unfold zs
  rw [Finset.mem_sort, List.mem_toFinset, List.mem_map]
  constructor
  · rintro ⟨d, hd, rfl⟩; exact ⟨d, hd, rfl⟩
  · rintro ⟨d, hd, rfl⟩; exact ⟨d, hd, rfl⟩

theorem zs_sorted (prec : ℕ) (ds : List ℝ) : (zs prec ds).Pairwise (· < ·) :=
  (Finset.sortedLT_sort _).pairwise

/-- The sites of a full box of translations, by position. -/
theorem copies_index (points : Fin n → Pt m) (v : Fin k → Pt m) (T : List (Fin k → ℤ)) (a : ℕ)
    (p : Pt m) (h : (copies points v T)[a]? = some p) :
    ∃ q, ∃ hq : q < T.length, ∃ i : Fin n, a = q * n + i ∧ p = comb v T[q] + points i := by
  have hlen := copies_length points v T
  have ha := (List.getElem?_eq_some_iff.1 h).1
  rw [hlen] at ha
  have hn : 0 < n := Nat.pos_of_ne_zero fun h0 => by subst h0; simp at ha
  have hq : a / n < T.length := (Nat.div_lt_iff_lt_mul hn).2 ha
  have hi := Nat.mod_lt a hn
  have hai : a = a / n * n + a % n := by rw [Nat.mul_comm]; exact (Nat.div_add_mod a n).symm
  refine ⟨a / n, hq, ⟨a % n, hi⟩, hai, ?_⟩
  have := copies_get points v T (a / n) hq ⟨a % n, hi⟩
  dsimp only at this
  rw [← hai, h] at this
  simpa using this

end Verif.Latt
