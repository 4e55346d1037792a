import Verif.Proofs.SingletRun
/-!
# Lemmas for C131: the steps between neighbours connect the lattices
-/

namespace Verif.LDB

open Verif.Latt

variable {m : ℕ} {S : Set (Pt m)} {d : ℝ}

/-- One step. -/
def Step (S : Set (Pt m)) (d : ℝ) (a b : Pt m) : Prop := a ∈ S ∧ b ∈ S ∧ ndist a b = d

theorem ndist_swap (x y : Pt m) : ndist x y = ndist y x := by
  unfold ndist
  congr 1
  exact Finset.sum_congr rfl fun i _ => by ring

theorem step_symm {a b : Pt m} (h : Relation.ReflTransGen (Step S d) a b) : Relation.ReflTransGen (Step S d) b a := by
  induction h with
  | refl => exact .refl
  | tail _ hs ih => exact ih.head ⟨hs.2.1, hs.1, by rw [ndist_swap]; exact hs.2.2⟩

/-- A walk in one direction. -/
theorem walk (f : ℤ → Pt m) (h : ∀ a, Relation.ReflTransGen (Step S d) (f a) (f (a + 1))) (a b : ℤ) :
    Relation.ReflTransGen (Step S d) (f a) (f b) := by
  have up : ∀ (a : ℤ) (k : ℕ), Relation.ReflTransGen (Step S d) (f a) (f (a + k)) := by
    intro a k
    induction k with
    | zero => rw [Nat.cast_zero, add_zero]
    | succ k ih =>
      have := ih.trans (h (a + k))
      rwa [add_assoc, ← Nat.cast_succ] at this
  rcases le_total a b with hab | hab
  · have := up a (b - a).toNat
    rwa [Int.toNat_of_nonneg (by omega), add_sub_cancel] at this
  · have := up b (a - b).toNat
    rw [Int.toNat_of_nonneg (by omega), add_sub_cancel] at this
    exact step_symm this

theorem chain_steps : StepsConnect chainSites 1 := by
  rintro x ⟨a, rfl⟩ y ⟨b, rfl⟩
  refine walk (S := chainSites) (d := 1) (fun a : ℤ => ![(a : ℝ)]) (fun a => .single ⟨⟨a, rfl⟩, ⟨a + 1, rfl⟩, ?_⟩) a b
  rw [ndist_eq_iff zero_le_one, Fin.sum_univ_one]
  simp

theorem square_steps : StepsConnect squareSites 1 := by
  rintro x ⟨a, b, rfl⟩ y ⟨a', b', rfl⟩
  refine (walk (S := squareSites) (d := 1) (fun a : ℤ => ![(a : ℝ), (b : ℝ)])
    (fun a => .single ⟨⟨a, b, rfl⟩, ⟨a + 1, b, rfl⟩, ?_⟩) a a').trans
    (walk (S := squareSites) (d := 1) (fun b : ℤ => ![(a' : ℝ), (b : ℝ)])
    (fun b => .single ⟨⟨a', b, rfl⟩, ⟨a', b + 1, rfl⟩, ?_⟩) b b') <;>
  · rw [ndist_eq_iff zero_le_one, Fin.sum_univ_two]
    simp

theorem cubic_steps : StepsConnect cubicSites 1 := by
  rintro x ⟨a, b, c, rfl⟩ y ⟨a', b', c', rfl⟩
  refine ((walk (S := cubicSites) (d := 1) (fun a : ℤ => ![(a : ℝ), (b : ℝ), (c : ℝ)])
    (fun a => .single ⟨⟨a, b, c, rfl⟩, ⟨a + 1, b, c, rfl⟩, ?_⟩) a a').trans
    (walk (S := cubicSites) (d := 1) (fun b : ℤ => ![(a' : ℝ), (b : ℝ), (c : ℝ)])
    (fun b => .single ⟨⟨a', b, c, rfl⟩, ⟨a', b + 1, c, rfl⟩, ?_⟩) b b')).trans
    (walk (S := cubicSites) (d := 1) (fun c : ℤ => ![(a' : ℝ), (b' : ℝ), (c : ℝ)])
    (fun c => .single ⟨⟨a', b', c, rfl⟩, ⟨a', b', c + 1, rfl⟩, ?_⟩) c c') <;>
  · rw [ndist_eq_iff zero_le_one, Fin.sum_univ_three]
    simp

/-- The site of the honeycomb lattice. -/
noncomputable def hexSite (a b e : ℤ) : Pt 2 := ![(a : ℝ) + b / 2, b * (r3 / 2) + e * (r3 / 6)]

theorem hexSite_mem (a b : ℤ) {e : ℤ} (he : e = -1 ∨ e = 1) : hexSite a b e ∈ honeycombSites :=
  (honeycomb_iff _).2 ⟨a, b, e, he, rfl, rfl⟩

/-- From a site below to the three sites above it. -/
theorem hex_step (a b : ℤ) : Step honeycombSites (1 / Real.sqrt 3) (hexSite a b (-1)) (hexSite a b 1) ∧
    Step honeycombSites (1 / Real.sqrt 3) (hexSite a b 1) (hexSite a (b + 1) (-1)) ∧
    Step honeycombSites (1 / Real.sqrt 3) (hexSite (a + 1) b 1) (hexSite a (b + 1) (-1)) := by
  have h3 : r3 * r3 = 3 := r3_sq
  refine ⟨⟨hexSite_mem _ _ (Or.inl rfl), hexSite_mem _ _ (Or.inr rfl), ?_⟩,
    ⟨hexSite_mem _ _ (Or.inr rfl), hexSite_mem _ _ (Or.inl rfl), ?_⟩,
    ⟨hexSite_mem _ _ (Or.inr rfl), hexSite_mem _ _ (Or.inl rfl), ?_⟩⟩ <;>
  · rw [ndist_eq_iff inv_sqrt3_pos.le, inv_sqrt3_sq, Fin.sum_univ_two]
    simp only [hexSite, Matrix.cons_val_zero, Matrix.cons_val_one, Matrix.cons_val_fin_one]
    push_cast
    first
    | linear_combination (1 / 9 : ℝ) * h3
    | linear_combination (1 / 36 : ℝ) * h3

theorem honeycomb_steps : StepsConnect honeycombSites (1 / Real.sqrt 3) := by
  have hup : ∀ a b, Relation.ReflTransGen (Step honeycombSites (1 / Real.sqrt 3)) (hexSite a b (-1)) (hexSite a b 1) :=
    fun a b => .single (hex_step a b).1
  have hrow : ∀ a b, Relation.ReflTransGen (Step honeycombSites (1 / Real.sqrt 3)) (hexSite a b (-1)) (hexSite (a + 1) b (-1)) := by
    intro a b
    exact ((hup a b).tail (hex_step a b).2.1).trans
      ((step_symm (.single (hex_step a b).2.2)).trans (step_symm (hup (a + 1) b)))
  have hcol : ∀ a b, Relation.ReflTransGen (Step honeycombSites (1 / Real.sqrt 3)) (hexSite a b (-1)) (hexSite a (b + 1) (-1)) :=
    fun a b => (hup a b).tail (hex_step a b).2.1
  intro x hx y hy
  obtain ⟨a, b, e, he, x0, x1⟩ := (honeycomb_iff x).1 hx
  obtain ⟨a', b', e', he', y0, y1⟩ := (honeycomb_iff y).1 hy
  have ex : x = hexSite a b e := by funext i; fin_cases i <;> [exact x0; exact x1]
  have ey : y = hexSite a' b' e' := by funext i; fin_cases i <;> [exact y0; exact y1]
  have key : Relation.ReflTransGen (Step honeycombSites (1 / Real.sqrt 3)) (hexSite a b (-1)) (hexSite a' b' (-1)) :=
    (walk (fun a => hexSite a b (-1)) (fun a => hrow a b) a a').trans
      (walk (fun b => hexSite a' b (-1)) (fun b => hcol a' b) b b')
  rw [ex, ey]
  refine (?_ : Relation.ReflTransGen (Step honeycombSites (1 / Real.sqrt 3)) (hexSite a b e) (hexSite a b (-1))).trans
    (key.trans ?_)
  · rcases he with rfl | rfl
    · exact .refl
    · exact step_symm (hup a b)
  · rcases he' with rfl | rfl
    · exact .refl
    · exact hup a' b'

end Verif.LDB
