import Verif.Proofs.Draw2DLattice
/-!
# C79, C80: what `Draw2DLattice.show` draws, and where it saves it
-/

namespace Verif.D2L

open Verif.Latt Verif.LDB

/-- C79 (sites): for each of the eight names and non-negative sizes, the drawn sites are the sites of the
cells `(a, b)` with `|a| ≤ num0`, `|b| ≤ num1`, each drawn once; in particular `(2 num0 + 1)(2 num1 + 1)`
cells are drawn (not `num0 * num1`). -/
theorem C79_sites {which : String} {k : Kind} (hw : Named which k) {num0 num1 : ℤ} (h0 : 0 ≤ num0)
    (h1 : 0 ≤ num1) : ∃ sites, sitesFactory which num0 num1 = .ok sites ∧ sites.Nodup ∧
      (∀ s, s ∈ sites ↔ s ∈ block k num0 num1) ∧
      (sites.length : ℤ) = (2 * num0 + 1) * (2 * num1 + 1) * perCell k := by
  refine ⟨_, sitesFactory_ok hw h0 h1, nodup_drawn k _ _, mem_drawn k _ _, ?_⟩
  rw [length_drawn]
  push_cast
  rw [Int.toNat_of_nonneg (by omega), Int.toNat_of_nonneg (by omega)]

/-- C79 (bonds): with `link=True`, and whatever order the pairs come in, the lines drawn are exactly the
nearest-neighbour bonds of the infinite lattice between drawn sites, each drawn once: two drawn sites
are joined (in one direction or the other, not both) iff their distance is the smallest distance between
any two sites of the infinite lattice. -/
theorem C79_bonds (porder : ∀ N : ℕ, List (Fin N × Fin N) → List (Fin N × Fin N))
    (hporder : ∀ N l, (porder N l).Perm l) {which : String} {k : Kind} (hw : Named which k)
    {num0 num1 : ℤ} (h0 : 0 ≤ num0) (h1 : 0 ≤ num1)
    (h2 : 0 < num0 ∨ 0 < num1 ∨ 1 < perCell k) :
    ∃ sites bonds, picture porder which num0 num1 true = .ok ⟨sites, some bonds⟩ ∧
      (∀ s, s ∈ sites ↔ s ∈ block k num0 num1) ∧ bonds.Nodup ∧
      (∀ p q, (p, q) ∈ bonds → p ∈ sites ∧ q ∈ sites ∧ (q, p) ∉ bonds) ∧
      ∀ d, IsNNDistance (whole k) d → ∀ p ∈ sites, ∀ q ∈ sites,
        ((p, q) ∈ bonds ∨ (q, p) ∈ bonds ↔ ndist p q = d) := by
  have hlen : 1 < (drawn k num0 num1).length := by
    rw [length_drawn]
    have a : 1 ≤ (2 * num0 + 1).toNat := by omega
    have b : 1 ≤ (2 * num1 + 1).toNat := by omega
    have c : 1 ≤ perCell k := by cases k <;> simp [perCell]
    rcases h2 with h | h | h
    · have : 2 ≤ (2 * num0 + 1).toNat := by omega
      calc 1 < 2 * 1 * 1 := by norm_num
        _ ≤ _ := Nat.mul_le_mul (Nat.mul_le_mul this b) c
    · have : 2 ≤ (2 * num1 + 1).toNat := by omega
      calc 1 < 1 * 2 * 1 := by norm_num
        _ ≤ _ := Nat.mul_le_mul (Nat.mul_le_mul a this) c
    · calc 1 < 1 * 1 * 2 := by norm_num
        _ ≤ _ := Nat.mul_le_mul (Nat.mul_le_mul a b) h
  obtain ⟨hne, hmin⟩ := listMin_drawn k h0 h1 hlen
  set l := drawn k num0 num1 with hl
  have hnd : l.Nodup := nodup_drawn k num0 num1
  set bonds := (porder l.length (queryPairs l (nn k + 1 / 10000))).map
    (fun p => (l.get p.1, l.get p.2)) with hbonds
  have hpic : picture porder which num0 num1 true = .ok ⟨l, some bonds⟩ := by
    have hemp : ¬ (pdist l).isEmpty = true := by rw [List.isEmpty_iff]; exact hne
    have : bondsGenerator porder l = .ok bonds := by
      unfold bondsGenerator
      simp only [hemp]
      rw [hmin]
      rfl
    unfold picture
    rw [sitesFactory_ok hw h0 h1, ← hl]
    simp only [bind, Except.bind, this]
    rfl
  have hmem : ∀ p q, (p, q) ∈ bonds ↔ ∃ i j : Fin l.length, i < j ∧ l.get i = p ∧ l.get j = q ∧
      ndist p q ≤ nn k + 1 / 10000 := by
    intro p q
    rw [hbonds, List.mem_map]
    constructor
    · rintro ⟨x, hx, e⟩
      rw [(hporder _ _).mem_iff, mem_queryPairs] at hx
      obtain ⟨e1, e2⟩ := Prod.mk.inj e
      exact ⟨x.1, x.2, hx.1, e1, e2, by rw [← e1, ← e2]; exact hx.2⟩
    · rintro ⟨i, j, hij, rfl, rfl, hd⟩
      exact ⟨(i, j), by rw [(hporder _ _).mem_iff, mem_queryPairs]; exact ⟨hij, hd⟩, rfl⟩
  refine ⟨l, bonds, hpic, mem_drawn k _ _, ?_, ?_, ?_⟩
  · refine ((hporder _ _).nodup_iff.2 (nodup_queryPairs _ _)).map ?_
    intro x y h
    obtain ⟨e1, e2⟩ := Prod.mk.inj h
    exact Prod.ext (hnd.injective_get e1) (hnd.injective_get e2)
  · intro p q h
    obtain ⟨i, j, hij, rfl, rfl, hd⟩ := (hmem p q).1 h
    refine ⟨List.get_mem _ _, List.get_mem _ _, fun h' => ?_⟩
    obtain ⟨i', j', hij', e1, e2, _⟩ := (hmem _ _).1 h'
    have := hnd.injective_get e1
    have := hnd.injective_get e2
    subst_vars
    exact absurd hij (not_lt.2 hij'.le)
  · intro d hd p hp q hq
    rw [nn_unique k hd]
    have sub : ∀ x ∈ l, x ∈ whole k := fun x hx => block_sub k _ _ ((mem_drawn k _ _ x).1 hx)
    constructor
    · intro h
      have key : ∀ p q, (p, q) ∈ bonds → ndist p q = nn k := by
        intro p q h
        obtain ⟨i, j, hij, rfl, rfl, hd⟩ := (hmem p q).1 h
        have hne : l.get i ≠ l.get j := fun h => absurd (hnd.injective_get h) hij.ne
        rcases gap k (sub _ (List.get_mem _ _)) (sub _ (List.get_mem _ _)) hne with g | g
        · exact g
        · exact absurd hd (not_le.2 g)
      rcases h with h | h
      · exact key _ _ h
      · rw [ndist_comm]; exact key _ _ h
    · intro h
      obtain ⟨i, rfl⟩ := List.get_of_mem hp
      obtain ⟨j, rfl⟩ := List.get_of_mem hq
      rcases lt_trichotomy i j with hij | hij | hij
      · left
        exact (hmem _ _).2 ⟨i, j, hij, rfl, rfl, by rw [h]; linarith⟩
      · subst hij
        rw [ndist_self] at h
        exact absurd h (nn_pos k).ne
      · right
        exact (hmem _ _).2 ⟨j, i, hij, rfl, rfl, by rw [ndist_comm, h]; linarith⟩

/-- C79 (the distance): the nearest-neighbour distances are 1, 1, `1/√3` and `1/2`. -/
theorem C79_distance : IsNNDistance (whole .square) 1 ∧ IsNNDistance (whole .triangle) 1 ∧
    IsNNDistance (whole .honeycomb) (1 / Real.sqrt 3) ∧ IsNNDistance (whole .kagome) (1 / 2) := by
  have e : ∀ k d, 0 ≤ d → d ^ 2 = 1 / (denom k : ℝ) → IsNNDistance (whole k) d := by
    intro k d h0 h
    have : d = nn k := by rw [nn, ← h, Real.sqrt_sq h0]
    rw [this]; exact nn_isNN k
  refine ⟨e _ _ (by norm_num) (by norm_num [denom]), e _ _ (by norm_num) (by norm_num [denom]),
    e _ _ (by positivity) ?_, e _ _ (by norm_num) (by norm_num [denom])⟩
  rw [div_pow, Real.sq_sqrt (by norm_num)]
  norm_num [denom]

/-- C79 (errors): an unknown name raises KeyError, a negative size raises ValueError, and so does the
request to draw the bonds of a single site; nothing else fails. -/
theorem C79_errors (porder : ∀ N : ℕ, List (Fin N × Fin N) → List (Fin N × Fin N))
    (which : String) (num0 num1 : ℤ) (link : Bool) :
    ((∀ k, ¬ Named which k) → picture porder which num0 num1 link = .error .keyError) ∧
    (∀ k, Named which k → num0 < 0 ∨ num1 < 0 →
      picture porder which num0 num1 link = .error .valueError) ∧
    (∀ k, Named which k → num0 = 0 → num1 = 0 → perCell k = 1 →
      picture porder which num0 num1 true = .error .valueError) ∧
    (∀ k, Named which k → 0 ≤ num0 → 0 ≤ num1 →
      ∃ sites, picture porder which num0 num1 false = .ok ⟨sites, none⟩ ∧
        ∀ s, s ∈ sites ↔ s ∈ block k num0 num1) := by
  refine ⟨fun h => ?_, fun k h hn => ?_, fun k h e0 e1 hp => ?_, fun k h a b => ?_⟩
  · simp only [picture, sitesFactory, cellInfo_none h]; rfl
  · simp only [picture, sitesFactory, cellInfo_named h, (cells_isEmpty_iff num0 num1).2 hn]; rfl
  · subst e0; subst e1
    have hl : (drawn k 0 0).length = 1 := by rw [length_drawn, hp]; rfl
    obtain ⟨x, hx⟩ := List.length_eq_one_iff.1 hl
    unfold picture
    rw [sitesFactory_ok h le_rfl le_rfl, hx]
    simp [bondsGenerator, pdist, bind, Except.bind]
  · unfold picture
    rw [sitesFactory_ok h a b]
    exact ⟨_, rfl, mem_drawn k _ _⟩

/-- Non-vacuity: the bonds of a 3×3 square patch. -/
example : Named "s" .square ∧ (∀ N (l : List (Fin N × Fin N)), ((fun _ l => l) N l).Perm l) ∧
    sq 1 0 ∈ block .square 1 1 ∧ sq 1 1 ∈ block .square 1 1 ∧ ndist (sq 1 0) (sq 1 1) = 1 ∧
    sq 2 0 ∉ block .square 1 1 := by
  refine ⟨Or.inl rfl, fun _ l => List.Perm.refl l, ⟨1, 0, by simp [InBox], rfl⟩,
    ⟨1, 1, by simp [InBox], rfl⟩, by simp [ndist_two, sq], ?_⟩
  rintro ⟨a, b, ⟨h, -⟩, hs⟩
  have h0 := congrFun (show sq 2 0 = sq a b from hs) 0
  simp [sq] at h0
  have : a = 2 := by
    have h2 : (a : ℝ) = 2 := h0.symm
    exact_mod_cast h2
  rw [this] at h
  norm_num at h

/-- C80, violated: `path` names a directory which `show` creates, but the figure is saved outside it
unless `path` ends with a slash: with `path="figs"` the file is `figssquare.pdf` in the current
directory. -/
theorem C80_directory_violated :
    savePath "s" "figs" none = "figssquare.pdf" ∧
      DirAndFile (savePath "s" "figs" none) "" "figssquare.pdf" := by
  refine ⟨by simp [savePath, figureName], ?_, ?_, ?_⟩ <;> simp [savePath, figureName]

/-- C80, the part that holds: if `path` is empty or ends with a slash and the file name has no slash,
the figure is saved in that directory under the given name (by default, the full name of the lattice
with the suffix `.pdf`). -/
theorem C80_directory_partial {path : String}
    (hp : path.toList = [] ∨ path.toList.getLast? = some '/') (which : String) :
    (∀ name : String, '/' ∉ name.toList → DirAndFile (savePath which path (some name)) path name) ∧
    (∀ k, Named which k → DirAndFile (savePath which path none) path
      (match k with
        | .square => "square.pdf"
        | .triangle => "triangle.pdf"
        | .honeycomb => "honeycomb.pdf"
        | .kagome => "kagome.pdf")) := by
  refine ⟨fun name hn => ⟨by simp [savePath, figureName], hn, hp⟩, fun k hk => ?_⟩
  cases k <;> rcases hk with rfl | rfl <;>
    exact ⟨by simp [savePath, figureName], by decide, hp⟩

/-- C80: without a slash at the end of a non-empty `path`, the figure is never in the directory `path/`. -/
theorem C80_outside {path : String} (hp : path.toList ≠ []) (hs : path.toList.getLast? ≠ some '/')
    (which : String) (name : Option String) (hn : '/' ∉ (figureName which name).toList)
    {dir file : String} (hd : DirAndFile (savePath which path name) dir file) :
    dir ≠ path ∧ dir ≠ path ++ "/" := by
  obtain ⟨e, hf, hdir⟩ := hd
  simp only [savePath, String.toList_append] at e
  constructor
  · rintro rfl
    rcases hdir with h | h
    · exact hp h
    · exact hs h
  · rintro rfl
    simp only [String.toList_append, List.append_assoc] at e
    have := List.append_cancel_left e
    rw [this] at hn
    simp at hn

example : ("out/".toList = [] ∨ "out/".toList.getLast? = some '/') ∧ Named "kagome" .kagome :=
  ⟨Or.inr rfl, Or.inr rfl⟩

example : "figs".toList ≠ [] ∧ "figs".toList.getLast? ≠ some '/' ∧
    '/' ∉ (figureName "t" none).toList := by decide

end Verif.D2L
