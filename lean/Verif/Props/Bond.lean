import Verif.Model.Bond
import Verif.Proofs.Order
import Verif.Proofs.PyLemmas
import Verif.Proofs.Float64
/-!
# C39: bonds;  C64: azimuths
-/

namespace Verif

theorem bond_init_ok_iff (zoom : ℤ) (p0 p1 : NpVec) (d : Bool) (b : Bond) :
    Bond.init zoom p0 p1 d = .ok b ↔
      (p0.len = 1 ∨ p0.len = 2 ∨ p0.len = 3) ∧ p1.len = p0.len ∧
      ∃ t0 t1, p0.zoomTuple zoom = .ok t0 ∧ p1.zoomTuple zoom = .ok t1 ∧
        b = ⟨p0, p1, d, if !d && tupleRich .lt t1 t0 then (t1, t0, d) else (t0, t1, d)⟩ := by
  unfold Bond.init
  by_cases h0 : p0.len = 1 ∨ p0.len = 2 ∨ p0.len = 3
  · by_cases h1 : p1.len = p0.len
    · simp only [h0, h1, decide_true, pyAssert, if_true]
      cases e0 : p0.zoomTuple zoom with
      | error e => simp [Bind.bind, Except.bind]
      | ok t0 =>
        cases e1 : p1.zoomTuple zoom with
        | error e => simp [Bind.bind, Except.bind]
        | ok t1 =>
          simp only [Bind.bind, Except.bind, pure, Except.pure, Except.ok.injEq, true_and]
          constructor
          · rintro rfl
            refine ⟨t0, t1, rfl, rfl, ?_⟩
            cases d <;> cases tupleRich .lt t1 t0 <;> rfl
          · rintro ⟨_, _, rfl, rfl, rfl⟩
            cases d <;> cases tupleRich .lt t1 t0 <;> rfl
    · simp [h0, h1, pyAssert, Bind.bind, Except.bind]
  · simp [h0, pyAssert, Bind.bind, Except.bind]

/-- **C39** (equality).  For bonds built under one precision: directional bonds are equal iff the
truncated endpoints agree in order; non-directional bonds iff they agree as unordered pairs; a
directional and a non-directional bond are never equal; `!=` is the negation of `==` and equal bonds
have equal hashes. -/
theorem C39_equality (zoom : ℤ) (p0 p1 q0 q1 : NpVec) (d e : Bool) (a b : Bond)
    (ha : Bond.init zoom p0 p1 d = .ok a) (hb : Bond.init zoom q0 q1 e = .ok b) :
    ∃ t0 t1 u0 u1, p0.zoomTuple zoom = .ok t0 ∧ p1.zoomTuple zoom = .ok t1 ∧
      q0.zoomTuple zoom = .ok u0 ∧ q1.zoomTuple zoom = .ok u1 ∧
      (d = true → e = true → (a.eq b = true ↔ t0 = u0 ∧ t1 = u1)) ∧
      (d = false → e = false → (a.eq b = true ↔ (t0 = u0 ∧ t1 = u1) ∨ (t0 = u1 ∧ t1 = u0))) ∧
      (d ≠ e → a.eq b = false) ∧
      (a.ne b = !a.eq b) ∧ (a.eq b = true ↔ a.hashKey = b.hashKey) := by
  obtain ⟨-, -, t0, t1, ht0, ht1, rfl⟩ := (bond_init_ok_iff _ _ _ _ _).mp ha
  obtain ⟨-, -, u0, u1, hu0, hu1, rfl⟩ := (bond_init_ok_iff _ _ _ _ _).mp hb
  refine ⟨t0, t1, u0, u1, ht0, ht1, hu0, hu1, ?_, ?_, ?_, ?_, ?_⟩
  · rintro rfl rfl
    simp [Bond.eq]
  · rintro rfl rfl
    simp only [Bond.eq, Bool.not_false, Bool.true_and, decide_eq_true_eq, tupleRich_eq, linRich]
    rcases lt_trichotomy t0 t1 with h | h | h
    · rcases lt_trichotomy u0 u1 with h' | h' | h'
      · rw [if_neg (not_lt_of_gt h), if_neg (not_lt_of_gt h')]
        simp only [Prod.mk.injEq, and_true]
        refine ⟨.inl, ?_⟩
        rintro (h2 | ⟨rfl, rfl⟩)
        · exact h2
        · exact absurd h (not_lt_of_gt h')
      · subst h'
        rw [if_neg (not_lt_of_gt h), if_neg (lt_irrefl _)]
        simp only [Prod.mk.injEq, and_true]
        tauto
      · rw [if_neg (not_lt_of_gt h), if_pos h']
        simp only [Prod.mk.injEq, and_true]
        refine ⟨.inr, ?_⟩
        rintro (⟨rfl, rfl⟩ | h2)
        · exact absurd h (not_lt_of_gt h')
        · exact h2
    · subst h
      rcases lt_trichotomy u0 u1 with h' | h' | h'
      · rw [if_neg (lt_irrefl _), if_neg (not_lt_of_gt h')]
        simp only [Prod.mk.injEq, and_true]
        tauto
      · subst h'
        rw [if_neg (lt_irrefl _), if_neg (lt_irrefl _)]
        simp only [Prod.mk.injEq, and_true]
        tauto
      · rw [if_neg (lt_irrefl _), if_pos h']
        simp only [Prod.mk.injEq, and_true]
        tauto
    · rcases lt_trichotomy u0 u1 with h' | h' | h'
      · rw [if_pos h, if_neg (not_lt_of_gt h')]
        simp only [Prod.mk.injEq, and_true]
        refine ⟨fun h2 => .inr ⟨h2.2, h2.1⟩, ?_⟩
        rintro (⟨rfl, rfl⟩ | h2)
        · exact absurd h (not_lt_of_gt h')
        · exact ⟨h2.2, h2.1⟩
      · subst h'
        rw [if_pos h, if_neg (lt_irrefl _)]
        simp only [Prod.mk.injEq, and_true]
        tauto
      · rw [if_pos h, if_pos h']
        simp only [Prod.mk.injEq, and_true]
        refine ⟨fun h2 => .inl ⟨h2.2, h2.1⟩, ?_⟩
        rintro (h2 | ⟨rfl, rfl⟩)
        · exact ⟨h2.2, h2.1⟩
        · exact absurd h (not_lt_of_gt h')
  · intro h
    have : ∀ x y : List ℤ × List ℤ, (x.1, x.2, d) ≠ (y.1, y.2, e) := by
      intro x y h2
      simp only [Prod.mk.injEq] at h2
      exact h h2.2.2
    simp only [Bond.eq, decide_eq_false_iff_not]
    split <;> split
    · exact this (_, _) (_, _)
    · exact this (_, _) (_, _)
    · exact this (_, _) (_, _)
    · exact this (_, _) (_, _)
  · simp [Bond.ne, Bond.eq]
  · simp [Bond.eq, Bond.hashKey]

/-- **C39** (construction).  A bond exists iff the endpoints have the same length 1, 2 or 3 and their
coordinates can be truncated; a wrong shape raises AssertionError. -/
theorem C39_construction (zoom : ℤ) (p0 p1 : NpVec) (d : Bool) :
    (((p0.len = 1 ∨ p0.len = 2 ∨ p0.len = 3) ∧ p1.len = p0.len) →
      ∀ t0 t1, p0.zoomTuple zoom = .ok t0 → p1.zoomTuple zoom = .ok t1 →
        ∃ b, Bond.init zoom p0 p1 d = .ok b ∧ b.p0 = p0 ∧ b.p1 = p1 ∧ b.directional = d) ∧
    (¬ ((p0.len = 1 ∨ p0.len = 2 ∨ p0.len = 3) ∧ p1.len = p0.len) →
      Bond.init zoom p0 p1 d = .error .assertionError) := by
  constructor
  · rintro ⟨h0, h1⟩ t0 t1 e0 e1
    exact ⟨_, (bond_init_ok_iff _ _ _ _ _).mpr ⟨h0, h1, t0, t1, e0, e1, rfl⟩, rfl, rfl, rfl⟩
  · intro h
    unfold Bond.init
    by_cases h0 : p0.len = 1 ∨ p0.len = 2 ∨ p0.len = 3
    · have h1 : ¬ p1.len = p0.len := fun h1 => h ⟨h0, h1⟩
      simp [h0, h1, pyAssert, Bind.bind, Except.bind]
    · simp [h0, pyAssert, Bind.bind, Except.bind]

theorem wrap64_neg_sub (x y : ℤ) : wrap64 (-wrap64 (x - y)) = wrap64 (y - x) := by
  unfold wrap64
  rw [show y - x = -(x - y) by ring]
  generalize x - y = z
  apply Int.bmod_eq_bmod_iff_bmod_sub_eq_zero.mpr
  rw [show -(z.bmod (2 ^ 64)) - -z = z - z.bmod (2 ^ 64) by ring]
  rw [← Int.bmod_eq_bmod_iff_bmod_sub_eq_zero]
  simp

theorem fsub_neg (x y : F64) : fneg (fsub x y) = fsub y x := by
  unfold fsub
  cases x with
  | nan => cases y <;> rfl
  | inf s =>
    cases y with
    | nan => rfl
    | inf t => cases s <;> cases t <;> rfl
    | fin b => rfl
  | fin a =>
    cases y with
    | nan => rfl
    | inf t => cases t <;> rfl
    | fin b =>
      simp only [fneg, fadd]
      rw [show b + -a = -(a + -b) by ring, fl_neg]
      cases fl (a + -b) <;> rfl

theorem sub_neg (a b : NpVec) : (a.sub b).neg = b.sub a := by
  cases a with
  | i64 a =>
    cases b with
    | i64 b =>
      simp only [NpVec.sub, NpVec.neg, List.map_zipWith, wrap64_neg_sub]
      rw [List.zipWith_comm]
    | f64 b =>
      simp only [NpVec.sub, NpVec.neg, List.map_zipWith, fsub_neg]
      rw [List.zipWith_comm]
  | f64 a =>
    simp only [NpVec.sub, NpVec.neg, List.map_zipWith, fsub_neg]
    rw [List.zipWith_comm]

theorem fmul_neg_neg (x : F64) : fmul (fneg x) (fneg x) = fmul x x := by
  cases x with
  | nan => rfl
  | inf s => cases s <;> rfl
  | fin a => simp [fneg, fmul]

/-- **C39** (flip).  `flip` of a directional bond built under the same precision succeeds; flipping
twice gives back an equal bond (the very same endpoints); the displacement of the flipped bond is the
negated displacement (`-dr` of numpy). -/
theorem C39_flip (zoom : ℤ) (p0 p1 : NpVec) (b : Bond) (hb : Bond.init zoom p0 p1 true = .ok b) :
    ∃ f, b.flip zoom = .ok f ∧ f.p0 = b.p1 ∧ f.p1 = b.p0 ∧ f.flip zoom = .ok b ∧
      ∃ dr, b.getDisplace = .ok dr ∧ dr = b.p1.sub b.p0 ∧ f.getDisplace = .ok dr.neg := by
  obtain ⟨h0, h1, t0, t1, e0, e1, rfl⟩ := (bond_init_ok_iff _ _ _ _ _).mp hb
  refine ⟨⟨p1, p0, true, (t1, t0, true)⟩, ?_, rfl, rfl, ?_, p1.sub p0, rfl, rfl, ?_⟩
  · exact (bond_init_ok_iff _ _ _ _ _).mpr ⟨h1 ▸ h0, h1.symm, t1, t0, e1, e0, by simp⟩
  · exact (bond_init_ok_iff _ _ _ _ _).mpr ⟨h0, h1, t0, t1, e0, e1, by simp⟩
  · rw [sub_neg]
    rfl

theorem norm_neg_f64 (sqrt : F64 → F64) (l : List F64) :
    (NpVec.f64 (l.map fneg)).norm sqrt = (NpVec.f64 l).norm sqrt := by
  unfold NpVec.norm
  simp only [NpVec.toF64, List.map_map]
  congr 3
  funext x
  exact fmul_neg_neg x

theorem fl_int_neg (n : ℤ) : fl ((-n : ℤ) : ℚ) = fneg (fl (n : ℚ)) := by
  push_cast
  rw [fl_neg]
  cases fl (n : ℚ) <;> rfl

/-- on int64 the only value with a wrong negation is the smallest one, whose square is the same -/
theorem wrap64_neg_eq (z : ℤ) : wrap64 (-wrap64 z) = -wrap64 z ∨ wrap64 (-wrap64 z) = wrap64 z := by
  unfold wrap64
  have h1 : -(2 ^ 63) ≤ z.bmod (2 ^ 64) := by
    have := Int.le_bmod (x := z) (m := 2 ^ 64) (by norm_num)
    norm_num at this ⊢
    exact this
  have h2 : z.bmod (2 ^ 64) < 2 ^ 63 := by
    have := Int.bmod_lt (x := z) (m := 2 ^ 64) (by norm_num)
    norm_num at this ⊢
    exact this
  generalize z.bmod (2 ^ 64) = w at *
  by_cases h : w = -(2 ^ 63)
  · right
    subst h
    decide
  · left
    apply Int.bmod_eq_of_le
    · norm_num
      omega
    · norm_num
      omega

/-- **C39** (length).  `getLength` never raises, and flipping keeps the length (for every square-root
routine on doubles). -/
theorem C39_flip_keeps_length (sqrt : F64 → F64) (zoom : ℤ) (p0 p1 : NpVec) (b f : Bond)
    (hb : Bond.init zoom p0 p1 true = .ok b) (hf : b.flip zoom = .ok f) :
    f.getLength sqrt = b.getLength sqrt := by
  obtain ⟨f', hf', h0, h1, -⟩ := C39_flip zoom p0 p1 b hb
  rw [hf] at hf'
  cases hf'
  unfold Bond.getLength
  rw [h0, h1, ← sub_neg b.p0 b.p1]
  generalize hv : b.p0.sub b.p1 = v
  cases v with
  | f64 l => exact norm_neg_f64 sqrt l
  | i64 l =>
    -- the entries are wrapped values
    have hl : ∀ x ∈ l, ∃ z, x = wrap64 z := by
      generalize b.p0 = a, b.p1 = c at hv
      cases a with
      | i64 a =>
        cases c with
        | i64 c =>
          simp only [NpVec.sub] at hv
          cases hv
          intro x hx
          rw [List.mem_iff_getElem] at hx
          obtain ⟨i, hi, rfl⟩ := hx
          rw [List.getElem_zipWith]
          exact ⟨_, rfl⟩
        | f64 c => cases hv
      | f64 a => cases hv
    unfold NpVec.norm
    simp only [NpVec.neg, NpVec.toF64, List.map_map]
    congr 2
    apply List.map_congr_left
    intro x hx
    obtain ⟨z, rfl⟩ := hl x hx
    simp only [Function.comp]
    rcases wrap64_neg_eq z with h | h
    · rw [h, fl_int_neg, fmul_neg_neg]
    · rw [h]

/-- **C39** (oppositeTo and the exceptions).  `b.oppositeTo(c)` is `b.flip() == c`; with something
that is not a Bond it raises TypeError; for non-directional bonds `flip`, `oppositeTo` and
`getDisplace` raise NotImplementedError, for directional ones they do not. -/
theorem C39_opposite (zoom : ℤ) (p0 p1 : NpVec) (d : Bool) (b : Bond)
    (hb : Bond.init zoom p0 p1 d = .ok b) :
    (d = true → (∀ c, ∃ f, b.flip zoom = .ok f ∧ b.oppositeTo zoom (.bond c) = .ok (c.eq f)) ∧
      b.oppositeTo zoom .other = .error .typeError ∧ ∃ dr, b.getDisplace = .ok dr) ∧
    (d = false → b.flip zoom = .error .notImplementedError ∧
      (∀ c, b.oppositeTo zoom c = .error .notImplementedError) ∧
      b.getDisplace = .error .notImplementedError) := by
  constructor
  · rintro rfl
    obtain ⟨f, hf, -, -, -, dr, hdr, -⟩ := C39_flip zoom p0 p1 b hb
    obtain ⟨-, -, t0, t1, -, -, rfl⟩ := (bond_init_ok_iff _ _ _ _ _).mp hb
    refine ⟨fun c => ⟨f, hf, ?_⟩, rfl, dr, hdr⟩
    simp only [Bond.oppositeTo, if_true, hf]
    simp only [Bind.bind, Except.bind, pure, Except.pure, Bond.eq, eq_comm]
  · rintro rfl
    obtain ⟨-, -, t0, t1, -, -, rfl⟩ := (bond_init_ok_iff _ _ _ _ _).mp hb
    refine ⟨rfl, ?_, rfl⟩
    intro c
    cases c <;> rfl

/-- Non-vacuity of C39: the bond from (0,0) to (1,2) and its reverse, directional and not. -/
example : ∃ a b c d, Bond.init 10000 (.i64 [0, 0]) (.i64 [1, 2]) true = .ok a ∧
    Bond.init 10000 (.i64 [1, 2]) (.i64 [0, 0]) true = .ok b ∧
    Bond.init 10000 (.i64 [0, 0]) (.i64 [1, 2]) false = .ok c ∧
    Bond.init 10000 (.i64 [1, 2]) (.i64 [0, 0]) false = .ok d ∧
    a.eq b = false ∧ c.eq d = true ∧ a.eq c = false :=
  ⟨_, _, _, _, rfl, rfl, rfl, rfl, by decide, by decide, by decide⟩

/-! ### C64 -/

/-- **C64** (2D).  The azimuth of a directional bond in the plane lies in `[-pi, pi]` and, with the
length, determines the displacement. -/
theorem C64_azimuth_2d (x y : ℝ) : ∃ θ, exactAzimuth true true [x, y] = .ok (.angle θ) ∧
    -Real.pi < θ ∧ θ ≤ Real.pi ∧
    x = Real.sqrt (x ^ 2 + y ^ 2) * Real.cos θ ∧ y = Real.sqrt (x ^ 2 + y ^ 2) * Real.sin θ := by
  refine ⟨arctan2 y x, by simp [exactAzimuth], Complex.neg_pi_lt_arg _, Complex.arg_le_pi _, ?_, ?_⟩
  · have h := Complex.norm_mul_cos_arg (⟨x, y⟩ : ℂ)
    rw [Complex.norm_eq_sqrt_sq_add_sq] at h
    exact h.symm
  · have h := Complex.norm_mul_sin_arg (⟨x, y⟩ : ℂ)
    rw [Complex.norm_eq_sqrt_sq_add_sq] at h
    exact h.symm

/-- **C64** (3D).  The two angles are in `[0, pi]` and `[-pi, pi]` and are the spherical angles of the
displacement. -/
theorem C64_azimuth_3d (x y z : ℝ) : ∃ α β, exactAzimuth true true [x, y, z] = .ok (.angles α β) ∧
    0 ≤ α ∧ α ≤ Real.pi ∧ -Real.pi < β ∧ β ≤ Real.pi ∧
    x = Real.sqrt (x ^ 2 + y ^ 2 + z ^ 2) * Real.sin α * Real.cos β ∧
    y = Real.sqrt (x ^ 2 + y ^ 2 + z ^ 2) * Real.sin α * Real.sin β ∧
    z = Real.sqrt (x ^ 2 + y ^ 2 + z ^ 2) * Real.cos α := by
  have hr : Real.sqrt (z ^ 2 + Real.sqrt (x ^ 2 + y ^ 2) ^ 2) = Real.sqrt (x ^ 2 + y ^ 2 + z ^ 2) := by
    rw [Real.sq_sqrt (by positivity)]
    congr 1
    ring
  have hz := Complex.norm_mul_cos_arg (⟨z, Real.sqrt (x ^ 2 + y ^ 2)⟩ : ℂ)
  have hs := Complex.norm_mul_sin_arg (⟨z, Real.sqrt (x ^ 2 + y ^ 2)⟩ : ℂ)
  rw [Complex.norm_eq_sqrt_sq_add_sq] at hz hs
  simp only [hr] at hz hs
  have hx := Complex.norm_mul_cos_arg (⟨x, y⟩ : ℂ)
  have hy := Complex.norm_mul_sin_arg (⟨x, y⟩ : ℂ)
  rw [Complex.norm_eq_sqrt_sq_add_sq] at hx hy
  simp only at hx hy
  refine ⟨arctan2 (Real.sqrt (x ^ 2 + y ^ 2)) z, arctan2 y x, by simp [exactAzimuth],
    Complex.arg_nonneg_iff.mpr (Real.sqrt_nonneg _), Complex.arg_le_pi _, Complex.neg_pi_lt_arg _,
    Complex.arg_le_pi _, ?_, ?_, hz.symm⟩
  · unfold arctan2
    rw [hs, hx]
  · unfold arctan2
    rw [hs, hy]

/-- **C64** (1D, degrees, non-directional).  In one dimension the azimuth is `0` or `-pi`; in degrees
every angle is `180/pi` times the angle in radians; for a non-directional bond the method raises
NotImplementedError. -/
theorem C64_azimuth_units (x : ℝ) (dr : List ℝ) (radian : Bool) :
    exactAzimuth true true [x] = .ok (.angle (if 0 ≤ x then 0 else -Real.pi)) ∧
    (∀ θ, exactAzimuth true true dr = .ok (.angle θ) →
      exactAzimuth true false dr = .ok (.angle (180 / Real.pi * θ))) ∧
    (∀ α β, exactAzimuth true true dr = .ok (.angles α β) →
      exactAzimuth true false dr = .ok (.angles (180 / Real.pi * α) (180 / Real.pi * β))) ∧
    exactAzimuth false radian dr = .error .notImplementedError := by
  refine ⟨by simp [exactAzimuth], ?_, ?_, rfl⟩
  · intro θ h
    match dr with
    | [] => cases h
    | [x] => simp [exactAzimuth] at h ⊢; simp [← h]
    | [x, y] => simp [exactAzimuth] at h ⊢; simp [← h]
    | [x, y, z] => simp [exactAzimuth] at h
    | _ :: _ :: _ :: _ :: _ => cases h
  · intro α β h
    match dr with
    | [] => cases h
    | [x] => simp [exactAzimuth] at h
    | [x, y] => simp [exactAzimuth] at h
    | [x, y, z] => simp [exactAzimuth] at h ⊢; simp [← h]
    | _ :: _ :: _ :: _ :: _ => cases h

/-- Non-vacuity of C64: the azimuth of the bond along (1, 1) is `pi / 4`. -/
example : exactAzimuth true true [1, 1] = .ok (.angle (arctan2 1 1)) := by
  simp [exactAzimuth]

end Verif
