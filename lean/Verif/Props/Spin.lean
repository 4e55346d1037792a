import Verif.Proofs.SpinTerm
/-!
# C29-C33: spin operators and spin interactions
-/

namespace Verif
open Spec

/-- **C29.** `SpinOperator.matrix_function((i, o), n)` is the `2^n`-dimensional matrix of the
one-spin operator on spin `i` (see `siteOp`) when `0 <= i < n`, and raises ValueError otherwise. -/
theorem C29_single_spin_matrix (i n : ℤ) (o : SpinOtype) :
    (0 ≤ i ∧ i < n → ∃ M, SpinOperator.matrixFunction (i, o) n = .ok M ∧ M.dim = 2 ^ n.toNat ∧
      M.toMatrix (2 ^ n.toNat) = siteOp n.toNat i.toNat (spinHalf o)) ∧
    (¬ (0 ≤ i ∧ i < n) → SpinOperator.matrixFunction (i, o) n = .error .valueError) := by
  refine ⟨?_, (matrixFunction_single i n o).2⟩
  rintro ⟨h0, hn⟩
  obtain ⟨M, hM, h1, h2⟩ := (matrixFunction_single i n o).1 h0 hn
  exact ⟨M, hM, h1, h2⟩

/-- The matrix returned by `SpinOperator.matrix_function((i, o), n)` (zero if it raises). -/
noncomputable def spinMat (n : ℤ) (o : SpinOtype) (i : ℤ) :
    Matrix (Fin (2 ^ n.toNat)) (Fin (2 ^ n.toNat)) ℂ :=
  match SpinOperator.matrixFunction (i, o) n with
  | .ok M => M.toMatrix (2 ^ n.toNat)
  | .error _ => 0

theorem spinMat_eq {n i : ℤ} (h : 0 ≤ i ∧ i < n) (o : SpinOtype) :
    spinMat n o i = siteOp n.toNat i.toNat (spinHalf o) := by
  obtain ⟨M, hM, -, h2⟩ := (C29_single_spin_matrix i n o).1 h
  unfold spinMat
  rw [hM]
  exact h2

/-- Non-vacuity of C29 and what it says for one spin of two: `S_1^p` on two spins has the entries
`<up,s| S_1^p |down,s> = 1`. -/
example : ∃ M, SpinOperator.matrixFunction (1, .p) 2 = .ok M ∧ M.dim = 4 ∧ M.get 1 3 = 1 ∧
    M.get 0 3 = 0 := by
  obtain ⟨M, hM, h1, h2⟩ := (C29_single_spin_matrix 1 2 .p).1 (by norm_num)
  refine ⟨M, hM, by simpa using h1, ?_, ?_⟩
  · have := congrFun (congrFun h2 ⟨1, by decide⟩) ⟨3, by decide⟩
    simp only [SMat.toMatrix, Matrix.of_apply, siteOp] at this
    rw [this, if_pos]
    · simp [spinHalf, digit]
    · intro j hj hne
      have : j = 0 := by simp at hj hne; omega
      subst this
      decide
  · have := congrFun (congrFun h2 ⟨0, by decide⟩) ⟨3, by decide⟩
    simp only [SMat.toMatrix, Matrix.of_apply, siteOp] at this
    rw [this, if_neg]
    intro h
    have := h 0 (by norm_num) (by norm_num)
    revert this
    decide

/-- **C30.** The matrices of the single-spin operators obey the SU(2) algebra. -/
theorem C30_su2_algebra (n i j : ℤ) (hi : 0 ≤ i ∧ i < n) (hj : 0 ≤ j ∧ j < n) :
    (spinMat n .x i * spinMat n .y j - spinMat n .y j * spinMat n .x i =
      if i = j then Complex.I • spinMat n .z i else 0) ∧
    (spinMat n .y i * spinMat n .z j - spinMat n .z j * spinMat n .y i =
      if i = j then Complex.I • spinMat n .x i else 0) ∧
    (spinMat n .z i * spinMat n .x j - spinMat n .x j * spinMat n .z i =
      if i = j then Complex.I • spinMat n .y i else 0) ∧
    spinMat n .p i = spinMat n .x i + Complex.I • spinMat n .y i ∧
    spinMat n .m i = spinMat n .x i - Complex.I • spinMat n .y i ∧
    spinMat n .x i * spinMat n .x i + spinMat n .y i * spinMat n .y i +
      spinMat n .z i * spinMat n .z i = (3 / 4 : ℂ) • 1 ∧
    (i ≠ j → ∀ o o', Commute (spinMat n o i) (spinMat n o' j)) := by
  have hii : i.toNat < n.toNat := by omega
  have hjj : j.toNat < n.toNat := by omega
  have hI : Complex.I * Complex.I = -1 := Complex.I_mul_I
  have hcomm : i ≠ j → ∀ A B, Commute (siteOp n.toNat i.toNat A) (siteOp n.toNat j.toNat B) :=
    fun h A B => siteOp_comm _ _ _ hii hjj (by omega) A B
  simp only [spinMat_eq hi, spinMat_eq hj]
  refine ⟨?_, ?_, ?_, ?_, ?_, ?_, ?_⟩
  · split
    · rename_i h
      subst h
      rw [siteOp_mul _ _ hii, siteOp_mul _ _ hii, ← siteOp_sub, ← siteOp_smul]
      congr 1
      ext r c
      fin_cases r <;> fin_cases c <;> simp [spinHalf] <;> ring
    · rename_i h
      rw [(hcomm h _ _).eq, sub_self]
  · split
    · rename_i h
      subst h
      rw [siteOp_mul _ _ hii, siteOp_mul _ _ hii, ← siteOp_sub, ← siteOp_smul]
      congr 1
      ext r c
      fin_cases r <;> fin_cases c <;> simp [spinHalf] <;> ring
    · rename_i h
      rw [(hcomm h _ _).eq, sub_self]
  · split
    · rename_i h
      subst h
      rw [siteOp_mul _ _ hii, siteOp_mul _ _ hii, ← siteOp_sub, ← siteOp_smul]
      congr 1
      ext r c
      fin_cases r <;> fin_cases c <;> simp [spinHalf] <;>
        first | linear_combination (1/2 : ℂ) * hI | linear_combination (-1/2 : ℂ) * hI
    · rename_i h
      rw [(hcomm h _ _).eq, sub_self]
  · rw [← siteOp_smul, ← siteOp_add]
    congr 1
    ext r c
    fin_cases r <;> fin_cases c <;> simp [spinHalf] <;>
        first | linear_combination (1/2 : ℂ) * hI | linear_combination (-1/2 : ℂ) * hI
  · rw [← siteOp_smul, ← siteOp_sub]
    congr 1
    ext r c
    fin_cases r <;> fin_cases c <;> simp [spinHalf] <;>
        first | linear_combination (1/2 : ℂ) * hI | linear_combination (-1/2 : ℂ) * hI
  · rw [siteOp_mul _ _ hii, siteOp_mul _ _ hii, siteOp_mul _ _ hii, ← siteOp_add, ← siteOp_add,
      ← siteOp_one n.toNat i.toNat hii, ← siteOp_smul]
    congr 1
    ext r c
    fin_cases r <;> fin_cases c <;> simp [spinHalf] <;> linear_combination (-1/4 : ℂ) * hI
  · intro h o o'
    exact hcomm h _ _

/-- **C31.** `SpinInteraction.matrix_function(ops, n, c)` (`n > 0`) is `c` times the product, in the
order given, of the single-spin matrices; it raises ValueError exactly when some index is not in
`[0, n)`, and AssertionError when `n <= 0`. -/
theorem C31_interaction_matrix (ops : List (ℤ × SpinOtype)) (n : ℤ) (c : ℂ) :
    (0 < n → (∀ p ∈ ops, 0 ≤ p.1 ∧ p.1 < n) →
      ∃ M, SpinInteraction.matrixFunction ops n c = .ok M ∧ M.dim = 2 ^ n.toNat ∧
        M.toMatrix (2 ^ n.toNat) = c • (ops.map (fun p => spinMat n p.2 p.1)).prod) ∧
    (0 < n → (∃ p ∈ ops, ¬ (0 ≤ p.1 ∧ p.1 < n)) →
      SpinInteraction.matrixFunction ops n c = .error .valueError) ∧
    (n ≤ 0 → SpinInteraction.matrixFunction ops n c = .error .assertionError) := by
  refine ⟨?_, ?_, ?_⟩
  · intro hn h
    obtain ⟨M, hM, h1, h2⟩ := (interaction_matrixFunction ops n c hn).1 h
    refine ⟨M, hM, h1, ?_⟩
    rw [h2]
    unfold opsProduct
    congr 2
    apply List.map_congr_left
    intro p hp
    rw [spinMat_eq (h p hp)]
  · rintro hn ⟨p, hp, h⟩
    exact (interaction_matrixFunction ops n c hn).2 (fun h' => h (h' p hp))
  · intro hn
    unfold SpinInteraction.matrixFunction
    have : pyAssert (decide (n > 0)) = .error .assertionError := by
      simp [pyAssert, not_lt.mpr hn]
    rw [this]
    rfl

/-- Non-vacuity of C31: three operators, two on the same spin and not in index order. -/
example : ∃ M, SpinInteraction.matrixFunction [(0, .x), (1, .y), (0, .z)] 2 3 = .ok M ∧
    M.toMatrix 4 = (3 : ℂ) • (spinMat 2 .x 0 * (spinMat 2 .y 1 * (spinMat 2 .z 0 * 1))) := by
  obtain ⟨M, hM, -, h⟩ := (C31_interaction_matrix [(0, .x), (1, .y), (0, .z)] 2 3).1 (by norm_num)
    (by simp)
  exact ⟨M, hM, h⟩

/-- The matrix of a spin operator under an index table: `s.matrix_repr(table)` (0 if it raises). -/
noncomputable def SpinOperator.opMat (table : IndexTable SiteID) (s : SpinOperator) :
    Matrix (Fin (2 ^ table.len)) (Fin (2 ^ table.len)) ℂ :=
  match s.matrixRepr table with
  | .ok M => M.toMatrix (2 ^ table.len)
  | .error _ => 0

theorem opMat_eq {objs : List SiteID} {table : IndexTable SiteID}
    (hT : IndexTable.init objs 0 = .ok table) {s : SpinOperator} {i : ℤ}
    (h : table.queryIndex s.siteId = .ok i) :
    s.opMat table = siteOp table.len i.toNat (spinHalf s.otype) ∧
    ∃ M, s.matrixRepr table = .ok M ∧ M.dim = 2 ^ table.len := by
  have hr := siteIndex_range hT h
  obtain ⟨M, hM, h1, h2⟩ := (C29_single_spin_matrix i table.len s.otype).1 hr
  have : s.matrixRepr table = .ok M := by
    unfold SpinOperator.matrixRepr
    simp only [h, bind, Except.bind]
    exact hM
  refine ⟨?_, M, this, by simpa using h1⟩
  unfold SpinOperator.opMat
  rw [this]
  exact h2

/-- The sites of these operators are in the table. -/
def Known (table : IndexTable SiteID) (ops : List SpinOperator) : Prop :=
  ∀ s ∈ ops, ∃ i, table.queryIndex s.siteId = .ok i

theorem opsProduct_indexed {objs : List SiteID} {table : IndexTable SiteID}
    (hT : IndexTable.init objs 0 = .ok table) (ops : List SpinOperator) (hk : Known table ops) :
    opsProduct table.len (ops.map (indexedSpin table)) = (ops.map (fun s => s.opMat table)).prod := by
  unfold opsProduct
  rw [List.map_map]
  congr 1
  apply List.map_congr_left
  intro s hs
  obtain ⟨i, hi⟩ := hk s hs
  rw [(opMat_eq hT hi).1, Function.comp_apply, indexedSpin_of_ok hi]

theorem opMat_comm {objs : List SiteID} {table : IndexTable SiteID}
    (hT : IndexTable.init objs 0 = .ok table) {s u : SpinOperator} {i j : ℤ}
    (hi : table.queryIndex s.siteId = .ok i) (hj : table.queryIndex u.siteId = .ok j)
    (hne : s.siteId.tuple ≠ u.siteId.tuple) : Commute (s.opMat table) (u.opMat table) := by
  rw [(opMat_eq hT hi).1, (opMat_eq hT hj).1]
  have h1 := siteIndex_range hT hi
  have h2 := siteIndex_range hT hj
  apply siteOp_comm _ _ _ (by omega) (by omega)
  intro h
  have : i = j := by omega
  subst this
  exact hne (siteIndex_inj hT hi hj)

theorem prod_init {objs : List SiteID} {table : IndexTable SiteID}
    (hT : IndexTable.init objs 0 = .ok table) (ops : List SpinOperator) (hk : Known table ops) (c : ℂ) :
    (((SpinInteraction.init ops c).operators.map (fun s => s.opMat table)).prod =
      (ops.map (fun s => s.opMat table)).prod) ∧ Known table (SpinInteraction.init ops c).operators := by
  unfold SpinInteraction.init
  refine ⟨?_, fun s hs => hk s ((mem_pySorted _ _ _ _).mp hs)⟩
  apply prod_pySorted
  intro a ha b hb hab
  obtain ⟨i, hi⟩ := hk a ha
  obtain ⟨j, hj⟩ := hk b hb
  rw [siteLt_iff] at hab
  exact opMat_comm hT hi hj (ne_of_gt hab)

/-- `matrix_repr` of any interaction object whose sites are in the table (built with indices from 0)
returns its coefficient times the ordered product of its components' matrices. -/
theorem interaction_matrixRepr {objs : List SiteID} {table : IndexTable SiteID}
    (hT : IndexTable.init objs 0 = .ok table) (t : SpinInteraction) (hk : Known table t.operators) :
    ∃ M, (t.matrixRepr table).2 = .ok M ∧ M.dim = 2 ^ table.len ∧
      M.toMatrix (2 ^ table.len) = t.coeff • (t.operators.map (fun s => s.opMat table)).prod := by
  have hlen : 0 < (table.len : ℤ) := by
    obtain ⟨x, xs, hobjs, -⟩ := init_ok hT
    have := (C01_indextable_bijection objs 0 table hT).2.2.1
    rw [this, hobjs]
    simp
  have hidx : t.indexed table = .ok (t.operators.map (indexedSpin table)) :=
    spinIndexed_ok_iff.mpr ⟨hk, rfl⟩
  have hrange : ∀ p ∈ t.operators.map (indexedSpin table), 0 ≤ p.1 ∧ p.1 < (table.len : ℤ) := by
    intro p hp
    obtain ⟨s, hs, rfl⟩ := List.mem_map.mp hp
    obtain ⟨i, hi⟩ := hk s hs
    rw [indexedSpin_of_ok hi]
    exact siteIndex_range hT hi
  obtain ⟨M, hM, h1, h2⟩ :=
    (interaction_matrixFunction _ (table.len : ℤ) t.coeff hlen).1 hrange
  refine ⟨M, ?_, by simpa using h1, ?_⟩
  · unfold SpinInteraction.matrixRepr
    simp only [hidx, bind, Except.bind]
    exact hM
  · rw [← opsProduct_indexed hT _ hk]
    exact h2

/-- **C32** (construction).  `SpinInteraction(ops, coeff=c).matrix_repr(table)` is `c` times the
product, in the order given by the user, of `op.matrix_repr(table)`, although the constructor and
`matrix_function` both reorder the operators. -/
theorem C32_constructor_sorting {objs : List SiteID} {table : IndexTable SiteID}
    (hT : IndexTable.init objs 0 = .ok table) (ops : List SpinOperator) (hk : Known table ops)
    (c : ℂ) :
    ∃ M, ((SpinInteraction.init ops c).matrixRepr table).2 = .ok M ∧ M.dim = 2 ^ table.len ∧
      M.toMatrix (2 ^ table.len) = c • (ops.map (fun s => s.opMat table)).prod := by
  obtain ⟨hp, hk'⟩ := prod_init hT ops hk c
  obtain ⟨M, hM, h1, h2⟩ := interaction_matrixRepr hT _ hk'
  refine ⟨M, hM, h1, ?_⟩
  rw [h2, hp]
  rfl

/-- Products of spin operators, interactions and numbers with any bracketing. -/
inductive SExpr
  | leaf (v : SVal)
  | mul (a b : SExpr)

/-- Evaluating the Python expression. -/
def SExpr.eval : SExpr → Py SVal
  | .leaf v => .ok v
  | .mul a b => do
    let x ← a.eval
    let y ← b.eval
    spinMul x y

/-- The operator denoted by a value (numbers denote multiples of the identity). -/
noncomputable def SVal.mat (table : IndexTable SiteID) :
    SVal → Matrix (Fin (2 ^ table.len)) (Fin (2 ^ table.len)) ℂ
  | .op s => s.opMat table
  | .inter t => t.coeff • (t.operators.map (fun s => s.opMat table)).prod
  | .num c => c • 1
  | .other => 0

/-- The operator denoted by an expression: the product of the operators of its leaves. -/
noncomputable def SExpr.mat (table : IndexTable SiteID) :
    SExpr → Matrix (Fin (2 ^ table.len)) (Fin (2 ^ table.len)) ℂ
  | .leaf v => v.mat table
  | .mul a b => a.mat table * b.mat table

/-- A spin operator, interaction or number whose sites are in the table. -/
def SVal.Ok (table : IndexTable SiteID) : SVal → Prop
  | .op s => Known table [s]
  | .inter t => Known table t.operators
  | .num _ => True
  | .other => False

/-- All leaves are spin operators, interactions or numbers whose sites are in the table. -/
def SExpr.Ok (table : IndexTable SiteID) : SExpr → Prop
  | .leaf v => v.Ok table
  | .mul a b => a.Ok table ∧ b.Ok table

theorem spinMul_mat {objs : List SiteID} {table : IndexTable SiteID}
    (hT : IndexTable.init objs 0 = .ok table) (x y : SVal) (hx : x.Ok table) (hy : y.Ok table) :
    ∃ v, spinMul x y = .ok v ∧ v.Ok table ∧ v.mat table = x.mat table * y.mat table := by
  have hinit : ∀ ops c, Known table ops →
      (SVal.inter (SpinInteraction.init ops c)).Ok table ∧
      (SVal.inter (SpinInteraction.init ops c)).mat table =
        c • (ops.map (fun s => s.opMat table)).prod := by
    intro ops c hk
    obtain ⟨h1, h2⟩ := prod_init hT ops hk c
    refine ⟨h2, ?_⟩
    simp only [SVal.mat, h1]
    rfl
  have happ : ∀ a b, Known table a → Known table b → Known table (a ++ b) := by
    intro a b ha hb s hs
    rcases List.mem_append.mp hs with h | h
    · exact ha s h
    · exact hb s h
  cases x with
  | other => exact absurd hx id
  | op a =>
    cases y with
    | other => exact absurd hy id
    | op b =>
      obtain ⟨h1, h2⟩ := hinit [a, b] 1 (happ [a] [b] hx hy)
      exact ⟨_, rfl, h1, by rw [h2]; simp [SVal.mat]⟩
    | num c =>
      obtain ⟨h1, h2⟩ := hinit [a] c hx
      exact ⟨_, rfl, h1, by rw [h2]; simp [SVal.mat]⟩
    | inter t =>
      obtain ⟨h1, h2⟩ := hinit (a :: t.operators) t.coeff (happ [a] _ hx hy)
      exact ⟨_, rfl, h1, by rw [h2]; simp [SVal.mat]⟩
  | num c =>
    cases y with
    | other => exact absurd hy id
    | op b =>
      obtain ⟨h1, h2⟩ := hinit [b] c hy
      exact ⟨_, rfl, h1, by rw [h2]; simp [SVal.mat]⟩
    | num d => exact ⟨_, rfl, trivial, by simp [SVal.mat, smul_smul, mul_comm]⟩
    | inter t =>
      obtain ⟨h1, h2⟩ := hinit t.operators (c * t.coeff) hy
      exact ⟨_, rfl, h1, by rw [h2]; simp [SVal.mat, smul_smul, mul_comm]⟩
  | inter t =>
    cases y with
    | other => exact absurd hy id
    | op b =>
      obtain ⟨h1, h2⟩ := hinit (t.operators ++ [b]) t.coeff (happ _ [b] hx hy)
      exact ⟨_, rfl, h1, by rw [h2]; simp [SVal.mat]⟩
    | num d =>
      obtain ⟨h1, h2⟩ := hinit t.operators (t.coeff * d) hx
      exact ⟨_, rfl, h1, by rw [h2]; simp [SVal.mat, smul_smul, mul_comm]⟩
    | inter u =>
      obtain ⟨h1, h2⟩ := hinit (t.operators ++ u.operators) (t.coeff * u.coeff) (happ _ _ hx hy)
      exact ⟨_, rfl, h1, by rw [h2]; simp [SVal.mat, smul_smul, mul_comm]⟩

/-- **C32** (products).  Every product of spin operators, interactions and numbers, with any
bracketing, evaluates without error, and the matrix of the result is the ordered product of the
matrices of the factors. -/
theorem C32_product_trees {objs : List SiteID} {table : IndexTable SiteID}
    (hT : IndexTable.init objs 0 = .ok table) (e : SExpr) (he : e.Ok table) :
    ∃ v, e.eval = .ok v ∧ v.mat table = e.mat table ∧
      ∀ t, v = .inter t → ∃ M, (t.matrixRepr table).2 = .ok M ∧ M.toMatrix (2 ^ table.len) =
        e.mat table := by
  have main : ∃ v, e.eval = .ok v ∧ v.Ok table ∧ v.mat table = e.mat table := by
    induction e with
    | leaf v => exact ⟨v, rfl, he, rfl⟩
    | mul a b iha ihb =>
      obtain ⟨x, hx, hx1, hx2⟩ := iha he.1
      obtain ⟨y, hy, hy1, hy2⟩ := ihb he.2
      obtain ⟨v, hv, hv1, hv2⟩ := spinMul_mat hT x y hx1 hy1
      refine ⟨v, ?_, hv1, ?_⟩
      · simp only [SExpr.eval, hx, hy, bind, Except.bind]
        exact hv
      · rw [hv2, hx2, hy2]; rfl
  obtain ⟨v, hv, hok, hm⟩ := main
  refine ⟨v, hv, hm, ?_⟩
  rintro t rfl
  obtain ⟨M, hM, -, h⟩ := interaction_matrixRepr hT t hok
  exact ⟨M, hM, h.trans hm⟩

/-- The site of this operator was built under the current float precision. -/
def SpinOperator.BuiltUnder (zoom : ℤ) (s : SpinOperator) : Prop :=
  SiteID.init zoom s.siteId.site = .ok s.siteId

/-- **C07** (derive, spin operators).  `SpinOperator.derive` changes exactly the attributes given. -/
theorem C07_derive_spin (zoom : ℤ) (a a' : SpinOperator) (ot : Option SpinOtype)
    (site : Option (List Coord)) (h : a.derive zoom ot site = .ok a') :
    a'.otype = ot.getD a.otype ∧ a'.siteId.site = site.getD a.siteId.site := by
  unfold SpinOperator.derive at h
  rw [bind_ok_iff] at h
  obtain ⟨s, hs, h⟩ := h
  cases h
  refine ⟨rfl, ?_⟩
  unfold SiteID.init at hs
  rw [bind_ok_iff] at hs
  obtain ⟨_, _, hs⟩ := hs
  rw [bind_ok_iff] at hs
  obtain ⟨t, _, hs⟩ := hs
  cases hs
  rfl

example : ∃ a d, SpinOperator.init defaultZoom "p" [.int 0] = .ok a ∧
    a.derive defaultZoom (site := some [.int 5]) = .ok d ∧ d = ⟨.p, ⟨[.int 5], [50000]⟩⟩ :=
  ⟨_, _, rfl, rfl, rfl⟩

/-- the otype of the Hermitian conjugate -/
def SpinOtype.adj : SpinOtype → SpinOtype
  | .p => .m
  | .m => .p
  | o => o

theorem spinDagger_eq {zoom : ℤ} {s : SpinOperator} (h : s.BuiltUnder zoom) :
    s.dagger zoom = .ok ⟨s.otype.adj, s.siteId⟩ := by
  obtain ⟨o, id⟩ := s
  unfold SpinOperator.BuiltUnder at h
  simp only at h
  cases o <;> simp [SpinOperator.dagger, SpinOperator.derive, SpinOtype.adj, h, bind, Except.bind,
    pure, Except.pure]

theorem spinHalf_adj (o : SpinOtype) : spinHalf o.adj = (spinHalf o).conjTranspose := by
  cases o <;> ext r c <;> fin_cases r <;> fin_cases c <;>
    simp [spinHalf, SpinOtype.adj, Matrix.conjTranspose_apply]

theorem interactionDagger_eq {zoom : ℤ} {t : SpinInteraction}
    (h : ∀ s ∈ t.operators, s.BuiltUnder zoom) :
    t.dagger zoom = .ok (SpinInteraction.init
      (t.operators.reverse.map (fun s => ⟨s.otype.adj, s.siteId⟩)) ((starRingEnd ℂ) t.coeff)) := by
  unfold SpinInteraction.dagger
  have : t.operators.reverse.mapM (SpinOperator.dagger zoom) =
      .ok (t.operators.reverse.map (fun s => ⟨s.otype.adj, s.siteId⟩)) := by
    rw [mapM_ok_iff]
    apply forall₂_of_getElem (by simp)
    intro i hi
    rw [List.getElem_map]
    apply spinDagger_eq
    exact h _ (List.mem_reverse.mp (List.getElem_mem hi))
  rw [this]
  rfl

theorem opMat_adj {objs : List SiteID} {table : IndexTable SiteID}
    (hT : IndexTable.init objs 0 = .ok table) {s : SpinOperator} {i : ℤ}
    (h : table.queryIndex s.siteId = .ok i) :
    SpinOperator.opMat table ⟨s.otype.adj, s.siteId⟩ = (s.opMat table).conjTranspose := by
  rw [(opMat_eq hT h).1, (opMat_eq (s := ⟨s.otype.adj, s.siteId⟩) hT h).1, siteOp_conjTranspose,
    spinHalf_adj]

/-- **C33** (operators).  `s.dagger()` is represented by the conjugate transpose, and dagger is an
involution. -/
theorem C33_operator_dagger {zoom : ℤ} {objs : List SiteID} {table : IndexTable SiteID}
    (hT : IndexTable.init objs 0 = .ok table) (s : SpinOperator) (hb : s.BuiltUnder zoom)
    (hk : Known table [s]) :
    ∃ d, s.dagger zoom = .ok d ∧ d.dagger zoom = .ok s ∧
      d.opMat table = (s.opMat table).conjTranspose := by
  obtain ⟨i, hi⟩ := hk s (by simp)
  refine ⟨_, spinDagger_eq hb, ?_, opMat_adj hT hi⟩
  rw [spinDagger_eq (s := ⟨s.otype.adj, s.siteId⟩) hb]
  obtain ⟨o, id⟩ := s
  cases o <;> rfl

/-- **C33** (interactions).  `t.dagger().matrix_repr(table)` is the conjugate transpose of
`t.matrix_repr(table)`. -/
theorem C33_interaction_dagger {zoom : ℤ} {objs : List SiteID} {table : IndexTable SiteID}
    (hT : IndexTable.init objs 0 = .ok table) (t : SpinInteraction)
    (hb : ∀ s ∈ t.operators, s.BuiltUnder zoom) (hk : Known table t.operators) :
    ∃ d M N, t.dagger zoom = .ok d ∧ (t.matrixRepr table).2 = .ok M ∧
      (d.matrixRepr table).2 = .ok N ∧
      N.toMatrix (2 ^ table.len) = (M.toMatrix (2 ^ table.len)).conjTranspose := by
  have hk' : Known table (t.operators.reverse.map (fun s => ⟨s.otype.adj, s.siteId⟩)) := by
    intro s hs
    obtain ⟨u, hu, rfl⟩ := List.mem_map.mp hs
    exact hk u (List.mem_reverse.mp hu)
  obtain ⟨N, hN, -, hN'⟩ := C32_constructor_sorting hT _ hk' ((starRingEnd ℂ) t.coeff)
  obtain ⟨M, hM, -, hM'⟩ := interaction_matrixRepr hT t hk
  refine ⟨_, M, N, interactionDagger_eq hb, hM, hN, ?_⟩
  rw [hN', hM', Matrix.conjTranspose_smul]
  congr 1
  have : ∀ l : List SpinOperator, Known table l →
      ((l.reverse.map (fun s => (⟨s.otype.adj, s.siteId⟩ : SpinOperator))).map
        (fun s : SpinOperator => s.opMat table)).prod =
        ((l.map (fun s : SpinOperator => s.opMat table)).prod).conjTranspose := by
    intro l hl
    induction l with
    | nil => simp
    | cons a l ih =>
      obtain ⟨i, hi⟩ := hl a (by simp)
      rw [List.reverse_cons, List.map_append, List.map_append, List.prod_append,
        ih (fun s hs => hl s (by simp [hs])), List.map_cons (f := fun s : SpinOperator => s.opMat table), List.prod_cons,
        Matrix.conjTranspose_mul]
      simp [opMat_adj hT hi]
  exact this _ hk

/-- **C33.** Dagger is an involution on interactions: for an interaction built by the constructor,
`t.dagger().dagger()` has the same coefficient and the same operators in the same order. -/
theorem C33_interaction_dagger_involution {zoom : ℤ} (ops : List SpinOperator) (c : ℂ)
    (hb : ∀ s ∈ ops, s.BuiltUnder zoom) :
    ∃ d, (SpinInteraction.init ops c).dagger zoom = .ok d ∧
      d.dagger zoom = .ok (SpinInteraction.init ops c) := by
  have hb1 : ∀ s ∈ (SpinInteraction.init ops c).operators, s.BuiltUnder zoom :=
    fun s hs => hb s ((mem_pySorted _ _ _ _).mp hs)
  refine ⟨_, interactionDagger_eq hb1, ?_⟩
  have hlt : ∀ a b : SiteID, (SiteID.rich .lt a b) = decide (a.tuple < b.tuple) := by
    intro a b
    rw [Bool.eq_iff_iff, siteLt_iff]; simp
  have hsort : ∀ l, pySorted (SiteID.rich .lt) SpinOperator.siteId l =
      pySorted (fun a b : List ℤ => decide (a < b)) (fun s : SpinOperator => s.siteId.tuple) l := by
    intro l
    unfold pySorted
    simp only [hlt]
  have hd : ∀ a b : List ℤ, decide (a < b) = true ↔ a < b := by simp
  rw [interactionDagger_eq]
  · simp only [SpinInteraction.init, hsort, Except.ok.injEq, SpinInteraction.mk.injEq,
      Complex.conj_conj, and_true]
    have hm := pySorted_map (fun a b : List ℤ => decide (a < b))
      (fun s : SpinOperator => s.siteId.tuple) (fun s : SpinOperator => s.siteId.tuple)
      (fun s : SpinOperator => (⟨s.otype.adj, s.siteId⟩ : SpinOperator)) (fun _ => rfl)
    simp only [hm, ← List.map_reverse, List.map_map]
    have hid : ((fun s : SpinOperator => (⟨s.otype.adj, s.siteId⟩ : SpinOperator)) ∘
        fun s : SpinOperator => (⟨s.otype.adj, s.siteId⟩ : SpinOperator)) = id := by
      funext s
      obtain ⟨o, id⟩ := s
      cases o <;> rfl
    rw [hid, List.map_id, pySorted_reverse_twice _ hd]
    exact pySorted_sorted _ hd _ _
  · intro s hs
    rw [SpinInteraction.init] at hs
    have hs := (mem_pySorted _ _ _ _).mp hs
    obtain ⟨u, hu, rfl⟩ := List.mem_map.mp hs
    exact hb1 u (List.mem_reverse.mp hu)

/-- Non-vacuity of C32/C33: two sites given in an order different from the table order. -/
example : ∃ table : IndexTable SiteID,
    IndexTable.init [⟨[.int 1], [10000]⟩, ⟨[.int 0], [0]⟩] 0 = .ok table ∧
    Known table [⟨.p, ⟨[.int 1], [10000]⟩⟩, ⟨.x, ⟨[.int 0], [0]⟩⟩, ⟨.z, ⟨[.int 1], [10000]⟩⟩] ∧
    SpinOperator.BuiltUnder 10000 ⟨.p, ⟨[.int 1], [10000]⟩⟩ := by
  refine ⟨_, rfl, ?_, rfl⟩
  intro s hs
  simp only [List.mem_cons, List.not_mem_nil, or_false] at hs
  rcases hs with rfl | rfl | rfl
  · exact ⟨0, rfl⟩
  · exact ⟨1, rfl⟩
  · exact ⟨0, rfl⟩

/-! ### C27 for spin interactions -/

/-- What a caller may do with one interaction: assign `coeff`, or call `matrix_repr`. -/
inductive SpinEvent
  | setCoeff (c : CoeffArg)
  | matrixRepr (coeff : Option CoeffArg)

/-- The interaction after a history of events. -/
noncomputable def runSpin (table : IndexTable SiteID) (t : SpinInteraction) :
    List SpinEvent → SpinInteraction
  | [] => t
  | .setCoeff c :: es => runSpin table (t.setCoeff c).1 es
  | .matrixRepr c :: es => runSpin table (t.matrixRepr table c).1 es

/-- Specification: the number most recently given as a coefficient, `c0` if none was. -/
def lastSpinCoeff (c0 : ℂ) : List SpinEvent → ℂ
  | [] => c0
  | .setCoeff (.num c) :: es => lastSpinCoeff c es
  | .matrixRepr (some (.num c)) :: es => lastSpinCoeff c es
  | _ :: es => lastSpinCoeff c0 es

theorem spin_matrixFunction_scale (ops : List (ℤ × SpinOtype)) (n : ℤ) (c : ℂ) :
    (∀ e, SpinInteraction.matrixFunction ops n c = .error e ↔
      SpinInteraction.matrixFunction ops n 1 = .error e) ∧
    ∀ M, SpinInteraction.matrixFunction ops n c = .ok M →
      ∃ U, SpinInteraction.matrixFunction ops n 1 = .ok U ∧ M.dim = U.dim ∧
        M.toMatrix (2 ^ n.toNat) = c • U.toMatrix (2 ^ n.toNat) := by
  obtain ⟨a1, a2, a3⟩ := C31_interaction_matrix ops n c
  obtain ⟨b1, b2, b3⟩ := C31_interaction_matrix ops n 1
  by_cases hn : 0 < n
  · by_cases h : ∀ p ∈ ops, 0 ≤ p.1 ∧ p.1 < n
    · obtain ⟨M, hM, d1, e1⟩ := a1 hn h
      obtain ⟨U, hU, d2, e2⟩ := b1 hn h
      rw [hM, hU]
      refine ⟨by simp, ?_⟩
      intro M' hM'
      cases hM'
      exact ⟨U, rfl, d1.trans d2.symm, by rw [e1, e2, one_smul]⟩
    · push Not at h
      obtain ⟨p, hp, h⟩ := h
      have h' : ∃ p ∈ ops, ¬ (0 ≤ p.1 ∧ p.1 < n) := ⟨p, hp, fun h2 => absurd h2.2 (not_lt.mpr (h h2.1))⟩
      rw [a2 hn h', b2 hn h']
      exact ⟨fun _ => Iff.rfl, by intro M hM; cases hM⟩
  · rw [a3 (not_lt.mp hn), b3 (not_lt.mp hn)]
    exact ⟨fun _ => Iff.rfl, by intro M hM; cases hM⟩

/-- **C27** (spin interactions).  After any history of `coeff` assignments and `matrix_repr` calls the
components are unchanged and the coefficient is the most recently given number; a further
`matrix_repr` call yields the unit-coefficient matrix times the most recently given coefficient (that
of the call itself if it gives one), and raises exactly when the unit one does; a coefficient that is
not a number is rejected with AssertionError and changes nothing. -/
theorem C27_spin_last_coefficient_used (table : IndexTable SiteID) (t : SpinInteraction)
    (es : List SpinEvent) :
    (runSpin table t es).operators = t.operators ∧
    (runSpin table t es).coeff = lastSpinCoeff t.coeff es ∧
    (∀ coeff, coeff ≠ some .other →
      (∀ e, ((runSpin table t es).matrixRepr table coeff).2 = .error e ↔
        (SpinInteraction.matrixRepr { t with coeff := 1 } table).2 = .error e) ∧
      ∀ M, ((runSpin table t es).matrixRepr table coeff).2 = .ok M →
        ∃ U, (SpinInteraction.matrixRepr { t with coeff := 1 } table).2 = .ok U ∧ M.dim = U.dim ∧
          M.toMatrix (2 ^ table.len) =
            lastSpinCoeff t.coeff (es ++ [.matrixRepr coeff]) • U.toMatrix (2 ^ table.len)) ∧
    t.setCoeff .other = (t, .error .assertionError) ∧
    t.matrixRepr table (some .other) = (t, .error .assertionError) := by
  have main : (runSpin table t es).operators = t.operators ∧
      (runSpin table t es).coeff = lastSpinCoeff t.coeff es := by
    induction es generalizing t with
    | nil => exact ⟨rfl, rfl⟩
    | cons e es ih =>
      cases e with
      | setCoeff c =>
        cases c with
        | num c => exact ih { t with coeff := c }
        | other => exact ih t
      | matrixRepr c =>
        cases c with
        | none => exact ih t
        | some c =>
          cases c with
          | num c => exact ih { t with coeff := c }
          | other => exact ih t
  have happ : ∀ (c0 : ℂ) coeff, lastSpinCoeff c0 (es ++ [.matrixRepr coeff]) =
      lastSpinCoeff (lastSpinCoeff c0 es) [.matrixRepr coeff] := by
    intro c0 coeff
    clear main
    induction es generalizing c0 with
    | nil => rfl
    | cons e es ih =>
      cases e with
      | setCoeff c => cases c <;> exact ih _
      | matrixRepr c =>
        cases c with
        | none => exact ih _
        | some c => cases c <;> exact ih _
  obtain ⟨h1, h3⟩ := main
  refine ⟨h1, h3, ?_, rfl, rfl⟩
  intro coeff hco
  generalize hu : runSpin table t es = u at *
  obtain ⟨c, hc, hcall⟩ : ∃ c, c = lastSpinCoeff t.coeff (es ++ [.matrixRepr coeff]) ∧
      (u.matrixRepr table coeff).2 =
        (t.indexed table >>= fun ops => SpinInteraction.matrixFunction ops table.len c) := by
    refine ⟨_, rfl, ?_⟩
    rw [happ, ← h3]
    have hidx : ∀ v : SpinInteraction, v.operators = u.operators → v.indexed table = t.indexed table := by
      intro v hv
      unfold SpinInteraction.indexed
      rw [hv, h1]
    cases coeff with
    | none =>
      have := hidx u rfl
      rw [← this]
      rfl
    | some c =>
      cases c with
      | num c =>
        have := hidx { u with coeff := c } rfl
        rw [← this]
        rfl
      | other => exact absurd rfl hco
  have hunit : (SpinInteraction.matrixRepr { t with coeff := 1 } table).2 =
      (t.indexed table >>= fun ops => SpinInteraction.matrixFunction ops table.len 1) := rfl
  rw [hcall, hunit, ← hc]
  cases hi : t.indexed table with
  | error e =>
    refine ⟨fun _ => Iff.rfl, ?_⟩
    intro M hM
    cases hM
  | ok ops =>
    exact spin_matrixFunction_scale ops table.len c

/-- Non-vacuity of C27 for spin interactions: assigning 5, then `matrix_repr(coeff=3)`, then a rejected
assignment leaves the coefficient 3. -/
example (table : IndexTable SiteID) (t : SpinInteraction) :
    (runSpin table t [.setCoeff (.num 5), .matrixRepr (some (.num 3)), .setCoeff .other]).coeff = 3 :=
  rfl

end Verif
