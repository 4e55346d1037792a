import Verif.Proofs.Text
import Verif.Props.OperatorTable
/-! Lemmas about `tolatex`. -/

namespace Verif
open Spec

/-- characters that never interfere with the LaTeX structure -/
def Plain (t : Txt) : Prop := ∀ x ∈ t, x ≠ '$' ∧ x ≠ '{' ∧ x ≠ '}' ∧ x ≠ 'c' ∧ x ≠ 'S'

theorem Plain.append {s t : Txt} (hs : Plain s) (ht : Plain t) : Plain (s ++ t) := by
  intro x hx
  rcases List.mem_append.mp hx with h | h
  · exact hs x h
  · exact ht x h

theorem plain_num {t : Txt} (h : ∀ c ∈ t, NumChar c) : Plain t := by
  intro x hx
  have := h x hx
  refine ⟨?_, ?_, ?_, ?_, ?_⟩ <;> rintro rfl <;> exact absurd this (not_num _)

theorem plain_coeff {t : Txt} (h : CoeffText t) : Plain t := by
  intro x hx
  have := h x hx
  refine ⟨?_, ?_, ?_, ?_, ?_⟩ <;> rintro rfl <;> exact absurd this (by decide)

theorem plain_join {sep : Txt} (hs : Plain sep) : ∀ {l : List Txt}, (∀ t ∈ l, Plain t) → Plain (pyJoin sep l)
  | [], _ => by intro x hx; cases hx
  | [a], h => h a (by simp)
  | a :: b :: l, h => ((h a (by simp)).append hs).append
      (plain_join hs (l := b :: l) (fun t ht => h t (by simp [ht])))

theorem dropDollar_append (s t : Txt) : dropDollar (s ++ t) = dropDollar s ++ dropDollar t := by
  simp [dropDollar]

theorem dropDollar_of {t : Txt} (h : '$' ∉ t) : dropDollar t = t := by
  unfold dropDollar
  rw [List.filter_eq_self]
  intro a ha
  simp only [bne_iff_ne, ne_eq]
  rintro rfl
  exact h ha

theorem Plain.dollar {t : Txt} (h : Plain t) : '$' ∉ t := fun hx => (h _ hx).1 rfl

theorem braceDepth_append (s t : Txt) : ∀ n, braceDepth n (s ++ t) = (braceDepth n s).bind (fun m => braceDepth m t) := by
  induction s with
  | nil => intro n; rfl
  | cons c s ih =>
    intro n
    simp only [List.cons_append, braceDepth]
    split
    · exact ih _
    · split
      · split
        · rfl
        · exact ih _
      · exact ih _

theorem braceDepth_plain {t : Txt} (h : Plain t) : ∀ n, braceDepth n t = some n := by
  induction t with
  | nil => intro n; rfl
  | cons c t ih =>
    intro n
    have hc := h c (by simp)
    simp only [braceDepth, if_neg hc.2.1, if_neg hc.2.2.1]
    exact ih (fun x hx => h x (by simp [hx])) n

variable {ft : F64 → Txt}

theorem siteTex_plain (hft : FloatText ft) {s : SiteID} {si : SiteIndex} {nd : ℤ} {t : Txt}
    (h : s.tolatex ft si nd = .ok t) : Plain t := by
  cases si with
  | int i =>
    injection h with h
    rw [← h]
    exact plain_num (decInt_num i)
  | table tb =>
    simp only [SiteID.tolatex, bind_ok_iff] at h
    obtain ⟨i, -, h⟩ := h
    injection h with h
    rw [← h]
    exact plain_num (decInt_num i)
  | none =>
    simp only [SiteID.tolatex, bind_ok_iff] at h
    obtain ⟨l, -, h⟩ := h
    injection h with h
    rw [← h]
    refine (Plain.append ?_ (plain_join ?_ ?_)).append ?_
    · unfold Plain; decide
    · unfold Plain; decide
    · intro t ht
      obtain ⟨c, -, rfl⟩ := List.mem_map.mp ht
      exact plain_num (coordText_num hft c)
    · unfold Plain; decide

/-- the spin text without dollar signs -/
def spinTex (b : Bool) (spin : ℕ) : Txt := dropDollar (spinText b spin)

theorem spinTex_cases (b : Bool) (spin : ℕ) :
    (b = true ∧ spin = 0 ∧ spinTex b spin = "\\downarrow".toList) ∨
    (b = true ∧ spin = 1 ∧ spinTex b spin = "\\uparrow".toList) ∨
    (¬ (b = true ∧ (spin = 0 ∨ spin = 1)) ∧ spinTex b spin = decNat spin) := by
  unfold spinTex spinText
  by_cases h : b = true ∧ (spin = 0 ∨ spin = 1)
  · obtain ⟨rfl, rfl | rfl⟩ := h
    · exact .inl ⟨rfl, rfl, rfl⟩
    · exact .inr (.inl ⟨rfl, rfl, rfl⟩)
  · refine .inr (.inr ⟨h, ?_⟩)
    rw [if_neg (by simpa using h)]
    exact dropDollar_of (plain_num (decNat_num _)).dollar

theorem spinTex_plain (b : Bool) (spin : ℕ) : Plain (spinTex b spin) := by
  rcases spinTex_cases b spin with ⟨-, -, h⟩ | ⟨-, -, h⟩ | ⟨-, h⟩ <;> rw [h]
  · unfold Plain; decide
  · unfold Plain; decide
  · exact plain_num (decNat_num _)

theorem spinTex_comma (b : Bool) (spin : ℕ) : ∀ c ∈ spinTex b spin, c ≠ ',' := by
  rintro c hc rfl
  rcases spinTex_cases b spin with ⟨-, -, h⟩ | ⟨-, -, h⟩ | ⟨-, h⟩ <;> rw [h] at hc
  · exact absurd hc (by decide)
  · exact absurd hc (by decide)
  · exact not_mem_num (decNat_num _) (by decide) hc

theorem spinTex_inj {b : Bool} {s t : ℕ} (h : spinTex b s = spinTex b t) : s = t := by
  have key : ∀ (n : ℕ) (w : Txt), '\\' ∈ w → w ≠ decNat n := by
    rintro n w hw rfl
    exact not_mem_num (decNat_num n) (by decide) hw
  rcases spinTex_cases b s with ⟨-, h1, h2⟩ | ⟨-, h1, h2⟩ | ⟨-, h2⟩ <;>
  rcases spinTex_cases b t with ⟨-, h3, h4⟩ | ⟨-, h3, h4⟩ | ⟨-, h4⟩ <;> rw [h2, h4] at h
  · rw [h1, h3]
  · exact absurd h (by decide)
  · exact absurd h (key _ _ (by decide))
  · exact absurd h (by decide)
  · rw [h1, h3]
  · exact absurd h (key _ _ (by decide))
  · exact absurd h.symm (key _ _ (by decide))
  · exact absurd h.symm (key _ _ (by decide))
  · exact decNat_inj h

/-- the part of the subscript after the site -/
def orbitTex (b : Bool) (orbit : ℕ) : Txt := if b then [] else ',' :: decNat orbit

theorem orbitTex_plain (b : Bool) (orbit : ℕ) : Plain (orbitTex b orbit) := by
  unfold orbitTex
  split
  · intro x hx; cases hx
  · refine Plain.append (s := [',']) ?_ (plain_num (decNat_num _))
    unfold Plain; decide

theorem stateTex_ok (hft : FloatText ft) {zoom : ℤ} {s : StateID} {si : SiteIndex} {o : LatexOpts} {x : Txt}
    (h : s.tolatex ft zoom si o = .ok x) : ∃ id t, SiteID.init zoom s.site = .ok id ∧
      id.tolatex ft si o.ndigits = .ok t ∧
      dropDollar x = t ++ ',' :: (spinTex o.spinOneHalf s.spin ++ orbitTex o.suppressOrbit s.orbit) := by
  simp only [StateID.tolatex, bind_ok_iff] at h
  obtain ⟨id, h1, t, h2, h⟩ := h
  refine ⟨id, t, h1, h2, ?_⟩
  have ht := dropDollar_of (siteTex_plain hft h2).dollar
  have ho := dropDollar_of (plain_num (decNat_num s.orbit)).dollar
  split at h <;> rename_i hs <;> injection h with h <;> rw [← h]
  · simp only [pyJoin, dropDollar_append, ht, spinTex, orbitTex, hs]
    simp [dropDollar]
  · simp only [pyJoin, dropDollar_append, ht, ho, spinTex, orbitTex, hs]
    simp [dropDollar]

theorem subscript_plain (hft : FloatText ft) {zoom : ℤ} {s : StateID} {si : SiteIndex} {o : LatexOpts} {x : Txt}
    (h : s.tolatex ft zoom si o = .ok x) : Plain (dropDollar x) := by
  obtain ⟨id, t, -, h2, h3⟩ := stateTex_ok hft h
  rw [h3]
  refine (siteTex_plain hft h2).append (Plain.append (s := [',']) ?_ ((spinTex_plain _ _).append (orbitTex_plain _ _)))
  unfold Plain; decide

/-- the text between the dollar signs of an AoC with the given subscript -/
def aocCore (o : Otype) (sub : Txt) : Txt :=
  "c_{".toList ++ sub ++ match o with
    | .creation => "}^{\\dagger}".toList
    | .annihilation => "}".toList

theorem aocTex_ok {zoom : ℤ} {a : AoC} {si : SiteIndex} {o : LatexOpts} {x : Txt} :
    a.tolatex ft zoom si o = .ok x ↔ ∃ w, a.state.tolatex ft zoom si o = .ok w ∧
      x = "$".toList ++ aocCore a.otype (dropDollar w) ++ "$".toList := by
  obtain ⟨ot, st⟩ := a
  simp only [AoC.tolatex, bind_ok_iff]
  constructor
  · rintro ⟨w, h1, h⟩
    refine ⟨w, h1, ?_⟩
    cases ot <;> injection h with h <;> rw [← h] <;> simp [aocCore]
  · rintro ⟨w, h1, rfl⟩
    refine ⟨w, h1, ?_⟩
    cases ot <;> exact congrArg Except.ok (by simp [aocCore])

theorem aocCore_dollar {o : Otype} {sub : Txt} (h : Plain sub) : '$' ∉ aocCore o sub := by
  unfold aocCore
  rw [List.mem_append, List.mem_append, not_or, not_or]
  refine ⟨⟨by decide, h.dollar⟩, ?_⟩
  cases o <;> decide

theorem aocCore_depth {o : Otype} {sub : Txt} (h : Plain sub) : braceDepth 0 (aocCore o sub) = some 0 := by
  unfold aocCore
  rw [braceDepth_append, braceDepth_append]
  rw [show braceDepth 0 "c_{".toList = some 1 from rfl, Option.bind_some, braceDepth_plain h, Option.bind_some]
  cases o <;> rfl

/-- the text between the dollar signs of a spin operator -/
def spinCore (o : SpinOtype) (sub : Txt) : Txt := "S_{".toList ++ sub ++ "}^{".toList ++ [o.char] ++ "}".toList

theorem spinOpTex_ok {a : SpinOperator} {si : SiteIndex} {nd : ℤ} {x : Txt} :
    a.tolatex ft si nd = .ok x ↔ ∃ w, a.siteId.tolatex ft si nd = .ok w ∧
      x = "$".toList ++ spinCore a.otype w ++ "$".toList := by
  simp only [SpinOperator.tolatex, bind_ok_iff]
  constructor
  · rintro ⟨w, h1, h⟩
    refine ⟨w, h1, ?_⟩
    injection h with h
    rw [← h]
    simp [spinCore]
  · rintro ⟨w, h1, rfl⟩
    exact ⟨w, h1, congrArg Except.ok (by simp [spinCore])⟩

theorem spinCore_dollar {o : SpinOtype} {sub : Txt} (h : Plain sub) : '$' ∉ spinCore o sub := by
  unfold spinCore
  simp only [List.mem_append, not_or]
  refine ⟨⟨⟨⟨by decide, h.dollar⟩, by decide⟩, ?_⟩, by decide⟩
  cases o <;> decide

theorem spinCore_depth {o : SpinOtype} {sub : Txt} (h : Plain sub) : braceDepth 0 (spinCore o sub) = some 0 := by
  unfold spinCore
  rw [List.append_assoc, List.append_assoc, braceDepth_append, braceDepth_append]
  rw [show braceDepth 0 "S_{".toList = some 1 from rfl, Option.bind_some, braceDepth_plain h, Option.bind_some]
  cases o <;> rfl

/-- texts that start with a marker character and do not contain it elsewhere can be split uniquely -/
theorem tokens_inj (m : Char) : ∀ (L L' : List Txt) (p p' : Txt), m ∉ p → m ∉ p' →
    (∀ t ∈ L, ∃ w, t = m :: w ∧ m ∉ w) → (∀ t ∈ L', ∃ w, t = m :: w ∧ m ∉ w) →
    p ++ L.flatten = p' ++ L'.flatten → p = p' ∧ L = L' := by
  intro L
  induction L with
  | nil =>
    intro L' p p' hp hp' _ h2 h
    cases L' with
    | nil => exact ⟨by simpa using h, rfl⟩
    | cons t L' =>
      obtain ⟨w, rfl, -⟩ := h2 t (by simp)
      simp only [List.flatten_nil, List.append_nil, List.flatten_cons] at h
      exact absurd (by rw [h]; simp) hp
  | cons t L ih =>
    intro L' p p' hp hp' h1 h2 h
    obtain ⟨w, rfl, hw⟩ := h1 t (by simp)
    cases L' with
    | nil =>
      simp only [List.flatten_nil, List.append_nil, List.flatten_cons] at h
      exact absurd (by rw [← h]; simp) hp'
    | cons t' L' =>
      obtain ⟨w', rfl, hw'⟩ := h2 t' (by simp)
      simp only [List.flatten_cons, List.cons_append] at h
      obtain ⟨h3, -, h4⟩ := span_unique (p := fun c => c ≠ m) (fun c hc hcm => hp (hcm ▸ hc))
        (fun c hc hcm => hp' (hcm ▸ hc)) (by simp) (by simp) h
      obtain ⟨h5, h6⟩ := ih L' w w' hw hw' (fun t ht => h1 t (by simp [ht])) (fun t ht => h2 t (by simp [ht])) h4
      exact ⟨h3, by rw [h5, h6]⟩

theorem aocCore_token {o : Otype} {sub : Txt} (h : Plain sub) : ∃ w, aocCore o sub = 'c' :: w ∧ 'c' ∉ w := by
  refine ⟨"_{".toList ++ sub ++ match o with
    | .creation => "}^{\\dagger}".toList
    | .annihilation => "}".toList, rfl, ?_⟩
  rw [List.mem_append, List.mem_append, not_or, not_or]
  refine ⟨⟨by decide, fun hx => (h _ hx).2.2.2.1 rfl⟩, ?_⟩
  cases o <;> decide

theorem spinCore_token {o : SpinOtype} {sub : Txt} (h : Plain sub) : ∃ w, spinCore o sub = 'S' :: w ∧ 'S' ∉ w := by
  refine ⟨"_{".toList ++ sub ++ "}^{".toList ++ [o.char] ++ "}".toList, rfl, ?_⟩
  simp only [List.mem_append, not_or]
  refine ⟨⟨⟨⟨by decide, fun hx => (h _ hx).2.2.2.2 rfl⟩, by decide⟩, ?_⟩, by decide⟩
  cases o <;> decide

theorem aocCore_inj {o o' : Otype} {s s' : Txt} (h : Plain s) (h' : Plain s') (he : aocCore o s = aocCore o' s') :
    o = o' ∧ s = s' := by
  unfold aocCore at he
  rw [List.append_assoc, List.append_assoc] at he
  have he := List.append_cancel_left he
  have hs : ∀ c ∈ s, c ≠ '}' := fun c hc => (h c hc).2.2.1
  have hs' : ∀ c ∈ s', c ≠ '}' := fun c hc => (h' c hc).2.2.1
  cases o <;> cases o'
  · exact ⟨rfl, List.append_cancel_right he⟩
  · have he : s ++ '}' :: [] = s' ++ '}' :: "^{\\dagger}".toList := he
    obtain ⟨-, -, h3⟩ := span_unique (p := fun c => c ≠ '}') hs hs' (by simp) (by simp) he
    exact absurd h3 (by decide)
  · have he : s ++ '}' :: "^{\\dagger}".toList = s' ++ '}' :: [] := he
    obtain ⟨-, -, h3⟩ := span_unique (p := fun c => c ≠ '}') hs hs' (by simp) (by simp) he
    exact absurd h3 (by decide)
  · exact ⟨rfl, List.append_cancel_right he⟩

theorem spinCore_inj {o o' : SpinOtype} {s s' : Txt} (h : Plain s) (h' : Plain s') (he : spinCore o s = spinCore o' s') :
    o = o' ∧ s = s' := by
  unfold spinCore at he
  simp only [List.append_assoc] at he
  have he := List.append_cancel_left he
  have hs : ∀ c ∈ s, c ≠ '}' := fun c hc => (h c hc).2.2.1
  have hs' : ∀ c ∈ s', c ≠ '}' := fun c hc => (h' c hc).2.2.1
  have he : s ++ '}' :: ("^{".toList ++ ([o.char] ++ "}".toList)) =
      s' ++ '}' :: ("^{".toList ++ ([o'.char] ++ "}".toList)) := he
  obtain ⟨h1, -, h3⟩ := span_unique (p := fun c => c ≠ '}') hs hs' (by simp) (by simp) he
  refine ⟨?_, h1⟩
  revert h3
  cases o <;> cases o' <;> decide

theorem math_inj {b b' : Txt} (h : "$".toList ++ b ++ "$".toList = "$".toList ++ b' ++ "$".toList) : b = b' :=
  List.append_cancel_left (List.append_cancel_right h)

/-- subscripts made with the same table -/
theorem subscript_inj (hft : FloatText ft) {x : AnyObj} {xs : List AnyObj} {start : ℤ} {tb : IndexTable AnyObj}
    (htb : IndexTable.init (x :: xs) start = .ok tb) {zoom : ℤ} {s t : StateID} {o : LatexOpts} {u v : Txt}
    (hs : StateID.init zoom s.site s.spin s.orbit = .ok s) (ht : StateID.init zoom t.site t.spin t.orbit = .ok t)
    (hu : s.tolatex ft zoom (.table tb) o = .ok u) (hv : t.tolatex ft zoom (.table tb) o = .ok v) :
    dropDollar u = dropDollar v ↔ s.siteTuple = t.siteTuple ∧ s.spin = t.spin ∧
      (o.suppressOrbit = true ∨ s.orbit = t.orbit) := by
  obtain ⟨id, a, h1, h2, h3⟩ := stateTex_ok hft hu
  obtain ⟨id', a', h1', h2', h3'⟩ := stateTex_ok hft hv
  simp only [SiteID.tolatex, bind_ok_iff] at h2 h2'
  obtain ⟨i, hi, h2⟩ := h2
  obtain ⟨j, hj, h2'⟩ := h2'
  injection h2 with h2
  injection h2' with h2'
  have tup : ∀ {s : StateID} {id : SiteID}, StateID.init zoom s.site s.spin s.orbit = .ok s →
      SiteID.init zoom s.site = .ok id → id.tuple = s.siteTuple := by
    intro s id hs h1
    simp only [StateID.init, bind_ok_iff] at hs
    obtain ⟨_, -, _, -, w, hw, hs⟩ := hs
    rw [h1] at hw
    injection hw with hw
    injection hs with hs
    have := congrArg StateID.siteTuple hs
    simp only at this
    rw [hw]; exact this
  have hij : i = j ↔ s.siteTuple = t.siteTuple := by
    rw [(C76_getIndex x xs start tb htb).2.1 (.site id) (.site id') i j hi hj]
    simp [AnyObj.eq, siteRich_eq, linRich, tup hs h1, tup ht h1']
  rw [h3, h3', ← h2, ← h2', ← hij]
  have horb : ∀ n m, orbitTex o.suppressOrbit n = orbitTex o.suppressOrbit m ↔ o.suppressOrbit = true ∨ n = m := by
    intro n m
    unfold orbitTex
    by_cases hb : o.suppressOrbit = true
    · simp [hb]
    · rw [if_neg hb, if_neg hb]
      simp only [List.cons.injEq, true_and, hb, Bool.false_eq_true, false_or]
      exact ⟨decNat_inj, fun h => h ▸ rfl⟩
  constructor
  · intro h
    obtain ⟨h4, -, h5⟩ := span_unique (decInt_num i) (decInt_num j) (not_num _) (not_num _) h
    have h6 : spinTex o.spinOneHalf s.spin = spinTex o.spinOneHalf t.spin ∧
        orbitTex o.suppressOrbit s.orbit = orbitTex o.suppressOrbit t.orbit := by
      by_cases hb : o.suppressOrbit = true
      · have : ∀ n, orbitTex o.suppressOrbit n = [] := by intro n; simp [orbitTex, hb]
        rw [this, this, List.append_nil, List.append_nil] at h5
        exact ⟨h5, by rw [this, this]⟩
      · have : ∀ n, orbitTex o.suppressOrbit n = ',' :: decNat n := by intro n; simp [orbitTex, hb]
        rw [this, this] at h5 ⊢
        obtain ⟨h7, -, h8⟩ := span_unique (p := fun c => c ≠ ',') (spinTex_comma _ _) (spinTex_comma _ _)
          (by simp) (by simp) h5
        exact ⟨h7, by rw [h8]⟩
    exact ⟨decInt_inj h4, spinTex_inj h6.1, (horb _ _).1 h6.2⟩
  · rintro ⟨rfl, h5, h6⟩
    rw [h5, (horb _ _).2 h6]

end Verif
