import Verif.Spec.ColorPrint
import Verif.Proofs.PyLemmas
import Mathlib.Tactic.IntervalCases
/-!
# Lemmas for C63
-/

namespace Verif.Color

theorem colorName_iff (t : PyText) (s l : Str) :
    colorName t s = .ok l ↔ ∃ i, NameIs t s i ∧ longNames[i]? = some l := by
  unfold colorName NameIs
  simp only
  generalize t.lower s = u
  constructor
  · intro h
    split at h
    · rename_i h1
      simp only [Except.ok.injEq] at h
      subst h
      simp only [longNames, List.mem_cons, List.not_mem_nil, or_false] at h1
      rcases h1 with rfl | rfl | rfl | rfl | rfl | rfl | rfl | rfl
      · exact ⟨0, ⟨_, rfl, Or.inl rfl⟩, rfl⟩
      · exact ⟨1, ⟨_, rfl, Or.inl rfl⟩, rfl⟩
      · exact ⟨2, ⟨_, rfl, Or.inl rfl⟩, rfl⟩
      · exact ⟨3, ⟨_, rfl, Or.inl rfl⟩, rfl⟩
      · exact ⟨4, ⟨_, rfl, Or.inl rfl⟩, rfl⟩
      · exact ⟨5, ⟨_, rfl, Or.inl rfl⟩, rfl⟩
      · exact ⟨6, ⟨_, rfl, Or.inl rfl⟩, rfl⟩
      · exact ⟨7, ⟨_, rfl, Or.inl rfl⟩, rfl⟩
    · split at h
      · rename_i h1
        simp only [shortNames, List.mem_cons, List.not_mem_nil, or_false] at h1
        rcases h1 with rfl | rfl | rfl | rfl | rfl | rfl | rfl | rfl
        · cases h; exact ⟨0, ⟨_, rfl, Or.inr rfl⟩, rfl⟩
        · cases h; exact ⟨1, ⟨_, rfl, Or.inr rfl⟩, rfl⟩
        · cases h; exact ⟨2, ⟨_, rfl, Or.inr rfl⟩, rfl⟩
        · cases h; exact ⟨3, ⟨_, rfl, Or.inr rfl⟩, rfl⟩
        · cases h; exact ⟨4, ⟨_, rfl, Or.inr rfl⟩, rfl⟩
        · cases h; exact ⟨5, ⟨_, rfl, Or.inr rfl⟩, rfl⟩
        · cases h; exact ⟨6, ⟨_, rfl, Or.inr rfl⟩, rfl⟩
        · cases h; exact ⟨7, ⟨_, rfl, Or.inr rfl⟩, rfl⟩
      · cases h
  · rintro ⟨i, ⟨x, hx, h⟩, hl⟩
    have hi : i < 8 := (List.getElem?_eq_some_iff.mp hx).1
    interval_cases i <;> cases hx <;> cases hl <;> rcases h with rfl | rfl <;> decide

theorem colorName_error (t : PyText) (s : Str) (e : PyErr) (h : colorName t s = raise e) :
    e = .valueError := by
  unfold colorName at h
  simp only at h
  generalize t.lower s = u at h
  split at h
  · cases h
  · split at h
    · rename_i h1
      simp only [shortNames, List.mem_cons, List.not_mem_nil, or_false] at h1
      rcases h1 with rfl | rfl | rfl | rfl | rfl | rfl | rfl | rfl <;> cases h
    · cases h; rfl

theorem name_lt {t : PyText} {s : Str} {i : Nat} (h : NameIs t s i) : i < 8 := by
  obtain ⟨x, hx, -⟩ := h
  exact (List.getElem?_eq_some_iff.mp hx).1

theorem name_unique {t : PyText} {s : Str} {i j : Nat} (hi : NameIs t s i) (hj : NameIs t s j) :
    i = j := by
  have h1 := name_lt hi
  have h2 := name_lt hj
  have a : ∃ l, longNames[i]? = some l := ⟨longNames[i]'h1, List.getElem?_eq_getElem h1⟩
  have b : ∃ l, longNames[j]? = some l := ⟨longNames[j]'h2, List.getElem?_eq_getElem h2⟩
  obtain ⟨l, hl⟩ := a
  obtain ⟨m, hm⟩ := b
  have e1 := (colorName_iff t s l).mpr ⟨i, hi, hl⟩
  have e2 := (colorName_iff t s m).mpr ⟨j, hj, hm⟩
  rw [e1] at e2
  simp only [Except.ok.injEq] at e2
  subst e2
  exact (List.getElem?_inj h1 (by decide)).mp (hl.trans hm.symm)

theorem char_of_toNat {c : Char} {n : Nat} (h : c.toNat = n) : c = Char.ofNat n := by
  rw [← h, Char.ofNat_toNat]

theorem hexDigit_iff (c : Char) (v : Int) : hexDigit c = some v ↔ ∃ x : Nat, v = x ∧ IsDigit c x := by
  constructor
  · intro h
    unfold hexDigit at h
    split at h
    · rename_i hc
      have h1 : 48 ≤ c.toNat := hc.1
      have h2 : c.toNat ≤ 57 := hc.2
      simp only [Option.some.injEq] at h
      refine ⟨c.toNat - 48, by omega, Or.inl ?_⟩
      generalize hn : c.toNat = n at *
      rw [char_of_toNat hn]
      interval_cases n <;> decide
    · split at h
      · rename_i hc
        have h1 : 97 ≤ c.toNat := hc.1
        have h2 : c.toNat ≤ 102 := hc.2
        simp only [Option.some.injEq] at h
        refine ⟨c.toNat - 87, by omega, Or.inl ?_⟩
        generalize hn : c.toNat = n at *
        rw [char_of_toNat hn]
        interval_cases n <;> decide
      · split at h
        · rename_i hc
          have h1 : 65 ≤ c.toNat := hc.1
          have h2 : c.toNat ≤ 70 := hc.2
          simp only [Option.some.injEq] at h
          refine ⟨c.toNat - 55, by omega, Or.inr ?_⟩
          generalize hn : c.toNat = n at *
          rw [char_of_toNat hn]
          interval_cases n <;> decide
        · cases h
  · rintro ⟨x, rfl, h⟩
    have hx : x < 16 := by
      rcases h with h | h
      · exact (List.getElem?_eq_some_iff.mp h).1
      · exact (List.getElem?_eq_some_iff.mp h).1
    interval_cases x <;> rcases h with h | h <;>
      · simp at h
        subst h
        decide

theorem isSpace_iff (c : Char) : isSpace c = true ↔ IsWhite c := by
  constructor
  · intro h
    simp only [isSpace, Bool.or_eq_true, Bool.and_eq_true, decide_eq_true_eq, beq_iff_eq] at h
    rcases h with h | ⟨h1, h2⟩
    · subst h; simp [IsWhite]
    · generalize hn : c.toNat = n at *
      rw [char_of_toNat hn]
      interval_cases n <;> unfold IsWhite <;> decide
  · intro h
    simp only [IsWhite, List.mem_cons, List.not_mem_nil, or_false] at h
    rcases h with rfl | rfl | rfl | rfl | rfl | rfl <;> decide

theorem hex2_iff (t : PyText) (a b : Char) (v : Int) :
    hex2 t a b = .ok v ↔ HexPair (t.toAscii a) (t.toAscii b) v := by
  unfold hex2
  generalize t.toAscii a = a
  generalize t.toAscii b = b
  have nd : ∀ c : Char, hexDigit c = none → ∀ x, ¬ IsDigit c x := by
    intro c hc x hx
    have := (hexDigit_iff c x).mpr ⟨x, rfl, hx⟩
    rw [hc] at this
    cases this
  have uni : ∀ (c : Char) (v : Int) (x : Nat), hexDigit c = some v → IsDigit c x → v = x := by
    intro c v x hc hx
    have := (hexDigit_iff c x).mpr ⟨x, rfl, hx⟩
    rw [hc] at this
    simpa using this
  have wd : ∀ (c : Char) (x : Nat), IsWhite c → ¬ IsDigit c x := by
    intro c x hw
    apply nd
    simp only [IsWhite, List.mem_cons, List.not_mem_nil, or_false] at hw
    rcases hw with rfl | rfl | rfl | rfl | rfl | rfl <;> decide
  have pd : ∀ x : Nat, ¬ IsDigit '+' x := nd _ (by decide)
  have md : ∀ x : Nat, ¬ IsDigit '-' x := nd _ (by decide)
  cases ha : hexDigit a with
  | some x =>
    obtain ⟨x', hx, hxd⟩ := (hexDigit_iff a x).mp ha
    cases hb : hexDigit b with
    | some y =>
      obtain ⟨y', hy, hyd⟩ := (hexDigit_iff b y).mp hb
      simp only [ha, hb, Except.ok.injEq]
      constructor
      · rintro rfl; subst hx hy; exact .digits hxd hyd
      · intro h
        cases h with
        | digits h1 h2 => rw [uni _ _ _ ha h1, uni _ _ _ hb h2]
        | before h1 h2 => exact absurd hxd (wd _ _ h1)
        | after h1 h2 => exact absurd hyd (wd _ _ h2)
        | plus h1 h2 => subst h1; exact absurd hxd (pd _)
        | minus h1 h2 => subst h1; exact absurd hxd (md _)
    | none =>
      simp only [ha, hb]
      constructor
      · intro h
        split at h
        · rename_i hs
          simp only [Except.ok.injEq] at h
          subst h hx
          exact .after hxd ((isSpace_iff b).mp hs)
        · cases h
      · intro h
        cases h with
        | digits h1 h2 => exact absurd h2 (nd _ hb _)
        | before h1 h2 => exact absurd h2 (nd _ hb _)
        | after h1 h2 => rw [if_pos ((isSpace_iff b).mpr h2), uni _ _ _ ha h1]
        | plus h1 h2 => exact absurd h2 (nd _ hb _)
        | minus h1 h2 => exact absurd h2 (nd _ hb _)
  | none =>
    cases hb : hexDigit b with
    | some y =>
      obtain ⟨y', hy, hyd⟩ := (hexDigit_iff b y).mp hb
      simp only [ha, hb]
      constructor
      · intro h
        split at h
        · rename_i hs
          simp only [Except.ok.injEq] at h
          subst h hy
          simp only [Bool.or_eq_true, beq_iff_eq] at hs
          rcases hs with hs | hs
          · exact .before ((isSpace_iff a).mp hs) hyd
          · exact .plus hs hyd
        · split at h
          · rename_i hs
            simp only [Except.ok.injEq] at h
            subst h hy
            exact .minus (by simpa using hs) hyd
          · cases h
      · intro h
        cases h with
        | digits h1 h2 => exact absurd h1 (nd _ ha _)
        | before h1 h2 =>
          rw [if_pos (by simp [(isSpace_iff a).mpr h1]), uni _ _ _ hb h2]
        | after h1 h2 => exact absurd h1 (nd _ ha _)
        | plus h1 h2 => rw [if_pos (by simp [h1]), uni _ _ _ hb h2]
        | minus h1 h2 =>
          subst h1
          rw [if_neg (by decide), if_pos (by decide), uni _ _ _ hb h2]
    | none =>
      simp only [ha, hb]
      constructor
      · intro h; cases h
      · intro h
        cases h with
        | digits h1 h2 => exact absurd h1 (nd _ ha _)
        | before h1 h2 => exact absurd h2 (nd _ hb _)
        | after h1 h2 => exact absurd h1 (nd _ ha _)
        | plus h1 h2 => exact absurd h2 (nd _ hb _)
        | minus h1 h2 => exact absurd h2 (nd _ hb _)

theorem hex2_error (t : PyText) (a b : Char) (e : PyErr) (h : hex2 t a b = raise e) :
    e = .valueError := by
  unfold hex2 at h
  simp only at h
  split at h
  · cases h
  · split at h
    · cases h
    · cases h; rfl
  · split at h
    · cases h
    · split at h
      · cases h
      · cases h; rfl
  · cases h; rfl

theorem name_cases (t : PyText) (s : Str) :
    (∃ i, NameIs t s i ∧ ∃ l, longNames[i]? = some l ∧ colorName t s = .ok l) ∨
    ((∀ i, ¬ NameIs t s i) ∧ colorName t s = raise .valueError) := by
  cases h : colorName t s with
  | ok l =>
    obtain ⟨i, hi, hl⟩ := (colorName_iff t s l).mp h
    exact Or.inl ⟨i, hi, l, hl, rfl⟩
  | error e =>
    have := colorName_error t s e h
    subst this
    refine Or.inr ⟨?_, rfl⟩
    intro i hi
    have h1 := name_lt hi
    have := (colorName_iff t s (longNames[i]'h1)).mpr ⟨i, hi, List.getElem?_eq_getElem h1⟩
    rw [h] at this
    cases this

theorem hex_cases (t : PyText) (a b : Char) :
    (∃ v, HexPair (t.toAscii a) (t.toAscii b) v ∧ hex2 t a b = .ok v) ∨
    ((∀ v, ¬ HexPair (t.toAscii a) (t.toAscii b) v) ∧ hex2 t a b = raise .valueError) := by
  cases h : hex2 t a b with
  | ok v => exact Or.inl ⟨v, (hex2_iff t a b v).mp h, rfl⟩
  | error e =>
    have := hex2_error t a b e h
    subst this
    refine Or.inr ⟨?_, rfl⟩
    intro v hv
    rw [(hex2_iff t a b v).mpr hv] at h
    cases h

/-- a function agrees with a relation, raising only ValueError -/
def Agrees (f : Py Str) (P : Str → Prop) : Prop :=
  (∃ r, f = .ok r ∧ ∀ x, P x ↔ x = r) ∨ (f = raise .valueError ∧ ∀ x, ¬ P x)

theorem ctrl4_agrees (t : PyText) (fg : Bool) (c : Color) :
    Agrees (ctrl4 t fg c) (Seq t 4 fg c) := by
  cases c with
  | int n =>
    by_cases h : supported4 fg n = true
    · left
      refine ⟨csi ++ fmtInt n ++ ['m'], by simp [ctrl4, h], ?_⟩
      intro x
      constructor
      · intro hx; cases hx <;> rfl
      · rintro rfl
        cases fg with
        | true =>
          refine Seq.int4fg ?_
          simp [supported4, inRange] at h
          omega
        | false =>
          refine Seq.int4bg ?_
          simp [supported4, inRange] at h
          omega
    · right
      refine ⟨by simp [ctrl4, h], ?_⟩
      intro x hx
      apply h
      cases hx <;> simp [supported4, inRange] <;> omega
  | bool b =>
    right
    constructor
    · cases fg <;> cases b <;> rfl
    · intro x hx; cases hx
  | str s =>
    rcases name_cases t s with ⟨i, hi, l, hl, hc⟩ | ⟨h1, h2⟩
    · left
      refine ⟨sgr (dec ((if fg then 30 else 40) + i)), ?_, ?_⟩
      · simp only [ctrl4, hc, bind, Except.bind]
        have h8 := name_lt hi
        clear hi
        cases fg <;> interval_cases i <;> cases hl <;> decide
      · intro x
        constructor
        · intro hx
          cases hx with
          | name4 hj => rw [name_unique hi hj]
        · rintro rfl; exact .name4 hi
    · right
      refine ⟨by simp [ctrl4, h2, bind, Except.bind], ?_⟩
      intro x hx
      cases hx with
      | name4 hj => exact h1 _ hj
  | seq l =>
    left
    refine ⟨[], rfl, fun x => ⟨fun hx => by cases hx; rfl, fun hx => by subst hx; exact .seq4⟩⟩
  | other =>
    left
    refine ⟨[], rfl, fun x => ⟨fun hx => by cases hx; rfl, fun hx => by subst hx; exact .other4⟩⟩

theorem fmt8_eq (fg : Bool) (n : Str) : fmt8 fg n = sgr (body8 fg n) := by
  simp [fmt8, sgr, body8, csi, layer]

theorem fmt24_eq (fg : Bool) (r g b : Str) : fmt24 fg r g b = sgr (body24 fg r g b) := by
  simp [fmt24, sgr, body24, csi, layer]

theorem ctrl8_agrees (t : PyText) (fg : Bool) (c : Color) :
    Agrees (ctrl8 t fg c) (Seq t 8 fg c) := by
  cases c with
  | int n =>
    by_cases h : supported8 n = true
    · left
      refine ⟨fmt8 fg (fmtInt n), by simp [ctrl8, h], ?_⟩
      intro x
      constructor
      · intro hx; cases hx; rw [fmt8_eq]; rfl
      · rintro rfl
        rw [fmt8_eq]
        simp [supported8, inRange] at h
        exact .int8 (by omega) (by omega)
    · right
      refine ⟨by simp [ctrl8, h], ?_⟩
      intro x hx
      apply h
      cases hx
      simp [supported8, inRange]
      omega
  | bool b =>
    left
    refine ⟨fmt8 fg (fmtBool b), by cases b <;> rfl, ?_⟩
    intro x
    rw [fmt8_eq]
    constructor
    · intro hx; cases hx; rfl
    · rintro rfl; exact .bool8
  | str s =>
    rcases name_cases t s with ⟨i, hi, l, hl, hc⟩ | ⟨h1, h2⟩
    · left
      refine ⟨sgr (body8 fg (dec i)), ?_, ?_⟩
      · simp only [ctrl8, hc, bind, Except.bind]
        have h8 := name_lt hi
        clear hi
        cases fg <;> interval_cases i <;> cases hl <;> decide
      · intro x
        constructor
        · intro hx
          cases hx with
          | name8 hj => rw [name_unique hi hj]
        · rintro rfl; exact .name8 hi
    · right
      refine ⟨by simp [ctrl8, h2, bind, Except.bind], ?_⟩
      intro x hx
      cases hx with
      | name8 hj => exact h1 _ hj
  | seq l =>
    left
    refine ⟨[], rfl, fun x => ⟨fun hx => by cases hx; rfl, fun hx => by subst hx; exact .seq8⟩⟩
  | other =>
    left
    refine ⟨[], rfl, fun x => ⟨fun hx => by cases hx; rfl, fun hx => by subst hx; exact .other8⟩⟩

theorem Comp.supported_iff (c : Comp) :
    c.supported = true ↔ ∃ n, c.eqInt = some n ∧ 0 ≤ n ∧ n ≤ 255 := by
  unfold Comp.supported
  cases h : c.eqInt with
  | none => simp
  | some n =>
    simp [supported8, inRange]
    omega

theorem hashShape_iff (s : Str) :
    HashShape s ↔ ∃ a b c d e f, s = ['#', a, b, c, d, e, f] := by
  constructor
  · rintro ⟨h1, h2⟩
    match s, h1, h2 with
    | [x, a, b, c, d, e, f], _, h2 =>
      simp at h2
      subst h2
      exact ⟨a, b, c, d, e, f, rfl⟩
  · rintro ⟨a, b, c, d, e, f, rfl⟩
    exact ⟨rfl, rfl⟩

theorem ctrl24_agrees (t : PyText) (fg : Bool) (c : Color) :
    Agrees (ctrl24 t fg c) (Seq t 24 fg c) := by
  cases c with
  | int n =>
    left
    refine ⟨[], rfl, fun x => ⟨fun hx => by cases hx; rfl, fun hx => by subst hx; exact .int24⟩⟩
  | bool b =>
    left
    refine ⟨[], rfl, fun x => ⟨fun hx => by cases hx; rfl, fun hx => by subst hx; exact .bool24⟩⟩
  | other =>
    left
    refine ⟨[], rfl, fun x => ⟨fun hx => by cases hx; rfl, fun hx => by subst hx; exact .other24⟩⟩
  | seq l =>
    by_cases hl : l.length = 3
    · match l, hl with
      | [r, g, b], _ =>
        by_cases h : (r.supported && g.supported && b.supported) = true
        · left
          refine ⟨fmt24 fg r.text g.text b.text, by simp only [ctrl24, h, if_true], ?_⟩
          intro x
          rw [fmt24_eq]
          constructor
          · intro hx
            cases hx with
            | triple24 => rfl
            | seq24 h3 => exact absurd rfl h3
          · rintro rfl
            simp only [Bool.and_eq_true, Comp.supported_iff] at h
            obtain ⟨⟨⟨i, hi, hi'⟩, ⟨j, hj, hj'⟩⟩, ⟨k, hk, hk'⟩⟩ := h
            exact .triple24 hi hj hk hi' hj' hk'
        · right
          refine ⟨by simp only [ctrl24, h, if_false, Bool.false_eq_true], ?_⟩
          intro x hx
          apply h
          simp only [Bool.and_eq_true, Comp.supported_iff]
          cases hx with
          | triple24 a1 a2 a3 b1 b2 b3 => exact ⟨⟨⟨_, a1, b1⟩, ⟨_, a2, b2⟩⟩, ⟨_, a3, b3⟩⟩
          | seq24 h3 => exact absurd rfl h3
    · left
      refine ⟨[], ?_, fun x => ⟨fun hx => ?_, fun hx => by subst hx; exact .seq24 hl⟩⟩
      · unfold ctrl24
        split
        · simp_all
        · rfl
        · simp_all
        · rfl
      · cases hx with
        | triple24 => exact absurd rfl hl
        | seq24 => rfl
  | str s =>
    by_cases hs : HashShape s
    · obtain ⟨a, b, c, d, e, f, rfl⟩ := (hashShape_iff s).mp hs
      rcases hex_cases t a b with ⟨r, hr, er⟩ | ⟨h1, e1⟩
      · rcases hex_cases t c d with ⟨g, hg, eg⟩ | ⟨h1, e1⟩
        · rcases hex_cases t e f with ⟨b', hb, eb⟩ | ⟨h1, e1⟩
          · left
            refine ⟨fmt24 fg (fmtInt r) (fmtInt g) (fmtInt b'), ?_, ?_⟩
            · simp [ctrl24, er, eg, eb, bind, Except.bind, pure, Except.pure]
            · intro x
              rw [fmt24_eq]
              constructor
              · intro hx
                cases hx with
                | hex24 h =>
                  obtain ⟨a', b'', c', d', e', f', hh, p1, p2, p3⟩ := h
                  simp only [List.cons.injEq, and_true, true_and] at hh
                  obtain ⟨rfl, rfl, rfl, rfl, rfl, rfl⟩ := hh
                  rw [← hex2_iff] at p1 p2 p3
                  rw [er] at p1; rw [eg] at p2; rw [eb] at p3
                  cases p1; cases p2; cases p3
                  rfl
                | name24 h => exact absurd hs h
              · rintro rfl
                exact .hex24 ⟨a, b, c, d, e, f, rfl, hr, hg, hb⟩
          · right
            refine ⟨by simp [ctrl24, er, eg, e1, bind, Except.bind], ?_⟩
            intro x hx
            cases hx with
            | hex24 h =>
              obtain ⟨a', b'', c', d', e', f', hh, p1, p2, p3⟩ := h
              simp only [List.cons.injEq, and_true, true_and] at hh
              obtain ⟨rfl, rfl, rfl, rfl, rfl, rfl⟩ := hh
              exact h1 _ p3
            | name24 h => exact absurd hs h
        · right
          refine ⟨by simp [ctrl24, er, e1, bind, Except.bind], ?_⟩
          intro x hx
          cases hx with
          | hex24 h =>
            obtain ⟨a', b'', c', d', e', f', hh, p1, p2, p3⟩ := h
            simp only [List.cons.injEq, and_true, true_and] at hh
            obtain ⟨rfl, rfl, rfl, rfl, rfl, rfl⟩ := hh
            exact h1 _ p2
          | name24 h => exact absurd hs h
      · right
        refine ⟨by simp [ctrl24, e1, bind, Except.bind], ?_⟩
        intro x hx
        cases hx with
        | hex24 h =>
          obtain ⟨a', b'', c', d', e', f', hh, p1, p2, p3⟩ := h
          simp only [List.cons.injEq, and_true, true_and] at hh
          obtain ⟨rfl, rfl, rfl, rfl, rfl, rfl⟩ := hh
          exact h1 _ p1
        | name24 h => exact absurd hs h
    · have hmodel : ctrl24 t fg (.str s) = (do
          let name ← colorName t s
          let (r, g, b) ← lookup longNames codes24 name
          return fmt24 fg (fmtInt r) (fmtInt g) (fmtInt b)) := by
        simp only [ctrl24]
        split
        · exact absurd ((hashShape_iff _).mpr ⟨_, _, _, _, _, _, rfl⟩) hs
        · rfl
      rw [hmodel]
      have nohex : ∀ v, ¬ IsHex t s v := by
        rintro v ⟨a, b, c, d, e, f, rfl, -⟩
        exact hs ⟨rfl, rfl⟩
      rcases name_cases t s with ⟨i, hi, l, hl, hc⟩ | ⟨h1, h2⟩
      · left
        refine ⟨sgr (body24 fg (dec (channel i 0)) (dec (channel i 1)) (dec (channel i 2))), ?_, ?_⟩
        · simp only [hc, bind, Except.bind]
          have h8 := name_lt hi
          clear hi
          cases fg <;> interval_cases i <;> cases hl <;> decide
        · intro x
          constructor
          · intro hx
            cases hx with
            | name24 _ hj => rw [name_unique hi hj]
            | hex24 h => exact absurd h (nohex _)
          · rintro rfl; exact .name24 hs hi
      · right
        refine ⟨by simp [h2, bind, Except.bind], ?_⟩
        intro x hx
        cases hx with
        | name24 _ hj => exact h1 _ hj
        | hex24 h => exact absurd h (nohex _)

theorem schemeCtrl_cases (t : PyText) (sc : Scheme) :
    (∃ n f, Bits sc n ∧ schemeCtrl t sc = .ok f ∧ ∀ fg c, Agrees (f fg c) (Seq t n fg c)) ∨
    ((∀ n, ¬ Bits sc n) ∧ schemeCtrl t sc = raise .valueError) := by
  cases sc with
  | int k =>
    by_cases h4 : k = 4
    · subst h4; exact Or.inl ⟨4, _, .four, rfl, ctrl4_agrees t⟩
    by_cases h8 : k = 8
    · subst h8; exact Or.inl ⟨8, _, .eight, rfl, ctrl8_agrees t⟩
    by_cases h24 : k = 24
    · subst h24; exact Or.inl ⟨24, _, .twentyFour, rfl, ctrl24_agrees t⟩
    refine Or.inr ⟨?_, by simp [schemeCtrl, h4, h8, h24]⟩
    intro n h
    cases h <;> simp at h4 h8 h24
  | str s =>
    by_cases h : s = "rgb".toList
    · subst h; exact Or.inl ⟨24, _, .rgb, rfl, ctrl24_agrees t⟩
    refine Or.inr ⟨?_, by simp only [schemeCtrl, if_neg h]⟩
    intro n hb
    cases hb
    exact h rfl
  | other =>
    refine Or.inr ⟨?_, rfl⟩
    intro n hb
    cases hb

theorem Bits.unique {sc : Scheme} {m n : Nat} (h1 : Bits sc m) (h2 : Bits sc n) : m = n := by
  cases h1 <;> cases h2 <;> rfl

end Verif.Color
