import Verif.Proofs.ColorPrint
/-!
# C63: `coloring` wraps the text reversibly and rejects bad colours
-/

namespace Verif.Color

/-- **C63** (complete description).  `coloring(s, fg, bg, bold, color_scheme)` returns the
foreground sequence, the background sequence, `ESC[1m` if bold, the text and `ESC[0m`, for every
text; it raises ValueError, and nothing else, exactly when the scheme or one of the two colours is
not supported (has no control sequence in the tables of `Seq`). -/
theorem C63_coloring_spec (t : PyText) (s : Str) (fg bg : Color) (bold : Bool) (sc : Scheme) :
    (∀ r, coloring t s fg bg bold sc = .ok r ↔
      ∃ n f b, Bits sc n ∧ Seq t n true fg f ∧ Seq t n false bg b ∧
        r = f ++ b ++ (if bold then sgr "1".toList else []) ++ s ++ sgr "0".toList) ∧
    (coloring t s fg bg bold sc = raise .valueError ↔
      ¬ ∃ n f b, Bits sc n ∧ Seq t n true fg f ∧ Seq t n false bg b) ∧
    (∀ e, coloring t s fg bg bold sc = raise e → e = .valueError) := by
  rcases schemeCtrl_cases t sc with ⟨n, c, hn, hc, ha⟩ | ⟨h1, h2⟩
  · rcases ha true fg with ⟨f, hf, uf⟩ | ⟨hf, uf⟩
    · rcases ha false bg with ⟨b, hb, ub⟩ | ⟨hb, ub⟩
      · have hok : coloring t s fg bg bold sc = .ok (f ++ b ++
            (if bold then sgr "1".toList else []) ++ s ++ sgr "0".toList) := by
          simp only [coloring, hc, hf, hb, bind, Except.bind, pure, Except.pure]
          rfl
        refine ⟨?_, ?_, ?_⟩
        · intro r
          rw [hok]
          constructor
          · intro h
            cases h
            exact ⟨n, f, b, hn, (uf f).mpr rfl, (ub b).mpr rfl, rfl⟩
          · rintro ⟨n', f', b', hn', hf', hb', rfl⟩
            have := hn.unique hn'
            subst this
            rw [(uf f').mp hf', (ub b').mp hb']
        · rw [hok]
          constructor
          · intro h; cases h
          · intro h
            exact absurd ⟨n, f, b, hn, (uf f).mpr rfl, (ub b).mpr rfl⟩ h
        · intro e he
          rw [hok] at he
          cases he
      · have herr : coloring t s fg bg bold sc = raise .valueError := by
          simp only [coloring, hc, hf, hb, bind, Except.bind]
        refine ⟨?_, ?_, ?_⟩
        · intro r
          rw [herr]
          constructor
          · intro h; cases h
          · rintro ⟨n', f', b', hn', hf', hb', -⟩
            have := hn.unique hn'
            subst this
            exact absurd hb' (ub b')
        · rw [herr]
          refine ⟨fun _ => ?_, fun _ => rfl⟩
          rintro ⟨n', f', b', hn', hf', hb'⟩
          have := hn.unique hn'
          subst this
          exact ub b' hb'
        · intro e he
          rw [herr] at he
          cases he
          rfl
    · have herr : coloring t s fg bg bold sc = raise .valueError := by
        simp only [coloring, hc, hf, bind, Except.bind]
      refine ⟨?_, ?_, ?_⟩
      · intro r
        rw [herr]
        constructor
        · intro h; cases h
        · rintro ⟨n', f', b', hn', hf', hb', -⟩
          have := hn.unique hn'
          subst this
          exact absurd hf' (uf f')
      · rw [herr]
        refine ⟨fun _ => ?_, fun _ => rfl⟩
        rintro ⟨n', f', b', hn', hf', hb'⟩
        have := hn.unique hn'
        subst this
        exact uf f' hf'
      · intro e he
        rw [herr] at he
        cases he
        rfl
  · have herr : coloring t s fg bg bold sc = raise .valueError := by
      simp only [coloring, h2, bind, Except.bind]
    refine ⟨?_, ?_, ?_⟩
    · intro r
      rw [herr]
      constructor
      · intro h; cases h
      · rintro ⟨n', f', b', hn', -⟩
        exact absurd hn' (h1 n')
    · rw [herr]
      refine ⟨fun _ => ?_, fun _ => rfl⟩
      rintro ⟨n', f', b', hn', -⟩
      exact h1 n' hn'
    · intro e he
      rw [herr] at he
      cases he
      rfl

/-- **C63** (the prefix depends on the style only).  For fixed style arguments either every text is
rejected with ValueError, or there is one prefix such that every text is wrapped as
`prefix + text + ESC[0m`; the text is recovered by dropping a fixed number of characters at both
ends. -/
theorem C63_prefix_depends_on_style_only (t : PyText) (fg bg : Color) (bold : Bool) (sc : Scheme) :
    (∀ s, coloring t s fg bg bold sc = raise .valueError) ∨
    ∃ pre, ∀ s, coloring t s fg bg bold sc = .ok (pre ++ s ++ sgr "0".toList) ∧
      ((pre ++ s ++ sgr "0".toList).drop pre.length).take s.length = s := by
  by_cases h : ∃ n f b, Bits sc n ∧ Seq t n true fg f ∧ Seq t n false bg b
  · right
    obtain ⟨n, f, b, h1, h2, h3⟩ := h
    refine ⟨f ++ b ++ (if bold then sgr "1".toList else []), fun s => ⟨?_, ?_⟩⟩
    · exact ((C63_coloring_spec t s fg bg bold sc).1 _).mpr ⟨n, f, b, h1, h2, h3, by simp⟩
    · generalize f ++ b ++ (if bold then sgr "1".toList else []) = pre
      rw [List.append_assoc, List.drop_left, List.take_left]
  · left
    intro s
    exact (C63_coloring_spec t s fg bg bold sc).2.1.mpr h

/-- Two colour arguments that differ by letter case only (ASCII strings). -/
def SameUpToCase : Color → Color → Prop
  | .str a, .str b => (∀ c ∈ a, c.toNat < 127) ∧ (∀ c ∈ b, c.toNat < 127) ∧
      a.map asciiLower = b.map asciiLower
  | a, b => a = b

theorem asciiLower_inv {P : Char → Prop} (c : Char) (h : ∀ n, 65 ≤ n → n ≤ 90 →
    (P (Char.ofNat n) ↔ P (Char.ofNat (n + 32)))) : P c ↔ P (asciiLower c) := by
  unfold asciiLower
  split
  · rename_i hc
    have h1 : 65 ≤ c.toNat := hc.1
    have h2 : c.toNat ≤ 90 := hc.2
    have := h c.toNat h1 h2
    rwa [Char.ofNat_toNat] at this
  · rfl

theorem hexPair_lower (a b : Char) (v : Int) :
    HexPair a b v ↔ HexPair (asciiLower a) (asciiLower b) v := by
  have key : ∀ (c : Char) (x : Nat), IsDigit c x ↔ IsDigit (asciiLower c) x := by
    intro c x
    have hx : hexDigit c = some (x : Int) ↔ hexDigit (asciiLower c) = some (x : Int) := by
      apply asciiLower_inv (P := fun c => hexDigit c = some (x : Int))
      intro n h1 h2
      have : hexDigit (Char.ofNat n) = hexDigit (Char.ofNat (n + 32)) := by
        interval_cases n <;> decide
      rw [this]
    constructor
    · intro h
      obtain ⟨y, hy, hd⟩ := (hexDigit_iff _ _).mp (hx.mp ((hexDigit_iff c x).mpr ⟨x, rfl, h⟩))
      have : x = y := by exact_mod_cast hy
      rwa [this]
    · intro h
      obtain ⟨y, hy, hd⟩ := (hexDigit_iff _ _).mp (hx.mpr ((hexDigit_iff _ x).mpr ⟨x, rfl, h⟩))
      have : x = y := by exact_mod_cast hy
      rwa [this]
  have white : ∀ c : Char, IsWhite c ↔ IsWhite (asciiLower c) := by
    intro c
    apply asciiLower_inv
    intro n h1 h2
    rw [← isSpace_iff, ← isSpace_iff]
    have : isSpace (Char.ofNat n) = isSpace (Char.ofNat (n + 32)) := by
      interval_cases n <;> decide
    rw [this]
  have plus : ∀ c : Char, c = '+' ↔ asciiLower c = '+' := by
    intro c
    apply asciiLower_inv (P := fun c => c = '+')
    intro n h1 h2
    interval_cases n <;> decide
  have minus : ∀ c : Char, c = '-' ↔ asciiLower c = '-' := by
    intro c
    apply asciiLower_inv (P := fun c => c = '-')
    intro n h1 h2
    interval_cases n <;> decide
  constructor
  · intro h
    cases h with
    | digits h1 h2 => exact .digits ((key _ _).mp h1) ((key _ _).mp h2)
    | before h1 h2 => exact .before ((white _).mp h1) ((key _ _).mp h2)
    | after h1 h2 => exact .after ((key _ _).mp h1) ((white _).mp h2)
    | plus h1 h2 => exact .plus ((plus _).mp h1) ((key _ _).mp h2)
    | minus h1 h2 => exact .minus ((minus _).mp h1) ((key _ _).mp h2)
  · intro h
    cases h with
    | digits h1 h2 => exact .digits ((key _ _).mpr h1) ((key _ _).mpr h2)
    | before h1 h2 => exact .before ((white _).mpr h1) ((key _ _).mpr h2)
    | after h1 h2 => exact .after ((key _ _).mpr h1) ((white _).mpr h2)
    | plus h1 h2 => exact .plus ((plus _).mpr h1) ((key _ _).mpr h2)
    | minus h1 h2 => exact .minus ((minus _).mpr h1) ((key _ _).mpr h2)

theorem isHex_lower (t : PyText) (ht : t.Ok) (s s' : Str) (hs : ∀ c ∈ s, c.toNat < 127)
    (hs' : ∀ c ∈ s', c.toNat < 127)
    (h : s.map asciiLower = s'.map asciiLower) (v : Int × Int × Int) (hv : IsHex t s v) :
    IsHex t s' v := by
  obtain ⟨a, b, c, d, e, f, rfl, h1, h2, h3⟩ := hv
  have hlen : s'.length = 7 := by
    have := congrArg List.length h
    simpa using this.symm
  match s', hlen, h, hs' with
  | [x, a', b', c', d', e', f'], _, h, hs' =>
    simp only [List.map_cons, List.map_nil, List.cons.injEq, and_true] at h
    obtain ⟨hx, ha, hb, hc, hd, he, hf⟩ := h
    have hash : x = '#' := by
      have : '#' = '#' ↔ asciiLower '#' = '#' := by decide
      have h2 : asciiLower x = '#' := by rw [← hx]; decide
      have := asciiLower_inv (P := fun c => c = '#') x (by
        intro n h1 h2; interval_cases n <;> decide)
      exact this.mpr h2
    subst hash
    have asc : ∀ y ∈ ['#', a, b, c, d, e, f], t.toAscii y = y :=
      fun y hy => ht.toAscii_ascii y (hs y hy)
    have asc' : ∀ y ∈ ['#', a', b', c', d', e', f'], t.toAscii y = y :=
      fun y hy => ht.toAscii_ascii y (hs' y hy)
    simp only [asc a (by simp), asc b (by simp), asc c (by simp), asc d (by simp),
      asc e (by simp), asc f (by simp)] at h1 h2 h3
    refine ⟨a', b', c', d', e', f', rfl, ?_, ?_, ?_⟩
    · rw [asc' a' (by simp), asc' b' (by simp), hexPair_lower, ← ha, ← hb, ← hexPair_lower]
      exact h1
    · rw [asc' c' (by simp), asc' d' (by simp), hexPair_lower, ← hc, ← hd, ← hexPair_lower]
      exact h2
    · rw [asc' e' (by simp), asc' f' (by simp), hexPair_lower, ← he, ← hf, ← hexPair_lower]
      exact h3

theorem seq_lower (t : PyText) (ht : t.Ok) (n : Nat) (fg : Bool) (c c' : Color)
    (h : SameUpToCase c c') (f : Str) (hf : Seq t n fg c f) : Seq t n fg c' f := by
  match c, c', h with
  | .str a, .str b, ⟨ha, hb, hab⟩ =>
    have la := ht.lower_ascii a (fun c hc => by have := ha c hc; omega)
    have lb := ht.lower_ascii b (fun c hc => by have := hb c hc; omega)
    have nm : ∀ i, NameIs t a i → NameIs t b i := by
      rintro i ⟨x, hx, h⟩
      exact ⟨x, hx, by rw [lb, ← hab, ← la]; exact h⟩
    cases hf with
    | name4 h => exact .name4 (nm _ h)
    | name8 h => exact .name8 (nm _ h)
    | name24 hs h =>
      refine .name24 ?_ (nm _ h)
      intro hb'
      apply hs
      obtain ⟨h1, h2⟩ := hb'
      have hlen : a.length = b.length := by
        have := congrArg List.length hab
        simpa using this
      refine ⟨by omega, ?_⟩
      match a, b, hab, h2 with
      | x :: a, y :: b, hab, h2 =>
        simp only [List.head?_cons, Option.some.injEq] at h2 ⊢
        subst h2
        simp only [List.map_cons, List.cons.injEq] at hab
        have h3 : asciiLower x = '#' := by rw [hab.1]; decide
        exact (asciiLower_inv (P := fun c => c = '#') x (by
          intro n h1 h2; interval_cases n <;> decide)).mpr h3
      | [], y :: b, hab, h2 => simp at hab
    | hex24 h => exact .hex24 (isHex_lower t ht a b ha hb hab _ h)
  | .int a, .int b, h => cases h; exact hf
  | .bool a, .bool b, h => cases h; exact hf
  | .seq a, .seq b, h => cases h; exact hf
  | .other, .other, h => exact hf

theorem SameUpToCase.symm {c c' : Color} (h : SameUpToCase c c') : SameUpToCase c' c := by
  match c, c', h with
  | .str a, .str b, ⟨ha, hb, hab⟩ => exact ⟨hb, ha, hab.symm⟩
  | .int a, .int b, h => exact Eq.symm h
  | .bool a, .bool b, h => exact Eq.symm h
  | .seq a, .seq b, h => exact Eq.symm h
  | .other, .other, h => rfl

/-- results of two calls whose colours have the same control sequences -/
theorem coloring_congr (t : PyText) (s : Str) (fg fg' bg bg' : Color) (bold : Bool) (sc : Scheme)
    (h1 : ∀ n f, Bits sc n → (Seq t n true fg f ↔ Seq t n true fg' f))
    (h2 : ∀ n f, Bits sc n → (Seq t n false bg f ↔ Seq t n false bg' f)) :
    coloring t s fg bg bold sc = coloring t s fg' bg' bold sc := by
  obtain ⟨a1, -, a3⟩ := C63_coloring_spec t s fg bg bold sc
  obtain ⟨b1, -, b3⟩ := C63_coloring_spec t s fg' bg' bold sc
  cases h : coloring t s fg bg bold sc with
  | ok r =>
    obtain ⟨n, f, b, e1, e2, e3, e4⟩ := (a1 r).mp h
    exact ((b1 r).mpr ⟨n, f, b, e1, (h1 _ _ e1).mp e2, (h2 _ _ e1).mp e3, e4⟩).symm
  | error e =>
    have he := a3 e h
    cases h' : coloring t s fg' bg' bold sc with
    | ok r =>
      obtain ⟨n, f, b, e1, e2, e3, e4⟩ := (b1 r).mp h'
      have := (a1 r).mpr ⟨n, f, b, e1, (h1 _ _ e1).mpr e2, (h2 _ _ e1).mpr e3, e4⟩
      rw [h] at this
      cases this
    | error e' =>
      have he' := b3 e' h'
      rw [he, he']

/-- **C63** (case).  Colour arguments that differ only in letter case - names as well as `#XXXXXX`
strings - give the same result, in every scheme. -/
theorem C63_case_insensitive (t : PyText) (ht : t.Ok) (s : Str) (fg fg' bg bg' : Color)
    (bold : Bool) (sc : Scheme) (h1 : SameUpToCase fg fg') (h2 : SameUpToCase bg bg') :
    coloring t s fg bg bold sc = coloring t s fg' bg' bold sc :=
  coloring_congr t s fg fg' bg bg' bold sc
    (fun n f _ => ⟨seq_lower t ht n true fg fg' h1 f, seq_lower t ht n true fg' fg h1.symm f⟩)
    (fun n f _ => ⟨seq_lower t ht n false bg bg' h2 f, seq_lower t ht n false bg' bg h2.symm f⟩)

/-- **C63** (short and long names).  A one-letter name can replace the long name everywhere. -/
theorem C63_short_names_equal_long_names (t : PyText) (ht : t.Ok) (x : String × String)
    (hx : x ∈ nameTable) (s : Str) (c : Color) (bold : Bool) (sc : Scheme) :
    coloring t s (.str x.1.toList) c bold sc = coloring t s (.str x.2.toList) c bold sc ∧
    coloring t s c (.str x.1.toList) bold sc = coloring t s c (.str x.2.toList) bold sc := by
  obtain ⟨i, hi⟩ := List.getElem?_of_mem hx
  have n1 : NameIs t x.1.toList i ∧ NameIs t x.2.toList i := by
    have hlow : ∀ y : String, y ∈ nameTable.map Prod.fst ++ nameTable.map Prod.snd →
        t.lower y.toList = y.toList := by
      intro y hy
      have hall : ∀ y ∈ nameTable.map Prod.fst ++ nameTable.map Prod.snd,
          (∀ c ∈ y.toList, c.toNat < 128) ∧ y.toList.map asciiLower = y.toList := by decide
      rw [ht.lower_ascii _ (hall y hy).1, (hall y hy).2]
    refine ⟨⟨x, hi, Or.inl (hlow _ ?_)⟩, ⟨x, hi, Or.inr (hlow _ ?_)⟩⟩
    · exact List.mem_append_left _ (List.mem_map_of_mem hx)
    · exact List.mem_append_right _ (List.mem_map_of_mem hx)
  have nh : ¬ HashShape x.1.toList ∧ ¬ HashShape x.2.toList := by
    have : ∀ x ∈ nameTable, x.1.toList.head? ≠ some '#' ∧ x.2.toList.head? ≠ some '#' := by decide
    exact ⟨fun h => (this x hx).1 h.2, fun h => (this x hx).2 h.2⟩
  have noHex : ∀ (y : Str) v, ¬ HashShape y → ¬ IsHex t y v := by
    rintro y v hy ⟨a, b, c, d, e, f, rfl, -⟩
    exact hy ⟨rfl, rfl⟩
  have key : ∀ (y z : Str), NameIs t y i → NameIs t z i → ¬ HashShape y → ¬ HashShape z →
      ∀ n fg f, Seq t n fg (.str y) f → Seq t n fg (.str z) f := by
    intro y z hy hz ny nz n fg f hf
    cases hf with
    | name4 h => rw [name_unique h hy]; exact .name4 hz
    | name8 h => rw [name_unique h hy]; exact .name8 hz
    | name24 _ h => rw [name_unique h hy]; exact .name24 nz hz
    | hex24 h => exact absurd h (noHex _ _ ny)
  have e : ∀ n fg f, Seq t n fg (.str x.1.toList) f ↔ Seq t n fg (.str x.2.toList) f :=
    fun n fg f => ⟨key _ _ n1.1 n1.2 nh.1 nh.2 n fg f, key _ _ n1.2 n1.1 nh.2 nh.1 n fg f⟩
  exact ⟨coloring_congr t s _ _ _ _ bold sc (fun n f _ => e n true f) (fun _ _ _ => Iff.rfl),
    coloring_congr t s _ _ _ _ bold sc (fun _ _ _ => Iff.rfl) (fun n f _ => e n false f)⟩

/-- **C63** (`#XXXXXX`).  The six hexadecimal digits of any three bytes (upper or lower case) select
exactly those bytes. -/
theorem C63_hex_round_trip (t : PyText) (ht : t.Ok) (r g b : Nat) (hr : r < 256) (hg : g < 256)
    (hb : b < 256) (digits : List Char)
    (hdig : digits = "0123456789abcdef".toList ∨ digits = "0123456789ABCDEF".toList)
    (s : Str) :
    let d := fun n => digits.getD n '?'
    let color := ['#', d (r / 16), d (r % 16), d (g / 16), d (g % 16), d (b / 16), d (b % 16)]
    coloring t s (.str color) .other false (.str "rgb".toList) =
      .ok (sgr (body24 true (dec r) (dec g) (dec b)) ++ s ++ sgr "0".toList) := by
  intro d color
  have key : ∀ n, n < 16 → IsDigit (t.toAscii (d n)) n := by
    intro n hn
    have h1 : (d n).toNat < 127 ∧ (digits[n]? = some (d n)) := by
      simp only [d]
      rcases hdig with rfl | rfl <;> interval_cases n <;> decide
    rw [ht.toAscii_ascii _ h1.1]
    rcases hdig with rfl | rfl
    · exact Or.inl h1.2
    · exact Or.inr h1.2
  have pair : ∀ n, n < 256 → HexPair (t.toAscii (d (n / 16))) (t.toAscii (d (n % 16))) n := by
    intro n hn
    have := HexPair.digits (key (n / 16) (by omega)) (key (n % 16) (by omega))
    have e : (16 * ((n / 16 : Nat) : Int) + ((n % 16 : Nat) : Int)) = n := by omega
    rwa [e] at this
  refine ((C63_coloring_spec t s _ _ false _).1 _).mpr
    ⟨24, _, [], .rgb, .hex24 (r := r) (g := g) (b := b) ?_, .other24, by simp⟩
  exact ⟨_, _, _, _, _, _, rfl, pair r hr, pair g hg, pair b hb⟩

/-- **C63** (`color_print`).  The text written is the coloured `sep`-joined text followed by `end`,
and nothing is written when the colours are rejected. -/
theorem C63_color_print (t : PyText) (objects : List Str) (sep ending : Str) (fg bg : Color)
    (bold : Bool) (sc : Scheme) (r : Str) :
    (colorPrint t objects sep ending fg bg bold sc = .ok r ↔
      ∃ c, coloring t (List.intercalate sep objects) fg bg bold sc = .ok c ∧ r = c ++ ending) ∧
    (∀ e, colorPrint t objects sep ending fg bg bold sc = raise e → e = .valueError) := by
  constructor
  · unfold colorPrint
    cases h : coloring t (List.intercalate sep objects) fg bg bold sc with
    | ok c => simp [bind, Except.bind, pure, Except.pure, eq_comm]
    | error e => simp [bind, Except.bind]
  · intro e he
    unfold colorPrint at he
    cases h : coloring t (List.intercalate sep objects) fg bg bold sc with
    | ok c => rw [h] at he; simp [bind, Except.bind, pure, Except.pure] at he
    | error e' =>
      rw [h] at he
      simp only [bind, Except.bind] at he
      cases he
      exact (C63_coloring_spec t _ fg bg bold sc).2.2 e h

/-- ASCII-only versions of the library functions, for the examples. -/
def asciiText : PyText := ⟨fun s => s.map asciiLower, fun c => c⟩

theorem asciiText_ok : asciiText.Ok := ⟨fun _ _ => rfl, fun _ _ => rfl⟩

/-- Finding (not part of C63): `int(.., 16)` accepts a sign, so that `"#-1+2 3"` is taken as a
colour and yields the malformed sequence `ESC[38;2;-1;2;3m`. -/
theorem C63_signed_hex_accepted :
    coloring asciiText "x".toList (.str "#-1+2 3".toList) .other false (.int 24) =
      .ok ("\x1b[38;2;-1;2;3mx\x1b[0m".toList) := by decide

/-- Non-vacuity (tests): supported and unsupported arguments. -/
example : coloring asciiText "hi".toList (.str "ReD".toList) (.int 255) true (.int 8) =
      .ok ("\x1b[38;5;1m\x1b[48;5;255m\x1b[1mhi\x1b[0m".toList) ∧
    coloring asciiText "hi".toList (.int 256) .other true (.int 8) = raise .valueError ∧
    SameUpToCase (.str "ReD".toList) (.str "rEd".toList) := by
  refine ⟨by decide, by decide, ?_⟩
  unfold SameUpToCase
  decide

end Verif.Color
