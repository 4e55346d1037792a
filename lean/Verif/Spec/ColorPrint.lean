import Verif.Model.ColorPrint
/-!
# Specification of ANSI colour sequences (C63)
-/

namespace Verif.Color

/-- The eight colours in order, by long name and by one-letter name. -/
def nameTable : List (String × String) :=
  [("black", "k"), ("red", "r"), ("green", "g"), ("yellow", "y"), ("blue", "b"), ("magenta", "m"),
   ("cyan", "c"), ("white", "w")]

/-- `s` is, up to case, one of the two names of colour number `i` (0 to 7). -/
def NameIs (t : PyText) (s : Str) (i : Nat) : Prop :=
  ∃ x, nameTable[i]? = some x ∧ (t.lower s = x.1.toList ∨ t.lower s = x.2.toList)

/-- `c` is the ASCII hexadecimal digit of value `x`. -/
def IsDigit (c : Char) (x : Nat) : Prop :=
  "0123456789abcdef".toList[x]? = some c ∨ "0123456789ABCDEF".toList[x]? = some c

/-- ASCII white space. -/
def IsWhite (c : Char) : Prop := c ∈ [' ', '\t', '\n', '\x0b', '\x0c', '\r']

/-- What `int(.., 16)` makes of two characters (already translated to ASCII): two digits; a digit
with white space around it; a signed digit. -/
inductive HexPair (a b : Char) : Int → Prop
  | digits {x y : Nat} : IsDigit a x → IsDigit b y → HexPair a b (16 * x + y)
  | before {y : Nat} : IsWhite a → IsDigit b y → HexPair a b y
  | after {x : Nat} : IsDigit a x → IsWhite b → HexPair a b x
  | plus {y : Nat} : a = '+' → IsDigit b y → HexPair a b y
  | minus {y : Nat} : a = '-' → IsDigit b y → HexPair a b (-y)

/-- Strings accepted as `#XXXXXX`, with the three values. -/
def IsHex (t : PyText) (s : Str) (v : Int × Int × Int) : Prop :=
  ∃ a b c d e f, s = ['#', a, b, c, d, e, f] ∧ HexPair (t.toAscii a) (t.toAscii b) v.1 ∧
    HexPair (t.toAscii c) (t.toAscii d) v.2.1 ∧ HexPair (t.toAscii e) (t.toAscii f) v.2.2

/-- `s` has the shape of a `#XXXXXX` string. -/
def HashShape (s : Str) : Prop := s.length = 7 ∧ s.head? = some '#'

/-- An ANSI "select graphic rendition" sequence: `ESC [ body m`. -/
def sgr (body : Str) : Str := ['\x1b', '['] ++ body ++ ['m']

/-- decimal digits -/
def dec (n : Int) : Str := (toString n).toList

/-- 38 selects the foreground, 48 the background. -/
def layer (fg : Bool) : Str := if fg then "38".toList else "48".toList

/-- `38;5;n` -/
def body8 (fg : Bool) (n : Str) : Str := layer fg ++ ";5;".toList ++ n

/-- `38;2;r;g;b` -/
def body24 (fg : Bool) (r g b : Str) : Str :=
  layer fg ++ ";2;".toList ++ r ++ ";".toList ++ g ++ ";".toList ++ b

/-- The component number `j` (red, green, blue) of colour number `i`: full when bit `j` of `i` is
set. -/
def channel (i j : Nat) : Int := if i.testBit j then 255 else 0

/-- The control sequence of a colour in the 4-, 8- and 24-bit schemes, for the foreground or the
background; a colour with no `Seq` is not supported. -/
inductive Seq (t : PyText) : Nat → Bool → Color → Str → Prop
  | int4fg {n : Int} : (30 ≤ n ∧ n ≤ 37 ∨ 90 ≤ n ∧ n ≤ 97) → Seq t 4 true (.int n) (sgr (dec n))
  | int4bg {n : Int} : (40 ≤ n ∧ n ≤ 47 ∨ 100 ≤ n ∧ n ≤ 107) → Seq t 4 false (.int n) (sgr (dec n))
  | name4 {fg : Bool} {s : Str} {i : Nat} : NameIs t s i →
      Seq t 4 fg (.str s) (sgr (dec ((if fg then 30 else 40) + i)))
  | seq4 {fg : Bool} {l : List Comp} : Seq t 4 fg (.seq l) []
  | other4 {fg : Bool} : Seq t 4 fg .other []
  | int8 {fg : Bool} {n : Int} : 0 ≤ n → n ≤ 255 → Seq t 8 fg (.int n) (sgr (body8 fg (dec n)))
  | bool8 {fg b : Bool} :
      Seq t 8 fg (.bool b) (sgr (body8 fg (if b then "True".toList else "False".toList)))
  | name8 {fg : Bool} {s : Str} {i : Nat} : NameIs t s i →
      Seq t 8 fg (.str s) (sgr (body8 fg (dec i)))
  | seq8 {fg : Bool} {l : List Comp} : Seq t 8 fg (.seq l) []
  | other8 {fg : Bool} : Seq t 8 fg .other []
  | triple24 {fg : Bool} {r g b : Comp} {i j k : Int} : r.eqInt = some i → g.eqInt = some j →
      b.eqInt = some k → (0 ≤ i ∧ i ≤ 255) → (0 ≤ j ∧ j ≤ 255) → (0 ≤ k ∧ k ≤ 255) →
      Seq t 24 fg (.seq [r, g, b]) (sgr (body24 fg r.text g.text b.text))
  | seq24 {fg : Bool} {l : List Comp} : l.length ≠ 3 → Seq t 24 fg (.seq l) []
  | hex24 {fg : Bool} {s : Str} {r g b : Int} : IsHex t s (r, g, b) →
      Seq t 24 fg (.str s) (sgr (body24 fg (dec r) (dec g) (dec b)))
  | name24 {fg : Bool} {s : Str} {i : Nat} : ¬ HashShape s → NameIs t s i →
      Seq t 24 fg (.str s) (sgr (body24 fg (dec (channel i 0)) (dec (channel i 1))
        (dec (channel i 2))))
  | int24 {fg : Bool} {n : Int} : Seq t 24 fg (.int n) []
  | bool24 {fg b : Bool} : Seq t 24 fg (.bool b) []
  | other24 {fg : Bool} : Seq t 24 fg .other []

/-- The number of bits a `color_scheme` argument stands for. -/
inductive Bits : Scheme → Nat → Prop
  | four : Bits (.int 4) 4
  | eight : Bits (.int 8) 8
  | twentyFour : Bits (.int 24) 24
  | rgb : Bits (.str "rgb".toList) 24

end Verif.Color
