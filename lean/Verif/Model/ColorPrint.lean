import Verif.Py
/-!
# tools/colorprint.py: `coloring` and `color_print`

Python strings are lists of code points (`List Char`).  `str.lower` and the conversion of Unicode
decimals and white space that `int(s, base=16)` does first are parameters (`PyText`), of which only
the behaviour on ASCII is assumed, and only by the theorems that need it.
-/

namespace Verif.Color

/-- Python strings.
Used at tools/colorprint.py:19-120. -/
abbrev Str := List Char

/-- The two library functions on arbitrary Unicode text: `str.lower`, and the translation of
non-ASCII decimals/white space to ASCII inside `int(...)`.
Used at tools/colorprint.py:48, 112-114. -/
structure PyText where
  lower : Str → Str
  toAscii : Char → Char

/-- `str.lower` on an ASCII letter.
Used at tools/colorprint.py:48. -/
def asciiLower (c : Char) : Char :=
  if 'A' ≤ c ∧ c ≤ 'Z' then Char.ofNat (c.toNat + 32) else c

/-- What is assumed of the two library functions: on ASCII they are the obvious ones.
Used at tools/colorprint.py:48, 112-114. -/
structure PyText.Ok (t : PyText) : Prop where
  lower_ascii : ∀ s : Str, (∀ c ∈ s, c.toNat < 128) → t.lower s = s.map asciiLower
  toAscii_ascii : ∀ c : Char, c.toNat < 127 → t.toAscii c = c

/-- COLOR_NAMES_STD_LONG (colorprint.py:14-16). -/
def longNames : List Str :=
  ["black".toList, "red".toList, "green".toList, "yellow".toList, "blue".toList, "magenta".toList,
   "cyan".toList, "white".toList]

/-- COLOR_NAMES_STD_SHORT (colorprint.py:17). -/
def shortNames : List Str := [['k'], ['r'], ['g'], ['y'], ['b'], ['m'], ['c'], ['w']]

/-- COLOR_CODES_STD_4BITS_FG/BG, COLOR_CODES_STD_8BITS, COLOR_CODES_STD_24BITS
(colorprint.py:21-27). -/
def codes4fg : List Int := [30, 31, 32, 33, 34, 35, 36, 37]
@[inherit_doc codes4fg] def codes4bg : List Int := [40, 41, 42, 43, 44, 45, 46, 47]
@[inherit_doc codes4fg] def codes8 : List Int := [0, 1, 2, 3, 4, 5, 6, 7]
@[inherit_doc codes4fg] def codes24 : List (Int × Int × Int) :=
  [(0, 0, 0), (255, 0, 0), (0, 255, 0), (255, 255, 0), (0, 0, 255), (255, 0, 255), (0, 255, 255),
   (255, 255, 255)]

/-- Membership in `tuple(range(a, b))`.
Used at tools/colorprint.py:29-31. -/
def inRange (a b n : Int) : Bool := decide (a ≤ n ∧ n < b)

/-- COLOR_CODES_ALL_4BITS_FG/BG (colorprint.py:29-30). -/
def supported4 (fg : Bool) (n : Int) : Bool :=
  if fg then inRange 30 38 n || inRange 90 98 n else inRange 40 48 n || inRange 100 108 n

/-- COLOR_CODES_ALL_8BITS (colorprint.py:31). -/
def supported8 (n : Int) : Bool := inRange 0 256 n

/-- `dict(zip(names, values))[name]`; the keys are distinct.
Used at tools/colorprint.py:19, 36-39. -/
def lookup {α : Type} (names : List Str) (values : List α) (name : Str) : Py α :=
  match (names.zip values).find? (fun x => x.1 == name) with
  | some x => .ok x.2
  | none => raise .keyError

/-- `CSI`, `RESET` (colorprint.py:41-42). -/
def csi : Str := ['\x1b', '[']
@[inherit_doc csi] def reset : Str := csi ++ "0m".toList

/-- `_color_name` (colorprint.py:45-56) of a `str`. -/
def colorName (t : PyText) (color : Str) : Py Str :=
  let color := t.lower color
  if color ∈ longNames then .ok color
  else if color ∈ shortNames then lookup shortNames longNames color
  else raise .valueError

/-- A component of an RGB triple: any Python object, of which only the integer it compares equal to
(if any) and the text `format` gives it matter.
Used at tools/colorprint.py:103-120. -/
structure Comp where
  eqInt : Option Int
  text : Str

/-- A colour argument.  `seq` is a list or tuple; `bool` is kept apart from the other ints because
`format` writes it as a word.
Used at tools/colorprint.py:66-120. -/
inductive Color
  | int (n : Int)
  | bool (b : Bool)
  | str (s : Str)
  | seq (l : List Comp)
  | other

/-- `"{}".format(n)` of an int.
Used at tools/colorprint.py:80, 96, 120. -/
def fmtInt (n : Int) : Str := (toString n).toList

/-- `"{}".format(b)` of a bool.
Used at tools/colorprint.py:80, 96, 120. -/
def fmtBool (b : Bool) : Str := if b then "True".toList else "False".toList

/-- `_color_ctrl_seq_4bits` (colorprint.py:66-80). -/
def ctrl4 (t : PyText) (fg : Bool) : Color → Py Str
  | .int n => if supported4 fg n then .ok (csi ++ fmtInt n ++ ['m']) else raise .valueError
  | .bool b => if supported4 fg b.toInt then .ok (csi ++ fmtBool b ++ ['m']) else raise .valueError
  | .str s => do
    let name ← colorName t s
    let code ← lookup longNames (if fg then codes4fg else codes4bg) name
    return csi ++ fmtInt code ++ ['m']
  | _ => .ok []

/-- The text `"{0};5;{1}m"` (colorprint.py:95-96). -/
def fmt8 (fg : Bool) (n : Str) : Str :=
  csi ++ (if fg then "38".toList else "48".toList) ++ ";5;".toList ++ n ++ ['m']

/-- `_color_ctrl_seq_8bits` (colorprint.py:83-96). -/
def ctrl8 (t : PyText) (fg : Bool) : Color → Py Str
  | .int n => if supported8 n then .ok (fmt8 fg (fmtInt n)) else raise .valueError
  | .bool b => if supported8 b.toInt then .ok (fmt8 fg (fmtBool b)) else raise .valueError
  | .str s => do
    let name ← colorName t s
    let code ← lookup longNames codes8 name
    return fmt8 fg (fmtInt code)
  | _ => .ok []

/-- value of an ASCII hexadecimal digit
Used at tools/colorprint.py:112-114. -/
def hexDigit (c : Char) : Option Int :=
  if '0' ≤ c ∧ c ≤ '9' then some (c.toNat - 48)
  else if 'a' ≤ c ∧ c ≤ 'f' then some (c.toNat - 87)
  else if 'A' ≤ c ∧ c ≤ 'F' then some (c.toNat - 55)
  else none

/-- ASCII white space, as stripped by `int(...)`.
Used at tools/colorprint.py:112-114. -/
def isSpace (c : Char) : Bool := c == ' ' || (decide (9 ≤ c.toNat) && decide (c.toNat ≤ 13))

/-- `int(s, base=16)` for a string of two characters: two digits, or one digit with a sign before
it, or with white space before or after it.
Used at tools/colorprint.py:112-114. -/
def hex2 (t : PyText) (a b : Char) : Py Int :=
  let a := t.toAscii a
  let b := t.toAscii b
  match hexDigit a, hexDigit b with
  | some x, some y => .ok (16 * x + y)
  | some x, none => if isSpace b then .ok x else raise .valueError
  | none, some y =>
    if isSpace a || a == '+' then .ok y
    else if a == '-' then .ok (-y)
    else raise .valueError
  | none, none => raise .valueError

/-- The text `"{0};2;{r};{g};{b}m"` (colorprint.py:119-120). -/
def fmt24 (fg : Bool) (r g b : Str) : Str :=
  csi ++ (if fg then "38".toList else "48".toList) ++ ";2;".toList ++ r ++ [';'] ++ g ++ [';'] ++
    b ++ ['m']

/-- `c in COLOR_CODES_ALL_24BITS_R` (colorprint.py:32-34, 103-105). -/
def Comp.supported (c : Comp) : Bool :=
  match c.eqInt with
  | some n => supported8 n
  | none => false

/-- `_color_ctrl_seq_24bits` (colorprint.py:99-120).  A list of another length than three is not a
string, so that it falls through to the empty sequence of line 118. -/
def ctrl24 (t : PyText) (fg : Bool) : Color → Py Str
  | .seq [r, g, b] =>
    if r.supported && g.supported && b.supported then .ok (fmt24 fg r.text g.text b.text)
    else raise .valueError
  | .seq _ => .ok []
  | .str s =>
    match s with
    | ['#', a, b, c, d, e, f] => do
      let r ← hex2 t a b
      let g ← hex2 t c d
      let b ← hex2 t e f
      return fmt24 fg (fmtInt r) (fmtInt g) (fmtInt b)
    | s => do
      let name ← colorName t s
      let (r, g, b) ← lookup longNames codes24 name
      return fmt24 fg (fmtInt r) (fmtInt g) (fmtInt b)
  | _ => .ok []

/-- The `color_scheme` argument.
Used at tools/colorprint.py:161-168. -/
inductive Scheme
  | int (n : Int)
  | str (s : Str)
  | other

/-- Lines 161-167 of colorprint.py: the control sequence function of a scheme. -/
def schemeCtrl (t : PyText) : Scheme → Py (Bool → Color → Py Str)
  | .int n =>
    if n = 4 then .ok (ctrl4 t) else if n = 8 then .ok (ctrl8 t) else if n = 24 then .ok (ctrl24 t)
    else raise .valueError
  | .str s => if s = "rgb".toList then .ok (ctrl24 t) else raise .valueError
  | .other => raise .valueError

/-- `coloring` (colorprint.py:123-173). -/
def coloring (t : PyText) (string : Str) (fg bg : Color) (bold : Bool) (scheme : Scheme) :
    Py Str := do
  let boldSeq := if bold then csi ++ "1m".toList else []
  let ctrl ← schemeCtrl t scheme
  let fgSeq ← ctrl true fg
  let bgSeq ← ctrl false bg
  return fgSeq ++ bgSeq ++ boldSeq ++ string ++ reset

/-- `color_print` (colorprint.py:176-255): what is written to the stream, `objects` being given by
their `str`. -/
def colorPrint (t : PyText) (objects : List Str) (sep ending : Str) (fg bg : Color) (bold : Bool)
    (scheme : Scheme) : Py Str := do
  let s ← coloring t (List.intercalate sep objects) fg bg bold scheme
  return s ++ ending

end Verif.Color
