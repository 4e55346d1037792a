import Verif.Spec.ColorPrint
/-!
# Specification of `color_demo` (C113)
-/

namespace Verif.Color

/-- The combinations shown, in order: no colour; every foreground colour; and, if wanted, every background
colour and every pair, foreground by foreground. -/
def shownPairs (withBg : Bool) : List (Option Nat × Option Nat) :=
  [(none, none)] ++ (List.range 256).map (fun fg => ((some fg, none) : Option Nat × Option Nat)) ++
    if withBg then (List.range 256).map (fun bg => ((none, some bg) : Option Nat × Option Nat)) ++
      (List.range 256).flatMap fun fg => (List.range 256).map fun bg => (some fg, some bg)
    else []

/-- A colour number (below 1000) in a field of four columns, aligned to the right. -/
def field : Option Nat → Str
  | none => "None".toList
  | some n => (if n < 10 then "   ".toList else if n < 100 then "  ".toList else " ".toList) ++ dec n

/-- The control sequence that selects the colour; nothing for "no colour". -/
def select (fg : Bool) : Option Nat → Str
  | none => []
  | some n => sgr (body8 fg (dec n))

/-- One line of the demonstration: spaces, then, in these colours, the names of these colours. -/
def shownLine (spaces : Nat) (p : Option Nat × Option Nat) : Str :=
  List.replicate spaces ' ' ++ select true p.1 ++ select false p.2 ++ "fg = ".toList ++ field p.1 ++ ", bg = ".toList ++
    field p.2 ++ sgr "0".toList ++ "\n".toList

end Verif.Color
