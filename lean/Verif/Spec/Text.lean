import Verif.Model.Text
/-!
# Specification: textual forms
-/

namespace Verif.Spec

/-- What the proofs use of CPython's `repr(float)`: it determines the float, it is made of these
characters, and it can not be mistaken for an int. -/
structure FloatText (ft : F64 → Txt) : Prop where
  inj : ∀ x y, ft x = ft y → x = y
  chars : ∀ x, ∀ c ∈ ft x, c ∈ "0123456789+-.einfa".toList
  notInt : ∀ x, ∃ c ∈ ft x, c.isDigit = false ∧ c ≠ '-'

/-- The characters of `str(coeff)` for Python's int, float and complex. -/
def CoeffText (t : Txt) : Prop := ∀ c ∈ t, c ∈ "0123456789+-.einfaj()".toList

/-- Two objects have the same class and the same attributes. -/
def SameAttributes : AnyObj → AnyObj → Prop
  | .site a, .site b => a.site = b.site
  | .state a, .state b => a.site = b.site ∧ a.spin = b.spin ∧ a.orbit = b.orbit
  | .aoc a, .aoc b => a.otype = b.otype ∧ a.state.site = b.state.site ∧ a.state.spin = b.state.spin ∧
      a.state.orbit = b.state.orbit
  | .number a, .number b => a.state.site = b.state.site ∧ a.state.spin = b.state.spin ∧
      a.state.orbit = b.state.orbit
  | .spin a, .spin b => a.otype = b.otype ∧ a.siteId.site = b.siteId.site
  | _, _ => False

/-- The object is what its constructor returns under the precision `zoom`. -/
def MadeWith (zoom : ℤ) : AnyObj → Prop
  | .site s => SiteID.init zoom s.site = .ok s
  | .state s => StateID.init zoom s.site s.spin s.orbit = .ok s
  | .aoc a => StateID.init zoom a.state.site a.state.spin a.state.orbit = .ok a.state
  | .number n => StateID.init zoom n.state.site n.state.spin n.state.orbit = .ok n.state
  | .spin s => SiteID.init zoom s.siteId.site = .ok s.siteId

/-- Nesting depth of braces after reading the text, starting at depth `n`; `none` if a closing brace
has no partner. -/
def braceDepth : ℕ → Txt → Option ℕ
  | n, [] => some n
  | n, c :: t =>
    if c = '{' then braceDepth (n + 1) t
    else if c = '}' then (if n = 0 then none else braceDepth (n - 1) t)
    else braceDepth n t

/-- One piece of LaTeX mathematics: `$ ... $` with no `$` inside and with balanced braces. -/
def IsMath (t : Txt) : Prop :=
  ∃ body, t = "$".toList ++ body ++ "$".toList ∧ '$' ∉ body ∧ braceDepth 0 body = some 0

end Verif.Spec
