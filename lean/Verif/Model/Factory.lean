import Verif.Model.Spin
/-!
# Model of `HamiltonianPy/quantumoperator/factory.py`
-/

namespace Verif

/-- `Creator` (factory.py:26-54). -/
def creator (zoom : ℤ) (site : List Coord) (spin : ℤ := 0) (orbit : ℤ := 0) : Py AoC :=
  AoC.init zoom 1 site spin orbit

/-- `Annihilator` (factory.py:57-85). -/
def annihilator (zoom : ℤ) (site : List Coord) (spin : ℤ := 0) (orbit : ℤ := 0) : Py AoC :=
  AoC.init zoom 0 site spin orbit

/-- `CPFactory` (factory.py:88-125). -/
def cpFactory (zoom : ℤ) (site : List Coord) (spin : ℤ := 0) (orbit : ℤ := 0) (coeff : ℂ := 1) :
    Py ParticleTerm := do
  let c ← AoC.init zoom 1 site spin orbit
  let a ← AoC.init zoom 0 site spin orbit
  return ⟨[c, a], coeff, .number⟩

/-- `HoppingFactory` (factory.py:128-186); `none` is Python's `None`. -/
def hoppingFactory (zoom : ℤ) (site0 site1 : List Coord) (spin0 : ℤ := 0) (spin1 : Option ℤ := none)
    (orbit0 : ℤ := 0) (orbit1 : Option ℤ := none) (coeff : ℂ := 1) : Py ParticleTerm := do
  let spin1 := spin1.getD spin0
  let orbit1 := orbit1.getD orbit0
  let c ← AoC.init zoom 1 site0 spin0 orbit0
  let a ← AoC.init zoom 0 site1 spin1 orbit1
  let classification := if c.state.rich .ne a.state then Classification.hopping else .number
  return ⟨[c, a], coeff, classification⟩

/-- `PairingFactory` (factory.py:189-247). -/
def pairingFactory (zoom : ℤ) (site0 site1 : List Coord) (spin0 spin1 orbit0 orbit1 : ℤ := 0)
    (coeff : ℂ := 1) (which : String := "h") : Py ParticleTerm := do
  pyAssert (decide (which ∈ ["h", "hole", "p", "particle"]))
  let otype : ℤ := if which ∈ ["h", "hole"] then 0 else 1
  let aoc0 ← AoC.init zoom otype site0 spin0 orbit0
  let aoc1 ← AoC.init zoom otype site1 spin1 orbit1
  return ⟨[aoc0, aoc1], coeff, .general⟩

/-- `HubbardFactory` (factory.py:250-292); SPIN_UP = 1, SPIN_DOWN = 0 (constant.py:23-24). -/
def hubbardFactory (zoom : ℤ) (site : List Coord) (orbit : ℤ := 0) (coeff : ℂ := 1) :
    Py ParticleTerm := do
  let cUp ← AoC.init zoom 1 site 1 orbit
  let cDown ← AoC.init zoom 1 site 0 orbit
  let aUp ← AoC.init zoom 0 site 1 orbit
  let aDown ← AoC.init zoom 0 site 0 orbit
  return ⟨[cUp, aUp, cDown, aDown], coeff, .coulomb⟩

/-- `CoulombFactory` (factory.py:295-341). -/
def coulombFactory (zoom : ℤ) (site0 site1 : List Coord) (spin0 spin1 orbit0 orbit1 : ℤ := 0)
    (coeff : ℂ := 1) : Py ParticleTerm := do
  let c0 ← AoC.init zoom 1 site0 spin0 orbit0
  let a0 ← AoC.init zoom 0 site0 spin0 orbit0
  let c1 ← AoC.init zoom 1 site1 spin1 orbit1
  let a1 ← AoC.init zoom 0 site1 spin1 orbit1
  return ⟨[c0, a0, c1, a1], coeff, .coulomb⟩

/-- `HeisenbergFactory` (factory.py:344-398). -/
noncomputable def heisenbergFactory (zoom : ℤ) (site0 site1 : List Coord) (coeff : ℂ := 1) :
    Py (SpinInteraction × SpinInteraction × SpinInteraction) := do
  let sz0 ← SpinOperator.init zoom "z" site0
  let sp0 ← SpinOperator.init zoom "p" site0
  let sm0 ← SpinOperator.init zoom "m" site0
  let sz1 ← SpinOperator.init zoom "z" site1
  let sp1 ← SpinOperator.init zoom "p" site1
  let sm1 ← SpinOperator.init zoom "m" site1
  return (SpinInteraction.init [sz0, sz1] coeff, SpinInteraction.init [sp0, sm1] (coeff / 2),
    SpinInteraction.init [sm0, sp1] (coeff / 2))

/-- `IsingFactory` (factory.py:401-439). -/
def isingFactory (zoom : ℤ) (site0 site1 : List Coord) (alpha : String) (coeff : ℂ := 1) :
    Py SpinInteraction := do
  pyAssert (decide (alpha ∈ ["x", "y", "z"]))
  let s0 ← SpinOperator.init zoom alpha site0
  let s1 ← SpinOperator.init zoom alpha site1
  return SpinInteraction.init [s0, s1] coeff

/-- `TwoSpinTermFactory` (factory.py:442-482). -/
def twoSpinTermFactory (zoom : ℤ) (site0 site1 : List Coord) (alpha0 alpha1 : String)
    (coeff : ℂ := 1) : Py SpinInteraction := do
  pyAssert (decide (alpha0 ∈ ["x", "y", "z"]))
  pyAssert (decide (alpha1 ∈ ["x", "y", "z"]))
  let s0 ← SpinOperator.init zoom alpha0 site0
  let s1 ← SpinOperator.init zoom alpha1 site1
  return SpinInteraction.init [s0, s1] coeff

end Verif
