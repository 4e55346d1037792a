import Verif.Model.QuantumState
import Mathlib.Data.Complex.Basic
/-!
# Model of `HamiltonianPy/quantumoperator/particlesystem.py`

Coefficients are exact complex numbers (Python int/float/complex; rounding not modelled).
Methods that build new `StateID`s (`dagger`, `derive`, `toterm`) recompute the tuple form with the
current module global `_ZOOM`, so they take it as a parameter `zoom`.
-/

namespace Verif

/-- `CREATION = 1`, `ANNIHILATION = 0` (constant.py:19-20). -/
inductive Otype | annihilation | creation
  deriving DecidableEq

/-- `AoC` instances: `_otype` and `_state` (particlesystem.py:100-107); `_tuple_form` is
`(otype, state._tuple_form)` and is recomputed where used. -/
structure AoC where
  otype : Otype
  state : StateID
  deriving DecidableEq

namespace AoC

/-- `AoC.__init__` (particlesystem.py:77-107). -/
def init (zoom : ℤ) (otype : ℤ) (site : List Coord) (spin : ℤ := 0) (orbit : ℤ := 0) : Py AoC := do
  pyAssert (otype = 0 ∨ otype = 1)
  let st ← StateID.init zoom site spin orbit
  return ⟨if otype = 1 then .creation else .annihilation, st⟩

/-- `AoC.__lt__` (particlesystem.py:264-294). -/
def lt (a b : AoC) : Bool :=
  match a.otype, b.otype with
  | .creation, .creation => a.state.rich .lt b.state
  | .creation, .annihilation => true
  | .annihilation, .creation => false
  | .annihilation, .annihilation => a.state.rich .gt b.state

/-- `AoC.__gt__` (particlesystem.py:296-319). -/
def gt (a b : AoC) : Bool :=
  match a.otype, b.otype with
  | .creation, .creation => a.state.rich .gt b.state
  | .creation, .annihilation => false
  | .annihilation, .creation => true
  | .annihilation, .annihilation => a.state.rich .lt b.state

/-- The tuple form used by `__hash__`, `__eq__`, `__ne__` (particlesystem.py:107,257-262). -/
def hashKey (a : AoC) : Otype × List ℤ × ℕ × ℕ := (a.otype, a.state.hashKey)

/-- `AoC.__eq__` (particlesystem.py:321-329). -/
def eq (a b : AoC) : Bool := decide (a.hashKey = b.hashKey)

/-- `AoC.__ne__` (particlesystem.py:331-339). -/
def ne (a b : AoC) : Bool := decide (a.hashKey ≠ b.hashKey)

/-- `AoC.__le__` (particlesystem.py:341-353). -/
def le (a b : AoC) : Bool := a.lt b || a.eq b

/-- `AoC.__ge__` (particlesystem.py:355-367). -/
def ge (a b : AoC) : Bool := a.gt b || a.eq b

/-- the six comparison methods of `AoC` collected (particlesystem.py:264-367) -/
def rich (op : CmpOp) (a b : AoC) : Bool :=
  match op with
  | .lt => a.lt b
  | .le => a.le b
  | .eq => a.eq b
  | .ne => a.ne b
  | .gt => a.gt b
  | .ge => a.ge b

/-- `AoC.derive` (particlesystem.py:430-452); `none` is Python's `None`. -/
def derive (zoom : ℤ) (a : AoC) (otype : Option ℤ := none) (site : Option (List Coord) := none)
    (spin : Option ℤ := none) (orbit : Option ℤ := none) : Py AoC :=
  AoC.init zoom
    (otype.getD (match a.otype with | .creation => 1 | .annihilation => 0))
    (site.getD a.state.site) (spin.getD a.state.spin) (orbit.getD a.state.orbit)

/-- `AoC.dagger` (particlesystem.py:397-403). -/
def dagger (zoom : ℤ) (a : AoC) : Py AoC :=
  match a.otype with
  | .creation => a.derive zoom (otype := some 0)
  | .annihilation => a.derive zoom (otype := some 1)

/-- `AoC.conjugate_of` (particlesystem.py:405-415); the argument is an AoC, otherwise TypeError. -/
def conjugateOf (a b : AoC) : Bool := decide (a.otype ≠ b.otype) && a.state.rich .eq b.state

/-- `AoC.same_state` (particlesystem.py:417-428). -/
def sameState (a b : AoC) : Bool := a.state.rich .eq b.state

end AoC

/-- The four classifications (particlesystem.py:956). -/
inductive Classification | general | hopping | number | coulomb
  deriving DecidableEq

/-- `ParticleTerm` instances (particlesystem.py:958-960). -/
structure ParticleTerm where
  aocs : List AoC
  coeff : ℂ
  classification : Classification

/-- What is passed as a coefficient: a number (`NUMERIC_TYPES_GENERAL`, constant.py:30-34) or
anything else. -/
inductive CoeffArg
  | num (c : ℂ)
  | other

/-- `NumberOperator` instances (particlesystem.py:542-564). -/
structure NumberOperator where
  state : StateID
  deriving DecidableEq

/-- `NumberOperator.__init__` (particlesystem.py:542-564). -/
def NumberOperator.init (zoom : ℤ) (site : List Coord) (spin : ℤ := 0) (orbit : ℤ := 0) :
    Py NumberOperator := do
  let st ← StateID.init zoom site spin orbit
  return ⟨st⟩

/-- `NumberOperator` comparisons: the tuple `("N", state tuple)` (particlesystem.py:564,709-767). -/
def NumberOperator.rich (op : CmpOp) (a b : NumberOperator) : Bool := a.state.rich op b.state

/-- `NumberOperator.toterm` (particlesystem.py:769-784). -/
def NumberOperator.toterm (zoom : ℤ) (n : NumberOperator) : Py ParticleTerm := do
  let c ← AoC.init zoom 1 n.state.site n.state.spin n.state.orbit
  let a ← AoC.init zoom 0 n.state.site n.state.spin n.state.orbit
  return ⟨[c, a], 1, .general⟩

/-- `NumberOperator.dagger` (particlesystem.py:806-811). -/
def NumberOperator.dagger (n : NumberOperator) : NumberOperator := n

/-- `NumberOperator.derive` (particlesystem.py:813-832). -/
def NumberOperator.derive (zoom : ℤ) (n : NumberOperator) (site : Option (List Coord) := none)
    (spin : Option ℤ := none) (orbit : Option ℤ := none) : Py NumberOperator :=
  NumberOperator.init zoom (site.getD n.state.site) (spin.getD n.state.spin)
    (orbit.getD n.state.orbit)

/-- Values that can be factors of a product: AoC, NumberOperator, ParticleTerm, numbers, and
anything else (`other`, an object that does not know how to multiply with these).
Used at particlesystem.py:369-391, 786-803, 1095-1125. -/
inductive PVal
  | aoc (a : AoC)
  | nop (n : NumberOperator)
  | term (t : ParticleTerm)
  | num (c : ℂ)
  | other

namespace ParticleTerm

/-- `ParticleTerm.__mul__` (particlesystem.py:1095-1115); `none` is `NotImplemented`. -/
def mul (t : ParticleTerm) : PVal → Option ParticleTerm
  | .term u => some ⟨t.aocs ++ u.aocs, t.coeff * u.coeff, .general⟩
  | .aoc a => some ⟨t.aocs ++ [a], t.coeff, .general⟩
  | .num c => some ⟨t.aocs, t.coeff * c, .general⟩
  | _ => none

/-- `ParticleTerm.__rmul__` (particlesystem.py:1117-1134): `other * self`. -/
def rmul (t : ParticleTerm) : PVal → Option ParticleTerm
  | .aoc a => some ⟨a :: t.aocs, t.coeff, .general⟩
  | .num c => some ⟨t.aocs, c * t.coeff, .general⟩
  | _ => none

/-- `ParticleTerm.check_compatibility` (particlesystem.py:1004-1037). -/
def checkCompatibility (t : ParticleTerm) : Bool :=
  match t.classification with
  | .hopping =>
    match t.aocs with
    | [a0, a1] => decide (a0.otype = .creation) && decide (a1.otype = .annihilation) &&
        a0.state.rich .ne a1.state
    | _ => false
  | .number =>
    match t.aocs with
    | [a0, a1] => decide (a0.otype = .creation) && decide (a1.otype = .annihilation) &&
        a0.state.rich .eq a1.state
    | _ => false
  | .coulomb =>
    match t.aocs with
    | [a0, a1, a2, a3] => decide (a0.otype = .creation) && decide (a1.otype = .annihilation) &&
        decide (a2.otype = .creation) && decide (a3.otype = .annihilation) &&
        a0.state.rich .eq a1.state && a2.state.rich .eq a3.state
    | _ => false
  | .general => true

/-- `ParticleTerm.dagger` (particlesystem.py:1187-1193). -/
def dagger (zoom : ℤ) (t : ParticleTerm) : Py ParticleTerm := do
  let aocs ← t.aocs.reverse.mapM (AoC.dagger zoom)
  return ⟨aocs, (starRingEnd ℂ) t.coeff, .general⟩

end ParticleTerm

/-- `AoC.__mul__` (particlesystem.py:369-382); `none` is `NotImplemented`. -/
def AoC.mul (a : AoC) : PVal → Option ParticleTerm
  | .aoc b => some ⟨[a, b], 1, .general⟩
  | .num c => some ⟨[a], c, .general⟩
  | _ => none

/-- `AoC.__rmul__` (particlesystem.py:384-395). -/
def AoC.rmul (a : AoC) : PVal → Option ParticleTerm
  | .num c => some ⟨[a], c, .general⟩
  | _ => none

/-- The expression `x * y` where neither operand is a `NumberOperator`: try `type(x).__mul__`,
then `type(y).__rmul__` (Python binary-operator protocol; AoC.__mul__/__rmul__
particlesystem.py:369-395, ParticleTerm.__mul__/__rmul__ 1095-1134).  `num * num` is the product of
Python numbers.  If both return `NotImplemented` Python raises TypeError. -/
def pyMulBasic (x y : PVal) : Py PVal :=
  let left : Option PVal :=
    match x with
    | .aoc a => (a.mul y).map .term
    | .term t => (t.mul y).map .term
    | .num c => match y with | .num d => some (.num (c * d)) | _ => none
    | _ => none
  match left with
  | some v => .ok v
  | none =>
    let right : Option PVal :=
      match y with
      | .aoc a => (a.rmul x).map .term
      | .term t => (t.rmul x).map .term
      | _ => none
    match right with
    | some v => .ok v
    | none => raise .typeError

/-- The Python expression `x * y`.  `NumberOperator.__mul__` is `self.toterm() * other` and
`NumberOperator.__rmul__` is `other * self.toterm()` (particlesystem.py:786-804).  If the left
operand is a NumberOperator its `__mul__` evaluates `toterm() * other`, and if `other` is also a
NumberOperator that inner product falls back to `other.__rmul__(term)` = `term * other.toterm()`. -/
def pyMul (zoom : ℤ) (x y : PVal) : Py PVal := do
  let x' ← match x with
    | .nop n => (n.toterm zoom).map .term
    | v => .ok v
  let y' ← match y with
    | .nop n => (n.toterm zoom).map .term
    | v => .ok v
  pyMulBasic x' y'

/-! ### `ParticleTerm.normalize` (particlesystem.py:1136-1185) -/

/-- Exceptions that can leave `normalize`: `SwapFermionError(aoc0, aoc1)` (particlesystem.py:1184)
or the ValueError of `aoc0, aoc1 = aocs[i:i+2]` (line 1172) if the slice were too short. -/
inductive NormErr
  | swapFermion (aoc0 aoc1 : AoC)
  | valueError

/-- Outcome of `normalize`.
Used at particlesystem.py:1137-1185. -/
abbrev NormRes := Except NormErr (List AoC × ℕ)

/-- The inner loop `for i in range(0, remaining_length - 1)` (particlesystem.py:1171-1184) with
`todo` iterations left, the next being index `i`; `c` is `swap_count`. -/
def normInner : (todo i : ℕ) → List AoC → ℕ → NormRes
  | 0, _, l, c => .ok (l, c)
  | todo + 1, i, l, c =>
    match l[i]?, l[i + 1]? with
    | some aoc0, some aoc1 =>
      if aoc0.gt aoc1 then
        if aoc0.state.rich .ne aoc1.state then
          normInner todo (i + 1) ((l.set i aoc1).set (i + 1) aoc0) (c + 1)
        else .error (.swapFermion aoc0 aoc1)
      else normInner todo (i + 1) l c
    | _, _ => .error .valueError

/-- The outer loop `for remaining_length in range(length, 1, -1)` (particlesystem.py:1170). -/
def normOuter : (remaining : ℕ) → List AoC → ℕ → NormRes
  | r + 2, l, c => do
    let (l', c') ← normInner (r + 1) 0 l c
    normOuter (r + 1) l' c'
  | _, l, c => .ok (l, c)

/-- `ParticleTerm.normalize` (particlesystem.py:1136-1185). -/
def normalize (aocs : List AoC) : NormRes := normOuter aocs.length aocs 0

end Verif
