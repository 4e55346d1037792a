import Verif.Py
import Mathlib.Data.Rat.Defs
import Mathlib.Data.List.Sort
import Mathlib.Algebra.Order.Ring.Rat
/-!
# Model of `HamiltonianPy/hilbertspace.py`

Python values that can occur in a subspace specifier are modelled by `HVal`.  A `set` is given by the
list of its elements in iteration order.
-/

namespace Verif

/-- Python values: `int` (and `bool`), `float` (finite), `tuple`, `list`, `set`, anything else that cannot be compared with
an `int`.  Simplification: numpy integers, which are no `int` but can be compared, are not among the values.
Used at hilbertspace.py:76-77, 96-104, 133-145. -/
inductive HVal
  | int (n : ℤ)
  | float (q : ℚ)
  | tuple (l : List HVal)
  | list (l : List HVal)
  | set (l : List HVal)
  | other

/-- A particle number that passed the comparison with a length: an `int` or a `float`.
Used at hilbertspace.py:100-104, 137-145. -/
inductive HNum
  | int (n : ℤ)
  | float (q : ℚ)
  deriving DecidableEq

/-- `state` for `isinstance(state, int) and state >= 0` (hilbertspace.py:77), as a natural number. -/
def HVal.nonnegInt? : HVal → Option ℕ
  | .int n => if 0 ≤ n then some n.toNat else none
  | _ => none

/-- the elements of a `tuple`, `list` or `set` (hilbertspace.py:76) -/
def HVal.collection? : HVal → Option (List HVal)
  | .tuple l => some l
  | .list l => some l
  | .set l => some l
  | _ => none

/-- the elements of a `tuple` or `list` (hilbertspace.py:97,133) -/
def HVal.sequence? : HVal → Option (List HVal)
  | .tuple l => some l
  | .list l => some l
  | _ => none

/-- `is_valid_states_collection` (hilbertspace.py:62-81); the states themselves are returned when the
answer is True, `none` stands for False. -/
def validStates? (v : HVal) : Option (List ℕ) :=
  match v.collection? with
  | some l => if 0 < l.length then l.mapM HVal.nonnegInt? else none
  | none => none

/-- The comparison `n >= p_num` (hilbertspace.py:99,101,135,137): TypeError unless `p_num` is a
number. -/
def geNum (n : ℕ) : HVal → Py Bool
  | .int m => .ok (decide (m ≤ (n : ℤ)))
  | .float q => .ok (decide (q ≤ (n : ℚ)))
  | _ => raise .typeError

/-- `isinstance(x, int) and x > 0` (hilbertspace.py:95,99,131,135), with the value of `x`. -/
def HVal.posInt? : HVal → Option ℕ
  | .int n => if 0 < n then some n.toNat else none
  | _ => none

/-- `is_valid_subspace_specifier` (hilbertspace.py:83-107). -/
def isValidSubspaceSpecifier (spec : HVal) : Py Bool :=
  if spec.posInt?.isSome then .ok true
  else
    match spec.sequence? with
    | some [states, pNum] => do
      let first ← match states.posInt? with
        | some n => geNum n pNum
        | none => .ok false
      if first then return true
      else
        match validStates? states with
        | some l => geNum l.length pNum
        | none => return false
    | _ => .ok false

/-- the particle number as a number (the comparison succeeded)
Used at hilbertspace.py:100-104, 137-145. -/
def HVal.num? : HVal → Option HNum
  | .int n => some (.int n)
  | .float q => some (.float q)
  | _ => none

/-- `subspace_specifier_preprocess` (hilbertspace.py:109-145): the standard form
`(tuple of states, particle number)`. -/
def preprocess (spec : HVal) : Py (List ℕ × HNum) :=
  match spec.posInt? with
  | some n => .ok (List.range n, .int (-1))
  | none =>
    match spec.sequence? with
    | some [states, pNum] => do
      let first ← match states.posInt? with
        | some n => (geNum n pNum).map (fun b => if b then some (List.range n) else none)
        | none => .ok none
      match first, pNum.num? with
      | some l, some p => return (l, p)
      | _, _ =>
        match validStates? states with
        | some l => do
          if ← geNum l.length pNum then
            match pNum.num? with
            | some p => return (l, p)
            | none => raise .typeError
          else raise .valueError
        | none => raise .valueError
    | _ => raise .valueError

/-- the standard form as a Python value
Used at hilbertspace.py:133-145. -/
def standardForm (p : List ℕ × HNum) : HVal :=
  .tuple [.tuple (p.1.map (fun n : ℕ => .int n)),
    match p.2 with | .int n => .int n | .float q => .float q]

/-- `itertools.combinations(l, r)` (used at hilbertspace.py:294-301,459-460,543-544). -/
def combinations {α : Type _} : List α → ℕ → List (List α)
  | _, 0 => [[]]
  | [], _ + 1 => []
  | x :: xs, r + 1 => (combinations xs r).map (x :: ·) ++ combinations xs (r + 1)

/-- `itertools.product(*ls)` (used at hilbertspace.py:466,550). -/
def cartProduct {α : Type _} : List (List α) → List (List α)
  | [] => [[]]
  | l :: ls => l.flatMap (fun x => (cartProduct ls).map (x :: ·))

/-- `chain(*[combinations(states, i) for i in range(len(states) + 1)])`
(hilbertspace.py:291-296,459,543). -/
def allCombinations {α : Type _} (states : List α) : List (List α) :=
  (List.range (states.length + 1)).flatMap (combinations states)

/-- The bases of one subspace (hilbertspace.py:290-300,458-461,542-545):
`combinations(states, number)` raises TypeError when `number` is a non-negative float. -/
def subspaceBases (sub : List ℕ × HNum) : Py (List (List ℕ)) :=
  match sub.2 with
  | .int m => if m < 0 then .ok (allCombinations sub.1) else .ok (combinations sub.1 m.toNat)
  | .float q => if q < 0 then .ok (allCombinations sub.1) else raise .typeError

/-- `sum(1 << pos for pos in basis)` (hilbertspace.py:302,464,548). -/
def ketOf (basis : List ℕ) : ℕ := (basis.map (fun pos => 1 <<< pos)).sum

/-- The `container` argument.
Used at hilbertspace.py:289, 305-310. -/
inductive Container | list | tuple | array | other
  deriving DecidableEq

/-- `kets.sort()` and the conversion to the container (hilbertspace.py:303-309,469-476,553-560); the
result is represented by the list of its elements. `np.array(kets, dtype=np.uint64)` raises
OverflowError when a value does not fit. -/
def finishKets (kets : List ℕ) (container : Container) (sort : Bool) : Py (List ℕ) :=
  let kets := if sort then kets.insertionSort (· ≤ ·) else kets
  if container = .array ∧ kets.any (fun k => decide (2 ^ 64 ≤ k)) then raise .overflowError
  else .ok kets

/-- `SimpleHilbertSpace` instances (hilbertspace.py:217-219). -/
structure SimpleHilbertSpace where
  states : List ℕ
  number : ℤ

/-- `SimpleHilbertSpace.__init__` (hilbertspace.py:200-219). -/
def SimpleHilbertSpace.init (states : HVal) (number : HVal := .int (-1)) :
    Py SimpleHilbertSpace := do
  let sts ← match states.posInt? with
    | some n => .ok (List.range n)
    | none => match validStates? states with
      | some l => .ok l
      | none => raise .valueError
  match number with
  | .int m => if (sts.length : ℤ) < m then raise .valueError else return ⟨sts, m⟩
  | _ => raise .valueError

/-- `SimpleHilbertSpace.base_vectors` (hilbertspace.py:270-309). -/
def SimpleHilbertSpace.baseVectors (h : SimpleHilbertSpace) (container : Container := .array)
    (sort : Bool := true) : Py (List ℕ) := do
  pyAssert (decide (container ≠ .other))
  let gen := if h.number < 0 then allCombinations h.states
    else combinations h.states h.number.toNat
  finishKets (gen.map ketOf) container sort

/-- `set(s0).isdisjoint(set(s1))` (hilbertspace.py:387,535). -/
def disjointStates (s0 s1 : List ℕ) : Bool := s0.all (fun x => !s1.contains x)

/-- `all(... for s0, s1 in combinations(subspace_specifiers, 2))` (hilbertspace.py:386-389,534-537). -/
def pairwiseDisjoint : List (List ℕ × HNum) → Bool
  | [] => true
  | s :: ss => ss.all (fun s' => disjointStates s.1 s'.1) && pairwiseDisjoint ss

/-- `HilbertSpace` instances (hilbertspace.py:392-393). -/
structure HilbertSpace where
  specifiers : List (List ℕ × HNum)

/-- `HilbertSpace.__init__` (hilbertspace.py:380-393). -/
def HilbertSpace.init (specs : List HVal) : Py HilbertSpace := do
  let subs ← specs.mapM preprocess
  if pairwiseDisjoint subs then return ⟨subs⟩ else raise .valueError

/-- `HilbertSpace.base_vectors` (hilbertspace.py:437-476). -/
def HilbertSpace.baseVectors (h : HilbertSpace) (container : Container := .array)
    (sort : Bool := true) : Py (List ℕ) := do
  pyAssert (decide (container ≠ .other))
  let gens ← h.specifiers.mapM subspaceBases
  finishKets ((cartProduct gens).map (fun basis => ketOf basis.flatten)) container sort

/-- The function `base_vectors` (hilbertspace.py:481-562). -/
def baseVectors (specs : List HVal) (container : Container := .array) (sort : Bool := true) :
    Py (List ℕ) := do
  pyAssert (decide (container ≠ .other))
  let subs ← specs.mapM preprocess
  if pairwiseDisjoint subs then do
    let gens ← subs.mapM subspaceBases
    finishKets ((cartProduct gens).map (fun basis => ketOf basis.flatten)) container sort
  else raise .valueError

end Verif
