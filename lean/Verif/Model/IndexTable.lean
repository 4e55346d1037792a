import Verif.Py
/-!
# Model of `HamiltonianPy/indextable.py`
-/

namespace Verif

/-- What `IndexTable` uses of the objects it manages (indextable.py:71-83,168): their class
`type(item)`, the test `isinstance(item, cls)` and `==` (which is what a dict lookup decides;
objects are assumed hashable with a hash consistent with `==`). -/
class PyObj (α : Type _) where
  Ty : Type
  typeOf : α → Ty
  isInstance : α → Ty → Bool
  eq : α → α → Bool

/-- Python's data-model contract for the above: `isinstance(x, type(x))`, and `==` is an
equivalence relation. -/
class LawfulPyObj (α : Type _) [PyObj α] : Prop where
  inst_self : ∀ a : α, PyObj.isInstance a (PyObj.typeOf a) = true
  eq_refl : ∀ a : α, PyObj.eq a a = true
  eq_symm : ∀ a b : α, PyObj.eq a b = true → PyObj.eq b a = true
  eq_trans : ∀ a b c : α, PyObj.eq a b = true → PyObj.eq b c = true → PyObj.eq a c = true

/-- `key in d` / `d[key]` for an (ordered) dict, as an association list in insertion order
(used at indextable.py:80,169,201). -/
def dictGet {κ υ : Type _} (eq : κ → κ → Bool) : List (κ × υ) → κ → Option υ
  | [], _ => none
  | (k', v) :: d, k => if eq k' k then some v else dictGet eq d k

/-- `d[key] = value` for an ordered dict: overwrite in place or append
(used at indextable.py:84-85). -/
def dictSet {κ υ : Type _} (eq : κ → κ → Bool) : List (κ × υ) → κ → υ → List (κ × υ)
  | [], k, v => [(k, v)]
  | (k', v') :: d, k, v => if eq k' k then (k', v) :: d else (k', v') :: dictSet eq d k v

/-- `IndexTable` instances: the four private attributes set at indextable.py:87-90. -/
structure IndexTable (α : Type _) [PyObj α] where
  object2index : List (α × Int)
  index2object : List (Int × α)
  objectType : PyObj.Ty α
  length : Nat

/-- The loop of `IndexTable.__init__` (indextable.py:70-85): `index` is the loop counter of
`enumerate(objects, start)`, `ty` is the local `object_type` (`none` while unbound). -/
def IndexTable.initLoop {α : Type _} [PyObj α] (start : Int) :
    List α → Int → Option (PyObj.Ty α) → List (α × Int) → List (Int × α) →
    Py (Option (PyObj.Ty α) × List (α × Int) × List (Int × α))
  | [], _, ty, o2i, i2o => .ok (ty, o2i, i2o)
  | item :: rest, index, ty, o2i, i2o =>
    let insert (ty : Option (PyObj.Ty α)) :=
      if (dictGet PyObj.eq o2i item).isSome then raise .valueError
      else
        IndexTable.initLoop start rest (index + 1) ty
          (dictSet PyObj.eq o2i item index) (dictSet (· == ·) i2o index item)
    if index = start then insert (some (PyObj.typeOf item))
    else
      match ty with
      | none => raise .unboundLocalError
      | some t => if !PyObj.isInstance item t then raise .typeError else insert (some t)

/-- `IndexTable.__init__` (indextable.py:46-90).  With no objects the local `object_type` is
never bound, so line 89 raises `UnboundLocalError`. -/
def IndexTable.init {α : Type _} [PyObj α] (objects : List α) (start : Int := 0) :
    Py (IndexTable α) :=
  match IndexTable.initLoop start objects start none [] [] with
  | .error e => .error e
  | .ok (none, _, _) => raise .unboundLocalError
  | .ok (some t, o2i, i2o) => .ok ⟨o2i, i2o, t, o2i.length⟩

namespace IndexTable
variable {α : Type _} [PyObj α]

/-- `indices()` (indextable.py:115-120). -/
def indices (t : IndexTable α) : List Int := t.index2object.map Prod.fst

/-- `objects()` (indextable.py:122-127). -/
def objects (t : IndexTable α) : List α := t.object2index.map Prod.fst

/-- `__iter__` (indextable.py:129-136). -/
def iter (t : IndexTable α) : List (Int × α) := t.index2object

/-- `__len__` (indextable.py:138-143). -/
def len (t : IndexTable α) : Nat := t.length

/-- `query_index`, also `__call__` (indextable.py:145-176). -/
def queryIndex (t : IndexTable α) (key : α) : Py Int :=
  if PyObj.isInstance key t.objectType then
    match dictGet PyObj.eq t.object2index key with
    | some i => .ok i
    | none => raise .keyError
  else raise .typeError

/-- The argument of `query_object`: an `int` or something else.
Used at indextable.py:200. -/
inductive IndexArg
  | int (i : Int)
  | other

/-- `query_object` (indextable.py:178-203). -/
def queryObject (t : IndexTable α) : IndexArg → Py α
  | .int i =>
    match dictGet (· == ·) t.index2object i with
    | some o => .ok o
    | none => raise .keyError
  | .other => raise .typeError

end IndexTable
end Verif
