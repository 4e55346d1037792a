/-!
# Python exceptions as values

The model represents "the call returns `v`" by `Except.ok v` and "the call raises `E`" by
`Except.error E`.  Only the exception class is kept, never the message.
-/

namespace Verif

/-- The Python exception classes that the modelled code can raise
(`SwapFermionError` is declared in quantumoperator/particlesystem.py:865-884; its payload is
carried by the model of `normalize`, not by this enumeration). -/
inductive PyErr
  | typeError
  | valueError
  | keyError
  | indexError
  | assertionError
  | overflowError
  | runtimeError
  | unboundLocalError
  | notImplementedError
  | linAlgError
  | swapFermionError
  | zeroDivisionError
  | attributeError
  | nameError
  deriving DecidableEq, Repr

/-- A Python call: a value or a raised exception. -/
abbrev Py (α : Type _) := Except PyErr α

/-- `raise E`. -/
abbrev raise {α : Type _} (e : PyErr) : Py α := Except.error e

/-- `assert b` (with assertions enabled, the CPython default). -/
def pyAssert (b : Bool) : Py Unit := if b then .ok () else raise .assertionError

end Verif
