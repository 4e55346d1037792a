import Verif.Model.RunTimeEnv
/-!
# Specification vocabulary for `RunTimeEnv` (C62)

All definitions here speak about the user program only, as if the `with RunTimeEnv` lines were not
there.
-/

namespace Verif.RTE

/-- The exception that escapes from a program when the `with` lines are erased. -/
def outcome : Prog → Option Exc
  | .skip => none
  | .print _ => none
  | .raise n => some (.user n)
  | .assign _ => none
  | .seq p q => match outcome p with
    | none => outcome q
    | some e => some e
  | .tryExcept p q => match outcome p with
    | none => none
    | some _ => outcome q
  | .withEnv _ b => outcome b

/-- The objects a program enters. -/
def Uses (i : Nat) : Prog → Prop
  | .seq p q => Uses i p ∨ Uses i q
  | .tryExcept p q => Uses i p ∨ Uses i q
  | .withEnv j b => i = j ∨ Uses i b
  | _ => False

/-- No object is entered again while it is active (sequential reuse is allowed). -/
def DistinctNesting : Prog → Prop
  | .seq p q => DistinctNesting p ∧ DistinctNesting q
  | .tryExcept p q => DistinctNesting p ∧ DistinctNesting q
  | .withEnv i b => ¬ Uses i b ∧ DistinctNesting b
  | _ => True

/-- The program never assigns a log file of `RunTimeEnv` to `sys.stdout` by hand (it may assign
the terminal or streams of its own). -/
def OwnStreams : Prog → Prop
  | .assign s => ∀ n, s ≠ .file n
  | .seq p q => OwnStreams p ∧ OwnStreams q
  | .tryExcept p q => OwnStreams p ∧ OwnStreams q
  | .withEnv _ b => OwnStreams b
  | _ => True

/-- Every assignment to `sys.stdout` happens inside a redirecting `with` block. -/
def AssignsOnlyInside (rd : Nat → Bool) : Prog → Prop
  | .assign _ => False
  | .seq p q => AssignsOnlyInside rd p ∧ AssignsOnlyInside rd q
  | .tryExcept p q => AssignsOnlyInside rd p ∧ AssignsOnlyInside rd q
  | .withEnv i b => rd i = true ∨ AssignsOnlyInside rd b
  | _ => True

/-- The program never assigns `sys.stdout`. -/
def NoAssign : Prog → Prop
  | .assign _ => False
  | .seq p q => NoAssign p ∧ NoAssign q
  | .tryExcept p q => NoAssign p ∧ NoAssign q
  | .withEnv _ b => NoAssign b
  | _ => True

end Verif.RTE
