/-!
# tools/runtimeenv.py: `RunTimeEnv`

The interpreter state that the class touches: `sys.stdout`, the mkl thread number, the file handles
it opened, and the attributes of the `RunTimeEnv` objects.  Every write is recorded, with the
stream it went to.  User code is a small language of `print`, `raise`, assignment to `sys.stdout`,
sequencing, `try/except` and `with` statements, so that theorems range over all nestings.

Simplifications: the texts of the log messages are constructors of `Msg`; the file name (which
contains the time in seconds) is not modelled, each `open` yields a fresh handle; the directory
creation of lines 56-57 is not modelled.
-/

namespace Verif.RTE

/-- Anything `sys.stdout` may refer to: the terminal, a stream of the user that is never closed, or
the handle number `n` opened by a `RunTimeEnv`.
Used at tools/runtimeenv.py:70-72, 104-105. -/
inductive Stream
  | term
  | user (n : Nat)
  | file (n : Nat)
  deriving DecidableEq, Repr

/-- Exceptions.
Used at tools/runtimeenv.py:54, 70, 82. -/
inductive Exc
  | user (n : Nat)
  | osError
  | valueError
  | attributeError
  deriving DecidableEq, Repr

/-- What is written: user text, or one of the messages of `__enter__`/`__exit__`.
Used at tools/runtimeenv.py:74-79, 90-103. -/
inductive Msg
  | text (n : Nat)
  | entering
  | rule
  | noException
  | excType (e : Exc)
  | excValue (e : Exc)
  | tracebackTitle
  | traceback (e : Exc)
  | exiting
  deriving DecidableEq, Repr

/-- The `threads_num` argument.
Used at tools/runtimeenv.py:49-54. -/
inductive ThreadsArg
  | none
  | int (n : Int)
  | other

/-- Attributes of a `RunTimeEnv` object; `stdout`/`fp` are absent until `__enter__` sets them.
Used at tools/runtimeenv.py:49-59, 71-72. -/
structure Obj where
  rd : Bool
  threadsNum : Nat
  stdout : Option Stream := Option.none
  fp : Option Nat := Option.none
  deriving DecidableEq

/-- `RunTimeEnv.__init__` (runtimeenv.py:31-59): `None` gives the maximum, a positive int itself,
anything else ValueError. -/
def Obj.init (maxThreads : Nat) (rd : Bool) : ThreadsArg → Except Exc Obj
  | .none => .ok ⟨rd, maxThreads, Option.none, Option.none⟩
  | .int n => if 0 < n then .ok ⟨rd, n.toNat, Option.none, Option.none⟩ else .error .valueError
  | .other => .error .valueError

/-- The outside world: the number of cores, which `open` fails (n-th call) and which of the prints
done by `RunTimeEnv` itself fails (disk full, ...).
Used at tools/runtimeenv.py:50, 66-79, 87-105. -/
structure Host where
  maxThreads : Nat
  openFault : Nat → Bool
  printFault : Nat → Bool

/-- Interpreter state.
Used at tools/runtimeenv.py:66-79, 87-105. -/
structure World where
  stdout : Stream
  /-- open flags of the handles opened so far -/
  files : List Bool
  /-- everything written, with its destination -/
  out : List (Stream × Msg)
  threads : Nat
  objs : Nat → Obj
  opens : Nat
  prints : Nat

/-- whether a stream accepts output
Used at tools/runtimeenv.py:74-79, 90-103. -/
def World.writable (w : World) : Stream → Bool
  | .file n => w.files[n]? == some true
  | _ => true

/-- `print(m)` / a write to `s`: ValueError on a closed file.
Used at tools/runtimeenv.py:74-79, 90-103. -/
def World.write (w : World) (s : Stream) (m : Msg) : World × Option Exc :=
  if w.writable s then ({ w with out := w.out ++ [(s, m)] }, none) else (w, some .valueError)

/-- A print made by `RunTimeEnv` itself: may hit an I/O error.
Used at tools/runtimeenv.py:74-79, 90-103. -/
def envWrite (h : Host) (w : World) (s : Stream) (m : Msg) : World × Option Exc :=
  if h.printFault w.prints then ({ w with prints := w.prints + 1 }, some .osError)
  else { w with prints := w.prints + 1 }.write s m

/-- Several prints in a row, to `sys.stdout` (`none`) or to an explicit stream (`file=`), stopping
at the first failure.
Used at tools/runtimeenv.py:74-79, 90-103. -/
def envWrites (h : Host) (w : World) : List (Option Stream × Msg) → World × Option Exc
  | [] => (w, none)
  | (s, m) :: l =>
    match envWrite h w (s.getD w.stdout) m with
    | (w', none) => envWrites h w' l
    | (w', some e) => (w', some e)

/-- replace an object
Used at tools/runtimeenv.py:71-72. -/
def World.setObj (w : World) (i : Nat) (o : Obj) : World :=
  { w with objs := fun j => if j = i then o else w.objs j }

/-- `RunTimeEnv.__enter__` (runtimeenv.py:61-80). -/
def enter (h : Host) (w : World) (i : Nat) : World × Option Exc :=
  let w := { w with threads := (w.objs i).threadsNum }
  if (w.objs i).rd then
    if h.openFault w.opens then ({ w with opens := w.opens + 1 }, some .osError)
    else
      let n := w.files.length
      let w := { w with opens := w.opens + 1, files := w.files ++ [true] }
      let w := w.setObj i { w.objs i with stdout := some w.stdout, fp := some n }
      let w := { w with stdout := .file n }
      envWrites h w [(none, .entering), (none, .rule)]
  else (w, none)

/-- The prints of `__exit__` (runtimeenv.py:89-103). -/
def exitMsgs (fp : Nat) : Option Exc → List (Option Stream × Msg)
  | none => [(none, .rule), (none, .noException), (none, .rule), (none, .exiting)]
  | some e => [(none, .rule), (none, .excType e), (none, .excValue e), (none, .tracebackTitle),
      (some (.file fp), .traceback e), (none, .rule), (none, .exiting)]

/-- `RunTimeEnv.__exit__` (runtimeenv.py:82-106); it returns `False`, so that the exception in
flight continues unless `__exit__` itself raises. -/
def exit (h : Host) (w : World) (i : Nat) (exc : Option Exc) : World × Option Exc :=
  let w := { w with threads := h.maxThreads }
  if (w.objs i).rd then
    match (w.objs i).fp, (w.objs i).stdout with
    | some fp, some saved =>
      match envWrites h w (exitMsgs fp exc) with
      | (w, none) => ({ w with stdout := saved, files := w.files.set fp false }, none)
      | (w, some e) => (w, some e)
    | _, _ => (w, some .attributeError)
  else (w, none)

/-- User programs.
For the usage pattern at tools/runtimeenv.py:108-112. -/
inductive Prog
  | skip
  | print (n : Nat)
  | raise (n : Nat)
  /-- `sys.stdout = s` -/
  | assign (s : Stream)
  | seq (p q : Prog)
  /-- `try: p` `except Exception: q` -/
  | tryExcept (p q : Prog)
  /-- `with obj_i: body` -/
  | withEnv (i : Nat) (body : Prog)

/-- Execution: the final state and the exception that escapes, if any.  The `with` statement is the
one of the language reference: `__exit__` runs exactly when `__enter__` returned, receives the
exception in flight, and its false return value lets that exception propagate.
Used at tools/runtimeenv.py:61-112. -/
def exec (h : Host) : Prog → World → World × Option Exc
  | .skip, w => (w, none)
  | .print n, w => w.write w.stdout (.text n)
  | .raise n, w => (w, some (.user n))
  | .assign s, w => ({ w with stdout := s }, none)
  | .seq p q, w =>
    match exec h p w with
    | (w', none) => exec h q w'
    | (w', some e) => (w', some e)
  | .tryExcept p q, w =>
    match exec h p w with
    | (w', none) => (w', none)
    | (w', some _) => exec h q w'
  | .withEnv i body, w =>
    match enter h w i with
    | (w1, some e) => (w1, some e)
    | (w1, none) =>
      match exec h body w1 with
      | (w2, r) =>
        match exit h w2 i r with
        | (w3, some e) => (w3, some e)
        | (w3, none) => (w3, r)

end Verif.RTE
