import Verif.Model.Bond
import Verif.Model.QuantumState
import Verif.Model.LatticeDatabase
import Verif.Model.Rotation3D
import Verif.Model.Lanczos
/-!
# The module settings and the calls that read them

Five modules keep a precision or a threshold in global variables; every call that reads one reads the value
of the moment.  A program is a list of commands: calls of the five setters, constructors, and methods of the
objects constructed so far (given by their position).  Numbers are those of the models of the single
functions: doubles for bonds and sites, exact reals for lattices, rotations and the Lanczos procedure.
-/

namespace Verif.Sett

open Verif.Latt Verif.LDB

/-- The modules with a setting.
Used at bond.py:20, lattice.py:29, quantumstate.py:25, rotation3d.py:36, lanczos.py:38. -/
inductive Module
  /-- bond.py -/
  | bond
  /-- lattice/lattice.py -/
  | lattice
  /-- quantumoperator/quantumstate.py -/
  | states
  /-- rotation3d.py -/
  | rotation
  /-- lanczos.py -/
  | lanczos
  deriving DecidableEq

/-- An argument of a setter, as `isinstance` and `>= 0` see it.
Used at bond.py:38, lattice.py:45, quantumstate.py:45, rotation3d.py:50, lanczos.py:53. -/
inductive Val
  | int (n : ℤ)
  | bool (b : Bool)
  | float (x : ℝ)
  | nan
  /-- An object that is no `int` and no `float`. -/
  | other

/-- The globals: `_ZOOM` of bond.py:16 and quantumstate.py:21, the precision behind `_ZOOM` and
`_VIEW_AS_ZERO` of lattice.py:24-25 (they are always `10 ** precision` and `10 ** (-precision)`),
`_VIEW_AS_ZERO` of rotation3d.py:32 and lanczos.py:33. -/
structure Settings where
  bondZoom : ℤ
  latPrec : ℕ
  stateZoom : ℤ
  rotZero : ℝ
  lanZero : ℝ

/-- The values when the modules are imported (bond.py:16, lattice.py:24-25, quantumstate.py:21,
rotation3d.py:32, lanczos.py:33). -/
noncomputable def Settings.initial : Settings := ⟨10000, 4, 10000, 1 / 10 ^ 10, 1 / 10 ^ 4⟩

/-- `assert isinstance(precision, int) and precision >= 0` (bond.py:38, lattice.py:45,
quantumstate.py:45); a bool is an int. -/
def checkPrecision : Val → Py ℕ
  | .int n => if 0 ≤ n then .ok n.toNat else raise .assertionError
  | .bool b => .ok (if b then 1 else 0)
  | _ => raise .assertionError

/-- `assert isinstance(threshold, float) and threshold >= 0` (rotation3d.py:50, lanczos.py:53). -/
noncomputable def checkThreshold : Val → Py ℝ
  | .float x => if 0 ≤ x then .ok x else raise .assertionError
  | _ => raise .assertionError

/-- The five setters, called with or without an argument: `set_float_point_precision` of bond.py:20-41,
lattice.py:29-49 and quantumstate.py:25-48, `set_threshold` of rotation3d.py:36-52 and lanczos.py:38-55. -/
noncomputable def Settings.set (s : Settings) : Module → Option Val → Py Settings
  | .bond, a => (checkPrecision (a.getD (.int 4))).map fun p => { s with bondZoom := 10 ^ p }
  | .lattice, a => (checkPrecision (a.getD (.int 4))).map fun p => { s with latPrec := p }
  | .states, a => (checkPrecision (a.getD (.int 4))).map fun p => { s with stateZoom := 10 ^ p }
  | .rotation, a => (checkThreshold (a.getD (.float (1 / 10 ^ 10)))).map fun x => { s with rotZero := x }
  | .lanczos, a => (checkThreshold (a.getD (.float (1 / 10 ^ 4)))).map fun x => { s with lanZero := x }

/-- The objects a program holds.
Used at bond.py:85-119, quantumstate.py:88-107, lattice.py:97-145. -/
inductive Obj
  | bond (b : Bond)
  | site (s : SiteID)
  | lattice (L : Built)

/-- What the program does next.  `i`, `j` are positions in the list of objects.
Used at bond.py, quantumstate.py, lattice.py, rotation3d.py, lanczos.py: the functions cited at `World.step`. -/
inductive Cmd
  | set (md : Module) (arg : Option Val)
  | newBond (p0 p1 : NpVec) (directional : Bool)
  | flip (i : ℕ)
  | bondEq (i j : ℕ)
  | oppositeTo (i j : ℕ)
  | newSite (coords : List Coord)
  | siteEq (i j : ℕ)
  | newLattice (m k : ℕ) (points : List (Pt m)) (vectors : Fin k → Pt m)
  | neighborDistance (i : ℕ) (nth : ℤ)
  | bonds (i : ℕ) (nth : ℤ) (only fold : Bool)
  | decompose (i : ℕ) (site : ∀ m, Pt m)
  | rotationGeneral (axis : Option (List ℝ)) (theta : ℝ) (deg inversion : Bool)
  | krylov (N : ℕ) (M : Matrix (Fin N) (Fin N) ℂ) (vectors : ℕ → Fin N → ℂ) (v0 : Fin N → ℂ) (dim : ℤ)

/-- What the program sees: the value of a call or the exception.
Used at bond.py, quantumstate.py, lattice.py, rotation3d.py, lanczos.py: the functions cited at `World.step`. -/
inductive Out
  | done
  | error (e : PyErr)
  /-- A new object, at the end of the list. -/
  | created
  | bool (b : Bool)
  | real (x : ℝ)
  | bonds (m : ℕ) (intra : List (LBond m)) (inter : Option (List (LBond m)))
  | points (m : ℕ) (p : Pt m × Pt m)
  | matrix (M : Rot.Mat3)
  | rep (r : Lanczos.Rep ℕ)
  /-- The call does not return. -/
  | diverges
  /-- The command names no object of the right class; it is not executed. -/
  | skipped

/-- The iteration orders of the sets of lattice.py. -/
structure Orders where
  order : ∀ k : ℕ, List (Fin k → ℤ) → List (Fin k → ℤ)
  porder : ∀ N : ℕ, List (Fin N × Fin N) → List (Fin N × Fin N)

/-- The settings and the objects.
Used at bond.py:16, lattice.py:24-25, quantumstate.py:21, rotation3d.py:32, lanczos.py:33. -/
structure World where
  settings : Settings
  objs : List Obj

/-- A fresh interpreter.
Used at bond.py:16, lattice.py:24-25, quantumstate.py:21, rotation3d.py:32, lanczos.py:33. -/
noncomputable def World.initial : World := ⟨Settings.initial, []⟩

/-- A constructor call: the object is appended, or the exception reported.
Used at bond.py:85-119, quantumstate.py:88-107, lattice.py:97-145. -/
def World.create (w : World) (r : Py Obj) : World × Out :=
  match r with
  | .ok x => (⟨w.settings, w.objs ++ [x]⟩, .created)
  | .error e => (w, .error e)

/-- One command.  The functions called are those of the models of the modules, given the current value of
the global they read: bond.py:115 (`__init__`, called by `flip`, bond.py:310-327, and by `oppositeTo`,
bond.py:329-351), quantumstate.py:107, lattice.py:97-145, 244, 288, 420-510, rotation3d.py:372-377,
lanczos.py:98, 126.  The two lists of `bonds` are given by endpoints; the identities of these `Bond`
instances, which depend on the setting of bond.py, are those of `newBond`. -/
noncomputable def World.step (o : Orders) (w : World) : Cmd → World × Out
  | .set md a =>
    match w.settings.set md a with
    | .ok s => (⟨s, w.objs⟩, .done)
    | .error e => (w, .error e)
  | .newBond p0 p1 d => w.create ((Bond.init w.settings.bondZoom p0 p1 d).map .bond)
  | .flip i =>
    match w.objs[i]? with
    | some (.bond b) => w.create ((b.flip w.settings.bondZoom).map .bond)
    | _ => (w, .skipped)
  | .bondEq i j =>
    match w.objs[i]?, w.objs[j]? with
    | some (.bond a), some (.bond b) => (w, .bool (a.eq b))
    | _, _ => (w, .skipped)
  | .oppositeTo i j =>
    match w.objs[i]?, w.objs[j]? with
    | some (.bond a), some (.bond b) =>
      match a.oppositeTo w.settings.bondZoom (.bond b) with
      | .ok r => (w, .bool r)
      | .error e => (w, .error e)
    | _, _ => (w, .skipped)
  | .newSite c => w.create ((SiteID.init w.settings.stateZoom c).map .site)
  | .siteEq i j =>
    match w.objs[i]?, w.objs[j]? with
    | some (.site a), some (.site b) => (w, .bool (SiteID.rich .eq a b))
    | _, _ => (w, .skipped)
  | .newLattice _ _ points vectors => w.create ((mkLattice w.settings.latPrec points vectors).map .lattice)
  | .neighborDistance i nth =>
    match w.objs[i]? with
    | some (.lattice B) =>
      let r := Latt.neighborDistance (o.order B.k) w.settings.latPrec B.lat nth
      (⟨w.settings, w.objs.set i (.lattice ⟨B.n, B.m, B.k, r.1⟩)⟩,
        match r.2 with
        | .ok d => .real d
        | .error e => .error e)
    | _ => (w, .skipped)
  | .bonds i nth only fold =>
    match w.objs[i]? with
    | some (.lattice B) =>
      match Latt.bonds (o.order B.k) o.porder w.settings.latPrec B.lat nth only fold with
      | none => (w, .diverges)
      | some (L', r) =>
        (⟨w.settings, w.objs.set i (.lattice ⟨B.n, B.m, B.k, L'⟩)⟩,
          match r with
          | .ok (intra, inter) => .bonds B.m intra inter
          | .error e => .error e)
    | _ => (w, .skipped)
  | .decompose i site =>
    match w.objs[i]? with
    | some (.lattice B) =>
      match Latt.decompose w.settings.latPrec B.lat (site B.m) with
      | none => (w, .diverges)
      | some (.ok p) => (w, .points B.m p)
      | some (.error e) => (w, .error e)
    | _ => (w, .skipped)
  | .rotationGeneral axis theta deg inversion =>
    match Rot.rotationGeneral axis theta deg inversion w.settings.rotZero with
    | .ok M => (w, .matrix M)
    | .error e => (w, .error e)
  | .krylov _ M vectors v0 dim =>
    match Lanczos.krylov w.settings.lanZero M vectors v0 dim with
    | .ok r => (w, .rep r)
    | .error e => (w, .error e)

/-- The world after a program.
Used at bond.py, quantumstate.py, lattice.py, rotation3d.py, lanczos.py: the functions cited at `World.step`. -/
noncomputable def World.run (o : Orders) (w : World) (h : List Cmd) : World :=
  h.foldl (fun v c => (v.step o c).1) w

end Verif.Sett
