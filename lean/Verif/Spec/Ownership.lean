import Verif.Model.Bond
import Verif.Model.Polygon
import Verif.Model.Lattice
import Verif.Model.Spin
/-!
# Value semantics

A program that uses the library, as if every array was a value: each array the program holds has its own
contents, each object is the value its constructor computed, and an assignment into an array changes this one
array and nothing else.  Arrays are numbered in the order the program obtained them, and so are objects.
-/

namespace Verif.Own

open Verif.Latt (Lat)

/-- The contents of an array: a vector (endpoints of bonds), a point of the plane, the vertices of a polygon,
a real matrix (points and vectors of a lattice), a spin matrix. -/
inductive Val
  | vec (a : NpVec)
  | pt (p : ℝ × ℝ)
  | pts (l : List (ℝ × ℝ))
  | mat (n m : ℕ) (f : Fin n → Fin m → ℝ)
  | smat (M : SMat)

/-- What a program can do.  `s` are numbers of arrays, `o` numbers of objects. -/
inductive Op
  /-- make an array -/
  | array (v : Val)
  /-- change the contents of an array in place -/
  | write (s : ℕ) (v : Val)
  /-- look at the contents of an array -/
  | look (s : ℕ)
  | newBond (s0 s1 : ℕ) (directional : Bool)
  | endpoints (o : ℕ)
  | getDisplace (o : ℕ)
  | flip (o : ℕ)
  | bondEq (o o' : ℕ)
  | newLine (s0 s1 : ℕ) (tol : ℝ)
  | pointsFactory (o : ℕ) (ratios : Option (List ℝ))
  | lineLocation (o s : ℕ) (tol : ℝ)
  | newPolygon (s : ℕ) (tol : ℝ)
  | vertices (o : ℕ)
  | polyLocation (o s s' : ℕ) (tol : ℝ)
  | newLattice (s0 s1 : ℕ)
  | points (o : ℕ)
  | vectors (o : ℕ)
  | bs (o : ℕ)
  | getSite (o : ℕ) (index : ℤ)
  | neighborDistance (o : ℕ) (nth : ℤ)
  | spinMatrix (otype : SpinOtype)

/-- What the program sees: nothing in particular, the contents of an array, an exception, answers of methods,
or that the arguments were no arrays and objects of the right kind. -/
inductive Out
  | unit
  | contents (v : Val)
  | error (e : PyErr)
  | bool (b : Bool)
  | lineLocation (l : LineLocation)
  | polyLocation (l : PolyLocation)
  | number (x : ℝ)
  | bad

/-- Objects as values. -/
inductive VObj
  | bond (b : Bond)
  | line (l : Line2D)
  | polygon (g : Polygon)
  | lattice (n m k : ℕ) (L : Lat n m k)

structure VState where
  held : List Val
  objs : List VObj

/-- One step with value semantics. -/
noncomputable def vstep (zoom : ℤ) (prec : ℕ) (order : ∀ k, List (Fin k → ℤ) → List (Fin k → ℤ)) (st : VState) :
    Op → VState × Out
  | .array v => ({ st with held := st.held ++ [v] }, .unit)
  | .write s v => if s < st.held.length then ({ st with held := st.held.set s v }, .unit) else (st, .bad)
  | .look s => match st.held[s]? with
    | some v => (st, .contents v)
    | none => (st, .bad)
  | .newBond s0 s1 d => match st.held[s0]?, st.held[s1]? with
    | some (.vec a), some (.vec b) => match Bond.init zoom a b d with
      | .ok x => ({ st with objs := st.objs ++ [.bond x] }, .unit)
      | .error e => (st, .error e)
    | _, _ => (st, .bad)
  | .endpoints o => match st.objs[o]? with
    | some (.bond x) => ({ st with held := st.held ++ [.vec x.p0, .vec x.p1] }, .unit)
    | _ => (st, .bad)
  | .getDisplace o => match st.objs[o]? with
    | some (.bond x) => match x.getDisplace with
      | .ok a => ({ st with held := st.held ++ [.vec a] }, .unit)
      | .error e => (st, .error e)
    | _ => (st, .bad)
  | .flip o => match st.objs[o]? with
    | some (.bond x) => match x.flip zoom with
      | .ok y => ({ st with objs := st.objs ++ [.bond y] }, .unit)
      | .error e => (st, .error e)
    | _ => (st, .bad)
  | .bondEq o o' => match st.objs[o]?, st.objs[o']? with
    | some (.bond x), some (.bond y) => (st, .bool (x.eq y))
    | _, _ => (st, .bad)
  | .newLine s0 s1 tol => match st.held[s0]?, st.held[s1]? with
    | some (.pt p), some (.pt q) => match Line2D.init p q tol with
      | .ok l => ({ st with objs := st.objs ++ [.line l] }, .unit)
      | .error e => (st, .error e)
    | _, _ => (st, .bad)
  | .pointsFactory o ratios => match st.objs[o]? with
    | some (.line l) => ({ st with held := st.held ++ [.pts (l.pointsFactory ratios)] }, .unit)
    | _ => (st, .bad)
  | .lineLocation o s tol => match st.objs[o]?, st.held[s]? with
    | some (.line l), some (.pt p) => (st, .lineLocation (l.locationRelation p tol))
    | _, _ => (st, .bad)
  | .newPolygon s tol => match st.held[s]? with
    | some (.pts l) => match Polygon.init l tol with
      | .ok g => ({ st with objs := st.objs ++ [.polygon g] }, .unit)
      | .error e => (st, .error e)
    | _ => (st, .bad)
  | .vertices o => match st.objs[o]? with
    | some (.polygon g) => ({ st with held := st.held ++ [.pts g.vertices] }, .unit)
    | _ => (st, .bad)
  | .polyLocation o s s' tol => match st.objs[o]?, st.held[s]?, st.held[s']? with
    | some (.polygon g), some (.pt p), some (.pt q) => match g.locationRelation p q tol with
      | .ok l => (st, .polyLocation l)
      | .error e => (st, .error e)
    | _, _, _ => (st, .bad)
  | .newLattice s0 s1 => match st.held[s0]?, st.held[s1]? with
    | some (.mat n m p), some (.mat k m' v) => match (Latt.init prec p v : Py (Lat n m k)) with
      | .ok L => ({ st with objs := st.objs ++ [.lattice n m k L] }, .unit)
      | .error e => (st, .error e)
    | _, _ => (st, .bad)
  | .points o => match st.objs[o]? with
    | some (.lattice n m _ L) => ({ st with held := st.held ++ [.mat n m L.points] }, .unit)
    | _ => (st, .bad)
  | .vectors o => match st.objs[o]? with
    | some (.lattice _ m k L) => ({ st with held := st.held ++ [.mat k m L.vectors] }, .unit)
    | _ => (st, .bad)
  | .bs o => match st.objs[o]? with
    | some (.lattice _ m k L) => ({ st with held := st.held ++ [.mat k m L.bs] }, .unit)
    | _ => (st, .bad)
  | .getSite o i => match st.objs[o]? with
    | some (.lattice _ m _ L) => match Latt.getSite L i with
      | .ok p => ({ st with held := st.held ++ [.mat 1 m fun _ => p] }, .unit)
      | .error e => (st, .error e)
    | _ => (st, .bad)
  | .neighborDistance o nth => match st.objs[o]? with
    | some (.lattice n m k L) =>
      ({ st with objs := st.objs.set o (.lattice n m k (Latt.neighborDistance (order k) prec L nth).1) },
        match (Latt.neighborDistance (order k) prec L nth).2 with
        | .ok d => .number d
        | .error e => .error e)
    | _ => (st, .bad)
  | .spinMatrix t => ({ st with held := st.held ++ [.smat (Verif.spinMatrix t)] }, .unit)

/-- What a program sees with value semantics. -/
noncomputable def vtrace (zoom : ℤ) (prec : ℕ) (order : ∀ k, List (Fin k → ℤ) → List (Fin k → ℤ)) :
    VState → List Op → List Out
  | _, [] => []
  | st, op :: ops => (vstep zoom prec order st op).2 :: vtrace zoom prec order (vstep zoom prec order st op).1 ops

/-- Assignments into arrays. -/
def Op.isWrite : Op → Prop
  | .write _ _ => True
  | _ => False

/-- Operations whose arguments are objects and numbers, not arrays. -/
def Op.onObjects : Op → Prop
  | .endpoints _ | .getDisplace _ | .flip _ | .bondEq _ _ | .pointsFactory _ _ | .vertices _ | .points _ | .vectors _
  | .bs _ | .getSite _ _ | .neighborDistance _ _ | .spinMatrix _ => True
  | _ => False

end Verif.Own
