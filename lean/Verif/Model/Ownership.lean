import Verif.Spec.Ownership
/-!
# Which arrays the objects share with their callers

The constructors and accessors of bond.py, line2d.py, polygon.py, lattice/lattice.py and of spin operators, with
arrays in a heap: a name is a reference to a cell, `np.array(x, copy=True)` allocates a new cell, a result of
arithmetic is a new cell, and an assignment into an array changes the cell for everybody who refers to it.
What is computed from the contents of the cells is taken from the models of these files.
-/

namespace Verif.Own

open Verif.Latt (Lat)

/-- A reference to an array.
Used at bond.py:102-103. -/
abbrev Ref := ℕ

/-- All arrays ever allocated.
Used at bond.py:102-103. -/
abbrev Heap := List Val

/-- `np.array(x, copy=True)`: a new array with the contents of `x`.
Used at bond.py:102-103, line2d.py:81-82, polygon.py:68, lattice.py:138-139. -/
def npCopy (h : Heap) (r : Ref) : Option (Heap × Ref) := h[r]?.map fun v => (h ++ [v], h.length)

/-- The result of an arithmetic expression: a new array.
Used at bond.py:157-187, 310-327. -/
def fresh (h : Heap) (v : Val) : Heap × Ref := (h ++ [v], h.length)

/-- The instances and the arrays they refer to: `_p0`, `_p1`, `_directional`, `_tuple_form` of `Bond`
(bond.py:107-119); `_p0`, `_p1`, `_dr`, `_IsHorizontal`, `_IsVertical` of `Line2D` (line2d.py:91-95); `_vertices` of
`Polygon` (polygon.py:78-79); `_points`, `_vectors`, `_bs`, `_all_distances` of `Lattice` (lattice.py:130-145). -/
inductive Obj
  | bond (p0 p1 : Ref) (directional : Bool) (tupleForm : BondKey)
  | line (p0 p1 dr : Ref) (isHorizontal isVertical : Bool)
  | polygon (vertices : Ref)
  | lattice (n m k : ℕ) (points vectors bs : Ref) (allDist : List ℝ)

/-- Read a vector.
Used at bond.py:102-103. -/
def getVec (h : Heap) (r : Ref) : Option NpVec := match h[r]? with
  | some (.vec a) => some a
  | _ => none

/-- Read a point of the plane.
Used at line2d.py:81-82. -/
def getPt (h : Heap) (r : Ref) : Option (ℝ × ℝ) := match h[r]? with
  | some (.pt a) => some a
  | _ => none

/-- Read a list of points.
Used at polygon.py:68. -/
def getPts (h : Heap) (r : Ref) : Option (List (ℝ × ℝ)) := match h[r]? with
  | some (.pts a) => some a
  | _ => none

/-- Read a matrix of the given shape.
Used at lattice.py:138-139. -/
def getMat (h : Heap) (r : Ref) (n m : ℕ) : Option (Fin n → Fin m → ℝ) := match h[r]? with
  | some (.mat n' m' f) => if e : n' = n ∧ m' = m then some (e.1 ▸ e.2 ▸ f) else none
  | _ => none

/-- `Bond.__init__` (bond.py:85-119): copies both endpoints; the rest is computed from the copies. -/
def bondInit (zoom : ℤ) (h : Heap) (r0 r1 : Ref) (directional : Bool) : Option (Heap × Py Obj) := do
  let (h, p0) ← npCopy h r0
  let (h, p1) ← npCopy h r1
  let a ← getVec h p0
  let b ← getVec h p1
  match Bond.init zoom a b directional with
  | .error e => some (h, .error e)
  | .ok x => some (h, .ok (.bond p0 p1 x.directional x.tupleForm))

/-- `Bond.endpoints` (bond.py:121-127): copies of both endpoints. -/
def bondEndpoints (h : Heap) : Obj → Option (Heap × List Ref)
  | .bond p0 p1 _ _ => do
    let (h, r0) ← npCopy h p0
    let (h, r1) ← npCopy h p1
    some (h, [r0, r1])
  | _ => none

/-- The contents of a bond.
Used at bond.py:107-119. -/
def readBond (h : Heap) : Obj → Option Bond
  | .bond p0 p1 d t => do
    let a ← getVec h p0
    let b ← getVec h p1
    some ⟨a, b, d, t⟩
  | _ => none

/-- `Bond.getDisplace()` (bond.py:157-187): `self._p1 - self._p0` is a new array. -/
def bondDisplace (h : Heap) (o : Obj) : Option (Heap × Py Ref) := do
  let x ← readBond h o
  match x.getDisplace with
  | .error e => some (h, .error e)
  | .ok a =>
    let (h, r) := fresh h (.vec a)
    some (h, .ok r)

/-- `Bond.flip` (bond.py:310-327): `Bond.__init__` with the endpoints of this bond as arguments. -/
def bondFlip (zoom : ℤ) (h : Heap) : Obj → Option (Heap × Py Obj)
  | .bond p0 p1 d _ => if d then bondInit zoom h p1 p0 true else some (h, .error .notImplementedError)
  | _ => none

/-- `Line2D.__init__` (line2d.py:67-95): copies both points, the displacement is a new array. -/
noncomputable def lineInit (h : Heap) (r0 r1 : Ref) (tol : ℝ) : Option (Heap × Py Obj) := do
  let (h, p0) ← npCopy h r0
  let (h, p1) ← npCopy h r1
  let a ← getPt h p0
  let b ← getPt h p1
  match Line2D.init a b tol with
  | .error e => some (h, .error e)
  | .ok l =>
    let (h, dr) := fresh h (.pt l.dr)
    some (h, .ok (.line p0 p1 dr l.isHorizontal l.isVertical))

/-- The contents of a line.
Used at line2d.py:91-95. -/
def readLine (h : Heap) : Obj → Option Line2D
  | .line p0 p1 dr x y => do
    let a ← getPt h p0
    let b ← getPt h p1
    let d ← getPt h dr
    some ⟨a, b, d, x, y⟩
  | _ => none

/-- `Line2D.PointsFactory` (line2d.py:135-162): the result is a new array. -/
noncomputable def linePoints (h : Heap) (o : Obj) (ratios : Option (List ℝ)) : Option (Heap × Ref) := do
  let l ← readLine h o
  some (fresh h (.pts (l.pointsFactory ratios)))

/-- `Polygon.__init__` (polygon.py:48-79): copies the vertices. -/
noncomputable def polygonInit (h : Heap) (r : Ref) (tol : ℝ) : Option (Heap × Py Obj) := do
  let (h, vertices) ← npCopy h r
  let l ← getPts h vertices
  match Polygon.init l tol with
  | .error e => some (h, .error e)
  | .ok _ => some (h, .ok (.polygon vertices))

/-- The contents of a polygon.
Used at polygon.py:78-80. -/
def readPolygon (h : Heap) : Obj → Option Polygon
  | .polygon r => do
    let l ← getPts h r
    some ⟨l⟩
  | _ => none

/-- `Polygon.vertices` (polygon.py:82-88): a copy. -/
def polygonVertices (h : Heap) : Obj → Option (Heap × Ref)
  | .polygon r => npCopy h r
  | _ => none

/-- `Lattice.__init__` (lattice.py:97-145): the checks read the arguments, `_points` and `_vectors` are copies,
`_bs` and `_all_distances` are results of computations. -/
noncomputable def latticeInit (prec : ℕ) (h : Heap) (r0 r1 : Ref) : Option (Heap × Py Obj) :=
  match h[r0]?, h[r1]? with
  | some (.mat n m p), some (.mat k m' v) =>
    match (Latt.init prec p v : Py (Lat n m k)) with
    | .error e => some (h, .error e)
    | .ok L => do
      let (h, points) ← npCopy h r0
      let (h, vectors) ← npCopy h r1
      let (h, bs) := fresh h (.mat k m L.bs)
      some (h, .ok (.lattice n m k points vectors bs L.allDist))
  | _, _ => none

/-- The contents of a lattice.
Used at lattice.py:131-145. -/
def readLattice (h : Heap) : Obj → Option (Σ n m k : ℕ, Lat n m k)
  | .lattice n m k points vectors bs allDist => do
    let p ← getMat h points n m
    let v ← getMat h vectors k m
    let b ← getMat h bs k m
    some ⟨n, m, k, p, v, b, allDist⟩
  | _ => none

/-- `Lattice.points` (lattice.py:147-153): a copy. -/
def latticePoints (h : Heap) : Obj → Option (Heap × Ref)
  | .lattice _ _ _ points _ _ _ => npCopy h points
  | _ => none

/-- `Lattice.vectors` (lattice.py:155-161): a copy. -/
def latticeVectors (h : Heap) : Obj → Option (Heap × Ref)
  | .lattice _ _ _ _ vectors _ _ => npCopy h vectors
  | _ => none

/-- `Lattice.bs` (lattice.py:163-169): a copy. -/
def latticeBs (h : Heap) : Obj → Option (Heap × Ref)
  | .lattice _ _ _ _ _ bs _ => npCopy h bs
  | _ => none

/-- `Lattice.getSite` (lattice.py:249-266): a copy of a row (`self._points[index]` alone would be a view). -/
def latticeSite (h : Heap) (o : Obj) (index : ℤ) : Option (Heap × Py Ref) := do
  let ⟨_, m, _, L⟩ ← readLattice h o
  match Latt.getSite L index with
  | .error e => some (h, .error e)
  | .ok p =>
    let (h, r) := fresh h (.mat 1 m fun _ => p)
    some (h, .ok r)

/-- `Lattice.neighbor_distance` (lattice.py:420-447): may replace `_all_distances`, returns a number. -/
noncomputable def latticeDistance (prec : ℕ) (order : ∀ k, List (Fin k → ℤ) → List (Fin k → ℤ)) (h : Heap) :
    Obj → ℤ → Option (Obj × Py ℝ)
  | .lattice n m k points vectors bs allDist, nth => do
    let p ← getMat h points n m
    let v ← getMat h vectors k m
    let b ← getMat h bs k m
    let r := Latt.neighborDistance (order k) prec ⟨p, v, b, allDist⟩ nth
    some (.lattice n m k points vectors bs r.1.allDist, r.2)
  | _, _ => none

/-- The position of the arrays of `SPIN_MATRICES` (constant.py:51-62) in the heap. -/
def spinRef : SpinOtype → Ref
  | .x => 0
  | .y => 1
  | .z => 2
  | .p => 3
  | .m => 4

/-- The heap after importing the package.
Used at constant.py:51-62. -/
noncomputable def heap0 : Heap := [.smat (Verif.spinMatrix .x), .smat (Verif.spinMatrix .y),
  .smat (Verif.spinMatrix .z), .smat (Verif.spinMatrix .p), .smat (Verif.spinMatrix .m)]

/-- `SpinOperator.matrix()` (spinsystem.py:308-321): a copy of the module's matrix. -/
def operatorMatrix (h : Heap) (t : SpinOtype) : Option (Heap × Ref) := npCopy h (spinRef t)

/-- The state of a program: the heap, the references it holds and the objects it holds.
Used at bond.py, line2d.py, polygon.py, lattice.py: the objects of their classes. -/
structure State where
  heap : Heap
  held : List Ref
  objs : List Obj

/-- At the start a program holds nothing.
Used at bond.py, line2d.py, polygon.py, lattice.py: nothing is created at import. -/
noncomputable def state0 : State := ⟨heap0, [], []⟩

/-- One step of a program: like `vstep`, with references.
For the operations cited at `vstep`: bond.py, line2d.py, polygon.py, lattice.py, spinsystem.py. -/
noncomputable def step (zoom : ℤ) (prec : ℕ) (order : ∀ k, List (Fin k → ℤ) → List (Fin k → ℤ)) (st : State) :
    Op → State × Out
  | .array v => ({ st with heap := (fresh st.heap v).1, held := st.held ++ [(fresh st.heap v).2] }, .unit)
  | .write s v => match st.held[s]? with
    | some r => ({ st with heap := st.heap.set r v }, .unit)
    | none => (st, .bad)
  | .look s => match st.held[s]?.bind fun r => st.heap[r]? with
    | some v => (st, .contents v)
    | none => (st, .bad)
  | .newBond s0 s1 d => match st.held[s0]?, st.held[s1]? with
    | some r0, some r1 => match bondInit zoom st.heap r0 r1 d with
      | some (h, .ok o) => ({ st with heap := h, objs := st.objs ++ [o] }, .unit)
      | some (h, .error e) => ({ st with heap := h }, .error e)
      | none => (st, .bad)
    | _, _ => (st, .bad)
  | .endpoints o => match st.objs[o]?.bind (bondEndpoints st.heap) with
    | some (h, rs) => ({ st with heap := h, held := st.held ++ rs }, .unit)
    | none => (st, .bad)
  | .getDisplace o => match st.objs[o]?.bind (bondDisplace st.heap) with
    | some (h, .ok r) => ({ st with heap := h, held := st.held ++ [r] }, .unit)
    | some (h, .error e) => ({ st with heap := h }, .error e)
    | none => (st, .bad)
  | .flip o => match st.objs[o]?.bind (bondFlip zoom st.heap) with
    | some (h, .ok o') => ({ st with heap := h, objs := st.objs ++ [o'] }, .unit)
    | some (h, .error e) => ({ st with heap := h }, .error e)
    | none => (st, .bad)
  | .bondEq o o' => match st.objs[o]?.bind (readBond st.heap), st.objs[o']?.bind (readBond st.heap) with
    | some x, some y => (st, .bool (x.eq y))
    | _, _ => (st, .bad)
  | .newLine s0 s1 tol => match st.held[s0]?, st.held[s1]? with
    | some r0, some r1 => match lineInit st.heap r0 r1 tol with
      | some (h, .ok o) => ({ st with heap := h, objs := st.objs ++ [o] }, .unit)
      | some (h, .error e) => ({ st with heap := h }, .error e)
      | none => (st, .bad)
    | _, _ => (st, .bad)
  | .pointsFactory o ratios => match st.objs[o]?.bind fun x => linePoints st.heap x ratios with
    | some (h, r) => ({ st with heap := h, held := st.held ++ [r] }, .unit)
    | none => (st, .bad)
  | .lineLocation o s tol =>
    match st.objs[o]?.bind (readLine st.heap), st.held[s]?.bind (getPt st.heap) with
    | some l, some p => (st, .lineLocation (l.locationRelation p tol))
    | _, _ => (st, .bad)
  | .newPolygon s tol => match st.held[s]? with
    | some r => match polygonInit st.heap r tol with
      | some (h, .ok o) => ({ st with heap := h, objs := st.objs ++ [o] }, .unit)
      | some (h, .error e) => ({ st with heap := h }, .error e)
      | none => (st, .bad)
    | none => (st, .bad)
  | .vertices o => match st.objs[o]?.bind (polygonVertices st.heap) with
    | some (h, r) => ({ st with heap := h, held := st.held ++ [r] }, .unit)
    | none => (st, .bad)
  | .polyLocation o s s' tol =>
    match st.objs[o]?.bind (readPolygon st.heap), st.held[s]?.bind (getPt st.heap),
        st.held[s']?.bind (getPt st.heap) with
    | some g, some p, some q => match g.locationRelation p q tol with
      | .ok l => (st, .polyLocation l)
      | .error e => (st, .error e)
    | _, _, _ => (st, .bad)
  | .newLattice s0 s1 => match st.held[s0]?, st.held[s1]? with
    | some r0, some r1 => match latticeInit prec st.heap r0 r1 with
      | some (h, .ok o) => ({ st with heap := h, objs := st.objs ++ [o] }, .unit)
      | some (h, .error e) => ({ st with heap := h }, .error e)
      | none => (st, .bad)
    | _, _ => (st, .bad)
  | .points o => match st.objs[o]?.bind (latticePoints st.heap) with
    | some (h, r) => ({ st with heap := h, held := st.held ++ [r] }, .unit)
    | none => (st, .bad)
  | .vectors o => match st.objs[o]?.bind (latticeVectors st.heap) with
    | some (h, r) => ({ st with heap := h, held := st.held ++ [r] }, .unit)
    | none => (st, .bad)
  | .bs o => match st.objs[o]?.bind (latticeBs st.heap) with
    | some (h, r) => ({ st with heap := h, held := st.held ++ [r] }, .unit)
    | none => (st, .bad)
  | .getSite o i => match st.objs[o]?.bind fun x => latticeSite st.heap x i with
    | some (h, .ok r) => ({ st with heap := h, held := st.held ++ [r] }, .unit)
    | some (h, .error e) => ({ st with heap := h }, .error e)
    | none => (st, .bad)
  | .neighborDistance o nth => match st.objs[o]?.bind fun x => latticeDistance prec order st.heap x nth with
    | some (o', r) => ({ st with objs := st.objs.set o o' },
        match r with
        | .ok d => .number d
        | .error e => .error e)
    | none => (st, .bad)
  | .spinMatrix t => match operatorMatrix st.heap t with
    | some (h, r) => ({ st with heap := h, held := st.held ++ [r] }, .unit)
    | none => (st, .bad)

/-- What a program sees.
For the results returned by the operations of `step`: bond.py, line2d.py, polygon.py, lattice.py, spinsystem.py. -/
noncomputable def trace (zoom : ℤ) (prec : ℕ) (order : ∀ k, List (Fin k → ℤ) → List (Fin k → ℤ)) :
    State → List Op → List Out
  | _, [] => []
  | st, op :: ops => (step zoom prec order st op).2 :: trace zoom prec order (step zoom prec order st op).1 ops

end Verif.Own
