import Verif.Proofs.Ownership
/-! Every step keeps the two programs in agreement. -/

namespace Verif.Own

open Verif.Latt (Lat)

variable {h : Heap} {held : List Ref} {objs : List Obj} {vh : List Val} {vo : List VObj}
  {zoom : ℤ} {prec : ℕ} {order : ∀ k, List (Fin k → ℤ) → List (Fin k → ℤ)}

/-- Agreement after a step. -/
def Agree (a : State × Out) (b : VState × Out) : Prop := Rel a.1 b.1 ∧ a.2 = b.2

theorem agree_newBond_aux (H : Rel ⟨h, held, objs⟩ ⟨vh, vo⟩) {a b : NpVec} {d : Bool} {r0 r1 : Ref}
    (h0 : h[r0]? = some (.vec a)) (h1 : h[r1]? = some (.vec b)) :
    Agree (match bondInit zoom h r0 r1 d with
      | some (h', .ok o) => (⟨h', held, objs ++ [o]⟩, .unit)
      | some (h', .error e) => (⟨h', held, objs⟩, .error e)
      | none => (⟨h, held, objs⟩, .bad))
    (match Bond.init zoom a b d with
      | .ok x => (⟨vh, vo ++ [.bond x]⟩, .unit)
      | .error e => (⟨vh, vo⟩, .error e)) := by
  rw [bondInit_eq h0 h1]
  rcases hx : Bond.init zoom a b d with e | x
  · exact ⟨H.extend _, rfl⟩
  · obtain ⟨e0, e1⟩ := bond_init_ok hx
    refine ⟨H.addObj _ (.bond ?_ ?_) ?_, rfl⟩
    · simp [e0]
    · simp [e1]
    · simp [refs]

theorem agree_newBond (H : Rel ⟨h, held, objs⟩ ⟨vh, vo⟩) (s0 s1 : ℕ) (d : Bool) :
    Agree (step zoom prec order ⟨h, held, objs⟩ (.newBond s0 s1 d))
      (vstep zoom prec order ⟨vh, vo⟩ (.newBond s0 s1 d)) := by
  rcases forall₂_get H.held s0 with ⟨ha, hb⟩ | ⟨r0, v0, ha, hb, hr0⟩
  · simp only at ha hb
    simp only [step, vstep, ha, hb]
    exact ⟨H, rfl⟩
  rcases forall₂_get H.held s1 with ⟨ha', hb'⟩ | ⟨r1, v1, ha', hb', hr1⟩
  · simp only at ha hb ha' hb'
    simp only [step, vstep, ha, hb, ha', hb']
    exact ⟨H, rfl⟩
  simp only at ha hb ha' hb' hr0 hr1
  by_cases hv : ∃ a b, v0 = .vec a ∧ v1 = .vec b
  · obtain ⟨a, b, rfl, rfl⟩ := hv
    simp only [step, vstep, ha, hb, ha', hb']
    exact agree_newBond_aux H hr0 hr1
  · have hn : bondInit zoom h r0 r1 d = none :=
      bondInit_none hr0 hr1 fun a b e0 e1 => hv ⟨a, b, e0, e1⟩
    have : vstep zoom prec order ⟨vh, vo⟩ (.newBond s0 s1 d) = (⟨vh, vo⟩, .bad) := by
      simp only [vstep, hb, hb']
      split
      · rename_i a b e0 e1
        cases e0
        cases e1
        exact (hv ⟨_, _, rfl, rfl⟩).elim
      · rfl
    rw [this]
    simp only [step, ha, ha', hn]
    exact ⟨H, rfl⟩

theorem agree_newLine (H : Rel ⟨h, held, objs⟩ ⟨vh, vo⟩) (s0 s1 : ℕ) (tol : ℝ) :
    Agree (step zoom prec order ⟨h, held, objs⟩ (.newLine s0 s1 tol))
      (vstep zoom prec order ⟨vh, vo⟩ (.newLine s0 s1 tol)) := by
  rcases forall₂_get H.held s0 with ⟨ha, hb⟩ | ⟨r0, v0, ha, hb, hr0⟩
  · simp only at ha hb
    simp only [step, vstep, ha, hb]
    exact ⟨H, rfl⟩
  rcases forall₂_get H.held s1 with ⟨ha', hb'⟩ | ⟨r1, v1, ha', hb', hr1⟩
  · simp only at ha hb ha' hb'
    simp only [step, vstep, ha, hb, ha', hb']
    exact ⟨H, rfl⟩
  simp only at ha hb ha' hb' hr0 hr1
  by_cases hv : ∃ a b, v0 = .pt a ∧ v1 = .pt b
  · obtain ⟨a, b, rfl, rfl⟩ := hv
    simp only [step, vstep, ha, hb, ha', hb', lineInit_eq hr0 hr1]
    rcases hx : Line2D.init a b tol with e | x
    · exact ⟨H.extend _, rfl⟩
    · obtain ⟨e0, e1⟩ := line_init_ok hx
      refine ⟨H.addObj _ (.line ?_ ?_ ?_) ?_, rfl⟩
      · simp [e0]
      · simp [e1]
      · simp
      · simp [refs]
  · have hn : lineInit h r0 r1 tol = none :=
      lineInit_none hr0 hr1 fun a b e0 e1 => hv ⟨a, b, e0, e1⟩
    have : vstep zoom prec order ⟨vh, vo⟩ (.newLine s0 s1 tol) = (⟨vh, vo⟩, .bad) := by
      simp only [vstep, hb, hb']
      split
      · rename_i a b e0 e1
        cases e0
        cases e1
        exact (hv ⟨_, _, rfl, rfl⟩).elim
      · rfl
    rw [this]
    simp only [step, ha, ha', hn]
    exact ⟨H, rfl⟩

theorem agree_newPolygon (H : Rel ⟨h, held, objs⟩ ⟨vh, vo⟩) (s : ℕ) (tol : ℝ) :
    Agree (step zoom prec order ⟨h, held, objs⟩ (.newPolygon s tol))
      (vstep zoom prec order ⟨vh, vo⟩ (.newPolygon s tol)) := by
  rcases forall₂_get H.held s with ⟨ha, hb⟩ | ⟨r0, v0, ha, hb, hr0⟩
  · simp only at ha hb
    simp only [step, vstep, ha, hb]
    exact ⟨H, rfl⟩
  simp only at ha hb hr0
  by_cases hv : ∃ a, v0 = .pts a
  · obtain ⟨a, rfl⟩ := hv
    simp only [step, vstep, ha, hb, polygonInit_eq hr0]
    rcases hx : Polygon.init a tol with e | x
    · exact ⟨H.extend _, rfl⟩
    · refine ⟨H.addObj _ (.polygon ?_) ?_, rfl⟩
      · simp [polygon_init_ok hx]
      · simp [refs]
  · have hn : polygonInit h r0 tol = none := polygonInit_none hr0 fun a e0 => hv ⟨a, e0⟩
    have : vstep zoom prec order ⟨vh, vo⟩ (.newPolygon s tol) = (⟨vh, vo⟩, .bad) := by
      simp only [vstep, hb]
      split
      · rename_i a e0
        cases e0
        exact (hv ⟨_, rfl⟩).elim
      · rfl
    rw [this]
    simp only [step, ha, hn]
    exact ⟨H, rfl⟩

theorem agree_newLattice (H : Rel ⟨h, held, objs⟩ ⟨vh, vo⟩) (s0 s1 : ℕ) :
    Agree (step zoom prec order ⟨h, held, objs⟩ (.newLattice s0 s1))
      (vstep zoom prec order ⟨vh, vo⟩ (.newLattice s0 s1)) := by
  rcases forall₂_get H.held s0 with ⟨ha, hb⟩ | ⟨r0, v0, ha, hb, hr0⟩
  · simp only at ha hb
    simp only [step, vstep, ha, hb]
    exact ⟨H, rfl⟩
  rcases forall₂_get H.held s1 with ⟨ha', hb'⟩ | ⟨r1, v1, ha', hb', hr1⟩
  · simp only at ha hb ha' hb'
    simp only [step, vstep, ha, hb, ha', hb']
    exact ⟨H, rfl⟩
  simp only at ha hb ha' hb' hr0 hr1
  by_cases hv : ∃ n m p k m' v, v0 = .mat n m p ∧ v1 = .mat k m' v
  · obtain ⟨n, m, p, k, m', v, rfl, rfl⟩ := hv
    simp only [step, vstep, ha, hb, ha', hb', latticeInit, hr0, hr1]
    rcases hx : (Latt.init prec p v : Py (Lat n m k)) with e | L
    · exact ⟨H, rfl⟩
    · obtain ⟨e0, e1⟩ := lattice_init_ok hx
      have g1 : (h ++ [Val.mat n m p])[r1]? = some (.mat k m' v) := app_get hr1
      simp only [npCopy_some hr0, npCopy_some g1, bind, Option.bind, fresh]
      have hh : h ++ [Val.mat n m p] ++ [Val.mat k m' v] ++ [Val.mat k m L.bs] =
          h ++ [Val.mat n m p, Val.mat k m' v, Val.mat k m L.bs] := by simp
      refine ⟨?_, rfl⟩
      simp only [hh]
      refine H.addObj _ (.lattice ?_ ?_ ?_) ?_
      · simp [e0]
      · simp [e1]
      · simp
      · simp [refs]
  · have hn : latticeInit prec h r0 r1 = none := by
      simp only [latticeInit, hr0, hr1]
      split
      · rename_i e0 e1
        cases e0
        cases e1
        exact (hv ⟨_, _, _, _, _, _, rfl, rfl⟩).elim
      · rfl
    have : vstep zoom prec order ⟨vh, vo⟩ (.newLattice s0 s1) = (⟨vh, vo⟩, .bad) := by
      simp only [vstep, hb, hb']
      split
      · rename_i e0 e1
        cases e0
        cases e1
        exact (hv ⟨_, _, _, _, _, _, rfl, rfl⟩).elim
      · rfl
    rw [this]
    simp only [step, ha, ha', hn]
    exact ⟨H, rfl⟩

theorem addHeld₂ (H : Rel ⟨h, held, objs⟩ ⟨vh, vo⟩) (v w : Val) :
    Rel ⟨h ++ [v] ++ [w], held ++ [h.length, (h ++ [v]).length], objs⟩ ⟨vh ++ [v, w], vo⟩ := by
  have := (H.addHeld v).addHeld w
  simpa using this

theorem agree_array (H : Rel ⟨h, held, objs⟩ ⟨vh, vo⟩) (v : Val) :
    Agree (step zoom prec order ⟨h, held, objs⟩ (.array v)) (vstep zoom prec order ⟨vh, vo⟩ (.array v)) :=
  ⟨H.addHeld v, rfl⟩

theorem agree_write (H : Rel ⟨h, held, objs⟩ ⟨vh, vo⟩) (s : ℕ) (v : Val) :
    Agree (step zoom prec order ⟨h, held, objs⟩ (.write s v)) (vstep zoom prec order ⟨vh, vo⟩ (.write s v)) := by
  rcases forall₂_get H.held s with ⟨ha, hb⟩ | ⟨r0, v0, ha, hb, hr0⟩
  · simp only at ha hb
    have : ¬ s < vh.length := by
      rw [List.getElem?_eq_none_iff] at hb
      omega
    simp only [step, vstep, ha, this, if_false]
    exact ⟨H, rfl⟩
  · simp only at ha hb hr0
    have : s < vh.length := (List.getElem?_eq_some_iff.mp hb).1
    simp only [step, vstep, ha, this, if_true]
    exact ⟨H.write ha v, rfl⟩

theorem agree_look (H : Rel ⟨h, held, objs⟩ ⟨vh, vo⟩) (s : ℕ) :
    Agree (step zoom prec order ⟨h, held, objs⟩ (.look s)) (vstep zoom prec order ⟨vh, vo⟩ (.look s)) := by
  rcases forall₂_get H.held s with ⟨ha, hb⟩ | ⟨r0, v0, ha, hb, hr0⟩
  · simp only at ha hb
    simp only [step, vstep, ha, hb, Option.bind]
    exact ⟨H, rfl⟩
  · simp only at ha hb hr0
    simp only [step, vstep, ha, hb, Option.bind, hr0]
    exact ⟨H, rfl⟩

theorem agree_endpoints (H : Rel ⟨h, held, objs⟩ ⟨vh, vo⟩) (o : ℕ) :
    Agree (step zoom prec order ⟨h, held, objs⟩ (.endpoints o)) (vstep zoom prec order ⟨vh, vo⟩ (.endpoints o)) := by
  rcases forall₂_get H.objs o with ⟨ha, hb⟩ | ⟨r0, v0, ha, hb, hr0⟩
  · simp only at ha hb
    simp only [step, vstep, ha, hb, Option.bind]
    exact ⟨H, rfl⟩
  · simp only at ha hb hr0
    cases hr0 with
    | bond h0 h1 =>
      rename_i p0 p1 b
      have h1' : (h ++ [Val.vec b.p0])[p1]? = some (.vec b.p1) := app_get h1
      simp only [step, vstep, ha, hb, Option.bind, bondEndpoints, npCopy_some h0, npCopy_some h1', bind]
      exact ⟨addHeld₂ H _ _, rfl⟩
    | _ =>
      simp only [step, vstep, ha, hb, Option.bind, bondEndpoints]
      exact ⟨H, rfl⟩

theorem agree_getDisplace (H : Rel ⟨h, held, objs⟩ ⟨vh, vo⟩) (o : ℕ) :
    Agree (step zoom prec order ⟨h, held, objs⟩ (.getDisplace o))
      (vstep zoom prec order ⟨vh, vo⟩ (.getDisplace o)) := by
  rcases forall₂_get H.objs o with ⟨ha, hb⟩ | ⟨r0, v0, ha, hb, hr0⟩
  · simp only at ha hb
    simp only [step, vstep, ha, hb, Option.bind]
    exact ⟨H, rfl⟩
  · simp only at ha hb hr0
    cases v0 with
    | bond b =>
      simp only [step, vstep, ha, hb, Option.bind, bondDisplace, readBond_obs hr0, bind, fresh]
      rcases b.getDisplace with e | a
      · exact ⟨H, rfl⟩
      · exact ⟨H.addHeld _, rfl⟩
    | _ =>
      cases hr0
      simp only [step, vstep, ha, hb, Option.bind, bondDisplace, readBond, bind]
      exact ⟨H, rfl⟩

theorem agree_flip (H : Rel ⟨h, held, objs⟩ ⟨vh, vo⟩) (o : ℕ) :
    Agree (step zoom prec order ⟨h, held, objs⟩ (.flip o)) (vstep zoom prec order ⟨vh, vo⟩ (.flip o)) := by
  rcases forall₂_get H.objs o with ⟨ha, hb⟩ | ⟨r0, v0, ha, hb, hr0⟩
  · simp only at ha hb
    simp only [step, vstep, ha, hb, Option.bind]
    exact ⟨H, rfl⟩
  · simp only at ha hb hr0
    cases hr0 with
    | bond h0 h1 =>
      rename_i p0 p1 b
      rcases hd : b.directional with _ | _
      · rw [hd] at ha
        simp only [step, vstep, ha, hb, Option.bind, bondFlip, Bond.flip, hd]
        exact ⟨H, rfl⟩
      · rw [hd] at ha
        simp only [step, vstep, ha, hb, Option.bind, bondFlip, Bond.flip, hd, if_true]
        exact agree_newBond_aux H h1 h0
    | _ =>
      simp only [step, vstep, ha, hb, Option.bind, bondFlip]
      exact ⟨H, rfl⟩

theorem read_bond (H : Rel ⟨h, held, objs⟩ ⟨vh, vo⟩) (o : ℕ) :
    objs[o]?.bind (readBond h) = match vo[o]? with
      | some (.bond b) => some b
      | _ => none := by
  rcases forall₂_get H.objs o with ⟨ha, hb⟩ | ⟨r0, v0, ha, hb, hr0⟩
  · simp only at ha hb
    simp only [ha, hb, Option.bind]
  · simp only at ha hb hr0
    cases v0 with
    | bond b => simp only [ha, hb, Option.bind, readBond_obs hr0]
    | _ =>
      cases hr0
      simp only [ha, hb, Option.bind, readBond]

theorem read_line (H : Rel ⟨h, held, objs⟩ ⟨vh, vo⟩) (o : ℕ) :
    objs[o]?.bind (readLine h) = match vo[o]? with
      | some (.line b) => some b
      | _ => none := by
  rcases forall₂_get H.objs o with ⟨ha, hb⟩ | ⟨r0, v0, ha, hb, hr0⟩
  · simp only at ha hb
    simp only [ha, hb, Option.bind]
  · simp only at ha hb hr0
    cases v0 with
    | line b => simp only [ha, hb, Option.bind, readLine_obs hr0]
    | _ =>
      cases hr0
      simp only [ha, hb, Option.bind, readLine]

theorem read_polygon (H : Rel ⟨h, held, objs⟩ ⟨vh, vo⟩) (o : ℕ) :
    objs[o]?.bind (readPolygon h) = match vo[o]? with
      | some (.polygon b) => some b
      | _ => none := by
  rcases forall₂_get H.objs o with ⟨ha, hb⟩ | ⟨r0, v0, ha, hb, hr0⟩
  · simp only at ha hb
    simp only [ha, hb, Option.bind]
  · simp only at ha hb hr0
    cases v0 with
    | polygon b => simp only [ha, hb, Option.bind, readPolygon_obs hr0]
    | _ =>
      cases hr0
      simp only [ha, hb, Option.bind, readPolygon]

theorem read_pt (H : Rel ⟨h, held, objs⟩ ⟨vh, vo⟩) (s : ℕ) :
    held[s]?.bind (getPt h) = match vh[s]? with
      | some (.pt p) => some p
      | _ => none := by
  rcases forall₂_get H.held s with ⟨ha, hb⟩ | ⟨r0, v0, ha, hb, hr0⟩
  · simp only at ha hb
    simp only [ha, hb, Option.bind]
  · simp only at ha hb hr0
    cases v0 <;> simp only [ha, hb, Option.bind, getPt, hr0]

theorem agree_bondEq (H : Rel ⟨h, held, objs⟩ ⟨vh, vo⟩) (o o' : ℕ) :
    Agree (step zoom prec order ⟨h, held, objs⟩ (.bondEq o o'))
      (vstep zoom prec order ⟨vh, vo⟩ (.bondEq o o')) := by
  simp only [step, vstep, read_bond H]
  rcases vo[o]? with _ | (_ | _ | _ | _) <;> rcases vo[o']? with _ | (_ | _ | _ | _) <;> exact ⟨H, rfl⟩

theorem agree_lineLocation (H : Rel ⟨h, held, objs⟩ ⟨vh, vo⟩) (o s : ℕ) (tol : ℝ) :
    Agree (step zoom prec order ⟨h, held, objs⟩ (.lineLocation o s tol))
      (vstep zoom prec order ⟨vh, vo⟩ (.lineLocation o s tol)) := by
  simp only [step, vstep, read_line H, read_pt H]
  rcases vo[o]? with _ | (_ | _ | _ | _) <;> rcases vh[s]? with _ | (_ | _ | _ | _ | _) <;> exact ⟨H, rfl⟩

theorem agree_polyLocation (H : Rel ⟨h, held, objs⟩ ⟨vh, vo⟩) (o s s' : ℕ) (tol : ℝ) :
    Agree (step zoom prec order ⟨h, held, objs⟩ (.polyLocation o s s' tol))
      (vstep zoom prec order ⟨vh, vo⟩ (.polyLocation o s s' tol)) := by
  simp only [step, vstep, read_polygon H, read_pt H]
  rcases vo[o]? with _ | (_ | _ | g | _) <;> rcases vh[s]? with _ | (_ | p | _ | _ | _) <;>
    rcases vh[s']? with _ | (_ | q | _ | _ | _) <;> try exact ⟨H, rfl⟩
  simp only
  rcases g.locationRelation p q tol with e | l <;> exact ⟨H, rfl⟩

theorem agree_pointsFactory (H : Rel ⟨h, held, objs⟩ ⟨vh, vo⟩) (o : ℕ) (ratios : Option (List ℝ)) :
    Agree (step zoom prec order ⟨h, held, objs⟩ (.pointsFactory o ratios))
      (vstep zoom prec order ⟨vh, vo⟩ (.pointsFactory o ratios)) := by
  rcases forall₂_get H.objs o with ⟨ha, hb⟩ | ⟨r0, v0, ha, hb, hr0⟩
  · simp only at ha hb
    simp only [step, vstep, ha, hb, Option.bind]
    exact ⟨H, rfl⟩
  · simp only at ha hb hr0
    cases v0 with
    | line b =>
      simp only [step, vstep, ha, hb, Option.bind, linePoints, readLine_obs hr0, bind, fresh]
      exact ⟨H.addHeld _, rfl⟩
    | _ =>
      cases hr0
      simp only [step, vstep, ha, hb, Option.bind, linePoints, readLine, bind]
      exact ⟨H, rfl⟩

theorem agree_vertices (H : Rel ⟨h, held, objs⟩ ⟨vh, vo⟩) (o : ℕ) :
    Agree (step zoom prec order ⟨h, held, objs⟩ (.vertices o)) (vstep zoom prec order ⟨vh, vo⟩ (.vertices o)) := by
  rcases forall₂_get H.objs o with ⟨ha, hb⟩ | ⟨r0, v0, ha, hb, hr0⟩
  · simp only at ha hb
    simp only [step, vstep, ha, hb, Option.bind]
    exact ⟨H, rfl⟩
  · simp only at ha hb hr0
    cases hr0 with
    | polygon h0 =>
      simp only [step, vstep, ha, hb, Option.bind, polygonVertices, npCopy_some h0]
      exact ⟨H.addHeld _, rfl⟩
    | _ =>
      simp only [step, vstep, ha, hb, Option.bind, polygonVertices]
      exact ⟨H, rfl⟩

theorem agree_points (H : Rel ⟨h, held, objs⟩ ⟨vh, vo⟩) (o : ℕ) :
    Agree (step zoom prec order ⟨h, held, objs⟩ (.points o)) (vstep zoom prec order ⟨vh, vo⟩ (.points o)) := by
  rcases forall₂_get H.objs o with ⟨ha, hb⟩ | ⟨r0, v0, ha, hb, hr0⟩
  · simp only at ha hb
    simp only [step, vstep, ha, hb, Option.bind]
    exact ⟨H, rfl⟩
  · simp only at ha hb hr0
    cases hr0 with
    | lattice h0 h1 h2 =>
      simp only [step, vstep, ha, hb, Option.bind, latticePoints, npCopy_some h0]
      exact ⟨H.addHeld _, rfl⟩
    | _ =>
      simp only [step, vstep, ha, hb, Option.bind, latticePoints]
      exact ⟨H, rfl⟩

theorem agree_vectors (H : Rel ⟨h, held, objs⟩ ⟨vh, vo⟩) (o : ℕ) :
    Agree (step zoom prec order ⟨h, held, objs⟩ (.vectors o)) (vstep zoom prec order ⟨vh, vo⟩ (.vectors o)) := by
  rcases forall₂_get H.objs o with ⟨ha, hb⟩ | ⟨r0, v0, ha, hb, hr0⟩
  · simp only at ha hb
    simp only [step, vstep, ha, hb, Option.bind]
    exact ⟨H, rfl⟩
  · simp only at ha hb hr0
    cases hr0 with
    | lattice h0 h1 h2 =>
      simp only [step, vstep, ha, hb, Option.bind, latticeVectors, npCopy_some h1]
      exact ⟨H.addHeld _, rfl⟩
    | _ =>
      simp only [step, vstep, ha, hb, Option.bind, latticeVectors]
      exact ⟨H, rfl⟩

theorem agree_bs (H : Rel ⟨h, held, objs⟩ ⟨vh, vo⟩) (o : ℕ) :
    Agree (step zoom prec order ⟨h, held, objs⟩ (.bs o)) (vstep zoom prec order ⟨vh, vo⟩ (.bs o)) := by
  rcases forall₂_get H.objs o with ⟨ha, hb⟩ | ⟨r0, v0, ha, hb, hr0⟩
  · simp only at ha hb
    simp only [step, vstep, ha, hb, Option.bind]
    exact ⟨H, rfl⟩
  · simp only at ha hb hr0
    cases hr0 with
    | lattice h0 h1 h2 =>
      simp only [step, vstep, ha, hb, Option.bind, latticeBs, npCopy_some h2]
      exact ⟨H.addHeld _, rfl⟩
    | _ =>
      simp only [step, vstep, ha, hb, Option.bind, latticeBs]
      exact ⟨H, rfl⟩

theorem agree_getSite (H : Rel ⟨h, held, objs⟩ ⟨vh, vo⟩) (o : ℕ) (i : ℤ) :
    Agree (step zoom prec order ⟨h, held, objs⟩ (.getSite o i))
      (vstep zoom prec order ⟨vh, vo⟩ (.getSite o i)) := by
  rcases forall₂_get H.objs o with ⟨ha, hb⟩ | ⟨r0, v0, ha, hb, hr0⟩
  · simp only at ha hb
    simp only [step, vstep, ha, hb, Option.bind]
    exact ⟨H, rfl⟩
  · simp only at ha hb hr0
    cases v0 with
    | lattice n m k L =>
      simp only [step, vstep, ha, hb, Option.bind, latticeSite, readLattice_obs hr0, bind, fresh]
      rcases Latt.getSite L i with e | p
      · exact ⟨H, rfl⟩
      · exact ⟨H.addHeld _, rfl⟩
    | _ =>
      cases hr0
      simp only [step, vstep, ha, hb, Option.bind, latticeSite, readLattice, bind]
      exact ⟨H, rfl⟩

theorem agree_neighborDistance (H : Rel ⟨h, held, objs⟩ ⟨vh, vo⟩) (o : ℕ) (nth : ℤ) :
    Agree (step zoom prec order ⟨h, held, objs⟩ (.neighborDistance o nth))
      (vstep zoom prec order ⟨vh, vo⟩ (.neighborDistance o nth)) := by
  rcases forall₂_get H.objs o with ⟨ha, hb⟩ | ⟨r0, v0, ha, hb, hr0⟩
  · simp only at ha hb
    simp only [step, vstep, ha, hb, Option.bind]
    exact ⟨H, rfl⟩
  · simp only at ha hb hr0
    cases hr0 with
    | lattice h0 h1 h2 =>
      rename_i n m k p v b L
      simp only [step, vstep, ha, hb, Option.bind, latticeDistance, getMat_some h0, getMat_some h1,
        getMat_some h2, bind]
      obtain ⟨s0, s1, s2⟩ := neighborDistance_same (order k) prec L nth
      refine ⟨⟨H.held, forall₂_set H.objs o (.lattice ?_ ?_ ?_), H.nodup, ?_, H.spin⟩, rfl⟩
      · rw [s0]; exact h0
      · rw [s1]; exact h1
      · rw [s2]; exact h2
      · intro o' ho' r hr
        rcases List.mem_or_eq_of_mem_set ho' with ho' | rfl
        · exact H.sep o' ho' r hr
        · exact H.sep _ (List.mem_of_getElem? ha) r hr
    | _ =>
      simp only [step, vstep, ha, hb, Option.bind, latticeDistance]
      exact ⟨H, rfl⟩

theorem agree_spinMatrix (H : Rel ⟨h, held, objs⟩ ⟨vh, vo⟩) (t : SpinOtype) :
    Agree (step zoom prec order ⟨h, held, objs⟩ (.spinMatrix t))
      (vstep zoom prec order ⟨vh, vo⟩ (.spinMatrix t)) := by
  have := (H.spin t).1
  simp only at this
  simp only [step, vstep, operatorMatrix, npCopy_some this]
  exact ⟨H.addHeld _, rfl⟩

theorem agree_step (H : Rel ⟨h, held, objs⟩ ⟨vh, vo⟩) (op : Op) :
    Agree (step zoom prec order ⟨h, held, objs⟩ op) (vstep zoom prec order ⟨vh, vo⟩ op) := by
  cases op
  · exact agree_array H _
  · exact agree_write H _ _
  · exact agree_look H _
  · exact agree_newBond H _ _ _
  · exact agree_endpoints H _
  · exact agree_getDisplace H _
  · exact agree_flip H _
  · exact agree_bondEq H _ _
  · exact agree_newLine H _ _ _
  · exact agree_pointsFactory H _ _
  · exact agree_lineLocation H _ _ _
  · exact agree_newPolygon H _ _
  · exact agree_vertices H _
  · exact agree_polyLocation H _ _ _ _
  · exact agree_newLattice H _ _
  · exact agree_points H _
  · exact agree_vectors H _
  · exact agree_bs H _
  · exact agree_getSite H _ _
  · exact agree_neighborDistance H _ _
  · exact agree_spinMatrix H _

theorem rel0 : Rel state0 ⟨[], []⟩ :=
  ⟨.nil, .nil, List.nodup_nil, fun _ ho => absurd ho List.not_mem_nil,
    fun t => ⟨by cases t <;> rfl, List.not_mem_nil⟩⟩

theorem agree_trace (ops : List Op) : ∀ {st : State} {vst : VState}, Rel st vst →
    trace zoom prec order st ops = vtrace zoom prec order vst ops := by
  induction ops with
  | nil => intro _ _ _; rfl
  | cons op ops ih =>
    rintro ⟨h, held, objs⟩ ⟨vh, vo⟩ H
    obtain ⟨h1, h2⟩ := agree_step (zoom := zoom) (prec := prec) (order := order) H op
    simp only [trace, vtrace]
    rw [h2, ih h1]

theorem vtrace_append {zoom : ℤ} {prec : ℕ} {order : ∀ k, List (Fin k → ℤ) → List (Fin k → ℤ)} (a b : List Op)
    (st : VState) : vtrace zoom prec order st (a ++ b) = vtrace zoom prec order st a ++
      vtrace zoom prec order (a.foldl (fun s op => (vstep zoom prec order s op).1) st) b := by
  induction a generalizing st with
  | nil => rfl
  | cons op a ih => simp [vtrace, ih]

theorem writes_keep {zoom : ℤ} {prec : ℕ} {order : ∀ k, List (Fin k → ℤ) → List (Fin k → ℤ)} (ws : List Op)
    (hw : ∀ w ∈ ws, w.isWrite) (st : VState) :
    (ws.foldl (fun s op => (vstep zoom prec order s op).1) st).objs = st.objs ∧
    (ws.foldl (fun s op => (vstep zoom prec order s op).1) st).held.length = st.held.length := by
  induction ws generalizing st with
  | nil => exact ⟨rfl, rfl⟩
  | cons w ws ih =>
    have h := hw w (by simp)
    cases w with
    | write s v =>
      obtain ⟨h1, h2⟩ := ih (fun w hm => hw w (by simp [hm])) (vstep zoom prec order st (.write s v)).1
      simp only [List.foldl_cons]
      rw [h1, h2]
      simp only [vstep]
      split <;> simp
    | _ => exact h.elim

/-- An operation on objects adds arrays and changes objects in a way that depends on the objects only. -/
theorem onObjects_step {zoom : ℤ} {prec : ℕ} {order : ∀ k, List (Fin k → ℤ) → List (Fin k → ℤ)} {g : Op}
    (hg : g.onObjects) (objs : List VObj) : ∃ (l : List Val) (objs' : List VObj) (out : Out), ∀ held : List Val,
      vstep zoom prec order ⟨held, objs⟩ g = (⟨held ++ l, objs'⟩, out) := by
  cases g with
  | endpoints o =>
    simp only [vstep]
    split
    · exact ⟨_, _, _, fun _ => rfl⟩
    · exact ⟨[], _, _, fun _ => by simp only [List.append_nil]; rfl⟩
  | getDisplace o =>
    simp only [vstep]
    split
    · split
      · exact ⟨_, _, _, fun _ => rfl⟩
      · exact ⟨[], _, _, fun _ => by simp only [List.append_nil]; rfl⟩
    · exact ⟨[], _, _, fun _ => by simp only [List.append_nil]; rfl⟩
  | flip o =>
    simp only [vstep]
    split
    · split <;> exact ⟨[], _, _, fun _ => by simp only [List.append_nil]; rfl⟩
    · exact ⟨[], _, _, fun _ => by simp only [List.append_nil]; rfl⟩
  | bondEq o o' =>
    simp only [vstep]
    split <;> exact ⟨[], _, _, fun _ => by simp only [List.append_nil]; rfl⟩
  | pointsFactory o r =>
    simp only [vstep]
    split
    · exact ⟨_, _, _, fun _ => rfl⟩
    · exact ⟨[], _, _, fun _ => by simp only [List.append_nil]; rfl⟩
  | vertices o =>
    simp only [vstep]
    split
    · exact ⟨_, _, _, fun _ => rfl⟩
    · exact ⟨[], _, _, fun _ => by simp only [List.append_nil]; rfl⟩
  | points o =>
    simp only [vstep]
    split
    · exact ⟨_, _, _, fun _ => rfl⟩
    · exact ⟨[], _, _, fun _ => by simp only [List.append_nil]; rfl⟩
  | vectors o =>
    simp only [vstep]
    split
    · exact ⟨_, _, _, fun _ => rfl⟩
    · exact ⟨[], _, _, fun _ => by simp only [List.append_nil]; rfl⟩
  | bs o =>
    simp only [vstep]
    split
    · exact ⟨_, _, _, fun _ => rfl⟩
    · exact ⟨[], _, _, fun _ => by simp only [List.append_nil]; rfl⟩
  | getSite o i =>
    simp only [vstep]
    split
    · split
      · exact ⟨_, _, _, fun _ => rfl⟩
      · exact ⟨[], _, _, fun _ => by simp only [List.append_nil]; rfl⟩
    · exact ⟨[], _, _, fun _ => by simp only [List.append_nil]; rfl⟩
  | neighborDistance o i =>
    simp only [vstep]
    split <;> exact ⟨[], _, _, fun _ => by simp only [List.append_nil]; rfl⟩
  | spinMatrix t => exact ⟨_, _, _, fun _ => rfl⟩
  | _ => exact hg.elim

theorem look_out {zoom : ℤ} {prec : ℕ} {order : ∀ k, List (Fin k → ℤ) → List (Fin k → ℤ)} (st : VState) (n : ℕ) :
    (vstep zoom prec order st (.look n)).2 = match st.held[n]? with
      | some v => .contents v
      | none => .bad := by
  simp only [vstep]
  split <;> simp_all

end Verif.Own
