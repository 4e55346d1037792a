import Verif.Model.Ownership
import Verif.Proofs.Lattice
/-! Lemmas about programs with references. -/

namespace Verif.Own

open Verif.Latt (Lat)

/-- The arrays an object refers to. -/
def refs : Obj → List Ref
  | .bond p0 p1 _ _ => [p0, p1]
  | .line p0 p1 dr _ _ => [p0, p1, dr]
  | .polygon r => [r]
  | .lattice _ _ _ p v b _ => [p, v, b]

/-- The object has this value in this heap. -/
inductive Obs (h : Heap) : Obj → VObj → Prop
  | bond {p0 p1 : Ref} {b : Bond} : h[p0]? = some (.vec b.p0) → h[p1]? = some (.vec b.p1) →
      Obs h (.bond p0 p1 b.directional b.tupleForm) (.bond b)
  | line {p0 p1 dr : Ref} {l : Line2D} : h[p0]? = some (.pt l.p0) → h[p1]? = some (.pt l.p1) →
      h[dr]? = some (.pt l.dr) → Obs h (.line p0 p1 dr l.isHorizontal l.isVertical) (.line l)
  | polygon {r : Ref} {g : Polygon} : h[r]? = some (.pts g.vertices) → Obs h (.polygon r) (.polygon g)
  | lattice {n m k : ℕ} {p v b : Ref} {L : Lat n m k} : h[p]? = some (.mat n m L.points) →
      h[v]? = some (.mat k m L.vectors) → h[b]? = some (.mat k m L.bs) →
      Obs h (.lattice n m k p v b L.allDist) (.lattice n m k L)

theorem Obs.lt {h : Heap} {o : Obj} {x : VObj} (H : Obs h o x) : ∀ r ∈ refs o, r < h.length := by
  have key : ∀ {r : Ref} {v : Val}, h[r]? = some v → r < h.length := fun e => (List.getElem?_eq_some_iff.mp e).1
  cases H <;> simp only [refs, List.mem_cons, List.not_mem_nil, or_false] <;> intro r hr
  · rcases hr with rfl | rfl <;> exact key ‹_›
  · rcases hr with rfl | rfl | rfl <;> exact key ‹_›
  · subst hr; exact key ‹_›
  · rcases hr with rfl | rfl | rfl <;> exact key ‹_›

/-- Only the arrays of the object matter. -/
theorem Obs.congr {h h' : Heap} {o : Obj} {x : VObj} (H : Obs h o x)
    (e : ∀ r ∈ refs o, h'[r]? = h[r]?) : Obs h' o x := by
  cases H <;> simp only [refs, List.mem_cons, List.not_mem_nil, or_false, forall_eq_or_imp, forall_eq] at e
  · exact .bond (by rw [e.1]; assumption) (by rw [e.2]; assumption)
  · exact .line (by rw [e.1]; assumption) (by rw [e.2.1]; assumption) (by rw [e.2.2]; assumption)
  · exact .polygon (by rw [e]; assumption)
  · exact .lattice (by rw [e.1]; assumption) (by rw [e.2.1]; assumption) (by rw [e.2.2]; assumption)

/-- The program with references and the program with values agree. -/
structure Rel (st : State) (vst : VState) : Prop where
  held : List.Forall₂ (fun r v => st.heap[r]? = some v) st.held vst.held
  objs : List.Forall₂ (Obs st.heap) st.objs vst.objs
  nodup : st.held.Nodup
  sep : ∀ o ∈ st.objs, ∀ r ∈ refs o, r ∉ st.held
  spin : ∀ t, st.heap[spinRef t]? = some (.smat (Verif.spinMatrix t)) ∧ spinRef t ∉ st.held

theorem forall₂_get {α β : Type*} {R : α → β → Prop} {l : List α} {l' : List β} (H : List.Forall₂ R l l') (i : ℕ) :
    (l[i]? = none ∧ l'[i]? = none) ∨ ∃ a b, l[i]? = some a ∧ l'[i]? = some b ∧ R a b := by
  induction H generalizing i with
  | nil => left; simp
  | cons h _ ih =>
    cases i with
    | zero => right; exact ⟨_, _, rfl, rfl, h⟩
    | succ i => simpa using ih i

theorem forall₂_append {α β : Type*} {R : α → β → Prop} {l m : List α} {l' m' : List β}
    (H : List.Forall₂ R l l') (H' : List.Forall₂ R m m') : List.Forall₂ R (l ++ m) (l' ++ m') := by
  induction H with
  | nil => exact H'
  | cons h _ ih => exact .cons h ih

theorem forall₂_set {α β : Type*} {R : α → β → Prop} {l : List α} {l' : List β}
    (H : List.Forall₂ R l l') (i : ℕ) {a : α} {b : β} (h : R a b) : List.Forall₂ R (l.set i a) (l'.set i b) := by
  induction H generalizing i with
  | nil => exact .nil
  | cons h' t ih =>
    cases i with
    | zero => exact .cons h t
    | succ i => exact .cons h' (ih i)

theorem forall₂_mem {α β : Type*} {R : α → β → Prop} {l : List α} {l' : List β}
    (H : List.Forall₂ R l l') {a : α} (ha : a ∈ l) : ∃ b, R a b := by
  induction H with
  | nil => cases ha
  | cons h _ ih =>
    rcases List.mem_cons.mp ha with rfl | ha
    · exact ⟨_, h⟩
    · exact ih ha

theorem forall₂_imp_mem {α β : Type*} {R S : α → β → Prop} {l : List α} {l' : List β}
    (H : List.Forall₂ R l l') (hi : ∀ a b, a ∈ l → R a b → S a b) : List.Forall₂ S l l' := by
  induction H with
  | nil => exact .nil
  | cons h _ ih => exact .cons (hi _ _ (by simp) h) (ih fun a b ha => hi a b (by simp [ha]))

theorem app_get {h e : Heap} {r : Ref} {v : Val} (hr : h[r]? = some v) : (h ++ e)[r]? = some v := by
  have : r < h.length := (List.getElem?_eq_some_iff.mp hr).1
  rw [List.getElem?_append_left this, hr]

theorem get_lt {h : Heap} {r : Ref} {v : Val} (hr : h[r]? = some v) : r < h.length :=
  (List.getElem?_eq_some_iff.mp hr).1

variable {h : Heap} {held : List Ref} {objs : List Obj} {vh : List Val} {vo : List VObj}

theorem Rel.held_lt (H : Rel ⟨h, held, objs⟩ ⟨vh, vo⟩) {r : Ref} (hr : r ∈ held) : r < h.length :=
  let ⟨_, e⟩ := forall₂_mem H.held hr
  get_lt e

theorem Rel.obj_lt (H : Rel ⟨h, held, objs⟩ ⟨vh, vo⟩) {o : Obj} (ho : o ∈ objs) : ∀ r ∈ refs o, r < h.length :=
  let ⟨_, e⟩ := forall₂_mem H.objs ho
  e.lt

/-- Allocation changes nothing. -/
theorem Rel.extend (H : Rel ⟨h, held, objs⟩ ⟨vh, vo⟩) (e : Heap) : Rel ⟨h ++ e, held, objs⟩ ⟨vh, vo⟩ := by
  refine ⟨?_, ?_, H.nodup, H.sep, fun t => ⟨app_get (H.spin t).1, (H.spin t).2⟩⟩
  · exact H.held.imp fun _ _ hr => app_get hr
  · exact H.objs.imp fun o x ho => ho.congr fun r hr => List.getElem?_append_left (ho.lt r hr)

/-- The program receives a new array. -/
theorem Rel.addHeld (H : Rel ⟨h, held, objs⟩ ⟨vh, vo⟩) (v : Val) :
    Rel ⟨h ++ [v], held ++ [h.length], objs⟩ ⟨vh ++ [v], vo⟩ := by
  have H' := H.extend [v]
  refine ⟨forall₂_append H'.held (.cons ?_ .nil), H'.objs, ?_, ?_, fun t => ⟨(H'.spin t).1, ?_⟩⟩
  · simp
  · refine List.nodup_append.mpr ⟨H.nodup, by simp, fun a ha b hb e => ?_⟩
    have := H.held_lt ha
    rw [e, List.mem_singleton.mp hb] at this
    exact Nat.lt_irrefl _ this
  · intro o ho r hr hc
    rcases List.mem_append.mp hc with hc | hc
    · exact H.sep o ho r hr hc
    · have := H.obj_lt ho r hr
      rw [List.mem_singleton.mp hc] at this
      exact Nat.lt_irrefl _ this
  · intro hc
    rcases List.mem_append.mp hc with hc | hc
    · exact (H.spin t).2 hc
    · have := get_lt (H.spin t).1
      rw [List.mem_singleton.mp hc] at this
      exact Nat.lt_irrefl _ this

/-- The program receives an object that refers to new arrays. -/
theorem Rel.addObj (H : Rel ⟨h, held, objs⟩ ⟨vh, vo⟩) (e : Heap) {o : Obj} {x : VObj}
    (ho : Obs (h ++ e) o x) (hn : ∀ r ∈ refs o, h.length ≤ r) :
    Rel ⟨h ++ e, held, objs ++ [o]⟩ ⟨vh, vo ++ [x]⟩ := by
  have H' := H.extend e
  refine ⟨H'.held, forall₂_append H'.objs (.cons ho .nil), H'.nodup, ?_, H'.spin⟩
  intro o' ho' r hr hc
  rcases List.mem_append.mp ho' with ho' | ho'
  · exact H.sep o' ho' r hr hc
  · rw [List.mem_singleton.mp ho'] at hr
    exact Nat.lt_irrefl _ (Nat.lt_of_le_of_lt (hn r hr) (H.held_lt hc))

theorem forall₂_set_heap {h : Heap} {l : List Ref} {lv : List Val} {s : ℕ} {r : Ref} {v : Val}
    (H : List.Forall₂ (fun r v => h[r]? = some v) l lv) (hd : l.Nodup) (hs : l[s]? = some r) :
    List.Forall₂ (fun r' v' => (h.set r v)[r']? = some v') l (lv.set s v) := by
  induction H generalizing s with
  | nil => simp at hs
  | @cons a b l lv ha t ih =>
    have hd' := List.nodup_cons.mp hd
    cases s with
    | zero =>
      simp only [List.getElem?_cons_zero, Option.some.injEq] at hs
      subst hs
      refine .cons ?_ ?_
      · simp [get_lt ha]
      · refine forall₂_imp_mem t fun a' b' hm hv => ?_
        rw [List.getElem?_set_ne (fun e => hd'.1 (by rw [e]; exact hm)), hv]
    | succ s =>
      have hs' : l[s]? = some r := by simpa using hs
      refine .cons ?_ (ih hd'.2 hs')
      rw [List.getElem?_set_ne (fun e => hd'.1 (by rw [← e]; exact List.mem_of_getElem? hs')), ha]

/-- The program changes the contents of an array. -/
theorem Rel.write (H : Rel ⟨h, held, objs⟩ ⟨vh, vo⟩) {s : ℕ} {r : Ref} (hs : held[s]? = some r) (v : Val) :
    Rel ⟨h.set r v, held, objs⟩ ⟨vh.set s v, vo⟩ := by
  have hr : r ∈ held := List.mem_of_getElem? hs
  refine ⟨forall₂_set_heap H.held H.nodup hs, ?_, H.nodup, H.sep, fun t => ⟨?_, (H.spin t).2⟩⟩
  · refine forall₂_imp_mem H.objs fun o x hm ho => ?_
    exact ho.congr fun r' hr' => List.getElem?_set_ne fun e => H.sep o hm r' hr' (by rw [← e]; exact hr)
  · show (h.set r v)[spinRef t]? = _
    rw [List.getElem?_set_ne fun e => (H.spin t).2 (by rw [← e]; exact hr), (H.spin t).1]

theorem bond_init_ok {zoom : ℤ} {a b : NpVec} {d : Bool} {x : Bond} (h : Bond.init zoom a b d = .ok x) :
    x.p0 = a ∧ x.p1 = b := by
  unfold Bond.init at h
  rcases h1 : pyAssert (decide (a.len = 1 ∨ a.len = 2 ∨ a.len = 3)) with e | u <;> rw [h1] at h
  · cases h
  rcases h2 : pyAssert (decide (b.len = a.len)) with e | u' <;> rw [h2] at h
  · cases h
  rcases h3 : a.zoomTuple zoom with e | t0 <;> rw [h3] at h
  · cases h
  rcases h4 : b.zoomTuple zoom with e | t1 <;> rw [h4] at h
  · cases h
  cases h
  exact ⟨rfl, rfl⟩

theorem line_init_ok {p q : ℝ × ℝ} {tol : ℝ} {l : Line2D} (h : Line2D.init p q tol = .ok l) :
    l.p0 = p ∧ l.p1 = q := by
  unfold Line2D.init at h
  dsimp only at h
  split at h
  · cases h
  · cases h
    exact ⟨rfl, rfl⟩

theorem polygon_init_ok {l : List (ℝ × ℝ)} {tol : ℝ} {g : Polygon} (h : Polygon.init l tol = .ok g) :
    g.vertices = l := by
  unfold Polygon.init at h
  split at h
  · cases h
  · split at h
    · cases h
    · cases h
      rfl

theorem lattice_init_ok {prec n m k m' : ℕ} {p : Fin n → Fin m → ℝ} {v : Fin k → Fin m' → ℝ} {L : Lat n m k}
    (h : Latt.init prec p v = .ok L) : L.points = p ∧ Val.mat k m' v = Val.mat k m L.vectors := by
  unfold Latt.init at h
  split at h
  · cases h
  · split at h
    · cases h
    · split at h
      · rename_i e
        subst e
        have := Latt.initSame_ok h
        exact ⟨this.2.1, by rw [this.1]⟩
      · cases h

theorem neighborDistance_same {n m k : ℕ} (order : List (Fin k → ℤ) → List (Fin k → ℤ)) (prec : ℕ) (L : Lat n m k)
    (nth : ℤ) : (Latt.neighborDistance order prec L nth).1.points = L.points ∧
      (Latt.neighborDistance order prec L nth).1.vectors = L.vectors ∧
      (Latt.neighborDistance order prec L nth).1.bs = L.bs := by
  unfold Latt.neighborDistance
  split
  · exact ⟨rfl, rfl, rfl⟩
  · split
    · exact ⟨rfl, rfl, rfl⟩
    · dsimp only
      split <;> exact ⟨rfl, rfl, rfl⟩

theorem get_last (h : Heap) (v : Val) : (h ++ [v])[h.length]? = some v := by simp

theorem npCopy_some {h : Heap} {r : Ref} {v : Val} (e : h[r]? = some v) : npCopy h r = some (h ++ [v], h.length) := by
  simp [npCopy, e]

theorem getVec_iff {h : Heap} {r : Ref} {a : NpVec} : getVec h r = some a ↔ h[r]? = some (.vec a) := by
  unfold getVec
  split
  · rename_i b e
    rw [e]
    simp
  · rename_i e
    simp only [reduceCtorEq, false_iff]
    exact fun hc => e _ hc

theorem getPt_iff {h : Heap} {r : Ref} {a : ℝ × ℝ} : getPt h r = some a ↔ h[r]? = some (.pt a) := by
  unfold getPt
  split
  · rename_i b e
    rw [e]
    simp
  · rename_i e
    simp only [reduceCtorEq, false_iff]
    exact fun hc => e _ hc

theorem getPts_iff {h : Heap} {r : Ref} {a : List (ℝ × ℝ)} : getPts h r = some a ↔ h[r]? = some (.pts a) := by
  unfold getPts
  split
  · rename_i b e
    rw [e]
    simp
  · rename_i e
    simp only [reduceCtorEq, false_iff]
    exact fun hc => e _ hc

theorem getMat_some {h : Heap} {r : Ref} {n m : ℕ} {f : Fin n → Fin m → ℝ} (e : h[r]? = some (.mat n m f)) :
    getMat h r n m = some f := by
  simp [getMat, e]

theorem readBond_obs {h : Heap} {o : Obj} {b : Bond} (H : Obs h o (.bond b)) : readBond h o = some b := by
  cases H with
  | bond h0 h1 => simp [readBond, getVec_iff.mpr h0, getVec_iff.mpr h1]

theorem readLine_obs {h : Heap} {o : Obj} {l : Line2D} (H : Obs h o (.line l)) : readLine h o = some l := by
  cases H with
  | line h0 h1 h2 => simp [readLine, getPt_iff.mpr h0, getPt_iff.mpr h1, getPt_iff.mpr h2]

theorem readPolygon_obs {h : Heap} {o : Obj} {g : Polygon} (H : Obs h o (.polygon g)) :
    readPolygon h o = some g := by
  cases H with
  | polygon h0 => simp [readPolygon, getPts_iff.mpr h0]

theorem readLattice_obs {h : Heap} {o : Obj} {n m k : ℕ} {L : Lat n m k} (H : Obs h o (.lattice n m k L)) :
    readLattice h o = some ⟨n, m, k, L⟩ := by
  cases H with
  | lattice h0 h1 h2 => simp [readLattice, getMat_some h0, getMat_some h1, getMat_some h2]

theorem bondInit_eq {zoom : ℤ} {h : Heap} {r0 r1 : Ref} {a b : NpVec} {d : Bool}
    (h0 : h[r0]? = some (.vec a)) (h1 : h[r1]? = some (.vec b)) :
    bondInit zoom h r0 r1 d = some (h ++ [.vec a, .vec b], match Bond.init zoom a b d with
      | .error e => .error e
      | .ok x => .ok (.bond h.length (h.length + 1) x.directional x.tupleForm)) := by
  have e1 : (h ++ [Val.vec a])[r1]? = some (.vec b) := app_get h1
  have g0 : getVec (h ++ [Val.vec a] ++ [Val.vec b]) h.length = some a :=
    getVec_iff.mpr (app_get (get_last _ _))
  have g1 : getVec (h ++ [Val.vec a] ++ [Val.vec b]) (h ++ [Val.vec a]).length = some b :=
    getVec_iff.mpr (get_last _ _)
  have hh : h ++ [Val.vec a, Val.vec b] = h ++ [Val.vec a] ++ [Val.vec b] := by simp
  have hl : (h ++ [Val.vec a]).length = h.length + 1 := by simp
  simp only [bondInit, npCopy_some h0, npCopy_some e1, bind, Option.bind, g0, g1]
  rw [hh]
  cases Bond.init zoom a b d <;> simp [hl]

theorem bondInit_none {zoom : ℤ} {h : Heap} {r0 r1 : Ref} {v w : Val} {d : Bool}
    (h0 : h[r0]? = some v) (h1 : h[r1]? = some w) (hn : ∀ a b, v = .vec a → w = .vec b → False) :
    bondInit zoom h r0 r1 d = none := by
  have e1 : (h ++ [v])[r1]? = some w := app_get h1
  have g0 : (h ++ [v] ++ [w])[h.length]? = some v := app_get (get_last _ _)
  have g1 : (h ++ [v] ++ [w])[(h ++ [v]).length]? = some w := get_last _ _
  simp only [bondInit, npCopy_some h0, npCopy_some e1, bind, Option.bind]
  rcases ha : getVec (h ++ [v] ++ [w]) h.length with _ | a
  · rfl
  · rcases hb : getVec (h ++ [v] ++ [w]) (h ++ [v]).length with _ | b
    · simp only [hb]
    · exact (hn a b (Option.some.inj (g0.symm.trans (getVec_iff.mp ha)))
        (Option.some.inj (g1.symm.trans (getVec_iff.mp hb)))).elim

theorem lineInit_eq {h : Heap} {r0 r1 : Ref} {a b : ℝ × ℝ} {tol : ℝ}
    (h0 : h[r0]? = some (.pt a)) (h1 : h[r1]? = some (.pt b)) :
    lineInit h r0 r1 tol = some (match Line2D.init a b tol with
      | .error e => (h ++ [.pt a, .pt b], .error e)
      | .ok x => (h ++ [.pt a, .pt b, .pt x.dr],
        .ok (.line h.length (h.length + 1) (h.length + 2) x.isHorizontal x.isVertical))) := by
  have e1 : (h ++ [Val.pt a])[r1]? = some (.pt b) := app_get h1
  have g0 : getPt (h ++ [Val.pt a] ++ [Val.pt b]) h.length = some a :=
    getPt_iff.mpr (app_get (get_last _ _))
  have g1 : getPt (h ++ [Val.pt a] ++ [Val.pt b]) (h ++ [Val.pt a]).length = some b :=
    getPt_iff.mpr (get_last _ _)
  simp only [lineInit, npCopy_some h0, npCopy_some e1, bind, Option.bind, g0, g1]
  cases Line2D.init a b tol <;> simp [fresh]

theorem lineInit_none {h : Heap} {r0 r1 : Ref} {v w : Val} {tol : ℝ}
    (h0 : h[r0]? = some v) (h1 : h[r1]? = some w) (hn : ∀ a b, v = .pt a → w = .pt b → False) :
    lineInit h r0 r1 tol = none := by
  have e1 : (h ++ [v])[r1]? = some w := app_get h1
  have g0 : (h ++ [v] ++ [w])[h.length]? = some v := app_get (get_last _ _)
  have g1 : (h ++ [v] ++ [w])[(h ++ [v]).length]? = some w := get_last _ _
  simp only [lineInit, npCopy_some h0, npCopy_some e1, bind, Option.bind]
  rcases ha : getPt (h ++ [v] ++ [w]) h.length with _ | a
  · rfl
  · rcases hb : getPt (h ++ [v] ++ [w]) (h ++ [v]).length with _ | b
    · simp only [hb]
    · exact (hn a b (Option.some.inj (g0.symm.trans (getPt_iff.mp ha)))
        (Option.some.inj (g1.symm.trans (getPt_iff.mp hb)))).elim

theorem polygonInit_eq {h : Heap} {r : Ref} {l : List (ℝ × ℝ)} {tol : ℝ} (h0 : h[r]? = some (.pts l)) :
    polygonInit h r tol = some (h ++ [.pts l], match Polygon.init l tol with
      | .error e => .error e
      | .ok _ => .ok (.polygon h.length)) := by
  have g0 : getPts (h ++ [Val.pts l]) h.length = some l := getPts_iff.mpr (get_last _ _)
  simp only [polygonInit, npCopy_some h0, bind, Option.bind, g0]
  cases Polygon.init l tol <;> rfl

theorem polygonInit_none {h : Heap} {r : Ref} {v : Val} {tol : ℝ} (h0 : h[r]? = some v)
    (hn : ∀ a, v = .pts a → False) : polygonInit h r tol = none := by
  simp only [polygonInit, npCopy_some h0, bind, Option.bind]
  rcases ha : getPts (h ++ [v]) h.length with _ | a
  · rfl
  · exact (hn a (Option.some.inj ((get_last h v).symm.trans (getPts_iff.mp ha)))).elim

end Verif.Own
