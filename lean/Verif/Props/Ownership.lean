import Verif.Proofs.OwnershipStep
/-!
# C100: objects own their data

`trace` is what a program sees when arrays are references and the constructors and accessors copy or do not copy
as the code does (`Verif/Model/Ownership.lean`); `vtrace` is what it would see if every array was a value
(`Verif/Spec/Ownership.lean`).
-/

namespace Verif.Own

/-- **C100 (value semantics).** Every program that makes arrays, assigns into the arrays it holds (its own ones and
those that it received from the library), makes bonds, lines, polygons and lattices from them and calls their
methods sees exactly what it would see if no array was ever shared. -/
theorem C100_value_semantics (zoom : ℤ) (prec : ℕ) (order : ∀ k, List (Fin k → ℤ) → List (Fin k → ℤ))
    (ops : List Op) : trace zoom prec order state0 ops = vtrace zoom prec order ⟨[], []⟩ ops :=
  agree_trace ops rel0

/-- **C100 (assignments do not reach objects).** Run any program, then any assignments into the arrays it holds.
An operation on objects answers as if the assignments had not happened, and so have the arrays which it returns
the same contents (`n` is the number of an array that the program does not hold before). -/
theorem C100_assignments_invisible (zoom : ℤ) (prec : ℕ) (order : ∀ k, List (Fin k → ℤ) → List (Fin k → ℤ))
    (ops ws : List Op) (hw : ∀ w ∈ ws, w.isWrite) (g : Op) (hg : g.onObjects) (n : ℕ)
    (hn : (trace zoom prec order state0 (ops ++ [.look n])).getLast? = some .bad) :
    (trace zoom prec order state0 (ops ++ ws ++ [g])).getLast? =
      (trace zoom prec order state0 (ops ++ [g])).getLast? ∧
    (trace zoom prec order state0 (ops ++ ws ++ [g, .look n])).getLast? =
      (trace zoom prec order state0 (ops ++ [g, .look n])).getLast? := by
  simp only [C100_value_semantics, vtrace_append, List.foldl_append] at hn ⊢
  generalize ops.foldl (fun s op => (vstep zoom prec order s op).1) ⟨[], []⟩ = st at hn ⊢
  obtain ⟨h1, h2⟩ := writes_keep (zoom := zoom) (prec := prec) (order := order) ws hw st
  generalize ws.foldl (fun s op => (vstep zoom prec order s op).1) st = st' at h1 h2 ⊢
  obtain ⟨l, objs', out, hl⟩ := onObjects_step (zoom := zoom) (prec := prec) (order := order) hg st.objs
  have e : vstep zoom prec order st g = (⟨st.held ++ l, objs'⟩, out) := hl st.held
  have e' : vstep zoom prec order st' g = (⟨st'.held ++ l, objs'⟩, out) := by
    have := hl st'.held
    rw [← h1] at this
    exact this
  have hle : st.held.length ≤ n := by
    by_contra hc
    have : st.held[n]? = some (st.held[n]'(by omega)) := List.getElem?_eq_getElem (by omega)
    simp [vtrace, look_out, this] at hn
  have q : (st'.held ++ l)[n]? = (st.held ++ l)[n]? := by
    rw [List.getElem?_append_right (by omega), List.getElem?_append_right hle, h2]
  constructor
  · simp [vtrace, e, e']
  · have : ∀ out' : List Out, ∀ a b : Out, (out' ++ [a, b]).getLast? = some b := by simp
    simp only [vtrace, e, e', this, look_out, q]

/-- A program that makes a bond from two arrays, overwrites both arrays, asks for the endpoints, overwrites the
result, and asks again: it sees the original endpoints twice. -/
example (prec : ℕ) (order : ∀ k, List (Fin k → ℤ) → List (Fin k → ℤ)) :
    trace 10000 prec order state0
      [.array (.vec (.i64 [0, 0])), .array (.vec (.i64 [1, 2])), .newBond 0 1 true,
        .write 0 (.vec (.i64 [7, 7])), .write 1 (.vec (.i64 [8, 8])),
        .endpoints 0, .look 2, .look 3, .write 2 (.vec (.i64 [9, 9])), .endpoints 0, .look 4, .look 2] =
      [.unit, .unit, .unit, .unit, .unit, .unit, .contents (.vec (.i64 [0, 0])), .contents (.vec (.i64 [1, 2])),
        .unit, .unit, .contents (.vec (.i64 [0, 0])), .contents (.vec (.i64 [9, 9]))] := by
  have hb : Bond.init 10000 (.i64 [0, 0]) (.i64 [1, 2]) true =
      .ok ⟨.i64 [0, 0], .i64 [1, 2], true, ([0, 0], [10000, 20000], true)⟩ := by decide
  rw [C100_value_semantics]
  simp [vtrace, vstep, hb]

/-- The hypotheses of the second theorem hold for this program: array 2 does not exist yet. -/
example (prec : ℕ) (order : ∀ k, List (Fin k → ℤ) → List (Fin k → ℤ)) :
    (trace 10000 prec order state0
      ([.array (.vec (.i64 [0, 0])), .array (.vec (.i64 [1, 2])), .newBond 0 1 true] ++ [.look 2])).getLast? =
        some .bad ∧
      Op.isWrite (.write 0 (.vec (.i64 [7, 7]))) ∧ Op.onObjects (.endpoints 0) := by
  have hb : Bond.init 10000 (.i64 [0, 0]) (.i64 [1, 2]) true =
      .ok ⟨.i64 [0, 0], .i64 [1, 2], true, ([0, 0], [10000, 20000], true)⟩ := by decide
  rw [C100_value_semantics]
  refine ⟨?_, trivial, trivial⟩
  simp [vtrace, vstep, hb]

end Verif.Own
