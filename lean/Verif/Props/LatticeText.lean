import Verif.Proofs.LatticeText
/-!
# C125: what `print(lattice)` shows
-/

namespace Verif.Latt

/-- **C125 (lines).** The text consists of `6 + n + 2 k` lines: the three numbers, in decimal, then, each under its heading and
in order, the points, the translation vectors and the reciprocal vectors, one per line, indented by four blanks. -/
theorem C125_lines (fmt : List ℝ → Txt) (hf : ∀ l, '\n' ∉ fmt l) {n m k : ℕ} (L : Lat n m k) :
    ∃ lines : List Txt, (latticeStr fmt L).splitOn '\n' = lines ∧ lines.length = 6 + n + 2 * k ∧
      lines[0]? = some ("Point Number: ".toList ++ decNat n) ∧
      lines[1]? = some ("Space Dimension: ".toList ++ decNat m) ∧
      lines[2]? = some ("Translation Dimension: ".toList ++ decNat k) ∧
      lines[3]? = some "Points:".toList ∧
      (∀ i : Fin n, lines[4 + (i : ℕ)]? = some ("    ".toList ++ fmt (List.ofFn (L.points i)))) ∧
      lines[4 + n]? = some "Vectors:".toList ∧
      (∀ i : Fin k, lines[5 + n + (i : ℕ)]? = some ("    ".toList ++ fmt (List.ofFn (L.vectors i)))) ∧
      lines[5 + n + k]? = some "Bs:".toList ∧
      ∀ i : Fin k, lines[6 + n + k + (i : ℕ)]? = some ("    ".toList ++ fmt (List.ofFn (L.bs i))) := by
  have hd : ∀ x, '\n' ∉ decNat x := fun x h => by
    have := decNat_isDigit x _ h
    revert this; decide
  have hr : ∀ {q : ℕ} (p : Pt q), '\n' ∉ rowText fmt p := fun p => by
    rw [rowText, List.mem_append, not_or]
    exact ⟨by decide, hf _⟩
  refine ⟨_, rfl, ?_⟩
  rw [latticeStr, show "\n".toList = ['\n'] from rfl, pyJoin_intercalate, List.splitOn_intercalate]
  · obtain ⟨h1, h2, h3, h4, h5⟩ := layout
      ["Point Number: ".toList ++ decNat n, "Space Dimension: ".toList ++ decNat m,
        "Translation Dimension: ".toList ++ decNat k, "Points:".toList]
      (List.ofFn fun i => rowText fmt (L.points i)) (List.ofFn fun i => rowText fmt (L.vectors i))
      (List.ofFn fun i => rowText fmt (L.bs i)) "Vectors:".toList "Bs:".toList rfl
    simp only [List.length_ofFn] at h2 h3 h4 h5
    refine ⟨by simp only [List.length_append, List.length_ofFn, List.length_cons, List.length_nil]; omega, rfl, rfl, rfl, rfl,
      fun i => h1 i _ ?_, h2, fun i => h3 i _ ?_, h4, fun i => h5 i _ ?_⟩ <;>
    · rw [List.getElem?_ofFn, dif_pos i.2]; rfl
  · intro l hl
    simp only [List.mem_append, List.mem_cons, List.not_mem_nil, or_false, List.mem_ofFn] at hl
    rcases hl with ((((((rfl | rfl | rfl | rfl) | ⟨i, rfl⟩) | rfl) | ⟨i, rfl⟩) | rfl) | ⟨i, rfl⟩)
    · rw [List.mem_append, not_or]; exact ⟨by decide, hd _⟩
    · rw [List.mem_append, not_or]; exact ⟨by decide, hd _⟩
    · rw [List.mem_append, not_or]; exact ⟨by decide, hd _⟩
    · decide
    · exact hr _
    · decide
    · exact hr _
    · decide
    · exact hr _
  · simp

/-- **C125 (faithful).** Lattices with the same text have the same numbers of points, dimensions and vectors, and equally
printed points and vectors, in the same order. -/
theorem C125_faithful (fmt : List ℝ → Txt) (hf : ∀ l, '\n' ∉ fmt l) {n m k n' m' k' : ℕ} (L : Lat n m k) (L' : Lat n' m' k')
    (h : latticeStr fmt L = latticeStr fmt L') :
    n = n' ∧ m = m' ∧ k = k' ∧
      (∀ (i : Fin n) (j : Fin n'), (i : ℕ) = j → fmt (List.ofFn (L.points i)) = fmt (List.ofFn (L'.points j))) ∧
      (∀ (i : Fin k) (j : Fin k'), (i : ℕ) = j → fmt (List.ofFn (L.vectors i)) = fmt (List.ofFn (L'.vectors j))) ∧
      ∀ (i : Fin k) (j : Fin k'), (i : ℕ) = j → fmt (List.ofFn (L.bs i)) = fmt (List.ofFn (L'.bs j)) := by
  obtain ⟨l, e, -, a0, a1, a2, -, a4, -, a5, -, a6⟩ := C125_lines fmt hf L
  obtain ⟨l', e', -, b0, b1, b2, -, b4, -, b5, -, b6⟩ := C125_lines fmt hf L'
  rw [h, e'] at e
  subst e
  have hn : n = n' := decNat_inj (List.append_cancel_left (Option.some.inj (a0.symm.trans b0)))
  have hm : m = m' := decNat_inj (List.append_cancel_left (Option.some.inj (a1.symm.trans b1)))
  have hk : k = k' := decNat_inj (List.append_cancel_left (Option.some.inj (a2.symm.trans b2)))
  subst hn hm hk
  refine ⟨rfl, rfl, rfl, fun i j hij => ?_, fun i j hij => ?_, fun i j hij => ?_⟩ <;> obtain rfl := Fin.ext hij
  · exact List.append_cancel_left (Option.some.inj ((a4 i).symm.trans (b4 i)))
  · exact List.append_cancel_left (Option.some.inj ((a5 i).symm.trans (b5 i)))
  · exact List.append_cancel_left (Option.some.inj ((a6 i).symm.trans (b6 i)))

/-! ### The hypotheses are met -/

/-- A chain of two points, with a formatter that shows integers. -/
example : latticeStr (fun l => '[' :: pyJoin ", ".toList (l.map fun x => if x = 0 then ['0'] else if x = 1 then ['1'] else ['2']) ++ [']'])
    (⟨![![0], ![1]], ![![2]], ![![1]], []⟩ : Lat 2 1 1) =
    "Point Number: 2\nSpace Dimension: 1\nTranslation Dimension: 1\nPoints:\n    [0]\n    [1]\nVectors:\n    [2]\nBs:\n    [1]".toList := by
  have h2 : decNat 2 = ['2'] := by decide
  have h1 : decNat 1 = ['1'] := by decide
  simp [latticeStr, rowText, pyJoin, h1, h2]

end Verif.Latt
