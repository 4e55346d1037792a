import Verif.Props.Show
import Verif.Props.Printed
import Verif.Props.Latex
/-!
# C111 (continued): figures, the colour table and LaTeX texts with the optional arguments left out
-/

namespace Verif

/-- **C111** (`Lattice.show()`).  Without arguments a one- or two-dimensional lattice is drawn once, unmoved, and nothing is
saved (saving would raise, see C104). -/
theorem C111_lattice_show {n m k : ℕ} (lims : List (List (ℝ × ℝ)) → (ℝ × ℝ) × (ℝ × ℝ)) (L : Latt.Lat n m k)
    (name : String) (hm : m = 1 ∨ m = 2) :
    ∃ fig, Show.latticeShow lims L name = (some fig, .ok ()) ∧
      fig.clusters = [(List.finRange n).map fun i => Show.onPaper (L.points i)] ∧ fig.title = name ++ ",scope=0" := by
  obtain ⟨fig, cs, h1, ⟨-, h2, h3⟩, h4, -, h5, -⟩ := Show.C104_lattice_show lims L name 0 le_rfl hm
  refine ⟨fig, h1, ?_, by rw [h5, String.append_assoc]; rfl⟩
  have hl : cs.length = 1 := by
    rw [mul_zero, zero_add, one_pow] at h3
    exact_mod_cast h3
  obtain ⟨c, rfl⟩ := List.length_eq_one_iff.1 hl
  have hc : c = 0 := by
    funext j
    have := (h2 c).1 (List.mem_singleton_self c) j
    simpa using this
  rw [h4, hc, List.map_singleton]
  congr 2
  funext i
  congr 1
  funext a
  simp [Show.translated]

/-- **C111** (`color_demo()`).  Without arguments: no colour and the 256 foreground colours, not indented. -/
theorem C111_color_demo (t : Color.PyText) :
    Color.colorDemo t = .ok ((((none, none) : Option ℕ × Option ℕ) :: (List.range 256).map fun fg => (some fg, none)).flatMap
      (Color.shownLine 0)) := by
  rw [show Color.colorDemo t = Color.colorDemo t false 0 from rfl, Color.C113_color_demo]
  simp [Color.shownPairs]

/-- **C111** (LaTeX).  Without options a site is shown by its coordinates rounded to four digits, and a state by its site and an
arrow for spin down (0) or up (1), a number otherwise; the orbit is not shown. -/
theorem C111_latex (ft : F64 → Txt) (zoom : ℤ) :
    (∀ (s : SiteID) x, s.tolatex ft .none = .ok x → ∃ l, s.site.mapM (fun c => pyRound c 4) = .ok l ∧
      x = "(".toList ++ pyJoin ",".toList (l.map (Coord.text ft)) ++ ")".toList) ∧
    (∀ (s : SpinOperator) x, s.tolatex ft .none = .ok x → ∃ w, s.siteId.tolatex ft .none = .ok w ∧
      x = "$S_{".toList ++ w ++ "}^{".toList ++ [s.otype.char] ++ "}$".toList) ∧
    (∀ (t : SpinInteraction) c x, t.tolatex ft c none = .ok x →
      ∃ L : List Txt, x = "$".toList ++ c ++ L.flatten ++ "$".toList ∧
        List.Forall₂ (fun a (l : Txt) => ∃ w, a.tolatex ft .none = .ok w ∧ l = dropDollar w) t.operators L) ∧
    (∀ (s : StateID) x, s.tolatex ft zoom .none {} = .ok x →
      ∃ id w, SiteID.init zoom s.site = .ok id ∧ id.tolatex ft .none = .ok w ∧
        x = w ++ ",".toList ++
          if s.spin = 0 then "$\\downarrow$".toList else if s.spin = 1 then "$\\uparrow$".toList else decNat s.spin) := by
  refine ⟨fun s x h => ?_, fun s x h => ?_, fun t c x h => ?_, fun s x h => ?_⟩
  · simp only [SiteID.tolatex, bind_ok_iff] at h
    obtain ⟨l, hl, h⟩ := h
    cases h
    exact ⟨l, hl, rfl⟩
  · simp only [SpinOperator.tolatex, bind_ok_iff] at h
    obtain ⟨w, hw, h⟩ := h
    cases h
    exact ⟨w, hw, rfl⟩
  · simp only [SpinInteraction.tolatex, bind_ok_iff] at h
    obtain ⟨L, h1, h⟩ := h
    injection h with h
    refine ⟨L, h.symm, ?_⟩
    rw [mapM_ok_iff] at h1
    refine h1.imp fun a l hal => ?_
    rw [bind_ok_iff] at hal
    obtain ⟨w, hw, hl⟩ := hal
    cases hl
    exact ⟨w, hw, rfl⟩
  · simp only [StateID.tolatex, bind_ok_iff, if_true] at h
    obtain ⟨id, hid, w, hw, h⟩ := h
    cases h
    refine ⟨id, w, hid, hw, ?_⟩
    have : spinText true s.spin =
        if s.spin = 0 then "$\\downarrow$".toList else if s.spin = 1 then "$\\uparrow$".toList else decNat s.spin := by
      unfold spinText
      by_cases h0 : s.spin = 0
      · simp [h0]
      · by_cases h1 : s.spin = 1
        · simp [h1]
        · simp [h0, h1]
    rw [← this]
    rfl

/-- A spin-down state at the origin. -/
example : (⟨[.int 0], 0, 0, [0]⟩ : StateID).tolatex fracText defaultZoom .none {} = .ok "(0),$\\downarrow$".toList := by
  decide +kernel

end Verif
