import Verif.Spec.ShowOperator
import Verif.Props.Latex
/-!
# C127: `show` of an operator or a term displays its LaTeX form
-/

namespace Verif

open Spec Show

private theorem shows {close : List TextFig → List TextFig} {latex : Py Txt} (h : ∀ x, latex = .ok x → IsMath x)
    (s : Screen) : ShowsLatex close latex s (showText close latex s) := by
  constructor
  · rintro x rfl
    exact ⟨h x rfl, rfl, rfl, rfl⟩
  · rintro e rfl
    exact ⟨rfl, rfl, rfl⟩

/-- **C127** (one call).  For all operators, terms, arguments and open figures. -/
theorem C127_shows_latex (close : List TextFig → List TextFig) (ft : F64 → Txt) (hft : FloatText ft) (zoom : ℤ) (s : Screen) :
    (∀ (a : AoC) si o, ShowsLatex close (a.tolatex ft zoom si o) s (a.show close ft zoom si o s)) ∧
    (∀ (n : NumberOperator) si o, ShowsLatex close (n.tolatex ft zoom si o) s (n.show close ft zoom si o s)) ∧
    (∀ (x : SpinOperator) si nd, ShowsLatex close (x.tolatex ft si nd) s (x.show close ft si nd s)) ∧
    (∀ (t : ParticleTerm) c tb o, CoeffText c →
      ShowsLatex close (t.tolatex ft zoom c tb o) s (t.show close ft zoom c tb o s)) ∧
    (∀ (t : SpinInteraction) c tb nd, CoeffText c →
      ShowsLatex close (t.tolatex ft c tb nd) s (t.show close ft c tb nd s)) := by
  obtain ⟨h1, h2, h3, h4, h5⟩ := C78_is_math ft hft zoom
  exact ⟨fun a si o => shows (h1 a si o) s, fun n si o => shows (h2 n si o) s, fun x si nd => shows (h3 x si nd) s,
    fun t c tb o hc => shows (fun x => h4 t c tb o x hc) s, fun t c tb nd hc => shows (fun x => h5 t c tb nd x hc) s⟩

/-- **C127** (default arguments).  Without arguments the sites are shown by their coordinates, as `tolatex` does. -/
theorem C127_defaults (close : List TextFig → List TextFig) (ft : F64 → Txt) (zoom : ℤ) (s : Screen) :
    (∀ a : AoC, a.show close ft zoom (s := s) = a.show close ft zoom .none ⟨4, true, true⟩ s) ∧
    (∀ n : NumberOperator, n.show close ft zoom (s := s) = n.show close ft zoom .none ⟨4, true, true⟩ s) ∧
    (∀ x : SpinOperator, x.show close ft (s := s) = x.show close ft .none 4 s) ∧
    (∀ (t : ParticleTerm) c, t.show close ft zoom c (s := s) = t.show close ft zoom c none ⟨4, true, true⟩ s) ∧
    (∀ (t : SpinInteraction) c, t.show close ft c (s := s) = t.show close ft c none 4 s) :=
  ⟨fun _ => rfl, fun _ => rfl, fun _ => rfl, fun _ _ => rfl, fun _ _ => rfl⟩

/-- **C127** (histories).  If displayed windows get closed, then after any calls the displays are, in order, those of the
successful calls, each preceded by one blank figure per failed call since the previous success. -/
theorem C127_history (calls : List ((Screen → Screen × Py Unit) × Py Txt))
    (hc : ∀ c ∈ calls, ∀ s, ShowsLatex (fun _ => []) c.2 s (c.1 s)) :
    runShows (calls.map (·.1)) ⟨[], []⟩ =
      calls.foldl (fun s c => match c.2 with
        | .ok x => ⟨[], s.displays ++ [List.replicate s.figs.length blank ++ [handwritten x]]⟩
        | .error _ => ⟨List.replicate (s.figs.length + 1) blank, s.displays⟩) ⟨[], []⟩ := by
  suffices H : ∀ s : Screen, s.figs = List.replicate s.figs.length blank → runShows (calls.map (·.1)) s =
      calls.foldl (fun s c => match c.2 with
        | .ok x => ⟨[], s.displays ++ [List.replicate s.figs.length blank ++ [handwritten x]]⟩
        | .error _ => ⟨List.replicate (s.figs.length + 1) blank, s.displays⟩) s from H _ rfl
  induction calls with
  | nil => intro s _; rfl
  | cons c cs ih =>
    intro s hs
    have hcs := ih fun c' h' => hc c' (by simp [h'])
    obtain ⟨hok, herr⟩ := hc c (by simp) s
    obtain ⟨f, latex⟩ := c
    simp only [List.map_cons, runShows, List.foldl_cons] at *
    cases latex with
    | ok x =>
      obtain ⟨-, -, h3, h4⟩ := hok x rfl
      dsimp only
      have e : (f s).1 = ⟨[], s.displays ++ [List.replicate s.figs.length blank ++ [handwritten x]]⟩ := by
        cases hf : (f s).1
        rw [hf] at h3 h4
        dsimp only at h3 h4
        rw [h3, h4, ← hs]
      rw [e]
      exact hcs _ rfl
    | error e =>
      obtain ⟨-, h3, h4⟩ := herr e rfl
      dsimp only
      have e : (f s).1 = ⟨List.replicate (s.figs.length + 1) blank, s.displays⟩ := by
        cases hf : (f s).1
        rw [hf] at h3 h4
        dsimp only at h3 h4
        rw [h3, h4, List.replicate_succ', ← hs]
      rw [e]
      exact hcs _ (by simp)

/-- A creation operator that is shown while no figure is open. -/
example : AoC.show (fun _ => []) fracText defaultZoom ⟨.creation, ⟨[.int 0, .int 1], 1, 0, [0, 10000]⟩⟩ (s := ⟨[], []⟩) =
    (⟨[], [[handwritten "$c_{(0,1),\\uparrow}^{\\dagger}$".toList]]⟩, .ok ()) := rfl

/-- The same with an index table that does not contain the site fails, and the next successful call shows a blank figure
as well. -/
example : runShows [AoC.show (fun _ => []) fracText defaultZoom ⟨.creation, ⟨[.int 0, .int 1], 1, 0, [0, 10000]⟩⟩
        (.table ⟨[(.site ⟨[.int 5], [50000]⟩, 0)], [(0, .site ⟨[.int 5], [50000]⟩)], .site, 1⟩),
      AoC.show (fun _ => []) fracText defaultZoom ⟨.creation, ⟨[.int 0, .int 1], 1, 0, [0, 10000]⟩⟩] ⟨[], []⟩ =
    ⟨[], [[blank, handwritten "$c_{(0,1),\\uparrow}^{\\dagger}$".toList]]⟩ := rfl

end Verif
