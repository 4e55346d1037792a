import Verif.Spec.Settings
import Verif.Proofs.Settings
import Mathlib.Tactic
/-!
# C102: what the module settings govern, and for how long
-/

namespace Verif.Sett

open Verif.Latt Verif.LDB

/-- **C102 (setters).** A setter with an allowed argument sets the number of its own module and changes
nothing else; with any other argument it raises AssertionError and changes nothing at all. -/
theorem C102_setters (o : Orders) (w : World) (md : Module) (arg : Option Val) :
    (∀ v, asked md arg = some v →
      (w.step o (.set md arg)).2 = .done ∧ (w.step o (.set md arg)).1.objs = w.objs ∧
      reading (w.step o (.set md arg)).1.settings md = v ∧
      ∀ md', md' ≠ md → reading (w.step o (.set md arg)).1.settings md' = reading w.settings md') ∧
    (asked md arg = none → w.step o (.set md arg) = (w, .error .assertionError)) := by
  have aux : ∀ n : ℤ, 0 ≤ n → (10 : ℝ) ^ n.toNat = 10 ^ n := by
    intro n hn
    conv_rhs => rw [← Int.toNat_of_nonneg hn]
    rw [zpow_natCast]
  constructor
  · intro v hv
    rcases arg with _ | (n | b | x | _ | _)
    · cases Option.some.inj hv
      cases md <;> simp [World.step, Settings.set, checkPrecision, checkThreshold, Except.map, default] <;>
        refine ⟨?_, ?_⟩ <;>
        first
          | (rintro (_ | _ | _ | _ | _) <;> simp [reading])
          | (simp [reading]; try norm_num)
    · cases md <;> simp only [asked] at hv <;> (try simp at hv) <;> obtain ⟨hn, rfl⟩ := hv <;>
        simp [World.step, Settings.set, checkPrecision, Except.map, hn] <;>
        refine ⟨?_, ?_⟩ <;>
        first
          | (rintro (_ | _ | _ | _ | _) <;> simp [reading])
          | (simp [reading, aux n hn])
    · cases md <;> simp only [asked] at hv <;> (try simp at hv) <;> subst hv <;>
        cases b <;> simp [World.step, Settings.set, checkPrecision, Except.map] <;>
        refine ⟨?_, ?_⟩ <;>
        first
          | (rintro (_ | _ | _ | _ | _) <;> simp [reading])
          | (simp [reading])
    · cases md <;> simp only [asked] at hv <;> (try simp at hv) <;> obtain ⟨hn, rfl⟩ := hv <;>
        simp [World.step, Settings.set, checkThreshold, Except.map, hn] <;>
        refine ⟨?_, ?_⟩ <;>
        first
          | (rintro (_ | _ | _ | _ | _) <;> simp [reading])
          | (simp [reading])
    · cases md <;> simp [asked] at hv
    · cases md <;> simp [asked] at hv
  · intro h
    rcases arg with _ | (n | b | x | _ | _)
    · simp [asked] at h
    all_goals
      cases md <;> simp only [asked] at h <;> (try simp at h) <;>
        simp [World.step, Settings.set, checkPrecision, checkThreshold, Except.map, *] <;>
        split_ifs <;> first | rfl | omega | linarith

/-- **C102 (only setters change settings).** -/
theorem C102_only_setters (o : Orders) (w : World) (c : Cmd) (hc : ¬ c.isSet) :
    (w.step o c).1.settings = w.settings := by
  cases c <;> simp only [Cmd.isSet, not_true, not_false_eq_true] at hc <;> simp only [World.step] <;>
    (try unfold World.create) <;> (repeat' split) <;> rfl

theorem reading_step (o : Orders) (w : World) (c : Cmd) (md : Module)
    (hc : ∀ a, c = .set md a → asked md a = none) :
    reading (w.step o c).1.settings md = reading w.settings md := by
  by_cases hs : c.isSet
  · cases c with
    | set md' a =>
      obtain ⟨h1, h2⟩ := C102_setters o w md' a
      cases ha : asked md' a with
      | none => rw [h2 ha]
      | some v =>
        refine (h1 v ha).2.2.2 md fun e => ?_
        subst e
        have := hc a rfl
        rw [this] at ha
        cases ha
    | _ => exact hs.elim
  · rw [C102_only_setters o w c hs]

theorem reading_run (o : Orders) (md : Module) : ∀ (h : List Cmd) (w : World),
    (∀ a, Cmd.set md a ∈ h → asked md a = none) →
    reading (w.run o h).settings md = reading w.settings md
  | [], _, _ => rfl
  | c :: h, w, hc => by
    change reading (((w.step o c).1).run o h).settings md = _
    rw [reading_run o md h _ fun a ha => hc a (List.mem_cons_of_mem _ ha)]
    exact reading_step o w c md fun a e => hc a (e ▸ List.mem_cons_self)

/-- **C102 (which setting is in force).** After any program the setting of a module is what its last
accepted call asked for, or the default if there was none. -/
theorem C102_in_force (o : Orders) (md : Module) :
    (∀ h, (∀ a, Cmd.set md a ∈ h → asked md a = none) →
      reading (World.initial.run o h).settings md = default md) ∧
    ∀ h1 h2 arg v, asked md arg = some v → (∀ a, Cmd.set md a ∈ h2 → asked md a = none) →
      reading (World.initial.run o (h1 ++ .set md arg :: h2)).settings md = v := by
  constructor
  · intro h hh
    rw [reading_run o md h _ hh]
    cases md <;> simp [World.initial, Settings.initial, reading, default]; norm_num
  · intro h1 h2 arg v hv hh
    have e : World.initial.run o (h1 ++ .set md arg :: h2) =
        (((World.initial.run o h1).step o (.set md arg)).1).run o h2 := by
      simp only [World.run, List.foldl_append, List.foldl_cons]
    rw [e, reading_run o md h2 _ hh]
    exact ((C102_setters o _ md arg).1 v hv).2.2.1

/-- **C102 (a command reads one setting only).** Two worlds with the same objects and the same setting of
the module that the command reads: the command answers the same and leaves the same objects. -/
theorem C102_reads_one (o : Orders) (w w' : World) (c : Cmd) (hc : ¬ c.isSet) (ho : w.objs = w'.objs)
    (hr : ∀ md, c.reads = some md → reading w.settings md = reading w'.settings md) :
    (w.step o c).2 = (w'.step o c).2 ∧ (w.step o c).1.objs = (w'.step o c).1.objs := by
  obtain ⟨s, l⟩ := w
  obtain ⟨s', l'⟩ := w'
  cases ho
  have hb : (c.reads = some .bond) → s.bondZoom = s'.bondZoom := fun e => by
    have := hr _ e; simpa [reading] using this
  have hq : (c.reads = some .states) → s.stateZoom = s'.stateZoom := fun e => by
    have := hr _ e; simpa [reading] using this
  have hl : (c.reads = some .lattice) → s.latPrec = s'.latPrec := fun e => by
    have := hr _ e
    exact pow_right_injective₀ (by norm_num : (0 : ℝ) < 10) (by norm_num) this
  have ht : (c.reads = some .rotation) → s.rotZero = s'.rotZero := fun e => hr _ e
  have hk : (c.reads = some .lanczos) → s.lanZero = s'.lanZero := fun e => hr _ e
  cases c <;> simp only [Cmd.isSet, not_true, not_false_eq_true] at hc <;>
    simp only [Cmd.reads, true_implies, reduceCtorEq, false_implies, Option.some.injEq] at hb hq hl ht hk <;>
    simp only [World.step] <;> (try unfold World.create) <;>
    (first | rw [hb] | rw [hq] | rw [hl] | rw [ht] | rw [hk] | skip) <;>
    (repeat' split) <;> simp_all

theorem setters_keep (o : Orders) : ∀ (h : List Cmd) (w : World), (∀ c ∈ h, c.isSet) →
    (w.run o h).objs = w.objs
  | [], _, _ => rfl
  | c :: h, w, hc => by
    change (((w.step o c).1).run o h).objs = _
    rw [setters_keep o h _ fun c' h' => hc c' (List.mem_cons_of_mem _ h')]
    have := hc c List.mem_cons_self
    cases c with
    | set md a =>
      cases ha : asked md a with
      | none => rw [(C102_setters o w md a).2 ha]
      | some v => exact ((C102_setters o w md a).1 v ha).2.1
    | _ => exact this.elim

/-- **C102 (computed distances are kept).** A distance that `neighbor_distance` has returned is returned
again after any changes of the settings. -/
theorem C102_cached_distance (o : Orders) (w : World) (i : ℕ) (nth : ℤ) (d : ℝ)
    (h : (w.step o (.neighborDistance i nth)).2 = .real d) (sets : List Cmd) (hs : ∀ c ∈ sets, c.isSet) :
    ((((w.step o (.neighborDistance i nth)).1).run o sets).step o (.neighborDistance i nth)).2 = .real d := by
  generalize hv : ((w.step o (.neighborDistance i nth)).1).run o sets = v
  have hobj : v.objs = ((w.step o (.neighborDistance i nth)).1).objs := by
    rw [← hv, setters_keep o sets _ hs]
  simp only [World.step] at h hobj ⊢
  rcases hx : w.objs[i]? with _ | (b | s | B)
  · simp [hx] at h
  · simp [hx] at h
  · simp [hx] at h
  · have hi : i < w.objs.length := by
      by_contra hc
      rw [List.getElem?_eq_none (by omega)] at hx
      cases hx
    simp only [hx] at h hobj
    rw [hobj, List.getElem?_set_self hi]
    simp only
    have key : ∀ (p : ℕ) (L : Lat B.n B.m B.k),
        (Latt.neighborDistance (o.order B.k) p L nth).2 = .ok d →
        ∀ p', (Latt.neighborDistance (o.order B.k) p' (Latt.neighborDistance (o.order B.k) p L nth).1 nth).2 =
          .ok d := by
      intro p L hL p'
      unfold Latt.neighborDistance at hL
      by_cases hn : nth < 0
      · rw [if_pos hn] at hL; cases hL
      rw [if_neg hn] at hL
      have e : (Latt.neighborDistance (o.order B.k) p L nth).1.allDist[nth.toNat]? = some d := by
        unfold Latt.neighborDistance
        rw [if_neg hn]
        split at hL
        · rename_i d' h1
          rw [h1]
          cases Except.ok.inj hL
          rfl
        · simp only at hL ⊢
          split at hL
          · rename_i d' h2
            rw [h2]
            cases Except.ok.inj hL
            rfl
          · cases hL
      generalize hL' : (Latt.neighborDistance (o.order B.k) p L nth).1 = L' at e
      unfold Latt.neighborDistance
      rw [if_neg hn, e]
    cases hr : (Latt.neighborDistance (o.order B.k) w.settings.latPrec B.lat nth).2 with
    | error e => rw [hr] at h; cases h
    | ok d' =>
      rw [hr] at h
      cases h
      rw [key _ _ hr]

/-- **C102 (bonds are identified by the setting of their creation).** Flipping a bond twice gives an equal
bond, unless the precision of bond.py was changed in between. -/
theorem C102_mixed_bonds (o : Orders) :
    let h := [Cmd.newBond (.i64 [0]) (.i64 [1]) true]
    let twice := [Cmd.flip 0, Cmd.flip 1]
    ((World.initial.run o (h ++ twice)).step o (.bondEq 0 2)).2 = .bool true ∧
    ((World.initial.run o (h ++ [.set .bond (some (.int 6))] ++ twice)).step o (.bondEq 0 2)).2 =
      .bool false := by
  constructor <;>
    simp [World.run, World.step, World.create, World.initial, Settings.initial, Settings.set, checkPrecision,
      Bond.init, Bond.flip, Bond.eq, NpVec.len, NpVec.zoomTuple, wrap64, pyAssert, Except.map, bind, Except.bind,
      pure, Except.pure, Int.bmod]

/-- **C102 (the precision must be set before a lattice is made).** The lattice with points 0 and 1/3 and
period 1, made at the default precision: `bonds(1)` finds the bond from 0 to 1/3; once the precision is set
to six digits it finds no bond at all. -/
theorem C102_mixed_lattice (o : Orders) (h1 : ∀ k l, (o.order k l).Perm l) (h2 : ∀ N l, (o.porder N l).Perm l)
    (only fold : Bool) :
    let make := Cmd.newLattice 1 1 [![0], ![1 / 3]] ![![1]]
    (∃ inter, ((World.initial.run o [make]).step o (.bonds 0 1 only fold)).2 =
      .bonds 1 [(![0], ![1 / 3])] (some inter)) ∧
    ((World.initial.run o [make, .set .lattice (some (.int 6))]).step o (.bonds 0 1 only fold)).2 =
      .bonds 1 [] (some []) := by
  intro make
  obtain ⟨L, hL⟩ := third_accepted 4 (by norm_num)
  obtain ⟨⟨L', inter, ha⟩, L'', hb⟩ := third_bonds (o.order 1) (h1 1) o.porder h2 L hL only fold
  have hmk : mkLattice 4 [![0], ![1 / 3]] ![![1]] = .ok ⟨thirdPoints.length, 1, 1, L⟩ := by
    change (init 4 thirdPoints.get thirdVectors).map _ = _
    rw [hL]; rfl
  have hw : (World.initial.step o make).1 = ⟨Settings.initial, [.lattice ⟨thirdPoints.length, 1, 1, L⟩]⟩ := by
    simp only [make, World.step, World.create]
    change (match Except.map Obj.lattice (mkLattice 4 [![0], ![1 / 3]] ![![1]]) with
      | .ok x => ((⟨Settings.initial, [] ++ [x]⟩ : World), Out.created)
      | .error e => (World.initial, Out.error e)).1 = _
    rw [hmk]; rfl
  constructor
  · refine ⟨inter, ?_⟩
    have : World.initial.run o [make] = ⟨Settings.initial, [.lattice ⟨thirdPoints.length, 1, 1, L⟩]⟩ := hw
    rw [this]
    simp only [World.step, List.getElem?_cons_zero]
    rw [show Settings.initial.latPrec = 4 from rfl, ha]
  · have : World.initial.run o [make, .set .lattice (some (.int 6))] =
        ⟨{ Settings.initial with latPrec := 6 }, [.lattice ⟨thirdPoints.length, 1, 1, L⟩]⟩ := by
      change ((World.initial.step o make).1.step o (.set .lattice (some (.int 6)))).1 = _
      rw [hw]
      simp [World.step, Settings.set, checkPrecision, Except.map]
    rw [this]
    simp only [World.step, List.getElem?_cons_zero]
    rw [hb]

/-- After two accepted calls and a refused one the precision of bond.py is that of the second; the setters of
the other modules do not matter. -/
example (o : Orders) : reading (World.initial.run o [.set .bond (some (.int 8)), .newSite [.int 3],
    .set .bond (some (.bool true)), .set .bond (some (.int (-1))), .set .lattice (some (.int 7)),
    .set .bond (some (.float 2))]).settings .bond = 10 :=
  (C102_in_force o .bond).2 [.set .bond (some (.int 8)), .newSite [.int 3]] _ (some (.bool true)) 10
    (by simp [asked]) (by simp [asked])

/-- An integer is no threshold, and a negative precision is none. -/
example (o : Orders) (w : World) : w.step o (.set .lanczos (some (.int 0))) = (w, .error .assertionError) ∧
    w.step o (.set .states (some (.int (-3)))) = (w, .error .assertionError) :=
  ⟨(C102_setters o w _ _).2 rfl, (C102_setters o w _ _).2 (by simp [asked])⟩

end Verif.Sett
