import Verif.Proofs.HilbertSpace
import Verif.Spec.FockSpace
/-! Helper lemmas about subspace specifiers. -/
namespace Verif
open Spec

theorem mapM_nonnegInt_iff (l : List HVal) (ns : List ℕ) :
    l.mapM HVal.nonnegInt? = some ns ↔ l = ns.map (fun n : ℕ => HVal.int n) := by
  induction l generalizing ns with
  | nil => cases ns <;> simp
  | cons a l ih =>
    have ha : ∀ n : ℕ, a.nonnegInt? = some n ↔ a = .int n := by
      intro n
      cases a <;> simp [HVal.nonnegInt?]
      omega
    cases ns with
    | nil =>
      simp only [List.mapM_cons, List.map_nil]
      cases a.nonnegInt? <;> cases l.mapM HVal.nonnegInt? <;> simp
    | cons n ns =>
      simp only [List.mapM_cons, List.map_cons, List.cons.injEq, ← ha, ← ih]
      cases a.nonnegInt? <;> cases l.mapM HVal.nonnegInt? <;> simp

theorem validStates_iff (v : HVal) (ns : List ℕ) :
    validStates? v = some ns ↔ ns ≠ [] ∧
      (v = .tuple (ns.map (fun n : ℕ => .int n)) ∨ v = .list (ns.map (fun n : ℕ => .int n)) ∨
        v = .set (ns.map (fun n : ℕ => .int n))) := by
  have key : ∀ l : List HVal, (if 0 < l.length then l.mapM HVal.nonnegInt? else none) = some ns ↔
      ns ≠ [] ∧ l = ns.map (fun n : ℕ => HVal.int n) := by
    intro l
    split
    · rename_i h
      rw [mapM_nonnegInt_iff]
      constructor
      · intro hl
        refine ⟨?_, hl⟩
        rintro rfl
        subst hl
        simp at h
      · exact fun h => h.2
    · rename_i h
      have : l = [] := by cases l; rfl; simp at h
      subst this
      simp
  cases v <;> simp [validStates?, HVal.collection?, key]

theorem posInt_iff (v : HVal) (n : ℕ) : v.posInt? = some n ↔ 0 < n ∧ v = .int n := by
  cases v <;> simp [HVal.posInt?]
  omega

theorem sequence_iff (v : HVal) (l : List HVal) :
    v.sequence? = some l ↔ v = .tuple l ∨ v = .list l := by
  cases v <;> simp [HVal.sequence?]

theorem geNum_true_iff (n : ℕ) (v : HVal) :
    geNum n v = .ok true ↔ ∃ p, v.num? = some p ∧ v = numVal p ∧ NumLe p n := by
  cases v <;> simp [geNum, HVal.num?, numVal, NumLe, raise]

theorem num_of_geNum {n : ℕ} {v : HVal} {b : Bool} (h : geNum n v = .ok b) :
    ∃ p, v.num? = some p ∧ v = numVal p := by
  cases v <;> simp_all [geNum, HVal.num?, numVal, raise]

theorem num_numVal (p : HNum) : (numVal p).num? = some p := by cases p <;> rfl

theorem geNum_numVal (n : ℕ) (p : HNum) : ∃ b, geNum n (numVal p) = .ok b ∧ (b = true ↔ NumLe p n) := by
  cases p <;> simp [geNum, numVal, NumLe]

theorem geNum_error {n : ℕ} {v : HVal} {e : PyErr} (h : geNum n v = .error e) :
    e = .typeError ∧ v.num? = none ∧ ∀ m, geNum m v = .error .typeError := by
  cases v <;> simp_all [geNum, HVal.num?, raise]

/-- both functions follow the same branches -/
theorem preprocess_isValid (spec : HVal) :
    (∀ r, preprocess spec = .ok r → isValidSubspaceSpecifier spec = .ok true) ∧
    (∀ e, preprocess spec = .error e →
      (isValidSubspaceSpecifier spec = .ok false ∧ e = .valueError) ∨
      (isValidSubspaceSpecifier spec = .error .typeError ∧ e = .typeError)) := by
  unfold preprocess isValidSubspaceSpecifier
  cases hp : spec.posInt? with
  | some n => simp
  | none =>
    simp only [Option.isSome_none, Bool.false_eq_true, if_false]
    cases hs : spec.sequence? with
    | none => simp [raise]
    | some l =>
      match l with
      | [] => simp [raise]
      | [_] => simp [raise]
      | _ :: _ :: _ :: _ => simp [raise]
      | [states, pNum] =>
        dsimp only
        cases hst : states.posInt? with
        | some n =>
          dsimp only
          have hv : validStates? states = none := by
            obtain ⟨-, rfl⟩ := (posInt_iff _ _).mp hst
            rfl
          rw [hv]
          cases hg : geNum n pNum with
          | error e =>
            obtain ⟨rfl, -, -⟩ := geNum_error hg
            constructor
            · intro r h; cases h
            · intro e h; cases h; exact .inr ⟨rfl, rfl⟩
          | ok b =>
            obtain ⟨p, hnum, -⟩ := num_of_geNum hg
            rw [hnum]
            cases b
            · constructor
              · intro r h; cases h
              · intro e h; cases h; exact .inl ⟨rfl, rfl⟩
            · constructor
              · intro r h; rfl
              · intro e h; cases h
        | none =>
          dsimp only
          cases hv : validStates? states with
          | none =>
            constructor
            · intro r h; cases h
            · intro e h; cases h; exact .inl ⟨rfl, rfl⟩
          | some l =>
            cases hg : geNum l.length pNum with
            | error e =>
              obtain ⟨rfl, -, -⟩ := geNum_error hg
              constructor
              · intro r h
                simp [bind, Except.bind, hg] at h
              · intro e h
                simp [bind, Except.bind, hg] at h
                subst h
                right; simp [bind, Except.bind, hg]
            | ok b =>
              obtain ⟨p, hnum, -⟩ := num_of_geNum hg
              rw [hnum]
              cases b
              · constructor
                · intro r h; simp [bind, Except.bind, hg, raise] at h
                · intro e h; simp [bind, Except.bind, hg, raise] at h
                  subst h; simp [bind, Except.bind, hg]
              · constructor
                · intro r h; simp [bind, Except.bind, hg]
                · intro e h; simp [bind, Except.bind, hg, pure, Except.pure] at h

theorem preprocess_iff (spec : HVal) (r : List ℕ × HNum) :
    preprocess spec = .ok r ↔ Denotes spec r := by
  constructor
  · intro h
    unfold preprocess at h
    cases hp : spec.posInt? with
    | some n =>
      rw [hp] at h
      cases h
      obtain ⟨h0, rfl⟩ := (posInt_iff _ _).mp hp
      exact .count n h0
    | none =>
      rw [hp] at h
      dsimp only at h
      split at h
      · rename_i l states pNum hseq
        rw [sequence_iff] at hseq
        cases hst : states.posInt? with
        | some n =>
          have hv : validStates? states = none := by
            obtain ⟨-, rfl⟩ := (posInt_iff _ _).mp hst
            rfl
          simp only [hst, hv] at h
          cases hg : geNum n pNum with
          | error e => simp [hg, bind, Except.bind, Except.map] at h
          | ok b =>
            cases b
            · simp [hg, bind, Except.bind, Except.map, raise] at h
            · obtain ⟨p, hnum, rfl, hle⟩ := (geNum_true_iff _ _).mp hg
              simp [hg, bind, Except.bind, Except.map, hnum, pure, Except.pure] at h
              subst h
              obtain ⟨h0, rfl⟩ := (posInt_iff _ _).mp hst
              exact .pairCount spec n p h0 hle hseq
        | none =>
          simp only [hst] at h
          cases hv : validStates? states with
          | none => simp [hv, bind, Except.bind, raise] at h
          | some l =>
            cases hg : geNum l.length pNum with
            | error e => simp [hg, hv, bind, Except.bind] at h
            | ok b =>
              cases b
              · simp [hg, hv, bind, Except.bind, raise] at h
              · obtain ⟨p, hnum, rfl, hle⟩ := (geNum_true_iff _ _).mp hg
                simp [hg, hv, bind, Except.bind, hnum, pure, Except.pure] at h
                subst h
                obtain ⟨h0, hc⟩ := (validStates_iff _ _).mp hv
                exact .pairStates spec states l p h0 hc hle hseq
      · cases h
  · intro h
    cases h with
    | count n hn =>
      have : (HVal.int (n : ℤ)).posInt? = some n := (posInt_iff _ _).mpr ⟨hn, rfl⟩
      simp [preprocess, this]
    | pairCount spec n p hn hp hspec =>
      have h1 : (HVal.int (n : ℤ)).posInt? = some n := (posInt_iff _ _).mpr ⟨hn, rfl⟩
      have h2 : spec.sequence? = some [.int n, numVal p] := (sequence_iff _ _).mpr hspec
      have h3 : spec.posInt? = none := by rcases hspec with rfl | rfl <;> rfl
      have h4 : geNum n (numVal p) = .ok true := (geNum_true_iff _ _).mpr ⟨p, num_numVal p, rfl, hp⟩
      simp [preprocess, h3, h2, h1, h4, num_numVal, bind, Except.bind, Except.map, pure, Except.pure]
    | pairStates spec c states p hne hc hp hspec =>
      have h1 : c.posInt? = none := by rcases hc with rfl | rfl | rfl <;> rfl
      have h2 : spec.sequence? = some [c, numVal p] := (sequence_iff _ _).mpr hspec
      have h3 : spec.posInt? = none := by rcases hspec with rfl | rfl <;> rfl
      have h4 : geNum states.length (numVal p) = .ok true :=
        (geNum_true_iff _ _).mpr ⟨p, num_numVal p, rfl, hp⟩
      have h5 : validStates? c = some states := (validStates_iff _ _).mpr ⟨hne, hc⟩
      simp [preprocess, h3, h2, h1, h5, h4, num_numVal, bind, Except.bind, pure, Except.pure]
end Verif
