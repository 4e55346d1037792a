import Verif.Py
import Mathlib.Data.List.Forall2
/-! Helper lemmas about `mapM` in `Except`. -/

namespace Verif

theorem mapM_ok_iff {α β ε : Type _} {f : α → Except ε β} {l : List α} {r : List β} :
    l.mapM f = .ok r ↔ List.Forall₂ (fun a b => f a = .ok b) l r := by
  induction l generalizing r with
  | nil =>
    simp only [List.mapM_nil]
    constructor
    · intro h; cases h; exact .nil
    · intro h; cases h; rfl
  | cons a l ih =>
    simp only [List.mapM_cons]
    constructor
    · intro h
      cases ha : f a with
      | error e => rw [ha] at h; cases h
      | ok b =>
        rw [ha] at h
        cases hl : l.mapM f with
        | error e => rw [hl] at h; cases h
        | ok bs =>
          rw [hl] at h
          cases h
          exact .cons ha (ih.mp hl)
    · intro h
      cases h with
      | cons hab hl =>
        rw [hab, ih.mpr hl]; rfl

theorem forall₂_length {α β : Type _} {R : α → β → Prop} {l : List α} {r : List β}
    (h : List.Forall₂ R l r) : l.length = r.length := by
  induction h with
  | nil => rfl
  | cons _ _ ih => simp [ih]

theorem forall₂_getElem {α β : Type _} {R : α → β → Prop} {l : List α} {r : List β}
    (h : List.Forall₂ R l r) (i : Nat) (hi : i < l.length) :
    R l[i] (r[i]'(forall₂_length h ▸ hi)) := by
  induction h generalizing i with
  | nil => simp at hi
  | cons hab _ ih =>
    cases i with
    | zero => exact hab
    | succ i => simpa using ih i (by simpa using hi)

theorem forall₂_of_getElem {α β : Type _} {R : α → β → Prop} {l : List α} {r : List β}
    (hlen : l.length = r.length)
    (h : ∀ i (hi : i < l.length), R l[i] (r[i]'(hlen ▸ hi))) : List.Forall₂ R l r := by
  induction l generalizing r with
  | nil => cases r with
    | nil => exact .nil
    | cons => simp at hlen
  | cons a l ih => cases r with
    | nil => simp at hlen
    | cons b r =>
      refine .cons (h 0 (by simp)) (ih (by simpa using hlen) ?_)
      intro i hi
      exact h (i + 1) (by simpa using hi)

theorem mapM_ok_length {α β ε : Type _} {f : α → Except ε β} {l : List α} {r : List β}
    (h : l.mapM f = .ok r) : l.length = r.length := forall₂_length (mapM_ok_iff.mp h)

theorem mapM_ok_getElem {α β ε : Type _} {f : α → Except ε β} {l : List α} {r : List β}
    (h : l.mapM f = .ok r) (i : Nat) (hi : i < l.length) :
    f l[i] = .ok (r[i]'(mapM_ok_length h ▸ hi)) := forall₂_getElem (mapM_ok_iff.mp h) i hi

theorem mapM_error_iff {α β ε : Type _} {f : α → Except ε β} {l : List α} {e : ε} :
    l.mapM f = .error e ↔ ∃ pre a post, l = pre ++ a :: post ∧
      (∀ x ∈ pre, ∃ b, f x = .ok b) ∧ f a = .error e := by
  induction l with
  | nil =>
    simp only [List.mapM_nil]
    constructor
    · intro h; cases h
    · rintro ⟨pre, a, post, h, -⟩; simp at h
  | cons x l ih =>
    simp only [List.mapM_cons]
    cases hx : f x with
    | error e' =>
      constructor
      · intro h; cases h; exact ⟨[], x, l, rfl, by simp, hx⟩
      · rintro ⟨pre, a, post, h, hpre, ha⟩
        cases pre with
        | nil =>
          simp only [List.nil_append, List.cons.injEq] at h
          rw [← h.1, hx] at ha
          cases ha; rfl
        | cons p pre =>
          simp only [List.cons_append, List.cons.injEq] at h
          obtain ⟨b, hb⟩ := hpre p (by simp)
          rw [← h.1, hx] at hb; cases hb
    | ok b =>
      have hred : (do let b' ← (Except.ok b : Except ε β); let bs ← l.mapM f; pure (b' :: bs)) =
          Except.error e ↔ l.mapM f = .error e := by
        cases hl : l.mapM f with
        | error e'' => exact Iff.rfl
        | ok bs =>
          constructor
          · intro h; cases h
          · intro h; cases h
      rw [hred, ih]
      constructor
      · rintro ⟨pre, a, post, rfl, hpre, ha⟩
        refine ⟨x :: pre, a, post, rfl, ?_, ha⟩
        intro y hy
        rcases List.mem_cons.mp hy with rfl | hy
        · exact ⟨b, hx⟩
        · exact hpre y hy
      · rintro ⟨pre, a, post, h, hpre, ha⟩
        cases pre with
        | nil =>
          simp only [List.nil_append, List.cons.injEq] at h
          rw [← h.1, hx] at ha; cases ha
        | cons p pre =>
          simp only [List.cons_append, List.cons.injEq] at h
          exact ⟨pre, a, post, h.2, fun y hy => hpre y (by simp [hy]), ha⟩

/-- If every exception of `f` on `l` is the same `e`, `mapM` raises iff some element does. -/
theorem mapM_error_const {α β ε : Type _} {f : α → Except ε β} {l : List α} {e : ε}
    (hf : ∀ x ∈ l, ∀ e', f x = .error e' → e' = e) :
    l.mapM f = .error e ↔ ∃ x ∈ l, f x = .error e := by
  rw [mapM_error_iff]
  constructor
  · rintro ⟨pre, a, post, rfl, -, ha⟩; exact ⟨a, by simp, ha⟩
  · rintro ⟨x, hx, hfx⟩
    induction l with
    | nil => simp at hx
    | cons y l ih =>
      cases hy : f y with
      | error e' =>
        have := hf y (by simp) e' hy
        subst this
        exact ⟨[], y, l, rfl, by simp, hy⟩
      | ok b =>
        rcases List.mem_cons.mp hx with rfl | hx
        · rw [hy] at hfx; cases hfx
        · obtain ⟨pre, a, post, rfl, hpre, ha⟩ :=
            ih (fun z hz => hf z (by simp [hz])) hx
          refine ⟨y :: pre, a, post, rfl, ?_, ha⟩
          intro z hz
          rcases List.mem_cons.mp hz with rfl | hz
          · exact ⟨b, hy⟩
          · exact hpre z hz

theorem bind_ok_iff {α β ε : Type _} {x : Except ε α} {f : α → Except ε β} {b : β} :
    (x >>= f) = .ok b ↔ ∃ a, x = .ok a ∧ f a = .ok b := by
  cases x with
  | error e => constructor
               · intro h; cases h
               · rintro ⟨a, h, -⟩; cases h
  | ok a => constructor
            · intro h; exact ⟨a, rfl, h⟩
            · rintro ⟨a', h, hf⟩; cases h; exact hf

theorem bind_error_iff {α β ε : Type _} {x : Except ε α} {f : α → Except ε β} {e : ε} :
    (x >>= f) = .error e ↔ x = .error e ∨ ∃ a, x = .ok a ∧ f a = .error e := by
  cases x with
  | error e' =>
    constructor
    · intro h; cases h; exact .inl rfl
    · rintro (h | ⟨a, h, -⟩)
      · cases h; rfl
      · cases h
  | ok a =>
    constructor
    · intro h; exact .inr ⟨a, rfl, h⟩
    · rintro (h | ⟨a', h, hf⟩)
      · cases h
      · cases h; exact hf

end Verif
