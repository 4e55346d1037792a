import Verif.Spec.RunTimeEnv
/-!
# Lemmas for C62
-/

namespace Verif.RTE

theorem envWrites_ok (h : Host) (hf : ∀ n, h.printFault n = false) :
    ∀ (l : List (Option Stream × Msg)) (w : World),
      (∀ x ∈ l, w.writable (x.1.getD w.stdout) = true) →
      envWrites h w l = ({ w with
        out := w.out ++ l.map (fun x => (x.1.getD w.stdout, x.2)),
        prints := w.prints + l.length }, none) := by
  intro l
  induction l with
  | nil => intro w _; simp [envWrites]
  | cons x l ih =>
    intro w hw
    obtain ⟨s, m⟩ := x
    have h1 : w.writable (s.getD w.stdout) = true := hw (s, m) (by simp)
    have h2 : envWrite h w (s.getD w.stdout) m =
        ({ w with out := w.out ++ [(s.getD w.stdout, m)], prints := w.prints + 1 }, none) := by
      simp only [envWrite, hf, Bool.false_eq_true, if_false, World.write]
      have : ({ w with prints := w.prints + 1 } : World).writable (s.getD w.stdout) = true := h1
      rw [if_pos this]
    simp only [envWrites, h2]
    rw [ih]
    · simp [Nat.add_assoc, Nat.add_comm 1]
    · intro y hy
      exact hw y (by simp [hy])

theorem writable_append (w w' : World) (k : List Bool) (hk : w'.files = w.files ++ k) (s : Stream)
    (hs : w.writable s = true) : w'.writable s = true := by
  cases s with
  | term => rfl
  | user n => rfl
  | file n =>
    simp only [World.writable, hk, beq_iff_eq] at hs ⊢
    rw [List.getElem?_append_left (List.getElem?_eq_some_iff.mp hs).1]
    exact hs

/-- What one execution does. -/
structure Effect (h : Host) (p : Prog) (w w' : World) (r : Option Exc) : Prop where
  files : ∃ k, w'.files = w.files ++ List.replicate k false
  stdout : w'.stdout = w.stdout ∨ ∀ n, w'.stdout ≠ .file n
  restored : AssignsOnlyInside (fun i => (w.objs i).rd) p → w'.stdout = w.stdout
  rd : ∀ j, (w'.objs j).rd = (w.objs j).rd ∧ (w'.objs j).threadsNum = (w.objs j).threadsNum
  objs : ∀ j, ¬ Uses j p → w'.objs j = w.objs j
  result : (∀ n, h.openFault n = false) → r = outcome p
  outPrefix : ∃ l, w'.out = w.out ++ l ∧ (NoAssign p → ∀ x ∈ l,
    x.1 = w.stdout ∨ ∃ n, w.files.length ≤ n ∧ x.1 = .file n)

theorem Effect.writable {h : Host} {p : Prog} {w w' : World} {r : Option Exc}
    (e : Effect h p w w' r) (hw : w.writable w.stdout = true) :
    w'.writable w'.stdout = true := by
  rcases e.stdout with hs | hs
  · obtain ⟨k, hk⟩ := e.files
    rw [hs]
    exact writable_append w w' _ hk _ hw
  · cases hc : w'.stdout with
    | term => rfl
    | user n => rfl
    | file n => exact absurd hc (hs n)

theorem NoAssign.inside {p : Prog} (rd : Nat → Bool) (hp : NoAssign p) :
    AssignsOnlyInside rd p := by
  induction p with
  | skip => trivial
  | print n => trivial
  | raise n => trivial
  | assign s => exact hp.elim
  | seq p q ihp ihq => exact ⟨ihp hp.1, ihq hp.2⟩
  | tryExcept p q ihp ihq => exact ⟨ihp hp.1, ihq hp.2⟩
  | withEnv i b ih => exact Or.inr (ih hp)

theorem AssignsOnlyInside.congr {p : Prog} {a b : Nat → Bool} (hab : ∀ i, a i = b i)
    (hp : AssignsOnlyInside a p) : AssignsOnlyInside b p := by
  have : a = b := funext hab
  rwa [← this]

/-- sequencing two executions -/
theorem Effect.comp {h : Host} {p q pq : Prog} {w w1 w2 : World} {r1 r2 : Option Exc}
    (e1 : Effect h p w w1 r1) (e2 : Effect h q w1 w2 r2)
    (hin : ∀ rd, AssignsOnlyInside rd pq → AssignsOnlyInside rd p ∧ AssignsOnlyInside rd q)
    (huse : ∀ j, Uses j p ∨ Uses j q → Uses j pq)
    (hna : NoAssign pq → NoAssign p ∧ NoAssign q)
    (hout : r1 = outcome p → r2 = outcome q → r2 = outcome pq) :
    Effect h pq w w2 r2 := by
  obtain ⟨k1, hk1⟩ := e1.files
  obtain ⟨k2, hk2⟩ := e2.files
  refine ⟨⟨k1 + k2, ?_⟩, ?_, ?_, ?_, ?_, ?_, ?_⟩
  · rw [hk2, hk1, List.append_assoc, List.replicate_append_replicate]
  · rcases e2.stdout with h2 | h2
    · rw [h2]; exact e1.stdout
    · exact Or.inr h2
  · intro ha
    have h1 := hin _ ha
    rw [e2.restored (h1.2.congr fun i => ((e1.rd i).1).symm), e1.restored h1.1]
  · intro j
    exact ⟨(e2.rd j).1.trans (e1.rd j).1, (e2.rd j).2.trans (e1.rd j).2⟩
  · intro j hj
    rw [e2.objs j (fun hu => hj (huse j (Or.inr hu))), e1.objs j (fun hu => hj (huse j (Or.inl hu)))]
  · intro ho
    exact hout (e1.result ho) (e2.result ho)
  · obtain ⟨l1, h1, n1⟩ := e1.outPrefix
    obtain ⟨l2, h2, n2⟩ := e2.outPrefix
    refine ⟨l1 ++ l2, by rw [h2, h1, List.append_assoc], ?_⟩
    intro hn x hx
    obtain ⟨a, b⟩ := hna hn
    rcases List.mem_append.mp hx with hx | hx
    · exact n1 a x hx
    · rcases n2 b x hx with h | ⟨n, h3, h4⟩
      · rw [e1.restored (a.inside _)] at h
        exact Or.inl h
      · refine Or.inr ⟨n, ?_, h4⟩
        rw [hk1] at h3
        simp at h3
        omega

theorem enter_rd (h : Host) (hf : ∀ n, h.printFault n = false) (w : World) (i : Nat)
    (hrd : (w.objs i).rd = true) (ho : h.openFault w.opens = false) :
    enter h w i =
      ({ w with
          threads := (w.objs i).threadsNum
          opens := w.opens + 1
          files := w.files ++ [true]
          objs := fun j => if j = i then
            { w.objs i with stdout := some w.stdout, fp := some w.files.length } else w.objs j
          stdout := .file w.files.length
          out := w.out ++ [(.file w.files.length, .entering), (.file w.files.length, .rule)]
          prints := w.prints + 2 }, none) := by
  simp only [enter, hrd, if_true, ho, Bool.false_eq_true, if_false, World.setObj]
  rw [envWrites_ok h hf]
  · simp
  · intro x hx
    simp only [List.mem_cons, List.not_mem_nil, or_false] at hx
    rcases hx with rfl | rfl <;> simp [World.writable]

theorem exit_rd (h : Host) (hf : ∀ n, h.printFault n = false) (w : World) (i : Nat) (fp : Nat)
    (saved : Stream) (exc : Option Exc)
    (hrd : (w.objs i).rd = true) (hfp : (w.objs i).fp = some fp)
    (hs : (w.objs i).stdout = some saved) (hw : w.writable w.stdout = true)
    (hwf : w.writable (.file fp) = true) :
    exit h w i exc =
      ({ w with
          threads := h.maxThreads
          stdout := saved
          files := w.files.set fp false
          out := w.out ++ (exitMsgs fp exc).map (fun x => (x.1.getD w.stdout, x.2))
          prints := w.prints + (exitMsgs fp exc).length }, none) := by
  simp only [exit, hrd, if_true, hfp, hs]
  rw [envWrites_ok h hf]
  intro x hx
  have : x.1 = none ∨ x.1 = some (.file fp) := by
    cases exc <;> simp only [exitMsgs, List.mem_cons, List.not_mem_nil, or_false] at hx
    · rcases hx with rfl | rfl | rfl | rfl <;> simp
    · rcases hx with rfl | rfl | rfl | rfl | rfl | rfl | rfl <;> simp
  rcases this with h1 | h1
  · rw [h1]; exact hw
  · rw [h1]; exact hwf

theorem exec_effect (h : Host) (hf : ∀ n, h.printFault n = false) :
    ∀ (p : Prog) (w : World), DistinctNesting p → OwnStreams p → w.writable w.stdout = true →
      Effect h p w (exec h p w).1 (exec h p w).2 := by
  intro p
  induction p with
  | skip =>
    intro w _ _ _
    exact ⟨⟨0, by simp [exec]⟩, Or.inl rfl, fun _ => rfl, fun _ => ⟨rfl, rfl⟩, fun _ _ => rfl,
      fun _ => rfl, ⟨[], by simp [exec], by simp⟩⟩
  | print n =>
    intro w _ _ hw
    have : exec h (.print n) w = ({ w with out := w.out ++ [(w.stdout, .text n)] }, none) := by
      simp [exec, World.write, hw]
    rw [this]
    exact ⟨⟨0, by simp⟩, Or.inl rfl, fun _ => rfl, fun _ => ⟨rfl, rfl⟩, fun _ _ => rfl,
      fun _ => rfl, ⟨_, rfl, by simp⟩⟩
  | raise n =>
    intro w _ _ _
    exact ⟨⟨0, by simp [exec]⟩, Or.inl rfl, fun _ => rfl, fun _ => ⟨rfl, rfl⟩, fun _ _ => rfl,
      fun _ => rfl, ⟨[], by simp [exec], by simp⟩⟩
  | assign s =>
    intro w _ hs _
    exact ⟨⟨0, by simp [exec]⟩, Or.inr hs, fun hc => hc.elim, fun _ => ⟨rfl, rfl⟩, fun _ _ => rfl,
      fun _ => rfl, ⟨[], by simp [exec], by simp⟩⟩
  | seq p q ihp ihq =>
    intro w hd hs hw
    have e1 := ihp w hd.1 hs.1 hw
    cases hr : exec h p w with
    | mk w1 r1 =>
      rw [hr] at e1
      cases r1 with
      | none =>
        have e2 := ihq w1 hd.2 hs.2 (e1.writable hw)
        have : exec h (.seq p q) w = exec h q w1 := by simp [exec, hr]
        rw [this]
        refine e1.comp e2 (fun _ h => h) (fun _ h => h) (fun h => h) ?_
        intro h1 h2
        simp only [outcome, ← h1]
        exact h2
      | some e =>
        have : exec h (.seq p q) w = (w1, some e) := by simp [exec, hr]
        rw [this]
        obtain ⟨a1, a2, a3, a4, a5, a6, a7⟩ := e1
        refine ⟨a1, a2, fun h => a3 h.1, a4, fun j hj => a5 j fun hu => hj (Or.inl hu), ?_, ?_⟩
        · intro ho
          have := a6 ho
          simp only [outcome, ← this]
        · obtain ⟨l, b1, b2⟩ := a7
          exact ⟨l, b1, fun hn => b2 hn.1⟩
  | tryExcept p q ihp ihq =>
    intro w hd hs hw
    have e1 := ihp w hd.1 hs.1 hw
    cases hr : exec h p w with
    | mk w1 r1 =>
      rw [hr] at e1
      cases r1 with
      | some e =>
        have e2 := ihq w1 hd.2 hs.2 (e1.writable hw)
        have : exec h (.tryExcept p q) w = exec h q w1 := by simp [exec, hr]
        rw [this]
        refine e1.comp e2 (fun _ h => h) (fun _ h => h) (fun h => h) ?_
        intro h1 h2
        simp only [outcome, ← h1]
        exact h2
      | none =>
        have : exec h (.tryExcept p q) w = (w1, none) := by simp [exec, hr]
        rw [this]
        obtain ⟨a1, a2, a3, a4, a5, a6, a7⟩ := e1
        refine ⟨a1, a2, fun h => a3 h.1, a4, fun j hj => a5 j fun hu => hj (Or.inl hu), ?_, ?_⟩
        · intro ho
          have := a6 ho
          simp only [outcome, ← this]
        · obtain ⟨l, b1, b2⟩ := a7
          exact ⟨l, b1, fun hn => b2 hn.1⟩
  | withEnv i b ih =>
    intro w hd hs hw
    by_cases hrd : (w.objs i).rd = true
    · cases ho : h.openFault w.opens with
      | true =>
        have he : enter h w i = 
            ({ w with threads := (w.objs i).threadsNum, opens := w.opens + 1 }, some .osError) := by
          simp [enter, hrd, ho]
        have : exec h (.withEnv i b) w = 
            ({ w with threads := (w.objs i).threadsNum, opens := w.opens + 1 }, some .osError) := by
          simp [exec, he]
        rw [this]
        refine ⟨⟨0, by simp⟩, Or.inl rfl, fun _ => rfl, fun _ => ⟨rfl, rfl⟩, fun _ _ => rfl, ?_,
          ⟨[], by simp, by simp⟩⟩
        intro hno
        rw [hno] at ho
        cases ho
      | false =>
        have he := enter_rd h hf w i hrd ho
        cases h1 : enter h w i with
        | mk w1 r1 =>
        rw [h1] at he
        simp only [Prod.mk.injEq] at he
        obtain ⟨hw1, hr1⟩ := he
        subst hr1
        have hw1w : w1.writable w1.stdout = true := by
          rw [hw1]; simp [World.writable]
        have e := ih w1 hd.2 hs hw1w
        cases h2 : exec h b w1 with
        | mk w2 r2 =>
        rw [h2] at e
        simp only at e
        have ob := e.objs i hd.1
        have ho1 : w1.objs i = { w.objs i with stdout := some w.stdout, fp := some w.files.length } := by
          rw [hw1]; simp
        rw [ho1] at ob
        obtain ⟨k, hk⟩ := e.files
        have hf1 : w1.files = w.files ++ [true] := by rw [hw1]
        have hwf : w2.writable (.file w.files.length) = true := by
          simp [World.writable, hk, hf1]
        have hx := exit_rd h hf w2 i w.files.length w.stdout r2 (by rw [ob]; exact hrd)
          (by rw [ob]) (by rw [ob]) (e.writable hw1w) hwf
        have hex : exec h (.withEnv i b) w = ((exit h w2 i r2).1, r2) := by
          simp only [exec, h1, h2]
          rw [hx]
        rw [hex, hx]
        simp only
        refine ⟨⟨k + 1, ?_⟩, Or.inl rfl, fun _ => rfl, ?_, ?_, ?_, ?_⟩
        · simp only [hk, hf1]
          rw [List.append_assoc, List.set_append_right _ _ (by omega)]
          simp [List.replicate_succ]
        · intro j
          refine ⟨(e.rd j).1.trans ?_, (e.rd j).2.trans ?_⟩
          · rw [hw1]; simp only; split
            · rename_i hj; rw [hj]
            · rfl
          · rw [hw1]; simp only; split
            · rename_i hj; rw [hj]
            · rfl
        · intro j hj
          have hji : j ≠ i := fun hh => hj (Or.inl hh)
          simp only
          rw [e.objs j (fun hu => hj (Or.inr hu)), hw1]
          simp [hji]
        · intro hno
          exact e.result hno
        · obtain ⟨l, b1, b2⟩ := e.outPrefix
          have ho1' : w1.out = w.out ++ [(.file w.files.length, .entering),
              (.file w.files.length, .rule)] := by rw [hw1]
          have hs1 : w1.stdout = .file w.files.length := by rw [hw1]
          refine ⟨[(.file w.files.length, .entering), (.file w.files.length, .rule)] ++ l ++
            (exitMsgs w.files.length r2).map (fun x => (x.1.getD w2.stdout, x.2)), ?_, ?_⟩
          · rw [b1, ho1']
            simp [List.append_assoc]
          · intro hn x hx
            right
            have hst : w2.stdout = .file w.files.length := by
              rw [e.restored (NoAssign.inside _ hn), hs1]
            rcases List.mem_append.mp hx with hx | hx
            · rcases List.mem_append.mp hx with hx | hx
              · simp only [List.mem_cons, List.not_mem_nil, or_false] at hx
                rcases hx with rfl | rfl <;> exact ⟨_, Nat.le_refl _, rfl⟩
              · rcases b2 hn x hx with h3 | ⟨n, h3, h4⟩
                · exact ⟨_, Nat.le_refl _, h3.trans hs1⟩
                · refine ⟨n, ?_, h4⟩
                  rw [hf1] at h3
                  simp at h3
                  omega
            · obtain ⟨y, hy, rfl⟩ := List.mem_map.mp hx
              refine ⟨w.files.length, Nat.le_refl _, ?_⟩
              simp only [hst]
              have : y.1 = none ∨ y.1 = some (.file w.files.length) := by
                cases r2 <;> simp only [exitMsgs, List.mem_cons, List.not_mem_nil, or_false] at hy
                · rcases hy with rfl | rfl | rfl | rfl <;> simp
                · rcases hy with rfl | rfl | rfl | rfl | rfl | rfl | rfl <;> simp
              rcases this with h5 | h5 <;> simp [h5]
    · have hrd' : (w.objs i).rd = false := by simpa using hrd
      have he : enter h w i = ({ w with threads := (w.objs i).threadsNum }, none) := by
        simp [enter, hrd']
      have e := ih { w with threads := (w.objs i).threadsNum } hd.2 hs hw
      cases h2 : exec h b { w with threads := (w.objs i).threadsNum } with
      | mk w2 r2 =>
      rw [h2] at e
      simp only at e
      have hx : exit h w2 i r2 = ({ w2 with threads := h.maxThreads }, none) := by
        have := (e.rd i).1
        simp only at this
        simp [exit, this, hrd']
      have hex : exec h (.withEnv i b) w = ({ w2 with threads := h.maxThreads }, r2) := by
        simp only [exec, he, h2, hx]
      rw [hex]
      obtain ⟨a1, a2, a3, a4, a5, a6, a7⟩ := e
      refine ⟨a1, a2, ?_, a4, fun j hj => a5 j fun hu => hj (Or.inr hu), a6, a7⟩
      intro ha
      rcases ha with ha | ha
      · exact absurd ha hrd
      · exact a3 ha

end Verif.RTE
