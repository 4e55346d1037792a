import Verif.Proofs.RunTimeEnv
/-!
# C62: `RunTimeEnv` restores `sys.stdout`, closes its log files and swallows no exception

`exec h p w` runs the user program `p` (any nesting of `with` blocks, exceptions at any point,
`try/except` anywhere) from the interpreter state `w` on the host `h`; it returns the final state
and the escaping exception.
-/

namespace Verif.RTE

/-- **C62.**  For every program whose active objects are distinct, every state with a writable
`sys.stdout`, and every pattern of failing `open` calls (the prints of `RunTimeEnv` itself
succeed): afterwards `sys.stdout` is what it was - even if the body of a redirecting block had
assigned `sys.stdout` - every log file opened on the way is closed and no other file was touched;
and, if no `open` failed, the escaping exception is exactly that of the program with the `with`
lines erased. -/
theorem C62_runtimeenv_restores (h : Host) (hp : ∀ n, h.printFault n = false) (p : Prog)
    (w : World) (hd : DistinctNesting p) (hs : OwnStreams p)
    (hw : w.writable w.stdout = true) :
    (AssignsOnlyInside (fun i => (w.objs i).rd) p → (exec h p w).1.stdout = w.stdout) ∧
    (∃ k, (exec h p w).1.files = w.files ++ List.replicate k false) ∧
    ((∀ n, h.openFault n = false) → (exec h p w).2 = outcome p) := by
  have e := exec_effect h hp p w hd hs hw
  exact ⟨e.restored, e.files, e.result⟩

/-- **C62** (one block, any crash point inside).  A redirecting block whose body is any program: the
exception in flight is passed on, and the log file of this very block (handle number
`w.files.length`) exists and is closed. -/
theorem C62_block_log_closed (h : Host) (hp : ∀ n, h.printFault n = false)
    (ho : ∀ n, h.openFault n = false) (i : Nat) (body : Prog) (w : World)
    (hrd : (w.objs i).rd = true) (hd : DistinctNesting (.withEnv i body)) (hs : OwnStreams body)
    (hw : w.writable w.stdout = true) :
    (exec h (.withEnv i body) w).1.stdout = w.stdout ∧
    (exec h (.withEnv i body) w).2 = outcome body ∧
    (exec h (.withEnv i body) w).1.files[w.files.length]? = some false := by
  have e := exec_effect h hp (.withEnv i body) w hd hs hw
  refine ⟨e.restored (Or.inl hrd), e.result ho, ?_⟩
  have he := enter_rd h hp w i hrd (ho _)
  have hw1w : (enter h w i).1.writable (enter h w i).1.stdout = true := by
    rw [he]; simp [World.writable]
  have e1 := exec_effect h hp body (enter h w i).1 hd.2 hs hw1w
  obtain ⟨k, hk⟩ := e.files
  have : w.files.length < (exec h (.withEnv i body) w).1.files.length := by
    obtain ⟨k1, hk1⟩ := e1.files
    have hlen : (exec h (.withEnv i body) w).1.files.length =
        (exec h body (enter h w i).1).1.files.length := by
      have hob : (exec h body (enter h w i).1).1.objs i =
          { w.objs i with stdout := some w.stdout, fp := some w.files.length } := by
        rw [e1.objs i hd.1, he]; simp
      have hx := exit_rd h hp (exec h body (enter h w i).1).1 i w.files.length w.stdout
        (exec h body (enter h w i).1).2 (by rw [hob]; exact hrd) (by rw [hob]) (by rw [hob])
        (e1.writable hw1w) (by rw [World.writable, hk1, he]; simp)
      have : (exec h (.withEnv i body) w).1 =
          (exit h (exec h body (enter h w i).1).1 i (exec h body (enter h w i).1).2).1 := by
        have h2 : (enter h w i) = ((enter h w i).1, none) := by rw [he]
        have h3 : (exit h (exec h body (enter h w i).1).1 i (exec h body (enter h w i).1).2) =
          ((exit h (exec h body (enter h w i).1).1 i (exec h body (enter h w i).1).2).1, none) := by
          rw [hx]
        simp only [exec]
        rw [h2]
        simp only
        rw [h3]
      rw [this, hx]
      simp
    rw [hlen, hk1, he]
    simp
  rw [hk] at this ⊢
  simp only [List.length_append, List.length_replicate] at this
  rw [List.getElem?_append_right (Nat.le_refl _)]
  simp only [Nat.sub_self]
  rw [List.getElem?_replicate]
  simp
  omega

/-- **C62** (redirection).  While a redirecting block runs a body that does not assign `sys.stdout`,
nothing is written to the previous `sys.stdout` nor to any other stream that existed before:
everything goes to log files opened by this block or by blocks nested in it; and what had been
written before is kept. -/
theorem C62_block_redirects_all_output (h : Host) (hp : ∀ n, h.printFault n = false) (i : Nat)
    (body : Prog) (w : World) (hrd : (w.objs i).rd = true)
    (hd : DistinctNesting (.withEnv i body)) (hn : NoAssign body) (hs : OwnStreams body)
    (hw : w.writable w.stdout = true) :
    ∃ l, (exec h (.withEnv i body) w).1.out = w.out ++ l ∧
      ∀ x ∈ l, ∃ n, w.files.length ≤ n ∧ x.1 = .file n := by
  cases ho : h.openFault w.opens with
  | true =>
    have he : enter h w i =
        ({ w with threads := (w.objs i).threadsNum, opens := w.opens + 1 }, some .osError) := by
      simp [enter, hrd, ho]
    exact ⟨[], by simp [exec, he], by simp⟩
  | false =>
    have e := exec_effect h hp (.withEnv i body) w hd hs hw
    obtain ⟨l, h1, h2⟩ := e.outPrefix
    refine ⟨l, h1, ?_⟩
    intro x hx
    rcases h2 hn x hx with h3 | h3
    · -- output to the old stdout: only possible if it is itself such a file, which it is not
      have he := enter_rd h hp w i hrd ho
      have hw1w : (enter h w i).1.writable (enter h w i).1.stdout = true := by
        rw [he]; simp [World.writable]
      have e1 := exec_effect h hp body (enter h w i).1 hd.2 hs hw1w
      obtain ⟨l1, g1, g2⟩ := e1.outPrefix
      have hob : (exec h body (enter h w i).1).1.objs i =
          { w.objs i with stdout := some w.stdout, fp := some w.files.length } := by
        rw [e1.objs i hd.1, he]; simp
      obtain ⟨k1, hk1⟩ := e1.files
      have hx' := exit_rd h hp (exec h body (enter h w i).1).1 i w.files.length w.stdout
        (exec h body (enter h w i).1).2 (by rw [hob]; exact hrd) (by rw [hob]) (by rw [hob])
        (e1.writable hw1w) (by rw [World.writable, hk1, he]; simp)
      have hstd : (exec h body (enter h w i).1).1.stdout = .file w.files.length := by
        rw [e1.restored (NoAssign.inside _ hn), he]
      have hexec : (exec h (.withEnv i body) w).1 =
          (exit h (exec h body (enter h w i).1).1 i (exec h body (enter h w i).1).2).1 := by
        have h4 : (enter h w i) = ((enter h w i).1, none) := by rw [he]
        have h5 : (exit h (exec h body (enter h w i).1).1 i (exec h body (enter h w i).1).2) =
          ((exit h (exec h body (enter h w i).1).1 i (exec h body (enter h w i).1).2).1, none) := by
          rw [hx']
        simp only [exec]
        rw [h4]
        simp only
        rw [h5]
      rw [hexec, hx'] at h1
      simp only [g1, hstd] at h1
      have hen : (enter h w i).1.out = w.out ++ [(.file w.files.length, .entering),
          (.file w.files.length, .rule)] := by rw [he]
      rw [hen, List.append_assoc, List.append_assoc, List.append_cancel_left_eq] at h1
      rw [← h1] at hx
      rcases List.mem_append.mp hx with hx | hx
      · simp only [List.mem_cons, List.not_mem_nil, or_false] at hx
        rcases hx with rfl | rfl <;> exact ⟨_, Nat.le_refl _, rfl⟩
      · rcases List.mem_append.mp hx with hx | hx
        · rcases g2 hn x hx with h3 | ⟨n, h3, h4⟩
          · rw [he] at h3
            exact ⟨_, Nat.le_refl _, h3⟩
          · rw [he] at h3
            refine ⟨n, ?_, h4⟩
            simp at h3
            omega
        · obtain ⟨y, hy, rfl⟩ := List.mem_map.mp hx
          refine ⟨w.files.length, Nat.le_refl _, ?_⟩
          have : y.1 = none ∨ y.1 = some (.file w.files.length) := by
            cases hr : (exec h body (enter h w i).1).2 <;> rw [hr] at hy <;>
              simp only [exitMsgs, List.mem_cons, List.not_mem_nil, or_false] at hy
            · rcases hy with rfl | rfl | rfl | rfl <;> simp
            · rcases hy with rfl | rfl | rfl | rfl | rfl | rfl | rfl <;> simp
          rcases this with h5 | h5 <;> simp [h5]
    · exact h3

/-- **C62** (construction).  `RunTimeEnv(threads_num=...)` accepts exactly `None` and positive
ints. -/
theorem C62_threads_argument (mx : Nat) (rd : Bool) (a : ThreadsArg) :
    (Obj.init mx rd a = .error .valueError ↔ a = .other ∨ ∃ n, a = .int n ∧ n ≤ 0) ∧
    (∀ o, Obj.init mx rd a = .ok o → o.rd = rd ∧
      (a = .none → o.threadsNum = mx) ∧ (∀ n, a = .int n → (o.threadsNum : Int) = n)) := by
  cases a with
  | none => exact ⟨by simp [Obj.init], by rintro o h; simp [Obj.init] at h; subst h; simp⟩
  | other => exact ⟨by simp [Obj.init], by rintro o h; simp [Obj.init] at h⟩
  | int n =>
    constructor
    · simp only [Obj.init]
      split <;> simp <;> omega
    · intro o h
      simp only [Obj.init] at h
      split at h
      · simp only [Except.ok.injEq] at h
        subst h
        simp
        omega
      · cases h

/-- An object and states used below: object 0 and 1 redirect, nothing was opened yet. -/
def demoWorld : World :=
  { stdout := .term, files := [], out := [], threads := 8,
    objs := fun i => ⟨decide (i < 2), 2, none, none⟩, opens := 0, prints := 0 }

/-- Why the hypotheses are needed (not part of C62): entering an object again while it is active
leaves `sys.stdout` redirected for good; a failing print inside `__exit__` does the same, and
leaves the log open; and the `__exit__` of an inner block lifts the thread limit of the outer
block. -/
theorem C62_hypotheses_needed :
    (exec ⟨8, fun _ => false, fun _ => false⟩ (.withEnv 0 (.withEnv 0 .skip)) demoWorld).1.stdout =
      .file 0 ∧
    (exec ⟨8, fun _ => false, fun n => n == 2⟩ (.withEnv 0 .skip) demoWorld).1.stdout = .file 0 ∧
    (exec ⟨8, fun _ => false, fun n => n == 2⟩ (.withEnv 0 .skip) demoWorld).1.files = [true] ∧
    (exec ⟨8, fun _ => false, fun _ => false⟩
      (.withEnv 2 (.seq (.withEnv 3 .skip) (.raise 0))) demoWorld).1.threads = 8 := by
  decide

/-- Non-vacuity: a nested program with a crash in the inner block, a handler in the outer one, and
an assignment to `sys.stdout` inside; it meets the hypotheses and runs as claimed. -/
example :
    let p : Prog := .withEnv 0 (.seq (.print 1)
      (.seq (.tryExcept (.withEnv 1 (.seq (.assign (.user 5)) (.raise 3))) (.print 2)) (.raise 4)))
    DistinctNesting p ∧ OwnStreams p ∧ AssignsOnlyInside (fun i => (demoWorld.objs i).rd) p ∧
    demoWorld.writable demoWorld.stdout = true ∧
    (exec ⟨8, fun _ => false, fun _ => false⟩ p demoWorld).2 = some (.user 4) ∧
    (exec ⟨8, fun _ => false, fun _ => false⟩ p demoWorld).1.files = [false, false] := by
  simp only [DistinctNesting, OwnStreams, AssignsOnlyInside, Uses]
  refine ⟨by simp, by simp, by simp [demoWorld], rfl, ?_, ?_⟩ <;> decide

end Verif.RTE
