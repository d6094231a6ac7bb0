import Verif.Lemmas.SignalManager

/-!
# Cancellation through the API (C21)
-/

namespace AstroRun

/-- **C21** `cancel_job j`, after any history of job starts, job completions and cancellations of any jobs:
* Ok exactly when `j` is running and was not cancelled since it started;
* the error `Job {j} not found` exactly when `j` is not running;
* the error `Signal has been cancelled or timeout.` exactly when it is running and already cancelled;
* and it changes the status of no other job, nor anything at all when it fails. -/
theorem C21_cancel_semantics (h : List MgrOp) (j : JobId) :
    let m := (({} : SigMgr).exec h).1
    let r := m.cancelJob j
    (r.2 = .ok () ↔ jobStatus j h = some false) ∧
    (r.2 = .error (.error ("Job " ++ j.toStr ++ " not found")) ↔ jobStatus j h = none) ∧
    (r.2 = .error (.error "Signal has been cancelled or timeout.") ↔ jobStatus j h = some true) ∧
    (∀ k, k ≠ j → r.1.status k = m.status k) ∧
    (r.2 ≠ .ok () → r.1 = m) := by
  intro m r
  have hm : m.Inv := SigMgr.exec_inv h
  have hst : m.status j = jobStatus j h := SigMgr.exec_status h j
  have hother : ∀ k, k ≠ j → r.1.status k = m.status k := by
    intro k hk
    have := m.status_op (.cancel j) hm k
    simpa [SigMgr.op, Ne.symm hk] using this
  have hmsg : ("Job " ++ j.toStr ++ " not found") ≠ "Signal has been cancelled or timeout." := by
    intro e
    have := congrArg (fun s => s.toList.head?) e
    simp [String.toList_append] at this
  rcases m.cancelJob_cases hm j with ⟨hg, e⟩ | ⟨q, s, hg, hs, hn, e⟩ | ⟨q, s, v, hg, hs, hv, e⟩
  · have : jobStatus j h = none := by rw [← hst]; simp [SigMgr.status, hg]
    refine ⟨?_, ?_, ?_, hother, ?_⟩ <;> simp [r, e, this, hmsg]
  · have : jobStatus j h = some false := by rw [← hst]; simp [SigMgr.status, hg, hs, hn]
    refine ⟨?_, ?_, ?_, hother, ?_⟩ <;> simp [r, e, this]
  · have : jobStatus j h = some true := by rw [← hst]; simp [SigMgr.status, hg, hs, hv]
    refine ⟨?_, ?_, ?_, hother, ?_⟩ <;> simp [r, e, this, Ne.symm hmsg]

example : jobStatus ⟨"w", "a"⟩ [.start ⟨"w", "a"⟩, .start ⟨"w", "b"⟩, .cancel ⟨"w", "b"⟩] = some false ∧
    jobStatus ⟨"w", "b"⟩ [.start ⟨"w", "a"⟩, .start ⟨"w", "b"⟩, .cancel ⟨"w", "b"⟩] = some true ∧
    jobStatus ⟨"w", "b"⟩ [.start ⟨"w", "b"⟩, .cancel ⟨"w", "b"⟩, .finish ⟨"w", "b"⟩] = none ∧
    (({} : SigMgr).exec [.cancel ⟨"w", "a"⟩, .start ⟨"w", "a"⟩, .cancel ⟨"w", "a"⟩, .cancel ⟨"w", "a"⟩]).2 =
      [some (.error (.error "Job w/a not found")), none, some (.ok ()),
       some (.error (.error "Signal has been cancelled or timeout."))] := by decide

/-- **C21** when `cancel_job` is interrupted between looking the job up and writing the signal (`mid` is what
the rest of the system does in between, including completion or a new start of the same job): the answer is
`Ok` iff the signal object found at lookup time has not been cancelled by the time of the write, and what it
writes is the signal of the run it looked up, never that of another job or of a later run. -/
theorem C21_cancel_interrupted (h mid : List MgrOp) (j : JobId) (r : Nat)
    (hr : (({} : SigMgr).exec h).1.getSignal j = some r) :
    let m := ((({} : SigMgr).exec h).1.exec mid).1
    (∃ s, m.heap[r]? = some s ∧
      ((m.cancelRef r).2 = .ok () ↔ s.signal = none) ∧
      (∀ q, q ≠ r → (m.cancelRef r).1.heap[q]? = m.heap[q]?) ∧
      (∃ s', (m.cancelRef r).1.heap[r]? = some s' ∧ s'.signal.isSome)) ∧
    (∀ k, k ≠ j → m.getSignal k ≠ some r) ∧
    (.start j ∈ mid → m.getSignal j ≠ some r) := by
  -- the heap only grows and stays in range, references of later starts are new
  have key : ∀ (mid : List MgrOp) (m0 : SigMgr), m0.Inv → r < m0.heap.length →
      (∀ k, k ≠ j → m0.getSignal k ≠ some r) →
      r < (m0.exec mid).1.heap.length ∧
      (∀ k, k ≠ j → (m0.exec mid).1.getSignal k ≠ some r) ∧
      ((.start j ∈ mid ∨ m0.getSignal j ≠ some r) → (m0.exec mid).1.getSignal j ≠ some r) := by
    intro mid
    induction mid with
    | nil => intro m0 _ hlt hk; exact ⟨hlt, hk, by simp [SigMgr.exec]⟩
    | cons o os ih =>
      intro m0 hm0 hlt hk
      have hinv := m0.inv_op o hm0
      have hlen : r < (m0.op o).1.heap.length := by
        cases o with
        | start k => simp [SigMgr.op, SigMgr.register]; omega
        | finish k => simpa [SigMgr.op, SigMgr.unregister] using hlt
        | cancel k =>
          rcases m0.cancelJob_cases hm0 k with ⟨_, h⟩ | ⟨q, s, _, _, _, h⟩ | ⟨q, s, v, _, _, _, h⟩ <;>
            simpa [SigMgr.op, h] using hlt
      have hget : ∀ l, (m0.op o).1.getSignal l = some r →
          m0.getSignal l = some r ∧ o ≠ .start l := by
        intro l hl
        cases o with
        | start k =>
          simp only [SigMgr.op, SigMgr.register, SigMgr.getSignal, AMap.get?_insert] at hl
          split at hl
          · cases hl; omega
          · next hne => exact ⟨hl, by simpa using hne⟩
        | finish k =>
          simp only [SigMgr.op, SigMgr.unregister, SigMgr.getSignal, AMap.get?_erase] at hl
          split at hl
          · cases hl
          · exact ⟨hl, by simp⟩
        | cancel k =>
          have hsame : (m0.op (.cancel k)).1.signals = m0.signals := by
            rcases m0.cancelJob_cases hm0 k with ⟨_, h⟩ | ⟨q, s, _, _, _, h⟩ | ⟨q, s, v, _, _, _, h⟩ <;>
              simp [SigMgr.op, h]
          simp only [SigMgr.getSignal, hsame] at hl
          exact ⟨hl, by simp⟩
      obtain ⟨a, b, c⟩ := ih (m0.op o).1 hinv hlen (fun k hkj hc => hk k hkj (hget k hc).1)
      refine ⟨a, b, fun hor => c ?_⟩
      rcases hor with hmem | hne
      · rcases List.mem_cons.1 hmem with he | hmem
        · right; intro hc; exact (hget j hc).2 he.symm
        · left; exact hmem
      · right; intro hc; exact hne (hget j hc).1
  intro m
  have hm0 := SigMgr.exec_inv h
  obtain ⟨hlt, hk, hst⟩ := key mid _ hm0 (hm0.range j r hr)
    (fun k hkj hc => hkj (hm0.inj _ _ _ hc hr))
  have hlt' : r < m.heap.length := hlt
  obtain ⟨s, hs⟩ : ∃ s, m.heap[r]? = some s := ⟨_, List.getElem?_eq_getElem hlt'⟩
  refine ⟨⟨s, hs, ?_, ?_, ?_⟩, hk, fun hmem => hst (Or.inl hmem)⟩
  · simp only [SigMgr.cancelRef, hs]
    cases hsig : s.signal <;> simp [SigState.set, hsig]
  · intro q hq
    simp only [SigMgr.cancelRef, hs]
    rw [List.getElem?_set]
    simp [Ne.symm hq]
  · refine ⟨(s.set .cancel).state, ?_, ?_⟩
    · simp only [SigMgr.cancelRef, hs]
      rw [List.getElem?_set]; simp [hlt']
    · cases hsig : s.signal <;> simp [SigState.set, hsig]

example : (({} : SigMgr).exec [.start ⟨"w", "a"⟩, .start ⟨"w", "b"⟩]).1.getSignal ⟨"w", "b"⟩ = some 1 := by
  decide

end AstroRun
