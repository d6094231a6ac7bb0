import Verif.Spec.SignalManager
import Verif.Lemmas.Map

/-! # Helper lemmas for the signal registry -/

namespace AstroRun

theorem SigMgr.exec_append (m : SigMgr) (p q : List MgrOp) :
    m.exec (p ++ q) = (((m.exec p).1.exec q).1, (m.exec p).2 ++ ((m.exec p).1.exec q).2) := by
  induction p generalizing m with
  | nil => simp [SigMgr.exec]
  | cons o os ih => simp [SigMgr.exec, ih]

theorem jobStatus_snoc (j : JobId) (h : List MgrOp) (o : MgrOp) :
    jobStatus j (h ++ [o]) =
      match o with
      | .start k => if k = j then some false else jobStatus j h
      | .finish k => if k = j then none else jobStatus j h
      | .cancel k => if k = j then (jobStatus j h).map (fun _ => true) else jobStatus j h := by
  cases o <;> simp [jobStatus, jobStatusRev]

/-- Abstraction: what the registry says about job `j`. -/
def SigMgr.status (m : SigMgr) (j : JobId) : Option Bool :=
  (m.getSignal j).bind fun r => (m.heap[r]?).map fun s => s.signal.isSome

/-- References are in range, and different jobs have different references. -/
structure SigMgr.Inv (m : SigMgr) : Prop where
  range : ∀ j r, m.getSignal j = some r → r < m.heap.length
  inj : ∀ j k r, m.getSignal j = some r → m.getSignal k = some r → j = k

theorem SigMgr.inv_init : ({} : SigMgr).Inv := by constructor <;> simp [SigMgr.getSignal]

theorem SigMgr.cancelJob_cases (m : SigMgr) (hm : m.Inv) (j : JobId) :
    (m.getSignal j = none ∧ m.cancelJob j = (m, .error (.error ("Job " ++ j.toStr ++ " not found")))) ∨
    (∃ r s, m.getSignal j = some r ∧ m.heap[r]? = some s ∧ s.signal = none ∧
      m.cancelJob j = ({ m with heap := m.heap.set r { s with signal := some .cancel, waker := none } }, .ok ())) ∨
    (∃ r s v, m.getSignal j = some r ∧ m.heap[r]? = some s ∧ s.signal = some v ∧
      m.cancelJob j = (m, .error (.error "Signal has been cancelled or timeout."))) := by
  cases hg : m.getSignal j with
  | none => left; exact ⟨rfl, by simp [SigMgr.cancelJob, hg]⟩
  | some r =>
    right
    have hr := hm.range j r hg
    obtain ⟨s, hs⟩ : ∃ s, m.heap[r]? = some s := ⟨_, List.getElem?_eq_getElem hr⟩
    cases hsig : s.signal with
    | none =>
      left
      exact ⟨r, s, rfl, hs, hsig, by simp [SigMgr.cancelJob, hg, SigMgr.cancelRef, hs, SigState.set, hsig]⟩
    | some v =>
      right
      refine ⟨r, s, v, rfl, hs, hsig, ?_⟩
      have : m.heap.set r s = m.heap := by
        apply List.ext_getElem?
        intro i
        rw [List.getElem?_set]
        by_cases h : r = i
        · subst h; rw [hs]; simp [hr]
        · simp [h]
      simp [SigMgr.cancelJob, hg, SigMgr.cancelRef, hs, SigState.set, hsig, this]

theorem SigMgr.inv_op (m : SigMgr) (o : MgrOp) (hm : m.Inv) : (m.op o).1.Inv := by
  cases o with
  | start j =>
    constructor
    · intro k r h
      simp only [SigMgr.op, SigMgr.register, SigMgr.getSignal, AMap.get?_insert] at h ⊢
      split at h
      · cases h; simp
      · have := hm.range k r h; simp; omega
    · intro k l r hk hl
      simp only [SigMgr.op, SigMgr.register, SigMgr.getSignal, AMap.get?_insert] at hk hl
      split at hk <;> split at hl
      · simp_all
      · cases hk; have := hm.range _ _ hl; omega
      · cases hl; have := hm.range _ _ hk; omega
      · exact hm.inj _ _ _ hk hl
  | finish j =>
    constructor
    · intro k r h
      simp only [SigMgr.op, SigMgr.unregister, SigMgr.getSignal, AMap.get?_erase] at h ⊢
      split at h
      · cases h
      · exact hm.range k r h
    · intro k l r hk hl
      simp only [SigMgr.op, SigMgr.unregister, SigMgr.getSignal, AMap.get?_erase] at hk hl
      split at hk
      · cases hk
      · split at hl
        · cases hl
        · exact hm.inj _ _ _ hk hl
  | cancel j =>
    have hsame : (m.op (.cancel j)).1.signals = m.signals ∧
        (m.op (.cancel j)).1.heap.length = m.heap.length := by
      rcases m.cancelJob_cases hm j with ⟨_, h⟩ | ⟨r, s, _, _, _, h⟩ | ⟨r, s, v, _, _, _, h⟩ <;>
        simp [SigMgr.op, h]
    constructor
    · intro k r h
      rw [hsame.2]
      simp only [SigMgr.getSignal, hsame.1] at h
      exact hm.range k r h
    · intro k l r hk hl
      simp only [SigMgr.getSignal, hsame.1] at hk hl
      exact hm.inj _ _ _ hk hl

theorem SigMgr.status_op (m : SigMgr) (o : MgrOp) (hm : m.Inv) (j : JobId) :
    (m.op o).1.status j =
      match o with
      | .start k => if k = j then some false else m.status j
      | .finish k => if k = j then none else m.status j
      | .cancel k => if k = j then (m.status j).map (fun _ => true) else m.status j := by
  cases o with
  | start k =>
    simp only [SigMgr.op, SigMgr.register, SigMgr.status, SigMgr.getSignal, AMap.get?_insert]
    by_cases h : k = j
    · simp [h]
    · simp only [h, if_false]
      cases hg : m.signals.get? j with
      | none => simp
      | some r =>
        have := hm.range j r hg
        simp [List.getElem?_append_left this]
  | finish k =>
    simp only [SigMgr.op, SigMgr.unregister, SigMgr.status, SigMgr.getSignal, AMap.get?_erase]
    by_cases h : k = j <;> simp [h]
  | cancel k =>
    rcases m.cancelJob_cases hm k with ⟨hg, h⟩ | ⟨r, s, hg, hs, hn, h⟩ | ⟨r, s, v, hg, hs, hv, h⟩
    · simp only [SigMgr.op, h]
      by_cases hk : k = j
      · subst hk; simp [SigMgr.status, hg]
      · simp [hk]
    · simp only [SigMgr.op, h]
      have hr := hm.range k r hg
      by_cases hk : k = j
      · subst hk
        simp only [SigMgr.getSignal] at hg
        simp [SigMgr.status, SigMgr.getSignal, hg, hs, List.getElem?_set, hr]
      · simp only [hk, if_false, SigMgr.status]
        simp only [SigMgr.getSignal]
        cases hj : m.signals.get? j with
        | none => simp
        | some q =>
          have hne : r ≠ q := by
            rintro rfl
            exact hk (hm.inj _ _ _ hg hj)
          simp [List.getElem?_set, hne]
    · simp only [SigMgr.op, h]
      by_cases hk : k = j
      · subst hk; simp [SigMgr.status, hg, hs, hv]
      · simp [hk]

theorem SigMgr.exec_inv (h : List MgrOp) : (({} : SigMgr).exec h).1.Inv := by
  suffices ∀ m : SigMgr, m.Inv → (m.exec h).1.Inv from this _ SigMgr.inv_init
  induction h with
  | nil => intro m hm; exact hm
  | cons o os ih => intro m hm; exact ih _ (m.inv_op o hm)

theorem SigMgr.exec_status (h : List MgrOp) (j : JobId) :
    (({} : SigMgr).exec h).1.status j = jobStatus j h := by
  obtain ⟨n, hn⟩ : ∃ n, h.length = n := ⟨_, rfl⟩
  induction n generalizing h with
  | zero =>
    have : h = [] := List.length_eq_zero_iff.1 hn
    subst this; rfl
  | succ n ih =>
    rcases List.eq_nil_or_concat h with rfl | ⟨os, o, rfl⟩
    · simp at hn
    · rw [List.concat_eq_append, jobStatus_snoc, SigMgr.exec_append]
      have e : (({} : SigMgr).exec os).1.exec [o] =
          (((({} : SigMgr).exec os).1.op o).1, [((({} : SigMgr).exec os).1.op o).2]) := by
        simp [SigMgr.exec]
      rw [e]
      simp only
      rw [SigMgr.status_op _ _ (SigMgr.exec_inv os), ih os (by simpa using hn)]

end AstroRun
