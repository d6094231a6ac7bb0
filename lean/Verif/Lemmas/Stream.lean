import Verif.Spec.Stream

/-! # Helper lemmas for streams -/

namespace AstroRun

theorem StreamSys.runActs_append (s : StreamSys) (p q : List StreamAct) :
    s.runActs (p ++ q) = (s.runActs p).bind (·.runActs q) := by
  induction p generalizing s with
  | nil => rfl
  | cons a as ih =>
    simp only [List.cons_append, StreamSys.runActs]
    cases s.step a <;> simp [ih]

theorem StreamSys.run_snoc {acts : List StreamAct} {a : StreamAct} {s : StreamSys}
    (h : StreamRun (acts ++ [a]) s) : ∃ s0, StreamRun acts s0 ∧ s0.step a = some s := by
  unfold StreamRun at h ⊢
  rw [StreamSys.runActs_append] at h
  cases h0 : ({} : StreamSys).runActs acts with
  | none => simp [h0] at h
  | some s0 =>
    refine ⟨s0, rfl, ?_⟩
    simp only [h0, Option.bind_some, StreamSys.runActs] at h
    cases hs : s0.step a with
    | none => simp [hs] at h
    | some s1 => simp [hs] at h; rw [h]

/-- Induction over schedules, from the end. -/
theorem StreamRun.induct {P : List StreamAct → StreamSys → Prop} (h0 : P [] {})
    (hs : ∀ acts a s s', StreamRun acts s → P acts s → s.step a = some s' → P (acts ++ [a]) s')
    {acts s} (h : StreamRun acts s) : P acts s := by
  obtain ⟨n, hn⟩ : ∃ n, acts.length = n := ⟨_, rfl⟩
  induction n generalizing acts s with
  | zero =>
    have : acts = [] := List.length_eq_zero_iff.1 hn
    subst this
    simp [StreamRun, StreamSys.runActs] at h
    exact h ▸ h0
  | succ n ih =>
    rcases List.eq_nil_or_concat acts with rfl | ⟨as, a, rfl⟩
    · simp at hn
    · rw [List.concat_eq_append] at h ⊢
      obtain ⟨s0, h1, h2⟩ := StreamSys.run_snoc h
      exact hs _ _ _ _ h1 (ih h1 (by simpa using hn)) h2

theorem pushed_snoc (acts : List StreamAct) (a : StreamAct) :
    pushed (acts ++ [a]) = pushed acts ++ (match a with | .push l => [l] | _ => []) := by
  cases a <;> simp [pushed]

/-- Everything we need to know about reachable stream systems. -/
structure StreamInv (acts : List StreamAct) (s : StreamSys) : Prop where
  logs : s.st.logs = pushed acts
  idx : s.st.index ≤ s.st.logs.length
  recv : s.received = s.st.logs.take s.st.index
  parked : s.cons = .parked → s.st.index = s.st.logs.length ∧ s.st.result = none ∧ s.st.waker = some 0
  finished : s.cons = .finished → s.st.result.isSome

theorem StreamInv_run {acts s} (h : StreamRun acts s) : StreamInv acts s := by
  refine StreamRun.induct (P := StreamInv) ?_ ?_ h
  · constructor <;> simp [pushed]
  · intro acts a s s' _ ih hs
    obtain ⟨h1, h2, h3, h4, h5⟩ := ih
    cases a with
    | poll =>
      cases hc : s.cons with
      | parked => simp [StreamSys.step, hc] at hs
      | finished => simp [StreamSys.step, hc] at hs
      | runnable =>
        simp only [StreamSys.step, hc, StreamState.poll] at hs
        cases hl : s.st.logs[s.st.index]? with
        | some l =>
          have hlt : s.st.index < s.st.logs.length := by
            rcases Nat.lt_or_ge s.st.index s.st.logs.length with h | h
            · exact h
            · rw [List.getElem?_eq_none h] at hl; cases hl
          simp only [hl, Option.some.injEq] at hs
          subst hs
          constructor
          · simp [pushed_snoc, h1]
          · exact hlt
          · simp [h3, List.take_add_one, hl]
          · simp [hc]
          · simp [hc]
        | none =>
          have hge : s.st.logs.length ≤ s.st.index := List.getElem?_eq_none_iff.1 hl
          simp only [hl] at hs
          cases hr : s.st.result with
          | some r =>
            simp only [hr, Option.isSome_some, if_true, Option.some.injEq] at hs
            subst hs
            constructor <;> simp_all [pushed_snoc]
          | none =>
            simp only [hr, Option.isSome_none, Bool.false_eq_true, if_false, Option.some.injEq] at hs
            subst hs
            constructor <;> simp_all [pushed_snoc]
            omega
    | push l =>
      simp only [StreamSys.step, StreamState.push, Option.some.injEq] at hs
      subst hs
      constructor
      · simp [pushed_snoc, h1]
      · simp; omega
      · simp only [h3]
        rw [List.take_append_of_le_length h2]
      · intro hp
        simp only [ConsStatus.wake] at hp
        split at hp
        · cases hp
        · next hn => exact absurd ⟨hp, (h4 hp).2.2⟩ hn
      · intro hf
        simp only [ConsStatus.wake] at hf
        split at hf
        · cases hf
        · exact h5 hf
    | endCheck r =>
      simp only [StreamSys.step] at hs
      split at hs <;> cases hs <;> constructor <;> simp_all [pushed_snoc]
    | endWrite i =>
      simp only [StreamSys.step, StreamState.endWrite] at hs
      cases hi : s.inFlight[i]? with
      | none => simp [hi] at hs
      | some r =>
        simp only [hi, Option.some.injEq] at hs
        subst hs
        constructor
        · simp [pushed_snoc, h1]
        · simpa using h2
        · simpa using h3
        · intro hp
          simp only [ConsStatus.wake] at hp
          split at hp
          · cases hp
          · next hn => exact absurd ⟨hp, (h4 hp).2.2⟩ hn
        · simp

end AstroRun
