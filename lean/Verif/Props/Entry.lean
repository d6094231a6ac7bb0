import Verif.Spec.Entry
import Verif.Lemmas.Run

/-! # C66: the entrypoint file -/

namespace AstroRun
open AstroRun.Spec

theorem strBytes_append (a b : String) : strBytes (a ++ b) = strBytes a ++ strBytes b := by
  simp [strBytes]

theorem entryBuffers_flatten (s : String) : (entryBuffers s).flatten = strBytes (entrypointText s) := by
  rw [entryBuffers, entrypointText]
  split
  · rename_i h
    rw [List.isPrefixOf_iff_prefix] at h
    obtain ⟨t, ht⟩ := h
    rw [← ht]
    simp
  · rename_i h
    split
    · rename_i t ht
      rw [ht] at h
      simp at h
    · rw [strBytes_append]
      simp

/-- The bytes of the `write_all` calls still to be handed over. -/
def EntryPc.todo : EntryPc → List UInt8
  | .writing bufs => bufs.flatten
  | _ => []

/-- What holds at every moment. -/
structure EntryInv (script : String) (before : Option (List UInt8)) (acts : List EntryAct) (m : EntryFile) : Prop where
  script_eq : m.script = script
  opening : m.pc = .opening → m.inflight = none ∧ m.failed = false ∧ m.disk = before
  nonempty : ∀ bs, m.inflight = some bs → bs ≠ []
  failed : m.failed = true → EntryAct.bgFail ∈ acts ∧ m.inflight = none
  good : ((∃ bufs, m.pc = .writing bufs) ∨ m.pc = .returned true) →
    ∃ d, m.disk = some d ∧ d <+: strBytes (entrypointText script) ∧
      (m.failed = false → d ++ m.inflight.getD [] ++ m.pc.todo = strBytes (entrypointText script))
  bad : m.pc = .returned false → m.inflight = none ∧
    ((EntryAct.openErr ∈ acts ∧ m.disk = before) ∨
     (EntryAct.bgFail ∈ acts ∧ ∃ d, m.disk = some d ∧ d <+: strBytes (entrypointText script)))

theorem entry_inv {script : String} {before : Option (List UInt8)} {acts : List EntryAct} {m : EntryFile}
    (h : EntryReach script before acts m) : EntryInv script before acts m := by
  refine runs_induct (P := EntryInv script before) ?_ ?_ h
  · constructor <;> simp [EntryFile.initial]
  · intro as a s s' _ hi hs
    cases a <;> simp only [EntryFile.step] at hs
    case openOk =>
      split at hs <;> simp only [Option.some.injEq, reduceCtorEq] at hs
      rename_i hp; subst hs
      obtain ⟨h1, h2, h3⟩ := hi.opening hp
      refine ⟨hi.script_eq, by simp, hi.nonempty, by simp [h2], fun _ => ⟨[], rfl, by simp, fun _ => ?_⟩, by simp⟩
      simp [h1, EntryPc.todo, hi.script_eq, entryBuffers_flatten]
    case openErr =>
      split at hs <;> simp only [Option.some.injEq, reduceCtorEq] at hs
      rename_i hp; subst hs
      obtain ⟨h1, h2, h3⟩ := hi.opening hp
      exact ⟨hi.script_eq, by simp, hi.nonempty, by simp [h2], by simp, fun _ => ⟨h1, .inl ⟨by simp, h3⟩⟩⟩
    case poll =>
      split at hs
      · rename_i hp
        simp only [Option.some.injEq] at hs; subst hs
        obtain ⟨d, g1, g2, g3⟩ := hi.good (.inl ⟨_, hp⟩)
        refine ⟨hi.script_eq, by simp, hi.nonempty, fun hf => ?_, fun _ => ⟨d, g1, g2, ?_⟩, by simp⟩
        · exact ⟨by simp [(hi.failed hf).1], (hi.failed hf).2⟩
        · simpa [hp, EntryPc.todo] using g3
      · rename_i rest hp
        simp only [Option.some.injEq] at hs; subst hs
        obtain ⟨d, g1, g2, g3⟩ := hi.good (.inl ⟨_, hp⟩)
        refine ⟨hi.script_eq, by simp, hi.nonempty, fun hf => ?_, fun _ => ⟨d, g1, g2, ?_⟩, by simp⟩
        · exact ⟨by simp [(hi.failed hf).1], (hi.failed hf).2⟩
        · simpa [hp, EntryPc.todo] using g3
      · rename_i buf rest hne hp
        obtain ⟨d, g1, g2, g3⟩ := hi.good (.inl ⟨_, hp⟩)
        split at hs
        · simp at hs
        · rename_i hfl
          have hnone : s.inflight = none := by simpa using hfl
          split at hs <;> simp only [Option.some.injEq] at hs <;> subst hs
          · rename_i hf
            exact ⟨hi.script_eq, by simp, hi.nonempty, by simp, by simp,
              fun _ => ⟨hnone, .inr ⟨by simp [(hi.failed hf).1], d, g1, g2⟩⟩⟩
          · rename_i hf
            have hf' : s.failed = false := by simpa using hf
            refine ⟨hi.script_eq, by simp, ?_, by simp [hf'], fun _ => ⟨d, g1, g2, fun _ => ?_⟩, by simp⟩
            · intro bs hbs
              simp only [Option.some.injEq] at hbs
              subst hbs
              have : buf ≠ [] := by
                rintro rfl
                exact hne rfl
              simp [maxBufSize, this]
            · have := g3 hf'
              simp only [hnone, hp, EntryPc.todo, Option.getD_none, List.append_nil, List.flatten_cons] at this
              simp only [EntryPc.todo, Option.getD_some, List.flatten_cons, ← this, List.append_assoc]
              rw [← List.append_assoc (buf.take _), List.take_append_drop]
      · simp at hs
    case bgWrite n =>
      split at hs
      · rename_i bs hb
        split at hs <;> simp only [Option.some.injEq, reduceCtorEq] at hs
        subst hs
        have hfd : s.failed = false := by
          cases hf : s.failed with
          | false => rfl
          | true => have := (hi.failed hf).2; simp [hb] at this
        refine ⟨hi.script_eq, ?_, ?_, by simp [hfd], ?_, ?_⟩
        · intro hp; have := (hi.opening hp).1; simp [hb] at this
        · intro bs' hbs'
          simp only at hbs'
          split at hbs' <;> simp only [Option.some.injEq, reduceCtorEq] at hbs'
          rename_i hne
          exact hbs' ▸ hne
        · intro hp
          obtain ⟨d, g1, g2, g3⟩ := hi.good hp
          have g3 := g3 hfd
          have e : (if bs.drop n = [] then none else some (bs.drop n)).getD [] = bs.drop n := by
            split <;> simp_all
          refine ⟨d ++ bs.take n, by simp [g1], ?_, fun _ => ?_⟩
          · rw [← g3, hb]
            refine ⟨bs.drop n ++ s.pc.todo, ?_⟩
            rw [Option.getD_some, List.append_assoc d, ← List.append_assoc (bs.take n), List.take_append_drop,
              List.append_assoc]
          · rw [← g3, hb]
            simp only [e, Option.getD_some, List.append_assoc]
            rw [← List.append_assoc (bs.take n), List.take_append_drop]
        · intro hp; have := (hi.bad hp).1; simp [hb] at this
      · simp at hs
    case bgFail =>
      split at hs <;> simp only [Option.some.injEq, reduceCtorEq] at hs
      rename_i bs hb; subst hs
      refine ⟨hi.script_eq, ?_, by simp, by simp, fun hp => ?_, ?_⟩
      · intro hp; have := (hi.opening hp).1; simp [hb] at this
      · obtain ⟨d, g1, g2, g3⟩ := hi.good hp
        exact ⟨d, g1, g2, by simp⟩
      · intro hp; have := (hi.bad hp).1; simp [hb] at this

/-- **C66 (partial)**: for every script, every previous content of the file and every schedule: when the call has
returned `Ok`, and the write it left in flight is over and did not fail, the file contains exactly the script, with
the `#!/bin/sh` line in front iff the script has no shebang.  Missing: the call can return `Ok` before that, and an
error of the last write is lost (`C66_unfinished_refuted`, `C66_lost_error_refuted`). -/
theorem C66_content_partial (script : String) (before : Option (List UInt8)) (acts : List EntryAct) (m : EntryFile)
    (h : EntryReach script before acts m) (hret : m.pc = .returned true)
    (hbg : m.inflight = none) (hok : EntryAct.bgFail ∉ acts) :
    m.disk = some (strBytes (entrypointText script)) := by
  have hi := entry_inv h
  obtain ⟨d, g1, _, g3⟩ := hi.good (.inr hret)
  have hf : m.failed = false := by
    cases hf : m.failed with
    | false => rfl
    | true => exact absurd (hi.failed hf).1 hok
  have := g3 hf
  simp only [hbg, hret, EntryPc.todo, Option.getD_none, List.append_nil] at this
  rw [g1, this]

/-- Whatever happens, nothing of the previous content survives an `Ok`, and what is in the file then is a prefix of
what should be. -/
theorem C66_prefix (script : String) (before : Option (List UInt8)) (acts : List EntryAct) (m : EntryFile)
    (h : EntryReach script before acts m) (hret : m.pc = .returned true) :
    ∃ d, m.disk = some d ∧ d <+: strBytes (entrypointText script) := by
  obtain ⟨d, g1, g2, _⟩ := (entry_inv h).good (.inr hret)
  exact ⟨d, g1, g2⟩

/-- An error is returned only if opening the file or writing to it failed; in the first case the file is as it was. -/
theorem C66_error (script : String) (before : Option (List UInt8)) (acts : List EntryAct) (m : EntryFile)
    (h : EntryReach script before acts m) (hret : m.pc = .returned false) :
    (EntryAct.openErr ∈ acts ∧ m.disk = before) ∨ EntryAct.bgFail ∈ acts := by
  rcases ((entry_inv h).bad hret).2 with h | h
  · exact .inl h
  · exact .inr h.1

/-- The call never hangs: as long as it has not returned, it or the write it waits for can go on. -/
theorem C66_progress (script : String) (before : Option (List UInt8)) (acts : List EntryAct) (m : EntryFile)
    (h : EntryReach script before acts m) (hret : ∀ ok, m.pc ≠ .returned ok) :
    ∃ a, a ≠ .openErr ∧ a ≠ .bgFail ∧ (m.step a).isSome = true := by
  have hi := entry_inv h
  cases hp : m.pc with
  | opening => exact ⟨.openOk, by decide, by decide, by simp [EntryFile.step, hp]⟩
  | returned ok => exact absurd hp (hret ok)
  | writing bufs =>
    cases hb : m.inflight with
    | some bs =>
      refine ⟨.bgWrite bs.length, by simp, by simp, ?_⟩
      have := List.length_pos_iff.2 (hi.nonempty bs hb)
      simp [EntryFile.step, hb, this]
    | none =>
      refine ⟨.poll, by decide, by decide, ?_⟩
      rcases bufs with _ | ⟨_ | ⟨b, buf⟩, rest⟩
      · simp [EntryFile.step, hp]
      · simp [EntryFile.step, hp]
      · simp only [EntryFile.step, hp, hb]
        cases m.failed <;> simp

/-- The moves that are still possible, at most. -/
def EntryFile.left (m : EntryFile) : Nat :=
  (match m.pc with
    | .opening => 2 * (entryBuffers m.script).flatten.length + 4
    | .writing bufs => 2 * bufs.flatten.length + bufs.length + 1
    | .returned _ => 0) + (m.inflight.getD []).length

theorem entryBuffers_length (s : String) : (entryBuffers s).length ≤ 2 := by
  rw [entryBuffers]; split <;> simp

theorem EntryFile.left_step {m m' : EntryFile} {a : EntryAct} (hne : ∀ bs, m.inflight = some bs → bs ≠ [])
    (hopen : m.pc = .opening → m.inflight = none) (hs : m.step a = some m') : m'.left + 1 ≤ m.left := by
  cases a <;> simp only [EntryFile.step] at hs
  case openOk =>
    split at hs <;> simp only [Option.some.injEq, reduceCtorEq] at hs
    rename_i hp; subst hs
    have := entryBuffers_length m.script
    simp only [EntryFile.left, hp, hopen hp]
    omega
  case openErr =>
    split at hs <;> simp only [Option.some.injEq, reduceCtorEq] at hs
    rename_i hp; subst hs
    simp only [EntryFile.left, hp, hopen hp]
    omega
  case poll =>
    split at hs
    · rename_i hp
      simp only [Option.some.injEq] at hs; subst hs
      simp only [EntryFile.left, hp]; simp; omega
    · rename_i rest hp
      simp only [Option.some.injEq] at hs; subst hs
      simp only [EntryFile.left, hp]; simp; omega
    · rename_i buf rest hnb hp
      have hb : buf ≠ [] := by rintro rfl; exact hnb rfl
      have hb := List.length_pos_iff.2 hb
      split at hs
      · simp at hs
      · rename_i hfl
        have hnone : m.inflight = none := by simpa using hfl
        split at hs <;> simp only [Option.some.injEq] at hs <;> subst hs
        · simp only [EntryFile.left, hp, hnone]; simp
        · simp only [EntryFile.left, hp, hnone, maxBufSize]; simp; omega
    · simp at hs
  case bgWrite n =>
    split at hs
    · rename_i bs hb
      split at hs <;> simp only [Option.some.injEq, reduceCtorEq] at hs
      rename_i hn
      subst hs
      have e : (if bs.drop n = [] then none else some (bs.drop n)).getD [] = bs.drop n := by
        split <;> simp_all
      simp only [EntryFile.left, e, hb, Option.getD_some, List.length_drop]
      omega
    · simp at hs
  case bgFail =>
    split at hs <;> simp only [Option.some.injEq, reduceCtorEq] at hs
    rename_i bs hb; subst hs
    have := List.length_pos_iff.2 (hne bs hb)
    simp only [EntryFile.left, hb, Option.getD_some, Option.getD_none, List.length_nil]
    omega

/-- However the moves are interleaved and however small the pieces the blocking thread writes are, there are at most
`2 * n + 4` of them, where `n` is the number of bytes the file should get: together with `C66_progress`, the call
always returns. -/
theorem C66_returns_in_time (script : String) (before : Option (List UInt8)) (acts : List EntryAct) (m : EntryFile)
    (h : EntryReach script before acts m) :
    acts.length ≤ 2 * (strBytes (entrypointText script)).length + 4 := by
  have key : acts.length + m.left ≤ 2 * (strBytes (entrypointText script)).length + 4 ∧
      EntryReach script before acts m := by
    refine runs_induct (P := fun as s => as.length + s.left ≤ 2 * (strBytes (entrypointText script)).length + 4 ∧
      EntryReach script before as s) ?_ ?_ h
    · refine ⟨?_, rfl⟩
      simp [EntryFile.left, EntryFile.initial, entryBuffers_flatten]
    · intro as a s s' _ hi hs
      have inv := entry_inv hi.2
      have := EntryFile.left_step inv.nonempty (fun hp => (inv.opening hp).1) hs
      exact ⟨by rw [List.length_append]; simp only [List.length_singleton]; omega,
        runs_snoc.2 ⟨s, hi.2, hs⟩⟩
  omega

/-- Examples for this file. -/
def EntryEx.after (script : String) (acts : List EntryAct) : EntryFile :=
  (runs EntryFile.step (EntryFile.initial script (some [1, 2])) acts).getD (EntryFile.initial script none)
/-- see `EntryEx.after` -/
def EntryEx.good : List EntryAct :=
  [.openOk, .poll, .poll, .bgWrite 4, .bgWrite 6, .poll, .poll, .poll, .bgWrite 2]
/-- see `EntryEx.after` -/
def EntryEx.early : List EntryAct := [.openOk, .poll, .poll, .bgWrite 10, .poll, .poll, .poll]

example : (EntryEx.after "ls" EntryEx.good).pc = .returned true ∧
    (EntryEx.after "ls" EntryEx.good).inflight = none ∧ EntryAct.bgFail ∉ EntryEx.good ∧
    (EntryEx.after "ls" EntryEx.good).disk = some (strBytes "#!/bin/sh\nls") ∧
    entrypointText "#!/bin/bash\nls" = "#!/bin/bash\nls" := by decide

/-- **C66 is false of the code**: the call has returned `Ok` and the script is not in the file yet; the container is
started in this state. -/
theorem C66_unfinished_refuted : ∃ (script : String) (before : Option (List UInt8)) (acts : List EntryAct)
    (m : EntryFile), EntryReach script before acts m ∧ EntryAct.bgFail ∉ acts ∧ m.pc = .returned true ∧
    m.disk = some (strBytes "#!/bin/sh\n") ∧ m.disk ≠ some (strBytes (entrypointText script)) :=
  ⟨"ls", some [1, 2], EntryEx.early, EntryEx.after "ls" EntryEx.early, by rfl, by decide, by decide, by decide,
    by decide⟩

/-- **C66 is false of the code**: the write of the script fails (the disk is full), the call has returned `Ok`
nevertheless, and the script never gets into the file. -/
theorem C66_lost_error_refuted : ∃ (script : String) (before : Option (List UInt8)) (acts : List EntryAct)
    (m : EntryFile), EntryReach script before acts m ∧ m.pc = .returned true ∧
    ∀ acts' m', runs EntryFile.step m acts' = some m' → m'.disk = some (strBytes "#!/bin/sh\n") := by
  refine ⟨"ls", some [1, 2], EntryEx.early ++ [.bgFail], EntryEx.after "ls" (EntryEx.early ++ [.bgFail]), by rfl,
    by decide, ?_⟩
  intro acts' m' h
  cases acts' with
  | nil =>
    simp only [runs, Option.some.injEq] at h
    rw [← h]
    decide
  | cons a as =>
    have : (EntryEx.after "ls" (EntryEx.early ++ [.bgFail])).step a = none := by
      cases a <;> rfl
    simp [runs, this] at h

end AstroRun
