import Verif.Lemmas.FairSched
import Verif.Props.FairLocal
import Verif.Props.FairRemote

/-! # C113: fair executions of an engine on the local runner exist -/

namespace AstroRun
open Spec FairSched FairLocalLem

/-- A schedule with its end, whose runs are apart and whose hooks keep jobs. -/
def EngineFine (setup : EngineSetup) (acts : List EngineAct) (E : LocalEngine) : Prop :=
  EngineReach setup acts E ∧ Apart (engineMoves acts) ∧ EngineHooksKeepJobs setup acts

/-- One more move. -/
theorem EngineFine.snoc {setup : EngineSetup} {acts : List EngineAct} {E E' : LocalEngine} {y : EngineAct} (h : EngineFine setup acts E)
    (hs : E.step y = some E') (h1 : ∀ wf, y ≠ .sys (.start wf))
    (h2 : ∀ r i b s, y = .sys (.task r i (.nextStep b s)) → ∀ t, taskAt E.sys r i = some t → s.id.jobId = t.job.id) :
    EngineFine setup (acts ++ [y]) E' := by
  obtain ⟨hr, ha, hk⟩ := h
  refine ⟨runs_snoc.2 ⟨E, hr, hs⟩, ?_, ?_⟩
  · rw [engineMoves_snoc]
    cases y with
    | sys x =>
      refine ha.snoc (fun wf e => h1 wf (by rw [e])) ?_
      rintro r i b s rfl wf hwf
      obtain ⟨sa, hsa, hf, -⟩ := engine_sys hr hk
      simp only [LocalEngine.step, SysAct.byRunner, Bool.false_eq_true, if_false, Option.map_eq_some_iff] at hs
      obtain ⟨M, hM, -⟩ := hs
      obtain ⟨ρ, t, _, hρ, ht, _⟩ := task_act hM
      have e := engineOk_reach (apart_filter (hf ▸ ha)) hsa
      have hw : (Spec.started (engineMoves acts))[r]? = some ρ.wf := by
        rw [← hf, started_filter, ← e.wfs]; simp [hρ]
      rw [hw] at hwf
      cases hwf
      have h3 := h2 r i b s rfl t ht
      obtain ⟨ρ', hρ', ht'⟩ := taskAt_some ht
      rw [hρ] at hρ'
      cases hρ'
      have hj := (runJobs_reach hsa r ρ hρ).tasks i t ht'
      have hown := ha.own ρ.wf (List.mem_of_getElem? hw) _ _ hj
      rw [← hown, ← h3]
      rfl
    | _ => simpa [EngineAct.engPart] using ha
  · intro pre r i b s post he E1 hE1 t ht
    rcases List.eq_nil_or_concat post with rfl | ⟨post', x, rfl⟩
    · obtain ⟨rfl, hx⟩ := List.append_inj' he rfl
      simp only [List.cons.injEq, and_true] at hx
      have : E1 = E := by
        unfold EngineReach at hr hE1
        rw [hr] at hE1
        exact (Option.some.inj hE1).symm
      subst this
      exact h2 r i b s hx t ht
    · have : acts ++ [y] = (pre ++ EngineAct.sys (.task r i (.nextStep b s)) :: post') ++ [x] := by simpa using he
      obtain ⟨rfl, _⟩ := List.append_inj' this rfl
      exact hk pre r i b s post' rfl E1 hE1 t ht

/-- The kinds of moves: of main tasks, job tasks, their reading the stream, the runner's tasks; and of the processes: closing
their pipes and exiting. -/
def kindOf (c r i n : Nat) : EngineAct → Prop :=
  match c with
  | 0 => engineMainOf r
  | 1 => engineJobOf r i
  | 2 => engineRecvOf r i
  | 3 => runnerTaskOf r i n
  | 4 => fun y => y = .loc r i n .closeOut
  | 5 => fun y => y = .loc r i n .closeErr
  | 6 => fun y => ∃ c, y = .loc r i n (.exit c)
  | _ => fun _ => False

/-- The kinds, numbered. -/
def engineKind (k : Nat) : EngineAct → Prop :=
  kindOf (Nat.unpair k).1 (Nat.unpair (Nat.unpair k).2).1 (Nat.unpair (Nat.unpair (Nat.unpair k).2).2).1
    (Nat.unpair (Nat.unpair (Nat.unpair k).2).2).2

/-- The number of a kind. -/
def kindNo (c r i n : Nat) : Nat := Nat.pair c (Nat.pair r (Nat.pair i n))

theorem engineKind_no (c r i n : Nat) : engineKind (kindNo c r i n) = kindOf c r i n := by
  simp only [engineKind, kindNo, Nat.unpair_pair]

theorem kindOf_start {c r i n : Nat} {wf : Workflow} (hy : kindOf c r i n (.sys (.start wf))) : False := by
  match c, hy with
  | 0, ⟨b', e⟩ => cases e
  | 1, .inl ⟨z, e, hz⟩ =>
    cases e
    obtain ⟨b', e, hb'⟩ := FairLem.workOf_iff.1 hz
    cases e
  | 1, .inr ⟨p, en, e⟩ => cases e
  | 2, e => cases e
  | 3, ⟨b', e, _⟩ => cases e
  | 4, e => cases e
  | 5, e => cases e
  | 6, ⟨c, e⟩ => cases e
  | (_ + 7), e => exact e

theorem kindOf_goesOn {c r i n : Nat} {y : EngineAct} (hy : kindOf c r i n y) : goesOn y = true := by
  match c, hy with
  | 0, ⟨b', e⟩ => rw [e]; rfl
  | 1, .inl ⟨z, e, hz⟩ =>
    obtain ⟨b', rfl, hb'⟩ := FairLem.workOf_iff.1 hz
    rw [e]
    cases b' <;> first | rfl | exact absurd hb' id
  | 1, .inr ⟨p, en, e⟩ => rw [e]; rfl
  | 2, e => rw [show y = _ from e]; rfl
  | 3, ⟨b', e, _, hf⟩ => rw [e]; simp [goesOn, hf]
  | 4, e => rw [show y = _ from e]; rfl
  | 5, e => rw [show y = _ from e]; rfl
  | 6, ⟨c, e⟩ => rw [e]; rfl
  | (_ + 7), e => exact absurd e id

theorem kind_no_start {k : Nat} {wf : Workflow} (hy : engineKind k (.sys (.start wf))) : False := kindOf_start hy

/-- A kind with one hook has them all. -/
theorem kindOf_next {c r i n r' i' : Nat} {b : Bool} {s : Step} (s' : Step)
    (hy : kindOf c r i n (.sys (.task r' i' (.nextStep b s)))) : kindOf c r i n (.sys (.task r' i' (.nextStep b s'))) := by
  match c, hy with
  | 0, ⟨b', e⟩ => cases e
  | 1, .inl ⟨z, e, hz⟩ =>
    cases e
    obtain ⟨b', e, hb'⟩ := FairLem.workOf_iff.1 hz
    cases e
    exact .inl ⟨_, rfl, FairLem.workOf_iff.2 ⟨_, rfl, hb'⟩⟩
  | 1, .inr ⟨p, en, e⟩ => cases e
  | 2, e => cases e
  | 3, ⟨b', e, _⟩ => cases e
  | 4, e => cases e
  | 5, e => cases e
  | 6, ⟨c, e⟩ => cases e
  | (_ + 7), e => exact absurd e id

/-- No kind starts a run, and each can be done without hooks that move steps to other jobs. -/
theorem kind_moves {setup : EngineSetup} {acts : List EngineAct} {E : LocalEngine} {k : Nat} (h : EngineFine setup acts E)
    (hc : can LocalEngine.step engineKind E k) :
    ∃ y E', engineKind k y ∧ E.step y = some E' ∧ EngineFine setup (acts ++ [y]) E' ∧ goesOn y = true := by
  obtain ⟨y, hy, hs⟩ := hc
  obtain ⟨E', hE'⟩ := Option.ne_none_iff_exists'.1 hs
  by_cases hn : ∃ r i b s, y = .sys (.task r i (.nextStep b s))
  · obtain ⟨r, i, b, s, rfl⟩ := hn
    simp only [LocalEngine.step, SysAct.byRunner, Bool.false_eq_true, if_false, Option.map_eq_some_iff] at hE'
    obtain ⟨M, hM, -⟩ := hE'
    obtain ⟨ρ, t, x, hρ, hT, -, -, g, ρ1, hx, -⟩ := task_act hM
    obtain ⟨ρ', hρ', ht⟩ := taskAt_some hT
    rw [hρ] at hρ'
    cases hρ'
    let s' : Step := { s with id := ⟨t.job.id.workflow, t.job.id.job, s.id.number⟩ }
    have hp : E.step (.sys (.task r i (.nextStep b s'))) ≠ none := by
      refine sys_possible rfl ?_
      intro hbad
      simp only [Sys.step, hρ, ht, Option.bind_eq_bind, Option.bind_some, Sys.taskStep] at hbad hx
      cases hq : t.step E.sys.now (.nextStep b s') with
      | some t2 => simp [hq] at hbad
      | none =>
        cases hq2 : t.step E.sys.now (.nextStep b s) with
        | none => simp [hq2] at hx
        | some t2 =>
          simp only [SysTask.step] at hq hq2
          split at hq2 <;> simp_all
          split at hq <;> simp at hq
    obtain ⟨E1, hE1⟩ := Option.ne_none_iff_exists'.1 hp
    refine ⟨_, E1, ?_, hE1, h.snoc hE1 (by simp) ?_, rfl⟩
    · exact kindOf_next s' hy
    · intro r' i' b' s1 e t' ht'
      cases e
      rw [hT] at ht'
      cases ht'
      rfl
  · refine ⟨y, E', hy, hE', h.snoc hE' ?_ fun r i b s e => absurd ⟨r, i, b, s, e⟩ hn, kindOf_goesOn hy⟩
    rintro wf rfl
    exact kind_no_start hy

theorem engine_idles {setup : EngineSetup} {acts : List EngineAct} {E : LocalEngine} (h : EngineFine setup acts E) :
    ∃ y E', E.step y = some E' ∧ EngineFine setup (acts ++ [y]) E' ∧ goesOn y = true := by
  have hs : E.step (.sys (.tick 1)) ≠ none := sys_possible rfl (by simp [Sys.step])
  obtain ⟨E', hE'⟩ := Option.ne_none_iff_exists'.1 hs
  exact ⟨_, E', hE', h.snoc hE' (by simp) (by simp), rfl⟩

/-! ## Processes -/

/-- What becomes of a task of the runner. -/
theorem task_follows {E E' : LocalEngine} {a : EngineAct} (hs : E.step a = some E') {r i n : Nat} {p : RunPlan} {l : LocalRun}
    (hg : (E.tasks r i)[n]? = some (p, l)) :
    ∃ l', (E'.tasks r i)[n]? = some (p, l') ∧ ((∃ sg, l' = l.shareSignal sg) ∨ l' = l ∨ ∃ b, l.step b = some l') := by
  cases a with
  | sys x =>
    simp only [LocalEngine.step] at hs
    split at hs
    · simp at hs
    · simp only [Option.map_eq_some_iff] at hs
      obtain ⟨M, hM, rfl⟩ := hs
      by_cases hx : ∃ c, x = .task r i c
      · obtain ⟨c, rfl⟩ := hx
        simp only [LocalEngine.shared]
        cases M.jobTask r i with
        | some t =>
          simp only
          split
          · simp only [updTasks, and_self, if_true, List.getElem?_modify, hg]
            refine ⟨if (E.tasks r i).length - 1 = n then l.shareSignal t.sig else l, ?_, ?_⟩
            · split <;> rfl
            · split
              · exact .inl ⟨_, rfl⟩
              · exact .inr (.inl rfl)
          · exact ⟨l, hg, .inr (.inl rfl)⟩
        | none => exact ⟨l, hg, .inr (.inl rfl)⟩
      · refine ⟨l, ?_, .inr (.inl rfl)⟩
        rw [← hg]
        exact congrArg (·[n]?) (shared_other fun c hc => hx ⟨c, hc⟩)
  | spawned r' i' past envs =>
    simp only [LocalEngine.step] at hs
    split at hs
    · simp only [Option.map_eq_some_iff] at hs
      obtain ⟨M, hM, rfl⟩ := hs
      refine ⟨l, ?_, .inr (.inl rfl)⟩
      simp only [updTasks]
      split
      · rw [List.getElem?_append_left (List.getElem?_eq_some_iff.1 hg).1]; exact hg
      · exact hg
    · simp at hs
  | loc r' i' n' b =>
    simp only [LocalEngine.step] at hs
    split at hs
    · simp at hs
    · rename_i b _ _ p' l1 hget hne
      simp only [Option.map_eq_some_iff] at hs
      obtain ⟨l2, hl, rfl⟩ := hs
      simp only [updTasks]
      by_cases he : r = r' ∧ i = i'
      · obtain ⟨rfl, rfl⟩ := he
        simp only [and_self, if_true]
        by_cases hn : n' = n
        · subst hn
          rw [hg] at hget
          simp only [Option.some.injEq, Prod.mk.injEq] at hget
          obtain ⟨rfl, rfl⟩ := hget
          exact ⟨l2, by simp [(List.getElem?_eq_some_iff.1 hg).1], .inr (.inr ⟨_, hl⟩)⟩
        · exact ⟨l, by rw [List.getElem?_set_ne hn]; exact hg, .inr (.inl rfl)⟩
      · exact ⟨l, by simp [he, hg], .inr (.inl rfl)⟩
    · simp at hs

/-- A process does not come back. -/
def Later (ch ch' : Child) : Prop :=
  (ch.outOpen = false → ch'.outOpen = false) ∧ (ch.errOpen = false → ch'.errOpen = false) ∧ (ch.exit.isSome = true → ch'.exit.isSome = true)

theorem Later.refl (ch : Child) : Later ch ch := ⟨id, id, id⟩

theorem Later.trans {a b c : Child} (h : Later a b) (h' : Later b c) : Later a c :=
  ⟨h'.1 ∘ h.1, h'.2.1 ∘ h.2.1, h'.2.2 ∘ h.2.2⟩

theorem child_later {l l' : LocalRun} {b : LocalAct} {p : RunPlan} {k : Nat} (hok : OutOk p k l) (hs : l.step b = some l') {ch : Child}
    (hc : l.child = some ch) : ∃ ch', l'.child = some ch' ∧ Later ch ch' := by
  cases b <;> simp only [LocalRun.step] at hs
  case spawnOk =>
    split at hs <;> cases hs
    rename_i hp
    have := (hok.early (.inr (.inr (.inr hp)))).1
    rw [hc] at this
    cases this
  all_goals
    (repeat' split at hs) <;> first
      | contradiction
      | (cases hs; exact ⟨ch, hc, Later.refl ch⟩)
      | (cases hs
         simp_all
         refine ⟨?_, ?_, ?_⟩ <;> simp_all)

theorem task_outOk {setup : EngineSetup} {acts : List EngineAct} {E : LocalEngine} (h : EngineReach setup acts E) {r i n : Nat}
    {p : RunPlan} {l : LocalRun} (hg : (E.tasks r i)[n]? = some (p, l)) : OutOk p setup.plugins.length l := by
  have hp := (engineInv_reach h).pairs r i
  unfold PairOk at hp
  split at hp
  · rw [hp] at hg; simp at hg
  · obtain ⟨la, hla⟩ := hp.reach n p l hg
    exact (local_reach hla).2

theorem child_follows {setup : EngineSetup} {f : Nat → LocalEngine} {a : Nat → EngineAct} (hE : EngineEndless setup f a) {r i n k : Nat}
    {p : RunPlan} {l : LocalRun} {ch : Child} (hg : ((f k).tasks r i)[n]? = some (p, l)) (hc : l.child = some ch) (d : Nat) :
    ∃ l' ch', ((f (k + d)).tasks r i)[n]? = some (p, l') ∧ l'.child = some ch' ∧ Later ch ch' := by
  induction d with
  | zero => exact ⟨l, ch, hg, hc, Later.refl ch⟩
  | succ d ih =>
    obtain ⟨l1, ch1, h1, h2, h3⟩ := ih
    obtain ⟨l2, h4, h5⟩ := task_follows (hE.moves (k + d)) h1
    refine ⟨l2, ?_⟩
    rcases h5 with ⟨sg, rfl⟩ | rfl | ⟨b, hb⟩
    · refine ⟨ch1, h4, ?_, h3⟩
      unfold LocalRun.shareSignal
      split <;> exact h2
    · exact ⟨ch1, h4, h2, h3⟩
    · obtain ⟨ch2, h6, h7⟩ := child_later (task_outOk (endless_engine hE _) h1) hb h2
      exact ⟨ch2, h4, h6, h3.trans h7⟩

/-- Processes that get to close their pipes and to exit end. -/
theorem processes_end {setup : EngineSetup} {f : Nat → LocalEngine} {a : Nat → EngineAct} (hE : EngineEndless setup f a) (r : Nat)
    (h4 : ∀ i n, StronglyFair LocalEngine.step f a fun y => y = .loc r i n .closeOut)
    (h5 : ∀ i n, StronglyFair LocalEngine.step f a fun y => y = .loc r i n .closeErr)
    (h6 : ∀ i n, StronglyFair LocalEngine.step f a fun y => ∃ c, y = .loc r i n (.exit c)) : ProcessesEnd f r := by
  intro i n
  by_cases hex : ∃ k p l ch, ((f k).tasks r i)[n]? = some (p, l) ∧ l.child = some ch
  · obtain ⟨k, p, l, ch, hg, hc⟩ := hex
    have later : ∀ m, k ≤ m → ∃ l' ch', ((f m).tasks r i)[n]? = some (p, l') ∧ l'.child = some ch' := by
      intro m hm
      obtain ⟨d, rfl⟩ := Nat.exists_eq_add_of_le hm
      obtain ⟨l', ch', h1, h2, -⟩ := child_follows hE hg hc d
      exact ⟨l', ch', h1, h2⟩
    -- what a process has done stays
    have stay : ∀ (q : Child → Prop), (∀ a b, Later a b → q a → q b) → (∃ m l' ch', ((f m).tasks r i)[n]? = some (p, l') ∧
        l'.child = some ch' ∧ q ch') → ∃ m, ∀ m', m ≤ m' → ∀ p' l', ((f m').tasks r i)[n]? = some (p', l') → ∀ ch', l'.child = some ch' → q ch' := by
      rintro q hq ⟨m, l1, ch1, e1, e2, e3⟩
      refine ⟨m, fun m' hm' p' l' e4 ch' e5 => ?_⟩
      obtain ⟨d, rfl⟩ := Nat.exists_eq_add_of_le hm'
      obtain ⟨l2, ch2, e6, e7, e8⟩ := child_follows hE e1 e2 d
      rw [e6] at e4
      cases e4
      rw [e7] at e5
      cases e5
      exact hq _ _ e8 e3
    have o1 := stay (fun c => c.outOpen = false) (fun _ _ h => h.1) (by
      obtain ⟨m, hm, hy⟩ := h4 i n (fun m => ⟨max k m, Nat.le_max_right _ _, _, rfl, by
        obtain ⟨l', ch', e1, e2⟩ := later (max k m) (Nat.le_max_left _ _)
        simp [LocalEngine.step, e1, LocalRun.step, e2]⟩) k
      have hs := hE.moves m
      rw [hy] at hs
      obtain ⟨p', l1, l2, e1, e2, e3⟩ := loc_moves hs
      obtain ⟨l3, ch3, e4, e5⟩ := later m hm
      rw [e4] at e1
      cases e1
      simp only [LocalRun.step, e5, Option.some.injEq] at e2
      subst e2
      exact ⟨m + 1, _, _, e3, rfl, rfl⟩)
    have o2 := stay (fun c => c.errOpen = false) (fun _ _ h => h.2.1) (by
      obtain ⟨m, hm, hy⟩ := h5 i n (fun m => ⟨max k m, Nat.le_max_right _ _, _, rfl, by
        obtain ⟨l', ch', e1, e2⟩ := later (max k m) (Nat.le_max_left _ _)
        simp [LocalEngine.step, e1, LocalRun.step, e2]⟩) k
      have hs := hE.moves m
      rw [hy] at hs
      obtain ⟨p', l1, l2, e1, e2, e3⟩ := loc_moves hs
      obtain ⟨l3, ch3, e4, e5⟩ := later m hm
      rw [e4] at e1
      cases e1
      simp only [LocalRun.step, e5, Option.some.injEq] at e2
      subst e2
      exact ⟨m + 1, _, _, e3, rfl, rfl⟩)
    have o3 := stay (fun c => c.exit.isSome = true) (fun _ _ h => h.2.2) (by
      refine Classical.byContradiction fun hno => ?_
      have hnone : ∀ m l' ch', ((f m).tasks r i)[n]? = some (p, l') → l'.child = some ch' → ch'.exit = none := by
        intro m l' ch' e1 e2
        cases he : ch'.exit with
        | none => rfl
        | some c => exact absurd ⟨m, l', ch', e1, e2, by simp [he]⟩ hno
      obtain ⟨m, hm, c, hy⟩ := h6 i n (fun m => ⟨max k m, Nat.le_max_right _ _, .loc r i n (.exit none), ⟨_, rfl⟩, by
        obtain ⟨l', ch', e1, e2⟩ := later (max k m) (Nat.le_max_left _ _)
        simp [LocalEngine.step, e1, LocalRun.step, e2, hnone _ _ _ e1 e2]⟩) k
      have hs := hE.moves m
      rw [hy] at hs
      obtain ⟨p', l1, l2, e1, e2, e3⟩ := loc_moves hs
      obtain ⟨l3, ch3, e4, e5⟩ := later m hm
      rw [e4] at e1
      cases e1
      simp only [LocalRun.step, e5, hnone _ _ _ e4 e5, Option.isNone_none, if_true, Option.some.injEq] at e2
      subst e2
      exact hno ⟨m + 1, _, _, e3, rfl, rfl⟩)
    obtain ⟨m1, o1⟩ := o1
    obtain ⟨m2, o2⟩ := o2
    obtain ⟨m3, o3⟩ := o3
    exact ⟨m1 + m2 + m3, fun m hm p' l' e ch' hc' =>
      ⟨o3 m (by omega) p' l' e ch' hc', o1 m (by omega) p' l' e ch' hc', o2 m (by omega) p' l' e ch' hc'⟩⟩
  · exact ⟨0, fun k _ p l hg ch hc => absurd ⟨k, p, l, ch, hg, hc⟩ hex⟩

/-- **C113** Such executions exist, whatever has happened before: every schedule can be continued to an endless execution that
treats *all* runs fairly, all of whose processes end, in which nobody starts or cancels anything and nothing fails any more. -/
theorem C113_fair_futures (setup : EngineSetup) (acts : List EngineAct) (E : LocalEngine) (h : EngineReach setup acts E)
    (ha : Apart (engineMoves acts)) (hk : EngineHooksKeepJobs setup acts) :
    ∃ f a, EngineEndless setup f a ∧ firstMoves a acts.length = acts ∧ f acts.length = E ∧
      (∀ n, Apart (engineMoves (firstMoves a n))) ∧ (∀ n, EngineHooksKeepJobs setup (firstMoves a n)) ∧
      (∀ n, acts.length ≤ n → goesOn (a n) = true) ∧
      ∀ r, WeaklyFair LocalEngine.step f a (engineMainOf r) ∧ (∀ i, WeaklyFair LocalEngine.step f a (engineJobOf r i)) ∧
        (∀ i, StronglyFair LocalEngine.step f a (engineRecvOf r i)) ∧ (∀ i n, WeaklyFair LocalEngine.step f a (runnerTaskOf r i n)) ∧
        ProcessesEnd f r := by
  obtain ⟨f, a, f0, hm, hfirst, hfE, hP, hfair⟩ := fair_future (step := LocalEngine.step) (cls := engineKind) (Q := fun _ y => goesOn y = true) (P := EngineFine setup)
    (fun _ _ _ h hc => kind_moves h hc) (fun _ _ h => engine_idles h) (s00 := LocalEngine.initial setup) h ⟨h, ha, hk⟩
  have hE : EngineEndless setup f a := ⟨f0, hm⟩
  have hpre : ∀ n, Apart (engineMoves (firstMoves a n)) ∧ EngineHooksKeepJobs setup (firstMoves a n) := by
    intro n
    rcases Nat.le_total acts.length n with hn | hn
    · exact (hP n hn).1.2
    · have e : firstMoves a n ++ acts.drop n = acts := by
        have : firstMoves a n = acts.take n := by
          rw [← hfirst]
          simp only [firstMoves, ← List.map_take, List.take_range, Nat.min_eq_left hn]
        rw [this, List.take_append_drop]
      have e3 : engineMoves (firstMoves a n) ++ engineMoves (acts.drop n) = engineMoves acts := by
        conv => rhs; rw [← e]
        simp [engineMoves, List.filterMap_append]
      exact ⟨Apart.prefix (e3 ▸ ha), keepJobs_prefix (e.symm ▸ hk)⟩
  refine ⟨f, a, hE, hfirst, hfE, fun n => (hpre n).1, fun n => (hpre n).2, fun n hn => (hP n hn).2, fun r => ?_⟩
  have key : ∀ c i n, StronglyFair LocalEngine.step f a (engineKind (kindNo c r i n)) := fun c i n => hfair _
  simp only [engineKind_no] at key
  exact ⟨weak_of_strong (key 0 0 0), fun i => weak_of_strong (key 1 i 0), fun i => key 2 i 0, fun i n => weak_of_strong (key 3 i n),
    processes_end hE r (fun i n => key 4 i n) (fun i n => key 5 i n) fun i n => key 6 i n⟩

theorem engine_returned_stays {setup : EngineSetup} {f : Nat → LocalEngine} {a : Nat → EngineAct} (hE : EngineEndless setup f a)
    {r n : Nat} {ρ : SysRun} {res : WorkflowRunResult} (hr : (f n).sys.runs[r]? = some ρ) (hp : ρ.pc = .returned res) (d : Nat) :
    ∃ ρ', (f (n + d)).sys.runs[r]? = some ρ' ∧ ρ'.pc = .returned res := by
  induction d with
  | zero => exact ⟨ρ, hr, hp⟩
  | succ d ih =>
    obtain ⟨ρ1, h1, h2⟩ := ih
    obtain ⟨x, hx, -⟩ := engine_shadow (hE.moves (n + d))
    exact FairRemoteLem.returned_stays hx h1 h2

/-- **C113** Whatever has happened so far, all workflows that have been started can return together, without further workflows, cancellations or failures: no state of an engine on the
local runner is a dead end for any set of well-formed runs. -/
theorem C113_all_runs_can_return (setup : EngineSetup) (acts : List EngineAct) (E : LocalEngine) (h : EngineReach setup acts E)
    (ha : Apart (engineMoves acts)) (hk : EngineHooksKeepJobs setup acts) :
    ∃ more E', EngineReach setup (acts ++ more) E' ∧ Apart (engineMoves (acts ++ more)) ∧ EngineHooksKeepJobs setup (acts ++ more) ∧
      (∀ y ∈ more, goesOn y = true) ∧
      ∀ (r : Nat) (ρ : SysRun), E.sys.runs[r]? = some ρ → UniqueJobs ρ.wf → OwnIds ρ.wf → DepsDefined ρ.wf → Acyclic ρ.wf → ρ.wf.jobs ≠ [] →
        ∃ ρ' res, E'.sys.runs[r]? = some ρ' ∧ ρ'.pc = .returned res := by
  obtain ⟨f, a, hE, hfirst, hfE, hA, hK, hgo, hfair⟩ := C113_fair_futures setup acts E h ha hk
  have main : ∀ m, ∃ N, acts.length ≤ N ∧ ∀ r : Nat, r < m → ∀ ρ : SysRun, E.sys.runs[r]? = some ρ → UniqueJobs ρ.wf → OwnIds ρ.wf → DepsDefined ρ.wf →
      Acyclic ρ.wf → ρ.wf.jobs ≠ [] → ∃ (ρ' : SysRun) (res : WorkflowRunResult), (f N).sys.runs[r]? = some ρ' ∧ ρ'.pc = .returned res := by
    intro m
    induction m with
    | zero => exact ⟨acts.length, Nat.le_refl _, fun r hr => absurd hr (Nat.not_lt_zero r)⟩
    | succ m ih =>
      obtain ⟨N, hN, hall⟩ := ih
      by_cases hex : ∃ ρ : SysRun, E.sys.runs[m]? = some ρ ∧ UniqueJobs ρ.wf ∧ OwnIds ρ.wf ∧ DepsDefined ρ.wf ∧ Acyclic ρ.wf ∧ ρ.wf.jobs ≠ []
      · obtain ⟨ρ, hr, h1, h2, h3, h4, h5⟩ := hex
        obtain ⟨f1, f2, f3, f4, f5⟩ := hfair m
        obtain ⟨n, ρ', res, hn, hr', hp⟩ := C113_processes_end_runs_return setup f a hE hA hK m acts.length ρ (by rw [hfE]; exact hr)
          h1 h2 h3 h4 h5 f1 f2 f3 f4 f5
        refine ⟨N + n, by omega, fun r hlt ρ1 g0 g1 g2 g3 g4 g5 => ?_⟩
        rcases Nat.lt_succ_iff_lt_or_eq.1 hlt with hlt | rfl
        · obtain ⟨ρ2, res2, e1, e2⟩ := hall r hlt ρ1 g0 g1 g2 g3 g4 g5
          obtain ⟨ρ3, e3, e4⟩ := engine_returned_stays hE e1 e2 n
          exact ⟨ρ3, res2, e3, e4⟩
        · obtain ⟨ρ3, e3, e4⟩ := engine_returned_stays hE hr' hp N
          rw [Nat.add_comm] at e3
          exact ⟨ρ3, res, e3, e4⟩
      · refine ⟨N, hN, fun r hlt ρ1 g0 g1 g2 g3 g4 g5 => ?_⟩
        rcases Nat.lt_succ_iff_lt_or_eq.1 hlt with hlt | rfl
        · exact hall r hlt ρ1 g0 g1 g2 g3 g4 g5
        · exact absurd ⟨ρ1, g0, g1, g2, g3, g4, g5⟩ hex
  obtain ⟨N, hN, hall⟩ := main E.sys.runs.length
  have e : acts ++ (firstMoves a N).drop acts.length = firstMoves a N := by
    have : acts = (firstMoves a N).take acts.length := by
      conv => lhs; rw [← hfirst]
      simp only [firstMoves, ← List.map_take, List.take_range, Nat.min_eq_left hN]
    conv => lhs; lhs; rw [this]
    exact List.take_append_drop _ _
  have hdrop : ∀ y ∈ (firstMoves a N).drop acts.length, goesOn y = true := by
    intro y hy
    obtain ⟨k, hk, he⟩ := List.mem_iff_getElem.1 hy
    rw [← he]
    simp only [firstMoves, List.getElem_drop, List.getElem_map, List.getElem_range]
    exact hgo _ (by omega)
  refine ⟨(firstMoves a N).drop acts.length, f N, ?_⟩
  rw [e]
  exact ⟨endless_engine hE N, hA N, hK N, hdrop, fun r ρ hr => hall r (List.getElem?_eq_some_iff.1 hr).1 ρ hr⟩

set_option maxRecDepth 8000 in
/-- The hypotheses are met: in the middle of two workflows, with a container that has not ended. -/
example : ∃ E, EngineReach EngineEx.setup EngineEx.two E ∧ Apart (engineMoves EngineEx.two) ∧
    EngineHooksKeepJobs EngineEx.setup EngineEx.two ∧ ∃ ρ, E.sys.runs[1]? = some ρ ∧ (∀ res, ρ.pc ≠ .returned res) := by
  refine ⟨EngineEx.after EngineEx.two, rfl, EngineEx.apart_two, EngineEx.keeps_two, _, rfl, ?_⟩
  intro res hbad
  cases hbad

end AstroRun
