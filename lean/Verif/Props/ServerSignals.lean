import Verif.Props.Server

/-! # C78: signals on the remote runner's server -/

namespace AstroRun
open Spec Wire

/-- The part of the server's state the signals are in. -/
abbrev SigPart := List (StepId × SigState) × AMap StepId Nat

/-- The effect of one operation on it. -/
def applyOp (p : SigPart) : SrvOp → SigPart
  | .run id => (p.1 ++ [(id, {})], p.2.insert id p.1.length)
  | .signal id v => match p.2.get? id with
    | some i => (p.1.modify i fun r => (r.1, (r.2.set v).state), p.2)
    | none => p
  | .done id => (p.1, p.2.erase id)

theorem srvOps_snoc {Pl : Type} (pre l : List (ServerAct Pl)) (a : ServerAct Pl) :
    srvOps pre (l ++ [a]) = srvOps pre l ++ srvOp (pre ++ l) a := by
  induction l generalizing pre with
  | nil => simp [srvOps]
  | cons b l ih => simp [srvOps, ih, List.append_assoc]

theorem moved_snoc {Pl : Type} (acts : List (ServerAct Pl)) (a : ServerAct Pl) (i : Nat) :
    moved (acts ++ [a]) i = (moved acts i || match a with | .next j => j == i | _ => false) := by
  simp only [moved, List.any_append, List.any_cons, List.any_nil, Bool.or_false]
  rfl

/-- The signals are a function of the operations. -/
theorem sigPart_inv {Pl : Type} {n : Nat} {hooks : ServerHooks Pl} {acts : List (ServerAct Pl)} {s : ServerState Pl}
    (h : ServerReach n hooks acts s) :
    s.reqs.map ServerReq.event = received acts ∧
    (∀ i r, s.reqs[i]? = some r → (r.pc = .fresh ↔ moved acts i = false)) ∧
    (∀ i, s.reqs.length ≤ i → moved acts i = false) ∧
    (s.runs, s.signals) = (srvOps [] acts).foldl applyOp ([], []) := by
  refine runs_induct (P := fun acts s => s.reqs.map ServerReq.event = received acts ∧
    (∀ i r, s.reqs[i]? = some r → (r.pc = .fresh ↔ moved acts i = false)) ∧
    (∀ i, s.reqs.length ≤ i → moved acts i = false) ∧
    (s.runs, s.signals) = (srvOps [] acts).foldl applyOp ([], [])) ?_ ?_ h
  · exact ⟨rfl, by simp, by simp [moved], rfl⟩
  rintro acts a s s' _ ⟨h1, h2, h3, h4⟩ hs
  rw [srvOps_snoc, List.nil_append, List.foldl_append, ← h4]
  have hrec : received (acts ++ [a]) = received acts ++ (match a with | .recv e => [e] | _ => []) := by
    cases a <;> simp [received, List.filterMap_append]
  cases a with
  | run id =>
    simp only [ServerState.step, Option.some.injEq] at hs; subst hs
    refine ⟨by rw [hrec]; simp [h1], fun i r hr => ?_, fun i hi => ?_, by simp [srvOp, applyOp]⟩
    · rw [moved_snoc]; simpa using h2 i r hr
    · rw [moved_snoc]; simpa using h3 i hi
  | recv e =>
    simp only [ServerState.step, Option.some.injEq] at hs; subst hs
    refine ⟨by rw [hrec]; simp [h1], fun i r hr => ?_, fun i hi => ?_, by simp [srvOp]⟩
    · rw [moved_snoc]
      simp only [Bool.or_false]
      rw [List.getElem?_append] at hr
      split at hr
      · exact h2 i r hr
      · rename_i hlt
        rw [h3 i (by omega)]
        have : r = { event := e } := by
          cases hk : i - s.reqs.length with
          | zero => simp [hk] at hr; exact hr.symm
          | succ k => simp [hk] at hr
        simp [this]
    · rw [moved_snoc]
      simp only [Bool.or_false]
      simp at hi
      exact h3 i (by omega)
  | next i =>
    simp only [ServerState.step] at hs
    cases hr : s.reqs[i]? with
    | none => simp [hr] at hs
    | some r =>
      have hlt : i < s.reqs.length := by
        by_contra hge
        rw [List.getElem?_eq_none (by omega)] at hr
        simp at hr
      have hev : (received acts)[i]? = some r.event := by
        rw [← h1, List.getElem?_map, hr]; rfl
      -- a move of request `i` to a position that is not fresh
      have key : ∀ (s1 : ServerState Pl) (pc : ReqPc), s1.reqs = s.reqs → pc ≠ .fresh →
          (s1.runs, s1.signals) = (srvOp acts (.next i)).foldl applyOp (s.runs, s.signals) →
          s' = { s1 with reqs := s1.reqs.modify i fun r => { r with pc := pc } } →
          s'.reqs.map ServerReq.event = received (acts ++ [.next i]) ∧
          (∀ j r, s'.reqs[j]? = some r → (r.pc = .fresh ↔ moved (acts ++ [.next i]) j = false)) ∧
          (∀ j, s'.reqs.length ≤ j → moved (acts ++ [.next i]) j = false) ∧
          (s'.runs, s'.signals) = (srvOp acts (.next i)).foldl applyOp (s.runs, s.signals) := by
        intro s1 pc e1 e2 e3 e4
        subst e4
        refine ⟨?_, fun j r' hr' => ?_, fun j hj => ?_, e3⟩
        · rw [hrec]
          simp only [e1, List.append_nil, ← h1]
          apply List.ext_getElem?
          intro k
          simp only [List.getElem?_map, List.getElem?_modify]
          cases hk : s.reqs[k]? with
          | none => simp
          | some x => by_cases hik : i = k <;> simp [hik]
        · rw [moved_snoc]
          simp only [e1, List.getElem?_modify, Option.map_eq_map, Option.map_eq_some_iff] at hr'
          obtain ⟨x, hx, rfl⟩ := hr'
          by_cases hij : i = j
          · subst hij; simp [e2]
          · simp [hij, h2 j x hx]
        · rw [moved_snoc]
          simp [e1] at hj
          simp [h3 j hj]; omega
      simp only [hr] at hs
      have hfresh := h2 i r hr
      cases hpc : r.pc with
      | fresh =>
        have hmv := hfresh.1 hpc
        simp only [hpc] at hs
        cases hevt : r.event with
        | signal e =>
          simp only [hevt, Option.some.injEq] at hs
          refine key (s.signal e) _ (signal_reqs s e).1 (by simp) ?_ hs.symm
          simp only [srvOp, hmv, hev, hevt, Bool.false_eq_true, if_false, List.foldl_cons, List.foldl_nil, applyOp,
            ServerState.signal]
          cases s.signals.get? e.stepId <;> rfl
        | stepCompleted res =>
          simp only [hevt, Option.some.injEq] at hs
          refine key { s with signals := s.signals.erase res.id } _ rfl (by simp) ?_ hs.symm
          simp [srvOp, hmv, hev, hevt, applyOp]
        | _ =>
          simp only [hevt, Option.some.injEq] at hs
          refine key s _ rfl (by simp) ?_ hs.symm
          simp [srvOp, hmv, hev, hevt]
      | calling k =>
        have hmv : moved acts i = true := by
          cases hm : moved acts i with
          | true => rfl
          | false => rw [hpc] at hfresh; simp [hm] at hfresh
        simp only [hpc] at hs
        split at hs
        · split at hs
          · simp only [Option.some.injEq] at hs
            exact key { s with calls := s.calls ++ [(i, k, r.event)] } _ rfl (by simp) (by simp [srvOp, hmv]) hs.symm
          · rename_i e he
            simp only [Option.some.injEq] at hs
            exact key { s with calls := s.calls ++ [(i, k, r.event)], errors := s.errors ++ [(i, e)] } _ rfl (by simp)
              (by simp [srvOp, hmv]) hs.symm
        · simp only [Option.some.injEq] at hs
          exact key s _ rfl (by simp) (by simp [srvOp, hmv]) hs.symm
      | answered a => simp [hpc] at hs

theorem applyOps_basic (ops : List SrvOp) :
    let p := ops.foldl applyOp ([], [])
    p.1.length = startedRuns ops ∧ ∀ id k, p.2.get? id = some k → k < p.1.length := by
  induction ops using List.reverseRecOn with
  | nil => exact ⟨rfl, by simp⟩
  | append_singleton ops o ih =>
    obtain ⟨h1, h2⟩ := ih
    simp only [List.foldl_append, List.foldl_cons, List.foldl_nil]
    cases o with
    | run id =>
      refine ⟨by simp [applyOp, startedRuns, h1], fun id' k hk => ?_⟩
      simp only [applyOp, AMap.get?_insert] at hk ⊢
      split at hk
      · simp at hk; simp [hk]
      · have := h2 id' k hk; simp; omega
    | signal id v =>
      have hs : startedRuns (ops ++ [.signal id v]) = startedRuns ops := by simp [startedRuns]
      simp only [applyOp, hs]
      split
      · exact ⟨by simpa using h1, fun id' k hk => by simpa using h2 id' k hk⟩
      · exact ⟨h1, h2⟩
    | done id =>
      refine ⟨by simp [applyOp, startedRuns, h1], fun id' k hk => ?_⟩
      simp only [applyOp, AMap.get?_erase] at hk ⊢
      split at hk
      · simp at hk
      · exact h2 id' k hk

theorem firstSignal_snoc (id : StepId) (l : List SrvOp) (o : SrvOp) :
    firstSignal id (l ++ [o]) = (firstSignal id l).or (match o with
      | .signal i v => if i = id then some v else none
      | _ => none) := by
  simp only [firstSignal, List.findSome?_append, List.findSome?_cons, List.findSome?_nil]
  cases o with
  | signal i v => by_cases h : i = id <;> simp [h]
  | _ => simp

theorem takeWhile_all {α : Type} (p : α → Bool) (l : List α) (h : l.all p = true) (x : α) :
    (l ++ [x]).takeWhile p = if p x then l ++ [x] else l := by
  induction l with
  | nil => simp [List.takeWhile_cons]
  | cons a l ih =>
    simp only [List.all_cons, Bool.and_eq_true] at h
    simp only [List.cons_append, List.takeWhile_cons, h.1, if_true, ih h.2]
    split <;> rfl

theorem takeWhile_notAll {α : Type} (p : α → Bool) (l : List α) (h : l.all p = false) (x : α) :
    (l ++ [x]).takeWhile p = l.takeWhile p := by
  induction l with
  | nil => simp at h
  | cons a l ih =>
    simp only [List.cons_append, List.takeWhile_cons]
    cases ha : p a with
    | false => simp
    | true => simp only [List.all_cons, ha, Bool.true_and] at h; simp [ih h]

theorem takeWhile_self {α : Type} (p : α → Bool) (l : List α) (h : l.all p = true) : l.takeWhile p = l := by
  induction l with
  | nil => rfl
  | cons a l ih =>
    simp only [List.all_cons, Bool.and_eq_true] at h
    simp [List.takeWhile_cons, h.1, ih h.2]

theorem applyOps_run (a b : List SrvOp) (id : StepId) :
    let p := (a ++ .run id :: b).foldl applyOp ([], [])
    (∃ st, p.1[startedRuns a]? = some (id, st) ∧ st.signal = signalOf id b) ∧
    (p.2.get? id = some (startedRuns a) ↔ (b.all fun o => !ends id o) = true) ∧
    (∀ id', id' ≠ id → p.2.get? id' ≠ some (startedRuns a)) ∧ startedRuns a < p.1.length := by
  induction b using List.reverseRecOn with
  | nil =>
    obtain ⟨h1, h2⟩ := applyOps_basic a
    simp only [List.foldl_append, List.foldl_cons, List.foldl_nil, applyOp]
    rw [← h1]
    refine ⟨⟨{}, by simp, rfl⟩, by simp, fun id' hne hk => ?_, by simp⟩
    rw [AMap.get?_insert, if_neg (Ne.symm hne)] at hk
    exact absurd (h2 _ _ hk) (by omega)
  | append_singleton b o ih =>
    have hbas := applyOps_basic (a ++ .run id :: b)
    have e : a ++ .run id :: (b ++ [o]) = (a ++ .run id :: b) ++ [o] := by simp
    simp only [e]
    rw [List.foldl_append]
    simp only [List.foldl_cons, List.foldl_nil]
    generalize hp : (a ++ .run id :: b).foldl applyOp ([], []) = p at ih hbas
    obtain ⟨⟨st, hst, hsg⟩, hreg, hoth, hlen⟩ := ih
    obtain ⟨hb1, hb2⟩ := hbas
    generalize startedRuns a = k at *
    cases o with
    | run i =>
      simp only [applyOp]
      refine ⟨⟨st, by rw [List.getElem?_append_left hlen]; exact hst, ?_⟩, ?_, ?_, by simp; omega⟩
      · rw [hsg]; unfold signalOf
        cases hall : b.all fun o => !ends id o with
        | true =>
          rw [takeWhile_all _ _ hall, takeWhile_self _ _ hall]
          split
          · rw [firstSignal_snoc]; simp
          · rfl
        | false => rw [takeWhile_notAll _ _ hall]
      · rw [AMap.get?_insert]
        by_cases hi : i = id
        · simp [hi, ends]; omega
        · simp [hi, ends, hreg]
      · intro id' hne
        rw [AMap.get?_insert]
        split
        · simp; omega
        · exact hoth id' hne
    | done i =>
      simp only [applyOp]
      refine ⟨⟨st, hst, ?_⟩, ?_, ?_, hlen⟩
      · rw [hsg]; unfold signalOf
        cases hall : b.all fun o => !ends id o with
        | true =>
          rw [takeWhile_all _ _ hall, takeWhile_self _ _ hall]
          split
          · rw [firstSignal_snoc]; simp
          · rfl
        | false => rw [takeWhile_notAll _ _ hall]
      · rw [AMap.get?_erase]
        by_cases hi : i = id
        · simp [hi, ends]
        · simp [hi, ends, hreg]
      · intro id' hne
        rw [AMap.get?_erase]
        split
        · simp
        · exact hoth id' hne
    | signal i v =>
      have hall' : ((b ++ [SrvOp.signal i v]).all fun o => !ends id o) = b.all fun o => !ends id o := by
        simp [List.all_append, ends]
      simp only [applyOp, hall']
      have hsig : ∀ st' : SigState, st'.signal = (if (b.all fun o => !ends id o) = true ∧ i = id then
          st.signal.or (some v) else st.signal) → st'.signal = signalOf id (b ++ [.signal i v]) := by
        intro st' h
        rw [h, hsg]; unfold signalOf
        cases hall : b.all fun o => !ends id o with
        | true =>
          rw [takeWhile_all _ _ hall, takeWhile_self _ _ hall, if_pos (show (!ends id (SrvOp.signal i v)) = true from rfl), firstSignal_snoc]
          by_cases hi : i = id <;> simp [hi]
        | false => rw [takeWhile_notAll _ _ hall]; simp
      cases hg : p.2.get? i with
      | none =>
        simp only
        refine ⟨⟨st, hst, hsig st ?_⟩, hreg, hoth, hlen⟩
        rw [if_neg]
        rintro ⟨hall, rfl⟩
        rw [hreg.2 hall] at hg; simp at hg
      | some x =>
        simp only [List.length_modify]
        by_cases hx : x = k
        · subst hx
          have hi : i = id := by
            by_contra hne; exact hoth i hne hg
          subst hi
          have hall := hreg.1 hg
          refine ⟨⟨(st.set v).state, by simp [List.getElem?_modify, hst], hsig _ ?_⟩, hreg, hoth, hlen⟩
          rw [if_pos ⟨hall, rfl⟩]
          unfold SigState.set
          cases hh : st.signal <;> simp [hh]
        · refine ⟨⟨st, by simp [List.getElem?_modify, hst, hx], hsig st ?_⟩, hreg, hoth, hlen⟩
          rw [if_neg]
          rintro ⟨hall, rfl⟩
          rw [hreg.2 hall] at hg
          exact hx (Option.some.inj hg).symm

/-- **C78** The signal of each step execution on a server, in every schedule of requests: it is set exactly by the
first cancel or timeout for its step that is handled after the execution was started and before the step is started
again or its completion is handled; nothing else ever sets or changes it. -/
theorem C78_server_signals {Pl : Type} (n : Nat) (hooks : ServerHooks Pl) (acts : List (ServerAct Pl))
    (s : ServerState Pl) (h : ServerReach n hooks acts s) :
    s.runs.length = startedRuns (srvOps [] acts) ∧
    ∀ before id after, srvOps [] acts = before ++ .run id :: after →
      ∃ st, s.runs[startedRuns before]? = some (id, st) ∧ st.signal = signalOf id after := by
  obtain ⟨_, _, _, h4⟩ := sigPart_inv h
  constructor
  · have := (applyOps_basic (srvOps [] acts)).1
    rw [← h4] at this
    exact this
  · intro before id after heq
    have := (applyOps_run before after id).1
    rw [← heq, ← h4] at this
    exact this

namespace ServerEx
/-- Two requests for one step and one for another; a signal after the step's completion was reported. -/
def sigActs : List (ServerAct Unit) :=
  [.run ⟨"w", "j", 0⟩, .recv (.signal ⟨⟨"w", "j", 0⟩, .timeout⟩), .run ⟨"w", "j", 1⟩,
   .recv (.signal ⟨⟨"w", "j", 0⟩, .cancel⟩), .next 1, .next 0,
   .recv (.stepCompleted { id := ⟨"w", "j", 1⟩, state := .succeeded, exitCode := none, startedAt := none, completedAt := none }),
   .next 2, .recv (.signal ⟨⟨"w", "j", 1⟩, .cancel⟩), .next 3]
end ServerEx

example : srvOps [] ServerEx.sigActs = [.run ⟨"w", "j", 0⟩, .run ⟨"w", "j", 1⟩, .signal ⟨"w", "j", 0⟩ .cancel,
      .signal ⟨"w", "j", 0⟩ .timeout, .done ⟨"w", "j", 1⟩, .signal ⟨"w", "j", 1⟩ .cancel] ∧
    ∃ s, ServerReach 1 (fun _ _ _ => .ok ()) ServerEx.sigActs s ∧
      s.runs.map (fun r => r.2.signal) = [some .cancel, none] := by
  refine ⟨by decide, _, rfl, by decide⟩

end AstroRun
