import Verif.Spec.Server
import Verif.Lemmas.Map
import Mathlib.Data.List.Induction
import Verif.Lemmas.Run

/-! # C68, C69: the remote runner's server -/

namespace AstroRun
open Wire
open AstroRun.Spec

/-! ## C69: construction and metadata -/

/-- The arguments of the calls of each method, in order. -/
def ServerBuilderCall.ids {ρ π : Type} : List (ServerBuilderCall ρ π) → List String :=
  List.filterMap fun | .id s => some s | _ => none
/-- see `ids` -/
def ServerBuilderCall.maxRunss {ρ π : Type} : List (ServerBuilderCall ρ π) → List Int :=
  List.filterMap fun | .maxRuns s => some s | _ => none
/-- see `ids` -/
def ServerBuilderCall.dockers {ρ π : Type} : List (ServerBuilderCall ρ π) → List Bool :=
  List.filterMap fun | .supportDocker s => some s | _ => none
/-- see `ids` -/
def ServerBuilderCall.hosts {ρ π : Type} : List (ServerBuilderCall ρ π) → List Bool :=
  List.filterMap fun | .supportHost s => some s | _ => none
/-- see `ids` -/
def ServerBuilderCall.pluginArgs {ρ π : Type} : List (ServerBuilderCall ρ π) → List π :=
  List.filterMap fun | .plugin s => some s | _ => none
/-- see `ids` -/
def ServerBuilderCall.runners {ρ π : Type} : List (ServerBuilderCall ρ π) → List ρ :=
  List.filterMap fun | .runner s => some s | _ => none

open ServerBuilderCall in
theorem builder_calls {ρ π : Type} (cs : List (ServerBuilderCall ρ π)) :
    let b := cs.foldl ServerBuilder.call ({} : ServerBuilder ρ π)
    b.id = (ids cs).getLast? ∧ b.runner = (runners cs).getLast? ∧ b.maxRuns = lastOr (maxRunss cs) 5 ∧
    b.supportDocker = (dockers cs).getLast? ∧ b.supportHost = lastOr (hosts cs) true ∧ b.plugins = pluginArgs cs := by
  induction cs using List.reverseRecOn with
  | nil => simp [ids, runners, maxRunss, dockers, hosts, pluginArgs, lastOr]
  | append_singleton cs c ih =>
    simp only [List.foldl_append, List.foldl_cons, List.foldl_nil]
    obtain ⟨h1, h2, h3, h4, h5, h6⟩ := ih
    cases c <;>
      simp_all [ServerBuilder.call, ids, runners, maxRunss, dockers, hosts, pluginArgs, lastOr]

open ServerBuilderCall in
/-- **C69** For every sequence of builder calls: `build` fails exactly when no runner or no id was given; otherwise
the server reports the last id given, the last `max_runs` (5 by default), the last `support_host` (true by default),
the last `support_docker` (whether docker works, by default) and its own os, architecture and version; it uses the
last runner given and all plugins in the order they were given. -/
theorem C69_server_builder {ρ π : Type} (cs : List (ServerBuilderCall ρ π)) (docker : Bool) (os arch version : String) :
    match (cs.foldl ServerBuilder.call ({} : ServerBuilder ρ π)).build docker with
    | .error e => (runners cs = [] ∧ e = .initError "Runner is not set") ∨
        (runners cs ≠ [] ∧ ids cs = [] ∧ e = .initError "Id is not set")
    | .ok c => (∃ rs, runners cs = rs ++ [c.runner]) ∧ (∃ is, ids cs = is ++ [c.id]) ∧ c.plugins = pluginArgs cs ∧
        c.metadata os arch version =
          { id := c.id, os, arch, version, maxRuns := lastOr (maxRunss cs) 5
            supportDocker := lastOr (dockers cs) docker, supportHost := lastOr (hosts cs) true } := by
  obtain ⟨h1, h2, h3, h4, h5, h6⟩ := builder_calls cs
  simp only [ServerBuilder.build, h1, h2, h3, h4, h5, h6]
  cases hr : (runners cs).getLast? with
  | none => exact .inl ⟨List.getLast?_eq_none_iff.1 hr, rfl⟩
  | some r =>
    have hne : runners cs ≠ [] := by rintro h; simp [h] at hr
    cases hi : (ids cs).getLast? with
    | none => exact .inr ⟨hne, List.getLast?_eq_none_iff.1 hi, rfl⟩
    | some i =>
      refine ⟨?_, ?_, rfl, rfl⟩
      · obtain ⟨ys, h⟩ := List.getLast?_eq_some_iff.1 hr; exact ⟨ys, h⟩
      · obtain ⟨ys, h⟩ := List.getLast?_eq_some_iff.1 hi; exact ⟨ys, h⟩

example : ∃ c, ([.runner 1, .id "a", .maxRuns 3, .plugin 7, .id "b", .maxRuns 9, .plugin 8].foldl ServerBuilder.call
    ({} : ServerBuilder Nat Nat)).build true = .ok c ∧ c.plugins = [7, 8] ∧
    c.metadata "linux" "x86_64" "1" = { id := "b", version := "1", maxRuns := 9 } := ⟨_, rfl, rfl, rfl⟩

/-! ## C68: dispatch of events -/

/-- What holds of every request at every moment. -/
structure ReqInv {Pl : Type} (n : Nat) (s : ServerState Pl) (i : Nat) (r : ServerReq Pl) : Prop where
  fresh : r.pc = .fresh → observersCalled s.calls i = []
  calling : ∀ k, r.pc = .calling k → k ≤ n + 1 ∧ isSignal r.event = false ∧ observersCalled s.calls i = oneCallEach k r.event
  answered : ∀ a, r.pc = .answered a → a = .ok () ∧
    observersCalled s.calls i = if isSignal r.event then [] else oneCallEach (n + 1) r.event

theorem observersCalled_snoc {Pl : Type} (calls : List (Nat × Nat × ProtocolEvent Pl)) (i j k : Nat) (e : ProtocolEvent Pl) :
    observersCalled (calls ++ [(j, k, e)]) i = observersCalled calls i ++ if j = i then [(k, e)] else [] := by
  unfold observersCalled
  rw [List.filter_append, List.map_append]
  by_cases h : j = i <;> simp [h]

theorem signal_reqs {Pl : Type} (s : ServerState Pl) (e : SignalEvent) :
    (s.signal e).reqs = s.reqs ∧ (s.signal e).calls = s.calls := by
  unfold ServerState.signal
  split <;> simp

theorem server_inv {Pl : Type} {n : Nat} {hooks : ServerHooks Pl} {acts : List (ServerAct Pl)} {s : ServerState Pl}
    (h : ServerReach n hooks acts s) :
    (∀ c ∈ s.calls, c.1 < s.reqs.length) ∧ ∀ i r, s.reqs[i]? = some r → ReqInv n s i r := by
  refine runs_induct (P := fun _ s => (∀ c ∈ s.calls, c.1 < s.reqs.length) ∧
    ∀ i r, s.reqs[i]? = some r → ReqInv n s i r) ?_ ?_ h
  · exact ⟨by simp, by simp⟩
  rintro as a s s' _ ⟨hc, hi⟩ hs
  cases a with
  | run id =>
    simp only [ServerState.step, Option.some.injEq] at hs; subst hs
    exact ⟨hc, fun i r hr => ⟨(hi i r hr).fresh, (hi i r hr).calling, (hi i r hr).answered⟩⟩
  | recv e =>
    simp only [ServerState.step, Option.some.injEq] at hs; subst hs
    refine ⟨fun c hcm => ?_, fun i r hr => ?_⟩
    · have := hc c hcm
      simp; omega
    · rw [List.getElem?_append] at hr
      split at hr
      · exact ⟨(hi i r hr).fresh, (hi i r hr).calling, (hi i r hr).answered⟩
      · rename_i hlt
        have hi0 : i = s.reqs.length := by
          by_contra hne
          rw [List.getElem?_eq_none (by simp; omega)] at hr
          simp at hr
        subst hi0
        simp at hr
        subst hr
        refine ⟨fun _ => ?_, by simp, by simp⟩
        unfold observersCalled
        rw [List.map_eq_nil_iff, List.filter_eq_nil_iff]
        intro c hcm
        have := hc c hcm
        simp; omega
  | next i =>
    simp only [ServerState.step] at hs
    cases hr : s.reqs[i]? with
    | none => simp [hr] at hs
    | some r =>
      have hlt : i < s.reqs.length := by
        by_contra hge
        rw [List.getElem?_eq_none (by omega)] at hr
        simp at hr
      have inv := hi i r hr
      -- a move of request `i`
      have key : ∀ (s1 : ServerState Pl) (pc : ReqPc) (new : List (Nat × ProtocolEvent Pl)),
          s1.reqs = s.reqs → (∀ c ∈ s1.calls, c.1 < s.reqs.length) →
          (∀ j, observersCalled s1.calls j = observersCalled s.calls j ++ if i = j then new else []) →
          (∀ s2 : ServerState Pl, observersCalled s2.calls i = observersCalled s.calls i ++ new →
            ReqInv n s2 i { r with pc := pc }) →
          s' = { s1 with reqs := s1.reqs.modify i fun r => { r with pc := pc } } →
          (∀ c ∈ s'.calls, c.1 < s'.reqs.length) ∧ ∀ i r, s'.reqs[i]? = some r → ReqInv n s' i r := by
        intro s1 pc new e1 e2 e3 e4 e5
        subst e5
        refine ⟨by simpa [e1] using e2, fun j r' hr' => ?_⟩
        simp only [e1, List.getElem?_modify] at hr'
        by_cases hij : i = j
        · subst hij
          simp only [if_true, hr, Option.map_eq_map, Option.map_some, Option.some.injEq] at hr'
          subst hr'
          exact e4 _ (by simp [e3])
        · simp only [hij, if_false, Option.map_eq_map, Option.map_id_fun', id] at hr'
          have old := hi j r' hr'
          have ec : observersCalled s1.calls j = observersCalled s.calls j := by simp [e3, hij]
          refine ⟨fun hf => ?_, fun k hk => ?_, fun a ha => ?_⟩
          · simpa [ec] using old.fresh hf
          · simpa [ec] using old.calling k hk
          · simpa [ec] using old.answered a ha
      simp only [hr] at hs
      cases hpc : r.pc with
      | fresh =>
        simp only [hpc] at hs
        have hnil := inv.fresh hpc
        cases hev : r.event with
        | signal e =>
          simp only [hev, Option.some.injEq] at hs
          refine key (s.signal e) (.answered (.ok ())) [] (signal_reqs s e).1 ?_ ?_ ?_ hs.symm
          · rw [(signal_reqs s e).2]; exact hc
          · intro j; rw [(signal_reqs s e).2]; simp
          · intro s2 h2
            refine ⟨by simp, by simp, ?_⟩
            intro a ha
            simp only [ReqPc.answered.injEq] at ha
            exact ⟨ha.symm, by simp [h2, hnil, hev, isSignal]⟩
        | stepCompleted res =>
          simp only [hev, Option.some.injEq] at hs
          refine key { s with signals := s.signals.erase res.id } (.calling 0) [] rfl hc (by simp) ?_ hs.symm
          intro s2 h2
          refine ⟨by simp, ?_, by simp⟩
          intro k hk
          simp only [ReqPc.calling.injEq] at hk
          subst hk
          exact ⟨by omega, by simp [hev, isSignal], by simp [h2, hnil, oneCallEach]⟩
        | _ =>
          simp only [hev, Option.some.injEq] at hs
          refine key s (.calling 0) [] rfl hc (by simp) ?_ hs.symm
          intro s2 h2
          refine ⟨by simp, ?_, by simp⟩
          intro k hk
          simp only [ReqPc.calling.injEq] at hk
          subst hk
          exact ⟨by omega, by simp [hev, isSignal], by simp [h2, hnil, oneCallEach]⟩
      | calling k =>
        simp only [hpc] at hs
        obtain ⟨hk1, hk2, hk3⟩ := inv.calling k hpc
        have next : ∀ s2 : ServerState Pl, k ≤ n → observersCalled s2.calls i = observersCalled s.calls i ++ [(k, r.event)] →
            ReqInv n s2 i { r with pc := .calling (k + 1) } := by
          intro s2 hle h2
          refine ⟨by simp, ?_, by simp⟩
          intro k' hk'
          simp only [ReqPc.calling.injEq] at hk'
          subst hk'
          exact ⟨by omega, hk2, by simp [h2, hk3, oneCallEach, List.range_succ]⟩
        have hcalls : ∀ c ∈ s.calls ++ [(i, k, r.event)], c.1 < s.reqs.length := by
          intro c hcm
          rcases List.mem_append.1 hcm with h | h
          · exact hc c h
          · simp at h; subst h; exact hlt
        by_cases hle : k ≤ n
        · rw [if_pos hle] at hs
          cases hh : hooks s.calls k r.event with
          | ok u =>
            simp only [hh, Option.some.injEq] at hs
            exact key { s with calls := s.calls ++ [(i, k, r.event)] } (.calling (k + 1)) [(k, r.event)] rfl hcalls
              (fun j => observersCalled_snoc _ _ _ _ _) (fun s2 h2 => next s2 hle h2) hs.symm
          | error e =>
            simp only [hh, Option.some.injEq] at hs
            exact key { s with calls := s.calls ++ [(i, k, r.event)], errors := s.errors ++ [(i, e)] } (.calling (k + 1)) [(k, r.event)] rfl
              hcalls (fun j => observersCalled_snoc _ _ _ _ _) (fun s2 h2 => next s2 hle h2) hs.symm
        · rw [if_neg hle] at hs
          simp only [Option.some.injEq] at hs
          refine key s (.answered (.ok ())) [] rfl hc (by simp) ?_ hs.symm
          intro s2 h2
          refine ⟨by simp, by simp, ?_⟩
          intro a ha
          simp only [ReqPc.answered.injEq] at ha
          have : k = n + 1 := by omega
          exact ⟨ha.symm, by simp [h2, hk3, hk2, this]⟩
      | answered a => simp [hpc] at hs

/-- **C68** A server with `n` plugins, any hooks (whatever they answer), any requests in any interleaving: a
notification that has been acknowledged was acknowledged with success, after each plugin in order and then the
runner were called for it exactly once; a signal is acknowledged without calling anybody. -/
theorem C68_dispatched {Pl : Type} (n : Nat) (hooks : ServerHooks Pl) (acts : List (ServerAct Pl)) (s : ServerState Pl)
    (h : ServerReach n hooks acts s) (i : Nat) (r : ServerReq Pl) (hr : s.reqs[i]? = some r) (a : Except Error Unit)
    (ha : r.pc = .answered a) :
    a = .ok () ∧ observersCalled s.calls i = if isSignal r.event then [] else oneCallEach (n + 1) r.event :=
  ((server_inv h).2 i r hr).answered a ha

/-- Before that, the first few of them were called, in order. -/
theorem C68_in_order {Pl : Type} (n : Nat) (hooks : ServerHooks Pl) (acts : List (ServerAct Pl)) (s : ServerState Pl)
    (h : ServerReach n hooks acts s) (i : Nat) (r : ServerReq Pl) (hr : s.reqs[i]? = some r) :
    observersCalled s.calls i <+: oneCallEach (n + 1) r.event := by
  have inv := (server_inv h).2 i r hr
  cases hp : r.pc with
  | fresh => rw [inv.fresh hp]; exact List.nil_prefix
  | calling k =>
    obtain ⟨h1, _, h3⟩ := inv.calling k hp
    rw [h3]
    refine List.IsPrefix.map _ ⟨(List.range' k (n + 1 - k)), ?_⟩
    have := List.range'_append_1 (s := 0) (m := k) (n := n + 1 - k)
    rw [List.range_eq_range', List.range_eq_range']
    simpa [show k + (n + 1 - k) = n + 1 by omega] using this
  | answered a =>
    rw [(inv.answered a hp).2]
    split
    · exact List.nil_prefix
    · exact List.prefix_rfl

/-- The requests are the events received, unchanged. -/
theorem C68_requests {Pl : Type} (n : Nat) (hooks : ServerHooks Pl) (acts : List (ServerAct Pl)) (s : ServerState Pl)
    (h : ServerReach n hooks acts s) :
    s.reqs.map ServerReq.event = acts.filterMap fun a => match a with | .recv e => some e | _ => none := by
  refine runs_induct (P := fun acts (s : ServerState Pl) =>
    s.reqs.map ServerReq.event = acts.filterMap fun a => match a with | .recv e => some e | _ => none) rfl ?_ h
  intro as a s s' _ hi hs
  rw [List.filterMap_append, ← hi]
  have hmod : ∀ (l : List (ServerReq Pl)) (i : Nat) (pc : ReqPc),
      (l.modify i fun r => { r with pc := pc }).map ServerReq.event = l.map ServerReq.event := by
    intro l i pc
    induction l generalizing i with
    | nil => cases i <;> rfl
    | cons r l ih => cases i <;> simp [ih]
  cases a with
  | run id => simp only [ServerState.step, Option.some.injEq] at hs; subst hs; simp
  | recv e => simp only [ServerState.step, Option.some.injEq] at hs; subst hs; simp
  | next i =>
    simp only [ServerState.step] at hs
    repeat' (split at hs)
    all_goals simp only [Option.some.injEq, reduceCtorEq] at hs
    all_goals subst hs
    all_goals simp [hmod, (signal_reqs _ _).1]

/-- No request waits for another one, or gives up: each can always go on until it is answered. -/
theorem C68_progress {Pl : Type} (n : Nat) (hooks : ServerHooks Pl) (s : ServerState Pl) (i : Nat) (r : ServerReq Pl)
    (hr : s.reqs[i]? = some r) (hp : ∀ a, r.pc ≠ .answered a) : ∃ s', s.step n hooks (.next i) = some s' := by
  simp only [ServerState.step, hr]
  cases hpc : r.pc with
  | fresh => cases r.event <;> exact ⟨_, rfl⟩
  | calling k =>
    simp only
    split
    · cases hooks s.calls k r.event <;> exact ⟨_, rfl⟩
    · exact ⟨_, rfl⟩
  | answered a => exact absurd hpc (hp a)

/-- Examples: a server with one failing plugin; a notification and a signal handled at the same time. -/
def ServerEx.hooks : ServerHooks Nat := fun _ k _ => if k = 0 then .error (.error "no") else .ok ()
/-- see `ServerEx.hooks` -/
def ServerEx.step : StepId := { workflow := "w", job := "j", number := 0 }
/-- see `ServerEx.hooks` -/
def ServerEx.acts : List (ServerAct Nat) :=
  [.run ServerEx.step, .recv (.stateChange (.step ServerEx.step .inProgress)),
    .recv (.signal { stepId := ServerEx.step, signal := .cancel }), .next 0, .next 0, .next 1, .next 0, .next 0]

example : ∃ s r, ServerReach 1 ServerEx.hooks ServerEx.acts s ∧ s.reqs[0]? = some r ∧ r.pc = .answered (.ok ()) ∧
    isSignal r.event = false ∧ s.calls.map (fun c => (c.1, c.2.1)) = [(0, 0), (0, 1)] ∧
    s.runs.map (fun r => r.2.signal) = [some .cancel] := ⟨_, _, rfl, rfl, rfl, rfl, rfl, rfl⟩

end AstroRun
