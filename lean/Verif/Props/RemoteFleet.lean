import Verif.Lemmas.RemoteFleet
import Verif.Props.Scheduler
import Verif.Props.RemoteStack

/-! # C98, C99: a job on a fleet of servers -/

namespace AstroRun
open Spec

/-- **C98** In every history the job, its client tasks, the network and the servers follow the rules of C95, and all calls of
`schedule`, of this job and of others, follow those of C44 to C48: what holds there holds here.  The client never panics. -/
theorem C98_both_views (version : String) (job : Job) (t : Time) (acts : List FleetAct) (f : RemoteFleet)
    (h : FleetReach version job t acts f) :
    (∃ sacts, RemoteStackReach job t sacts f.net) ∧ (∃ cacts, SchedReach cacts f.sched) ∧ f.panicked = false :=
  ⟨(fleetInv_reach h).net, (fleetInv_reach h).sched, (fleetInv_reach h).fine⟩

/-- **C98** Every step is sent to a server the client has connected to, of the client's version.  A docker step goes to one that
supports docker; a host step to one of the platform it asks for, which supports host steps, or else was asked for with its
architecture and got a docker step of the same job before. -/
theorem C98_server (version : String) (job : Job) (t : Time) (acts : List FleetAct) (f : RemoteFleet)
    (h : FleetReach version job t acts f) (i : Nat) (x : RemoteExec) (hx : f.net.execs[i]? = some x) :
    x.command.id.jobId = job.id ∧
    ∃ md, KnownAs version acts x.server md ∧ md.id = x.server ∧ md.version = version ∧
      (WantsDocker x.command → md.supportDocker = true) ∧
      ∀ name, WantsHost x.command name → PlatformOf md name ∧
        (md.supportHost = true ∨
          (name = "host/" ++ md.os ++ "-" ++ md.arch ∧
            ∃ c r, .scheduled c r ∈ f.sched.trace ∧ WantsDocker c ∧ c.id.jobId = job.id ∧ r.id = x.server)) := by
  have hi := fleetInv_reach h
  obtain ⟨ca, hca⟩ := hi.sched
  obtain ⟨hj, k, rs, r, h1, h2⟩ := hi.placed x.server x.command (placed_mem (List.mem_of_getElem? hx))
  obtain ⟨g1, g2, g3⟩ := C44_capability_partial ca f.sched hca k rs x.command r h1
  have hc := hi.offers k _ h1 r g1
  have hk : KnownAs version acts x.server r := by
    unfold KnownAs
    rw [← hi.known, ← h2]
    exact AMap.get?_of_mem hi.good.1 hc
  have hv : r.version = version := by
    have := List.find?_some hk
    simp only [decide_eq_true_eq] at this
    exact this.2
  have stable : StableRunners f.sched := by
    intro c hc c' hc' q hq q' hq' e
    obtain ⟨a, ha⟩ := List.mem_iff_getElem?.1 hc
    obtain ⟨b, hb⟩ := List.mem_iff_getElem?.1 hc'
    have e1 := hi.offers a c ha q hq
    have e2 := hi.offers b c' hb q' hq'
    rw [e] at e1
    rw [client_unique hi.good e1 e2]
  refine ⟨hj, r, hk, h2, hv, fun hd => g2 hd stable, fun name hn => ?_⟩
  obtain ⟨p1, p2⟩ := g3 name hn
  refine ⟨p1, p2.imp id ?_⟩
  rintro ⟨q1, c', r', q2, q3, q4, q5⟩
  exact ⟨q1, c', r', q2, q3, by rw [q4, hj], by rw [q5, h2]⟩

/-- **C98** A step ends for lack of a server only if none of those known when the client asked the scheduler can execute it. -/
theorem C98_refused (version : String) (job : Job) (t : Time) (acts : List FleetAct) (f : RemoteFleet)
    (h : FleetReach version job t acts f) (st : Step)
    (hex : (∃ t0, f.net.eng.pc = .handling st t0) ∨ ∃ t0 d, f.net.eng.pc = .select st t0 d) (hc : f.net.current = none) :
    ∃ pre, AskedAfter acts pre ∧ ∀ id md, KnownAs version pre id md → ¬ CanRun md st.toCommand := by
  have hr : f.net.eng.pc.reading = true ∧ runningStep f.net.eng.pc = some st := by
    rcases hex with ⟨t0, e⟩ | ⟨t0, d, e⟩ <;> rw [e] <;> exact ⟨rfl, rfl⟩
  obtain ⟨st', e1, e2⟩ := (fleetInv_reach h).refused hr.1 hc
  rw [hr.2, Option.some.injEq] at e1
  subst e1
  exact e2

theorem sched_runs_lift {f : RemoteFleet} {k : Nat} {as : List SchedAct} {m : SchedM}
    (ha : ∀ a ∈ as, a = .lookup k ∨ a = .pick k ∨ a = .commit k) (hr : runs SchedM.step f.sched as = some m) :
    runs RemoteFleet.step f (as.map .sched) = some { f with sched := m } := by
  induction as generalizing f with
  | nil => simp only [runs, Option.some.injEq] at hr; subst hr; rfl
  | cons a as ih =>
    simp only [runs, List.map_cons] at hr ⊢
    cases hs : f.sched.step a with
    | none => simp [hs] at hr
    | some m1 =>
      rw [hs] at hr
      have hstep : f.step (.sched a) = some { f with sched := m1 } := by
        rcases ha a (by simp) with rfl | rfl | rfl <;> simp [RemoteFleet.step, hs]
      rw [hstep]
      exact ih (f := { f with sched := m1 }) (fun b hb => ha b (by simp [hb])) hr

/-- **C98** Asking for a server never blocks: whatever other jobs are asking at the same time, the moves of the job's own call are
possible until the step is started (or refused). -/
theorem C98_progress (version : String) (job : Job) (t : Time) (acts : List FleetAct) (f : RemoteFleet)
    (h : FleetReach version job t acts f) (st : Step) (t0 : Time) (hc : f.net.eng.pc = .calling st t0) :
    ∃ k own f', (∀ a ∈ own, isOwnCall k a = true) ∧ runs RemoteFleet.step f own = some f' ∧ f'.net.eng.pc = .handling st t0 := by
  -- from the moment the scheduler was asked
  have asked : ∀ acts (f : RemoteFleet), FleetReach version job t acts f → f.net.eng.pc = .calling st t0 → ∀ k snap, f.asked = some (k, snap) →
      ∃ own f', (∀ a ∈ own, isOwnCall k a = true) ∧ runs RemoteFleet.step f own = some f' ∧ f'.net.eng.pc = .handling st t0 := by
    intro acts f h hc k snap hk
    have reply : ∀ acts (f : RemoteFleet), FleetReach version job t acts f → f.net.eng.pc = .calling st t0 → f.asked = some (k, snap) →
        ∀ rs c r, f.sched.calls[k]? = some ⟨rs, c, .done r⟩ → ∃ f', f.step .reply = some f' ∧ f'.net.eng.pc = .handling st t0 := by
      intro acts f h hc hk rs c r hd
      have hi := fleetInv_reach h
      obtain ⟨k1, _, st', t0', rs', pc, k3, k4, k5⟩ := hi.asked k snap hk
      obtain ⟨ca, hca⟩ := hi.sched
      rw [hd] at k4; cases k4
      cases r with
      | none =>
        obtain ⟨n, e1, e2, _⟩ := noRunner_step hc
        exact ⟨{ f with net := n, asked := none }, by simp only [RemoteFleet.step, hk, hd, e1, Option.map_some], e2⟩
      | some r =>
        have hr : (r.id, r) ∈ snap :=
          offered_known k1 (k5.mem_iff.1 ((sched_reach hca).2.someOk k _ hd r (.inr rfl)).1)
        obtain ⟨n, e1, e2, _⟩ := dispatched_step hc r.id
        exact ⟨{ f with net := n, asked := none },
          by simp only [RemoteFleet.step, hk, hd, AMap.get?_of_mem k1.1 hr, e1, Option.map_some], e2⟩
    have hi := fleetInv_reach h
    obtain ⟨k1, _, st', t0', rs, pc, k3, k4, k5⟩ := hi.asked k snap hk
    by_cases hdone : ∃ r, pc = .done r
    · obtain ⟨r, rfl⟩ := hdone
      obtain ⟨f', e1, e2⟩ := reply acts f h hc hk rs _ r k4
      exact ⟨[.reply], f', by simp [isOwnCall], by simp [runs, e1], e2⟩
    · obtain ⟨as, m, r, g1, g2, g3⟩ := C47_calls_finish f.sched k _ k4 (fun r hr => hdone ⟨r, hr⟩)
      have hl := sched_runs_lift g1 g2
      have h' : FleetReach version job t (acts ++ as.map .sched) { f with sched := m } := by
        unfold FleetReach at h ⊢
        rw [runs_append, h]; exact hl
      obtain ⟨f', e1, e2⟩ := reply _ _ h' hc hk _ _ r g3
      refine ⟨as.map .sched ++ [.reply], f', ?_, ?_, e2⟩
      · intro a ha
        simp only [List.mem_append, List.mem_map, List.mem_singleton] at ha
        rcases ha with ⟨b, hb, rfl⟩ | rfl
        · rcases g1 b hb with rfl | rfl | rfl <;> simp [isOwnCall]
        · rfl
      · rw [runs_append, hl]
        simp [runs, e1]
  cases hk : f.asked with
  | some p =>
    obtain ⟨k, snap⟩ := p
    obtain ⟨own, f', g1, g2, g3⟩ := asked acts f h hc k snap hk
    exact ⟨k, own, f', g1, g2, g3⟩
  | none =>
    have hi := fleetInv_reach h
    obtain ⟨f1, hs⟩ : ∃ f1, f.step (.ask (f.clients.map Prod.snd)) = some f1 ∧ f1.net = f.net ∧
        f1.asked = some (f.sched.calls.length, f.clients) := by
      refine ⟨{ f with
        sched := { f.sched with calls := f.sched.calls ++ [{ runners := f.clients.map Prod.snd, cmd := st.toCommand }] }
        asked := some (f.sched.calls.length, f.clients) }, ?_, rfl, rfl⟩
      have : ((f.clients.map Prod.snd).isPerm (f.clients.map Prod.snd) && !f.panicked) = true := by
        simp [hi.fine, List.isPerm_iff]
      simp only [RemoteFleet.step, hc, hk, this, if_true, SchedM.step, Option.map_some]
    have h' : FleetReach version job t (acts ++ [.ask (f.clients.map Prod.snd)]) f1 := runs_snoc.2 ⟨f, h, hs.1⟩
    obtain ⟨own, f', g1, g2, g3⟩ := asked _ f1 h' (by rw [hs.2.1]; exact hc) _ _ hs.2.2
    refine ⟨f.sched.calls.length, .ask (f.clients.map Prod.snd) :: own, f', ?_, ?_, g3⟩
    · intro a ha
      rcases List.mem_cons.1 ha with rfl | ha
      · rfl
      · exact g1 a ha
    · simp only [runs, hs.1]; exact g2

/-- **C99** All docker steps of a job are sent to the same server, if the job is run once: even if servers are added meanwhile, and
whatever other jobs do. -/
theorem C99_docker_partial (version : String) (job : Job) (t : Time) (acts : List FleetAct) (f : RemoteFleet)
    (h : FleetReach version job t acts f) (ho : OnlyRun job acts) (i j : Nat) (x y : RemoteExec) (hx : f.net.execs[i]? = some x)
    (hy : f.net.execs[j]? = some y) (dx : WantsDocker x.command) (dy : WantsDocker y.command) : x.server = y.server := by
  have hi := own_reach h ho
  have h1 := hi.pinned _ _ (placed_mem (List.mem_of_getElem? hx)) dx
  rw [hi.pinned _ _ (placed_mem (List.mem_of_getElem? hy)) dy, Option.some.injEq] at h1
  exact h1.symm

/-- **C99** After a docker step of the job, every step of it that suits the server of that step is sent there too. -/
theorem C99_after_docker_partial (version : String) (job : Job) (t : Time) (acts : List FleetAct) (f : RemoteFleet)
    (h : FleetReach version job t acts f) (ho : OnlyRun job acts) (i j : Nat) (hij : i < j) (x y : RemoteExec)
    (hx : f.net.execs[i]? = some x) (hy : f.net.execs[j]? = some y) (dx : WantsDocker x.command) (md : RunnerMeta)
    (hmd : KnownAs version acts x.server md) (hs : Suits md y.command) : y.server = x.server := by
  have hi := own_reach h ho
  refine hi.stay i j x.server x.command y.server y.command hij ?_ dx ?_ md ?_ hs
  · simp [placed, hx]
  · simp [placed, hy]
  · have := (fleetInv_reach h).known x.server
    rw [hmd] at this
    exact AMap.mem_of_get? this

namespace FleetEx
/-- A job of a step on a Linux host and two in docker. -/
def host : Step := { id := ⟨"w", "j", 0⟩, run := "true", container := some ⟨"host/linux", none, none⟩ }
def docker (n : Nat) : Step := { id := ⟨"w", "j", n⟩, run := "true" }
def job : Job := { id := ⟨"w", "j"⟩, steps := [host, docker 1, docker 2] }
/-- Servers that support everything. -/
def a : RunnerMeta := { id := "a", version := "1" }
def b : RunnerMeta := { id := "b", version := "1" }
def c : RunnerMeta := { id := "c", version := "1" }
/-- The next step is handed to the client, which asks for one of the servers `rs`. -/
def ask (s : Step) (rs : List RunnerMeta) : List FleetAct := [.stk (.eng (.nextStep true s)), .stk (.eng .call), .ask rs]
/-- Call `k` of the scheduler. -/
def choose (k : Nat) : List FleetAct := [.sched (.lookup k), .sched (.pick k), .sched (.commit k)]
/-- The step succeeds. -/
def work (i : Nat) : List FleetAct :=
  [.stk (.eng .enter), .stk (.net i .rpcOk), .stk (.net i .srvRunOk), .stk (.net i (.runnerEnd .succeeded)), .stk (.net i .srvPoll),
   .stk (.net i .srvResult), .stk (.net i .srvSend), .stk (.net i .xmit), .stk (.net i .cliNext), .stk (.eng .recv)]
/-- Two servers; the job starts. -/
def start : List FleetAct :=
  [.connect (.ok a), .connect (.error (.internalRuntimeError "refused")), .connect (.ok b), .connect (.ok { id := "x", version := "0" }),
   .stk (.eng (.check true))]
/-- The host step and the first docker step, while another job asks too. -/
def two : List FleetAct :=
  start ++ ask host [a, b] ++ choose 0 ++ [.reply] ++ work 0 ++ ask (docker 1) [a, b] ++
    [.sched (.call [b, a] { id := ⟨"w", "k", 0⟩ })] ++ choose 1 ++ [.reply]
/-- A third server is added, then the second docker step. -/
def three : List FleetAct :=
  two ++ work 1 ++ choose 2 ++ [.connect (.ok c)] ++ ask (docker 2) [c, a, b] ++ [.sched (.lookup 3), .sched (.commit 3), .reply]
/-- The state a history leads to. -/
def after (acts : List FleetAct) : RemoteFleet :=
  (runs RemoteFleet.step (RemoteFleet.initial "1" job 0) acts).getD (RemoteFleet.initial "1" job 0)
/-- A call of the client. -/
def call (acts : List FleetAct) (i : Nat) : RemoteExec := ((after acts).net.execs[i]?).getD { server := "", command := host.toCommand }
end FleetEx

theorem fleetEx_only {acts : List FleetAct} (h : acts = FleetEx.two ∨ acts = FleetEx.three) : OnlyRun FleetEx.job acts := by
  intro rs c hm
  have : ∀ a ∈ acts, ∀ rs c, a = .sched (.call rs c) → c.id.jobId ≠ FleetEx.job.id := by
    rcases h with rfl | rfl
    all_goals
      simp only [FleetEx.three, FleetEx.two, FleetEx.start, FleetEx.ask, FleetEx.choose, FleetEx.work, List.mem_append, List.mem_cons,
        List.not_mem_nil, or_false]
      intro a ha rs c e
      subst e
      simp at ha
      obtain ⟨_, rfl⟩ := ha
      decide
  exact this _ hm rs c rfl

/-- **C99 is false of the code**: the steps of a job may be sent to different servers, although one server can execute them all:
a docker step that follows a host step goes to the server with fewer steps, the other one. -/
theorem C99_refuted : ∃ version job t acts f x y, FleetReach version job t acts f ∧ OnlyRun job acts ∧
    f.net.execs[0]? = some x ∧ f.net.execs[1]? = some y ∧ x.server ≠ y.server ∧
    ∃ md, KnownAs version acts x.server md ∧ CanRun md x.command ∧ CanRun md y.command := by
  refine ⟨"1", FleetEx.job, 0, FleetEx.two, FleetEx.after FleetEx.two, FleetEx.call FleetEx.two 0, FleetEx.call FleetEx.two 1, ?_,
    fleetEx_only (.inl rfl), ?_, ?_, ?_, FleetEx.a, ?_, ?_, ?_⟩
  · unfold FleetReach; decide +kernel
  · decide +kernel
  · decide +kernel
  · decide +kernel
  · unfold KnownAs; decide +kernel
  · have hc : (FleetEx.call FleetEx.two 0).command = FleetEx.host.toCommand := by decide +kernel
    rw [hc]
    refine ⟨fun name ⟨o, h1, h2, _⟩ => ?_, fun _ => rfl⟩
    cases h1
    exact ⟨rfl, .inl h2.symm⟩
  · have hc : (FleetEx.call FleetEx.two 1).command = (FleetEx.docker 1).toCommand := by decide +kernel
    rw [hc]
    exact ⟨fun name ⟨o, h1, _⟩ => (by cases h1), fun _ => rfl⟩

example : FleetReach "1" FleetEx.job 0 FleetEx.three (FleetEx.after FleetEx.three) ∧ OnlyRun FleetEx.job FleetEx.three ∧
    placed (FleetEx.after FleetEx.three).net =
      [("a", FleetEx.host.toCommand), ("b", (FleetEx.docker 1).toCommand), ("b", (FleetEx.docker 2).toCommand)] ∧
    KnownAs "1" FleetEx.three "b" FleetEx.b ∧ WantsDocker (FleetEx.docker 1).toCommand ∧
    Suits FleetEx.b (FleetEx.docker 2).toCommand := by
  have hd : ∀ n, WantsDocker (FleetEx.docker n).toCommand := fun n => (wantsDocker_iff _).2 rfl
  refine ⟨by unfold FleetReach; decide +kernel, fleetEx_only (.inr rfl), by decide +kernel, by unfold KnownAs; decide +kernel, hd 1,
    suits_docker (hd 2)⟩

/-- No server for the host step. -/
example : ∃ f, FleetReach "1" FleetEx.job 0
      ([.connect (.ok { id := "d", version := "1", supportHost := false }), .stk (.eng (.check true))] ++
        FleetEx.ask FleetEx.host [{ id := "d", version := "1", supportHost := false }] ++ FleetEx.choose 0 ++ [.reply]) f ∧
    (∃ t0, f.net.eng.pc = .handling FleetEx.host t0) ∧ f.net.current = none :=
  ⟨FleetEx.after ([.connect (.ok { id := "d", version := "1", supportHost := false }), .stk (.eng (.check true))] ++
      FleetEx.ask FleetEx.host [{ id := "d", version := "1", supportHost := false }] ++ FleetEx.choose 0 ++ [.reply]),
    by unfold FleetReach; decide +kernel, ⟨0, by decide +kernel⟩, by decide +kernel⟩

/-- Waiting for the scheduler. -/
example : FleetReach "1" FleetEx.job 0 (FleetEx.start ++ FleetEx.ask FleetEx.host [FleetEx.b, FleetEx.a])
      (FleetEx.after (FleetEx.start ++ FleetEx.ask FleetEx.host [FleetEx.b, FleetEx.a])) ∧
    (FleetEx.after (FleetEx.start ++ FleetEx.ask FleetEx.host [FleetEx.b, FleetEx.a])).net.eng.pc = .calling FleetEx.host 0 := by
  refine ⟨by unfold FleetReach; decide +kernel, by decide +kernel⟩

end AstroRun
