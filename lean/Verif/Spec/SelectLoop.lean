import Verif.Model.SelectLoop

/-!
# Vocabulary for the loop around a running step (C106)
-/

namespace AstroRun.Spec

/-- A loop about to start: the runner accepted the step and nobody waits for anything yet.  The job's signal may have
been used by earlier steps and the runner may already have written to the stream. -/
structure LoopStart (m : SelLoop) : Prop where
  pc : m.pc = .top
  woken : m.woken = false
  timer : m.timer = none
  sig : m.sig = {}
  rx : m.rx = .runnable
  read : m.stream.index = 0
  logged : m.logged = []

/-- What the loop can get to, from `m0`. -/
def LoopReach (m0 m : SelLoop) : Prop := LoopStart m0 ∧ ∃ acts, runs SelLoop.step m0 acts = some m

/-- The engine's task is asleep: its last poll returned `Pending` and nothing has woken it since. -/
def Asleep (m : SelLoop) : Prop := (∃ d, m.pc = .pending d) ∧ m.woken = false

/-- Log lines in the stream that the engine has not read. -/
def unread (m : SelLoop) : List Log := m.stream.logs.drop m.stream.index

/-- A value was written to the job's signal and no step has received it. -/
def jobSignalWaiting (m : SelLoop) : Prop := m.job.signal.isSome ∧ m.job.isNotified = false

/-- Moves of the engine's task and of the executor for it. -/
def engineMove : SelAct → Bool
  | .select _ | .poll | .park | .repoll _ | .hookDone => true
  | _ => false

/-- The moves of `SelAct` that are not the engine's, as the job machine knows them. -/
def outsideMove : SelAct → Option JobAct
  | .tick n => some (.tick n)
  | .push l => some (.push l)
  | .endStream r => some (.endStream r)
  | .cancel => some .cancel
  | _ => none

/-- Moves of the job machine that are not the engine's. -/
def outsideJobMove : JobAct → Bool
  | .tick _ | .push _ | .endStream _ | .cancel => true
  | _ => false

/-- Moves of the job machine inside the loop. -/
def loopJobMove : JobAct → Bool
  | .enter | .timer | .jobSignal | .recv => true
  | a => outsideJobMove a

/-- Two signals look the same but for who waits for them. -/
def SameSignal (a b : SigState) : Prop := a.signal = b.signal ∧ a.isNotified = b.isNotified

/-- Two streams look the same but for who waits for them. -/
def SameStream (a b : StreamState) : Prop := a.logs = b.logs ∧ a.result = b.result ∧ a.index = b.index

/-- The loop is where the job machine is, which executes step `s` since `t0`; `before` is what the machine had notified
when the loop began. -/
def SamePoint (s : Step) (t0 : Time) (before : JobAcc) (l : SelLoop) (m : JobM) : Prop :=
  m.now = l.now ∧
  (∃ js, m.jobSig = some js ∧ js.signal = l.job.signal ∧ js.isNotified = l.job.isNotified) ∧
  m.sig.signal = l.sig.signal ∧
  SameStream l.stream m.stream ∧
  match l.pc with
  | .top | .hook =>
    m.pc = .handling s t0 ∧ m.acc = { before with trace := before.trace ++ l.logged.map (.log s.id) }
  | .polling d _ | .pending d =>
    m.pc = .select s t0 d ∧ m.acc = { before with trace := before.trace ++ l.logged.map (.log s.id) }
  | .done r t =>
    m.pc = .next ∧ m.acc =
      { trace := before.trace ++ l.logged.map (.log s.id) ++
          [.stepState s.id (stepResult s.id r t0 t).state, .stepCompleted (stepResult s.id r t0 t)]
        results := before.results ++ [stepResult s.id r t0 t]
        state := nextJobState before.state (stepResult s.id r t0 t) }

end AstroRun.Spec
