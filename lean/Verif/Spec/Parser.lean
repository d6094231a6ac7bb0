import Verif.Model.Parser

/-! # Specification vocabulary: what a configuration means -/

namespace AstroRun.Spec
open AstroRun

/-- A plugin that fails on `a` or offers no action for it. -/
def Declines (p : Observer) (a : UserActionStep) : Prop :=
  ∀ act, p.onResolveDynamicAction a ≠ .ok (some act)

/-- The action a `uses` step refers to: the registered one of that name, else the offer of the first plugin
that does not decline. -/
inductive Provides (env : ParseEnv) (a : UserActionStep) : Action → Prop
  | registered (act) : AMap.get? env.actions a.uses = some act → Provides env a act
  | dynamic (before p after act) : AMap.get? env.actions a.uses = none →
      env.plugins = before ++ p :: after → (∀ q ∈ before, Declines q a) →
      p.onResolveDynamicAction a = .ok (some act) → Provides env a act

/-- The pre step a configured step contributes, if `r` says what its action expands to. -/
def preOf (r : UserActionStep → ActionSteps) : UserStep → Option UserStep
  | .command _ => none
  | .action a => (r a).pre

/-- The step a configured step stands for. -/
def bodyOf (r : UserActionStep → ActionSteps) : UserStep → UserStep
  | .command c => .command c
  | .action a => (r a).run

/-- The post step a configured step contributes. -/
def postOf (r : UserActionStep → ActionSteps) : UserStep → Option UserStep
  | .command _ => none
  | .action a => (r a).post

/-- Pre steps in order, then bodies in order, then post steps in reverse order. -/
def expansion (r : UserActionStep → ActionSteps) (us : List UserStep) : List UserStep :=
  us.filterMap (preOf r) ++ us.map (bodyOf r) ++ (us.filterMap (postOf r)).reverse

/-- The container a configured container stands for: itself if it is given with options, an image of that name
without volumes and security options if it is a mere name. -/
inductive Denotes : Container → ContainerOptions → Prop
  | options (o) : Denotes (.options o) o
  | name (n o) : o.name = n → o.volumes = none → o.securityOpts = none → Denotes (.name n) o

/-- The runnable step `s` says what command step `c` of a job with default container `jc` says. -/
structure StepOf (env : ParseEnv) (jc : Option Container) (c : UserCommandStep) (s : Step) : Prop where
  name : s.name = c.name
  run : s.run = c.run
  on : s.on = c.on
  ownContainer : ∀ x, c.container = some x → ∃ o, s.container = some o ∧ Denotes x o
  jobContainer : c.container = none → ∀ x, jc = some x → ∃ o, s.container = some o ∧ Denotes x o
  noContainer : c.container = none → jc = none → s.container = none
  ownTimeout : ∀ t, c.timeout = some t → env.durations t = some s.timeout
  defaultTimeout : c.timeout = none → env.durations "60m" = some s.timeout
  continueOnError : s.continueOnError = true ↔ c.continueOnError = some true
  environments : ∀ e, c.environments = some e → s.environments = e
  noEnvironments : c.environments = none → s.environments = []
  secrets : ∀ e, c.secrets = some e → s.secrets = e
  noSecrets : c.secrets = none → s.secrets = []

end AstroRun.Spec
