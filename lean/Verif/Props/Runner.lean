import Verif.Lemmas.Runner
import Verif.Model.Parser
import Verif.Props.Scheduler

/-! # C58–C62 and more: the local runner's decisions, command lines and directories -/

namespace AstroRun
open Spec

namespace RunnerEx
/-- An event of a repository. -/
def ev : TriggerEvent :=
  { event := "push", repoOwner := "octo", repoName := "hello", prNumber := none, sha := "s", branch := "main",
    refName := "refs/heads/main" }
/-- A step with a container, volumes, options and an environment. -/
def step : Command :=
  { id := ⟨"w1", "build", 2⟩, run := "make",
    container := some ⟨"rust:1.70", some ["/cache:/root/.cargo", "/a:/b:ro", "data"], some ["seccomp=unconfined"]⟩,
    environments := [("CI", .boolean true), ("MSG", .string "hello world"), ("N", .number "3")] }
/-- A step on a host platform. -/
def hostStep : Command := { id := ⟨"w1", "build", 0⟩, run := "make", container := some ⟨"host/linux", none, none⟩ }
end RunnerEx

/-! ## C58: executor choice -/

/-- The step's container names the host platform of a machine with this OS and architecture. -/
def AsksForHost (os arch : String) (c : Command) : Prop :=
  ∃ o, c.container = some o ∧ (o.name = "host/" ++ os ∨ o.name = "host/" ++ os ++ "-" ++ arch)

theorem createExecutor_host (os arch : String) (c : Command) :
    createExecutor os arch c = .host ↔ AsksForHost os arch c := by
  unfold createExecutor AsksForHost
  cases c.container with
  | none => simp
  | some o => simp only [Option.some.injEq, exists_eq_left']; split <;> simp_all [or_comm]

theorem createExecutor_docker (os arch : String) (c : Command) :
    createExecutor os arch c = .docker ↔ ¬ AsksForHost os arch c := by
  rw [← createExecutor_host]
  cases createExecutor os arch c <;> simp

/-- **C58** A step whose container is named `host/<os>` or `host/<os>-<arch>` of the runner's machine is run
directly: its script by the shell, in the job's data directory, with its environment. -/
theorem C58_host (os arch wd : String) (c : Command) (ev : Option TriggerEvent) (envs : List (String × String))
    (h : AsksForHost os arch c) :
    stepProcess os arch wd c ev envs =
      { command := c.run, currentDir := some (pathsOf wd ev c.id).jobData, envs := printedEnv c } := by
  have hk := (createExecutor_host os arch c).2 h
  simp only [stepProcess, hk, hostCommand, pathsOf, printedEnv, ← toStr_shown]
  have : ∀ (l : EnvironmentVariables) (acc : List (String × String)),
      l.foldl (fun es e => es ++ [(e.1, e.2.toStr)]) acc = acc ++ l.map fun e => (e.1, e.2.toStr) := by
    intro l
    induction l with
    | nil => simp
    | cons e l ih => intro acc; simp [ih]
  simp [this]

/-- **C58** Every other step is run by docker: the command is `docker run ...` and its last word is the image, the
container's name or `ubuntu` if the step has no container; the script itself is not run by the host's shell. -/
theorem C58_docker (os arch wd : String) (c : Command) (ev : Option TriggerEvent) (envs : List (String × String))
    (hn : (c.environments.map Prod.fst).Nodup) (h : ¬ AsksForHost os arch c) :
    ∃ args, stepProcess os arch wd c ev envs =
        { command := "docker run" ++ args ++ " " ++ imageOf c, currentDir := none, envs := [] } := by
  have hk := (createExecutor_docker os arch c).2 h
  simp only [stepProcess, hk, dockerCommand, Docker.line]
  rw [words_eq c _ rfl hn]
  refine ⟨" " ++ " ".intercalate (["--tty", "--rm"] ++
    (configuredSecurity c).flatMap (fun o => ["--security-opt", o]) ++
    (mountsOf c (pathsOf wd ev c.id)).flatMap (fun v => ["-v", dquote v]) ++
    envs.flatMap (fun e => ["-e", e.1 ++ "=" ++ dquote e.2]) ++
    ["-w", "/home/runner/work", "--entrypoint", "/home/work/runner/entrypoint", "--name",
      (pathsOf wd ev c.id).dockerName]), ?_⟩
  congr 1
  apply String.toList_injective
  simp only [dockerArgs, ← pathsOf.eq_1]
  generalize (configuredSecurity c).flatMap (fun o => ["--security-opt", o]) = A
  generalize (mountsOf c (pathsOf wd ev c.id)).flatMap (fun v => ["-v", dquote v]) = B
  generalize envs.flatMap (fun e => ["-e", e.1 ++ "=" ++ dquote e.2]) = C
  have e1 : ["docker", "run", "--tty", "--rm"] ++ A ++ B ++ C ++
      ["-w", "/home/runner/work", "--entrypoint", "/home/work/runner/entrypoint", "--name",
        (pathsOf wd ev c.id).dockerName, imageOf c] =
      ["docker", "run"] ++ ((["--tty", "--rm"] ++ A ++ B ++ C ++
        ["-w", "/home/runner/work", "--entrypoint", "/home/work/runner/entrypoint", "--name",
          (pathsOf wd ev c.id).dockerName]) ++ [imageOf c]) := by simp
  rw [e1, String.intercalate_append_of_ne_nil (by simp) (by simp),
    String.intercalate_append_of_ne_nil (by simp) (by simp)]
  simp [String.toList_append]

example : AsksForHost "linux" "x86_64" RunnerEx.hostStep ∧ ¬ AsksForHost "macos" "aarch64" RunnerEx.hostStep ∧
    ¬ AsksForHost "linux" "x86_64" RunnerEx.step ∧ (RunnerEx.step.environments.map Prod.fst).Nodup := by
  refine ⟨⟨_, rfl, .inl rfl⟩, ?_, ?_, by decide⟩
  · rw [← createExecutor_docker]; decide
  · rw [← createExecutor_docker]; decide

/-- **C58** The scheduler and the runner agree: in every history, a step that asks for a host platform is run
directly by the runner it is given to, and a step that does not is run by docker on every runner. -/
theorem C58_scheduled (acts : List SchedAct) (m : SchedM) (h : SchedReach acts m) (i : Nat)
    (rs : List RunnerMeta) (c : Command) (r : RunnerMeta) (hc : m.calls[i]? = some ⟨rs, c, .done (some r)⟩) :
    ((∃ name, WantsHost c name) → createExecutor r.os r.arch c = .host) ∧
    (WantsDocker c → ∀ os arch, createExecutor os arch c = .docker) := by
  constructor
  · rintro ⟨name, hw⟩
    have hp := ((C44_capability_partial acts m h i rs c r hc).2.2 name hw).1
    obtain ⟨o, ho, hname, _⟩ := hw
    subst hname
    exact (createExecutor_host ..).2 ⟨o, ho, hp⟩
  · intro hd os arch
    rw [createExecutor_docker]
    rintro ⟨o, ho, hname⟩
    refine hd ⟨o.name, o, ho, rfl, ?_⟩
    rcases hname with hname | hname
    · exact ⟨os, hname⟩
    · exact ⟨os ++ "-" ++ arch, by rw [hname]; simp [String.append_assoc]⟩

example :
    let acts := SchedEx.call 0 [SchedEx.hostOnly] (SchedEx.host "k" 0 "host/linux")
    SchedReach acts (SchedEx.after acts) ∧
    (SchedEx.after acts).calls.map SchedCall.pc = [.done (some SchedEx.hostOnly)] ∧
    WantsHost (SchedEx.host "k" 0 "host/linux") "host/linux" := by
  refine ⟨by rfl, by decide, _, rfl, rfl, "linux", by decide⟩

/-! ## C59: the docker command line -/

/-- **C59** The command of a docker step is, whatever the order in which its environment is iterated, the words
`docker run --tty --rm`, its security options, its mounts (three of the runner's own and the configured volumes
with exactly two parts), its environment, then working directory, entrypoint, name and image, each configured
item exactly once and, except for the environment, in the configured order. -/
theorem C59_words (os arch wd : String) (c : Command) (ev : Option TriggerEvent)
    (hn : (c.environments.map Prod.fst).Nodup) (h : ¬ AsksForHost os arch c) :
    (Docker.ofStep c (pathsOf wd ev c.id)).environments.Perm (printedEnv c) ∧
    ∀ envs, envs.Perm (Docker.ofStep c (pathsOf wd ev c.id)).environments →
      (stepProcess os arch wd c ev envs).command =
        " ".intercalate (dockerArgs dquote c (pathsOf wd ev c.id) envs) := by
  have hk := (createExecutor_docker os arch c).2 h
  obtain ⟨m, hm, heq⟩ := ofStep_eq c (pathsOf wd ev c.id) hn
  refine ⟨by rw [heq]; exact hm, fun envs _ => ?_⟩
  simp only [stepProcess, hk, dockerCommand, Docker.line]
  rw [words_eq c _ rfl hn]
  rfl

/-- **C59** If nothing in the step and the runner's directories has a special meaning for the shell, docker is
started with exactly the intended arguments: every mount and environment entry is one argument. -/
theorem C59_argv (os arch wd : String) (c : Command) (ev : Option TriggerEvent)
    (hn : (c.environments.map Prod.fst).Nodup) (h : ¬ AsksForHost os arch c)
    (hsec : ∀ o ∈ configuredSecurity c, PlainWord o)
    (hvol : ∀ v ∈ mountsOf c (pathsOf wd ev c.id), Quotable v)
    (henv : ∀ e ∈ printedEnv c, PlainWord e.1 ∧ Quotable e.2)
    (hname : PlainWord (pathsOf wd ev c.id).dockerName) (himg : PlainWord (imageOf c))
    (envs : List (String × String)) (hp : envs.Perm (printedEnv c)) :
    shArgv (stepProcess os arch wd c ev envs).command = some (dockerArgs id c (pathsOf wd ev c.id) envs) := by
  have hw := (C59_words os arch wd c ev hn h)
  rw [hw.2 envs (hp.trans hw.1.symm)]
  generalize pathsOf wd ev c.id = md at *
  have henv' : ∀ e ∈ envs, PlainWord e.1 ∧ Quotable e.2 := fun e he => henv e (hp.mem_iff.1 he)
  have plain : ∀ s : String, PlainWord s → Lexes s.toList s.toList := by
    intro s hs
    refine lexes_plain ?_ hs.2
    intro hnil
    exact hs.1 (String.toList_injective (by simpa using hnil))
  have quoted : ∀ s : String, Quotable s → Lexes (dquote s).toList s.toList := by
    intro s hs
    have := lexes_quoted (p := []) (by simp) hs
    simpa [dquote, String.toList_append] using this
  have equoted : ∀ e : String × String, PlainWord e.1 ∧ Quotable e.2 →
      Lexes (e.1 ++ "=" ++ dquote e.2).toList (e.1 ++ "=" ++ e.2).toList := by
    intro e he
    have := lexes_quoted (p := e.1.toList ++ ['=']) (q := e.2.toList) (by
      intro c hc
      rcases List.mem_append.1 hc with hc | hc
      · exact he.1.2 c hc
      · simp at hc
        subst hc
        decide) he.2
    simpa [dquote, String.toList_append] using this
  have lit : ∀ s : String, s ∈ ["docker", "run", "--tty", "--rm", "--security-opt", "-v", "-e", "-w",
      "/home/runner/work", "--entrypoint", "/home/work/runner/entrypoint", "--name"] → PlainWord s := by
    intro s hs
    simp only [List.mem_cons, List.not_mem_nil, or_false] at hs
    rcases hs with rfl | rfl | rfl | rfl | rfl | rfl | rfl | rfl | rfl | rfl | rfl | rfl <;>
      exact ⟨by decide, by decide⟩
  -- pair every written word with the word the shell reads
  let ws : List (String × String) :=
    ["docker", "run", "--tty", "--rm"].map (fun s => (s, s)) ++
    (configuredSecurity c).flatMap (fun o => [("--security-opt", "--security-opt"), (o, o)]) ++
    (mountsOf c md).flatMap (fun v => [("-v", "-v"), (dquote v, v)]) ++
    envs.flatMap (fun e => [("-e", "-e"), (e.1 ++ "=" ++ dquote e.2, e.1 ++ "=" ++ e.2)]) ++
    ["-w", "/home/runner/work", "--entrypoint", "/home/work/runner/entrypoint", "--name", md.dockerName,
      imageOf c].map (fun s => (s, s))
  have h1 : ws.map Prod.fst = dockerArgs dquote c md envs := by
    simp [ws, dockerArgs, List.map_flatMap]
  have h2 : ws.map Prod.snd = dockerArgs id c md envs := by
    simp [ws, dockerArgs, List.map_flatMap]
  have h3 : ∀ p ∈ ws, Lexes p.1.toList p.2.toList := by
    intro p hp
    simp only [ws, List.mem_append, List.mem_flatMap, List.mem_map] at hp
    rcases hp with (((⟨s, hs, rfl⟩ | ⟨o, ho, hp⟩) | ⟨v, hv, hp⟩) | ⟨e, he, hp⟩) | ⟨s, hs, rfl⟩
    · exact plain s (lit s (by
        simp only [List.mem_cons, List.not_mem_nil, or_false] at hs ⊢
        rcases hs with rfl | rfl | rfl | rfl <;> simp))
    · simp only [List.mem_cons, List.not_mem_nil, or_false] at hp
      rcases hp with rfl | rfl
      · exact plain _ (lit _ (by simp))
      · exact plain _ (hsec o ho)
    · simp only [List.mem_cons, List.not_mem_nil, or_false] at hp
      rcases hp with rfl | rfl
      · exact plain _ (lit _ (by simp))
      · exact quoted _ (hvol v hv)
    · simp only [List.mem_cons, List.not_mem_nil, or_false] at hp
      rcases hp with rfl | rfl
      · exact plain _ (lit _ (by simp))
      · exact equoted _ (henv' e he)
    · simp only [List.mem_cons, List.not_mem_nil, or_false] at hs
      rcases hs with rfl | rfl | rfl | rfl | rfl | rfl | rfl
      · exact plain _ (lit _ (by simp))
      · exact plain _ (lit _ (by simp))
      · exact plain _ (lit _ (by simp))
      · exact plain _ (lit _ (by simp))
      · exact plain _ (lit _ (by simp))
      · exact plain _ hname
      · exact plain _ himg
  have := shGo_line (ws.map fun p => (p.1.toList, p.2.toList)) (by simp [ws]) (by
    intro p hp
    obtain ⟨q, hq, rfl⟩ := List.mem_map.1 hp
    exact h3 q hq)
  simp only [shArgv, String.toList_intercalate]
  rw [← h1, ← h2]
  have e1 : (ws.map Prod.fst).map String.toList = (ws.map fun p => (p.1.toList, p.2.toList)).map Prod.fst := by
    simp
  have e3 : (" " : String).toList = [' '] := by decide
  rw [e1, e3, this]
  simp

set_option maxRecDepth 20000 in
/-- The step of `RunnerEx` meets the hypotheses, and its command is what one expects. -/
example : (stepProcess "linux" "x86_64" "/srv" RunnerEx.step (some RunnerEx.ev) (printedEnv RunnerEx.step)).command =
    "docker run --tty --rm --security-opt seccomp=unconfined -v \"/srv/octo/hello/w1/build/2/entrypoint:/home/work/runner/entrypoint\" -v \"/srv/octo/hello/w1/build/data:/home/runner/work\" -v \"/srv/octo/hello/caches:/home/work/caches\" -v \"/cache:/root/.cargo\" -e CI=\"true\" -e MSG=\"hello world\" -e N=\"3\" -w /home/runner/work --entrypoint /home/work/runner/entrypoint --name w1-build-2 rust:1.70" := by
  decide

example : (∀ o ∈ configuredSecurity RunnerEx.step, PlainWord o) ∧
    (∀ v ∈ mountsOf RunnerEx.step (pathsOf "/srv" (some RunnerEx.ev) RunnerEx.step.id), Quotable v) ∧
    (∀ e ∈ printedEnv RunnerEx.step, PlainWord e.1 ∧ Quotable e.2) ∧
    PlainWord (pathsOf "/srv" (some RunnerEx.ev) RunnerEx.step.id).dockerName ∧ PlainWord (imageOf RunnerEx.step) := by
  unfold PlainWord Quotable
  decide

/-! ## C60: the environment on the command line -/

theorem quote_free_split {a b r s : List Char} (ha : '"' ∉ a) (hb : '"' ∉ b)
    (h : a ++ '"' :: r = b ++ '"' :: s) : a = b ∧ r = s := by
  induction a generalizing b with
  | nil =>
    cases b with
    | nil => simpa using h
    | cons c b =>
      simp only [List.nil_append, List.cons_append, List.cons.injEq] at h
      exact absurd (by rw [h.1]; simp) hb
  | cons c a ih =>
    cases b with
    | nil =>
      simp only [List.nil_append, List.cons_append, List.cons.injEq] at h
      exact absurd (by rw [← h.1]; simp) ha
    | cons d b =>
      simp only [List.cons_append, List.cons.injEq] at h
      simp only [List.mem_cons, not_or] at ha hb
      obtain ⟨h1, h2⟩ := ih ha.2 hb.2 h.2
      exact ⟨by rw [h.1, h1], h2⟩

/-- One environment entry on the command line. -/
def envText (e : String × String) : List Char := "-e ".toList ++ e.1.toList ++ "=\"".toList ++ e.2.toList ++ "\" ".toList

theorem envText_injective (xs ys : List (String × String))
    (hx : ∀ e ∈ xs, '"' ∉ e.1.toList ∧ '"' ∉ e.2.toList) (hy : ∀ e ∈ ys, '"' ∉ e.1.toList ∧ '"' ∉ e.2.toList)
    (h : xs.flatMap envText = ys.flatMap envText) : xs = ys := by
  induction xs generalizing ys with
  | nil =>
    cases ys with
    | nil => rfl
    | cons y ys => simp [envText] at h
  | cons x xs ih =>
    cases ys with
    | nil => simp [envText] at h
    | cons y ys =>
      have e0 : ∀ (e : String × String) (t : List Char), envText e ++ t =
          ("-e ".toList ++ e.1.toList ++ ['=']) ++ '"' :: (e.2.toList ++ '"' :: ' ' :: t) := by
        intro e t
        simp [envText]
      have nq : ∀ e : String × String, '"' ∉ e.1.toList → '"' ∉ "-e ".toList ++ e.1.toList ++ ['='] := by
        intro e he
        simp [he]
      rw [List.flatMap_cons, List.flatMap_cons, e0, e0] at h
      obtain ⟨h1, h2⟩ := quote_free_split (nq x (hx x (by simp)).1) (nq y (hy y (by simp)).1) h
      obtain ⟨h3, h4⟩ := quote_free_split (hx x (by simp)).2 (hy y (by simp)).2 h2
      have hk : x.1 = y.1 := by
        apply String.toList_injective
        have := List.append_cancel_right h1
        exact List.append_cancel_left this
      have hv : x.2 = y.2 := String.toList_injective h3
      have hr : xs = ys := ih ys (fun e he => hx e (by simp [he])) (fun e he => hy e (by simp [he]))
        (by simpa using h4)
      rw [hr, Prod.ext hk hv]

/-- The command line is a fixed text, the environment, and a fixed text. -/
theorem line_split (c : Command) (md : Metadata) (envs : List (String × String)) :
    (" ".intercalate (dockerArgs dquote c md envs)).toList =
      (" ".intercalate (["docker", "run", "--tty", "--rm"] ++
        (configuredSecurity c).flatMap (fun o => ["--security-opt", o]) ++
        (mountsOf c md).flatMap (fun v => ["-v", dquote v]))).toList ++ [' '] ++ envs.flatMap envText ++
      (" ".intercalate ["-w", "/home/runner/work", "--entrypoint", "/home/work/runner/entrypoint", "--name",
        md.dockerName, imageOf c]).toList := by
  simp only [dockerArgs]
  generalize hA : ["docker", "run", "--tty", "--rm"] ++ (configuredSecurity c).flatMap (fun o => ["--security-opt", o]) ++
        (mountsOf c md).flatMap (fun v => ["-v", dquote v]) = A
  have hAne : A ≠ [] := by rw [← hA]; simp
  generalize hS : ["-w", "/home/runner/work", "--entrypoint", "/home/work/runner/entrypoint", "--name",
        md.dockerName, imageOf c] = S
  have hSne : S ≠ [] := by rw [← hS]; simp
  have : ∀ envs : List (String × String),
      (" ".intercalate (envs.flatMap (fun e => ["-e", e.1 ++ "=" ++ dquote e.2]) ++ S)).toList =
        envs.flatMap envText ++ (" ".intercalate S).toList := by
    intro envs
    induction envs with
    | nil => simp
    | cons e envs ih =>
      rw [List.flatMap_cons, List.append_assoc, String.intercalate_append_of_ne_nil (by simp) (by
        intro hnil
        exact hSne (List.append_eq_nil_iff.1 hnil).2)]
      rw [String.toList_append, ih, List.flatMap_cons]
      simp [envText, dquote, String.toList_append]
  rw [List.append_assoc A, String.intercalate_append_of_ne_nil hAne (by
    intro hnil
    exact hSne (List.append_eq_nil_iff.1 hnil).2), String.toList_append, this, String.toList_append]
  simp

/-- **C60** (partial) For a docker step, as long as no name and no value of the environment contains a double
quote, the command line determines the environment.  Missing: values with double quotes, see `C60_refuted`. -/
theorem C60_determined_partial (os arch wd : String) (c : Command) (ev : Option TriggerEvent)
    (e1 e2 : EnvironmentVariables) (envs1 envs2 : List (String × String))
    (h : ¬ AsksForHost os arch c)
    (hn1 : (e1.map Prod.fst).Nodup) (hn2 : (e2.map Prod.fst).Nodup)
    (hp1 : envs1.Perm (printedEnv { c with environments := e1 }))
    (hp2 : envs2.Perm (printedEnv { c with environments := e2 }))
    (hq : ∀ e, e ∈ printedEnv { c with environments := e1 } ∨ e ∈ printedEnv { c with environments := e2 } →
      '"' ∉ e.1.toList ∧ '"' ∉ e.2.toList)
    (heq : (stepProcess os arch wd { c with environments := e1 } ev envs1).command =
      (stepProcess os arch wd { c with environments := e2 } ev envs2).command) :
    (printedEnv { c with environments := e1 }).Perm (printedEnv { c with environments := e2 }) := by
  have w1 := C59_words os arch wd { c with environments := e1 } ev hn1 h
  have w2 := C59_words os arch wd { c with environments := e2 } ev hn2 h
  rw [w1.2 envs1 (hp1.trans w1.1.symm), w2.2 envs2 (hp2.trans w2.1.symm)] at heq
  have hl := congrArg String.toList heq
  rw [line_split, line_split] at hl
  have hl' := List.append_cancel_left (List.append_cancel_right hl)
  have := envText_injective envs1 envs2 (fun e he => hq e (.inl (hp1.mem_iff.1 he)))
    (fun e he => hq e (.inr (hp2.mem_iff.1 he))) hl'
  subst this
  exact hp1.symm.trans hp2

/-- **C60** (partial) If moreover names are plain words and values contain no `$`, backquote or backslash, docker
is given every entry literally: the argument after some `-e` is `name=value`. -/
theorem C60_literal_partial (os arch wd : String) (c : Command) (ev : Option TriggerEvent)
    (hn : (c.environments.map Prod.fst).Nodup) (h : ¬ AsksForHost os arch c)
    (hsec : ∀ o ∈ configuredSecurity c, PlainWord o)
    (hvol : ∀ v ∈ mountsOf c (pathsOf wd ev c.id), Quotable v)
    (henv : ∀ e ∈ printedEnv c, PlainWord e.1 ∧ Quotable e.2)
    (hname : PlainWord (pathsOf wd ev c.id).dockerName) (himg : PlainWord (imageOf c))
    (envs : List (String × String)) (hp : envs.Perm (printedEnv c)) (k v : String) (hkv : (k, v) ∈ printedEnv c) :
    ∃ pre post, shArgv (stepProcess os arch wd c ev envs).command = some (pre ++ ["-e", k ++ "=" ++ v] ++ post) := by
  rw [C59_argv os arch wd c ev hn h hsec hvol henv hname himg envs hp]
  obtain ⟨a, b, hab⟩ := List.append_of_mem (hp.mem_iff.2 hkv)
  simp only [dockerArgs, hab, List.flatMap_append, List.flatMap_cons]
  refine ⟨["docker", "run", "--tty", "--rm"] ++ (configuredSecurity c).flatMap (fun o => ["--security-opt", o]) ++
    (mountsOf c (pathsOf wd ev c.id)).flatMap (fun v => ["-v", v]) ++
    a.flatMap (fun e => ["-e", e.1 ++ "=" ++ e.2]),
    b.flatMap (fun e => ["-e", e.1 ++ "=" ++ e.2]) ++
    ["-w", "/home/runner/work", "--entrypoint", "/home/work/runner/entrypoint", "--name",
      (pathsOf wd ev c.id).dockerName, imageOf c], ?_⟩
  simp only [List.append_assoc, id]

namespace RunnerEx
/-- A step without environment. -/
def plain : Command := { id := ⟨"w1", "build", 0⟩, run := "make" }
/-- Two entries. -/
def twoEntries : EnvironmentVariables := [("A", .string "x"), ("B", .string "y")]
/-- One entry whose value contains quotes. -/
def oneEntry : EnvironmentVariables := [("A", .string "x\" -e B=\"y")]
end RunnerEx

set_option maxRecDepth 20000 in
/-- **C60 is false of the code**: two different environments give the same command line, because a double quote in
a value is not escaped. -/
theorem C60_refuted : ∃ (os arch wd : String) (c : Command) (e1 e2 : EnvironmentVariables),
    ¬ AsksForHost os arch c ∧ (e1.map Prod.fst).Nodup ∧ (e2.map Prod.fst).Nodup ∧
    ¬ (printedEnv { c with environments := e1 }).Perm (printedEnv { c with environments := e2 }) ∧
    (stepProcess os arch wd { c with environments := e1 } none (printedEnv { c with environments := e1 })).command =
      (stepProcess os arch wd { c with environments := e2 } none (printedEnv { c with environments := e2 })).command := by
  refine ⟨"linux", "x86_64", "/srv", RunnerEx.plain, RunnerEx.twoEntries, RunnerEx.oneEntry, ?_, by decide, by decide,
    ?_, by decide⟩
  · rw [← createExecutor_docker]; decide
  · intro hp
    exact absurd hp.length_eq (by decide)

example : (∀ e, e ∈ printedEnv { RunnerEx.plain with environments := RunnerEx.twoEntries } ∨
    e ∈ printedEnv { RunnerEx.plain with environments := [] } → '"' ∉ e.1.toList ∧ '"' ∉ e.2.toList) := by
  intro e he
  rcases he with he | he
  · simp [printedEnv, RunnerEx.twoEntries] at he
    rcases he with rfl | rfl <;> decide
  · simp [printedEnv] at he

/-! ## C61: directories of different steps -/

theorem dash_split {a b : List Char} {m n : Nat} (h : a ++ '-' :: Nat.toDigits 10 m = b ++ '-' :: Nat.toDigits 10 n) :
    a = b ∧ m = n := by
  have nd : ∀ k, '-' ∉ Nat.toDigits 10 k := by
    intro k hk
    exact absurd (Nat.isDigit_of_mem_toDigits (b := 10) (by decide) (by decide) hk) (by decide)
  have key : ∀ (x y r s : List Char), '-' ∉ r → '-' ∉ s → x ++ '-' :: r = y ++ '-' :: s → x = y ∧ r = s := by
    intro x y r s hr hs hxy
    rcases List.append_eq_append_iff.1 hxy with ⟨t, h1, h2⟩ | ⟨t, h1, h2⟩
    · cases t with
      | nil => simp_all
      | cons c t =>
        simp only [List.cons_append, List.cons.injEq] at h2
        exact absurd (by rw [h2.2]; simp) hr
    · cases t with
      | nil => simp_all
      | cons c t =>
        simp only [List.cons_append, List.cons.injEq] at h2
        exact absurd (by rw [h2.2]; simp) hs
  obtain ⟨h1, h2⟩ := key a b _ _ (nd m) (nd n) h
  refine ⟨h1, repr_injective (String.toList_injective ?_)⟩
  simpa using h2

/-- **C61** (partial) Two different steps of one workflow have different container names, and, if their job keys
(and the workflow id) are simple names, step directories neither of which is inside the other, different entrypoint
files, data directories that are shared exactly by the steps of one job, and no step directory inside a data
directory or the other way round.  Missing: job keys with a `/` or equal to `..`, see `C61_refuted`. -/
theorem C61_isolated_partial (cwd : Loc) (wd : String) (ev : Option TriggerEvent) (s t : StepId)
    (hw : s.workflow = t.workflow) (hne : s ≠ t) :
    (pathsOf wd ev s).dockerName ≠ (pathsOf wd ev t).dockerName ∧
    (SimpleName s.workflow → SimpleName s.job → SimpleName t.job →
      let stepLoc (i : StepId) := resolve cwd (pathsOf wd ev i).stepDir
      let dataLoc (i : StepId) := resolve cwd (pathsOf wd ev i).jobData
      ¬ Under (stepLoc s) (stepLoc t) ∧
      resolve cwd (pathsOf wd ev s).entrypoint ≠ resolve cwd (pathsOf wd ev t).entrypoint ∧
      Under (stepLoc s) (resolve cwd (pathsOf wd ev s).entrypoint) ∧
      (dataLoc s = dataLoc t ↔ s.job = t.job) ∧
      (s.job ≠ t.job → ¬ Under (dataLoc s) (dataLoc t)) ∧
      ¬ Under (dataLoc s) (stepLoc t) ∧ ¬ Under (stepLoc s) (dataLoc t)) := by
  obtain ⟨w, j1, n1⟩ := s
  obtain ⟨w', j2, n2⟩ := t
  simp only at hw
  subst hw
  constructor
  · intro h
    simp only [pathsOf, Metadata.build] at h
    have h' := congrArg String.toList h
    simp only [String.toList_append, List.append_assoc] at h'
    have h2 := List.append_cancel_left (List.append_cancel_left h')
    have e : ∀ (j : String) (n : Nat), j.toList ++ ("-".toList ++ n.repr.toList) = j.toList ++ '-' :: Nat.toDigits 10 n := by
      intro j n
      simp
    rw [e, e] at h2
    obtain ⟨h3, h4⟩ := dash_split h2
    exact hne (by rw [String.toList_injective h3, h4])
  · intro h1 h2 h3
    obtain ⟨p1, p2, p3, _⟩ := resolve_paths cwd wd ev ⟨w, j1, n1⟩ h1 h2
    obtain ⟨q1, q2, q3, _⟩ := resolve_paths cwd wd ev ⟨w, j2, n2⟩ h1 h3
    simp only [p1, p2, p3, q1, q2, q3]
    have inj : ¬ (j1 = j2 ∧ n1.repr = n2.repr) := by
      rintro ⟨rfl, h⟩
      exact hne (by rw [repr_injective h])
    have und : ∀ (base : Loc) (a b c d : String), Under (base ++ [a, b]) (base ++ [c, d]) → a = c ∧ b = d := by
      rintro base a b c d ⟨rest, hr⟩
      rw [List.append_assoc] at hr
      have := List.append_cancel_left hr
      simp only [List.cons_append, List.nil_append, List.cons.injEq] at this
      exact ⟨this.1.symm, this.2.1.symm⟩
    refine ⟨fun hu => ?_, ?_, ⟨["entrypoint"], by simp⟩, ?_, fun hj hu => hj (und _ _ _ _ _ hu).1, fun hu => ?_,
      fun hu => ?_⟩
    · exact inj (und _ _ _ _ _ hu)
    · intro he
      have := List.append_cancel_left he
      simp only [List.cons.injEq, and_true] at this
      exact inj this
    · simp
    · exact repr_ne_data n2 (und _ _ _ _ _ hu).2.symm
    · exact repr_ne_data n1 (und _ _ _ _ _ hu).2

example : (pathsOf "/srv" (some RunnerEx.ev) ⟨"w1", "build", 2⟩).stepDir = "/srv/octo/hello/w1/build/2" ∧
    resolve [] "/srv/octo/hello/w1/build/2" = ["srv", "octo", "hello", "w1", "build", "2"] ∧
    resolve ["home", "me"] "../you/./x//y" = ["home", "you", "x", "y"] ∧
    SimpleName "w1" ∧ SimpleName "build" := by
  refine ⟨by decide, by decide, by decide, ?_, ?_⟩ <;> refine ⟨?_, ?_, ?_, ?_⟩ <;> decide

theorem resolve_snoc (cwd : Loc) {p n : String} (hp : p ≠ "") (hn : '/' ∉ n.toList) :
    resolve cwd (p ++ "/" ++ n) = walk (resolve cwd p) n := by
  have hne : p.toList ≠ [] := fun e => hp (String.toList_injective (by simpa using e))
  have hhead : (p ++ "/" ++ n).toList.head? = p.toList.head? := by
    simp only [String.toList_append]
    cases h : p.toList with
    | nil => exact absurd h hne
    | cons c l => simp
  simp only [resolve, hhead]
  have : (p ++ "/" ++ n).toList = p.toList ++ '/' :: n.toList := by simp
  rw [this, splitSlash_append_slash, splitSlash_noSlash hn]
  simp [String.ofList_toList]

/-- **C61** What a path text denotes: one that begins with a slash does not depend on the directory the process is in,
another is read from there; a further name goes one down, `..` one up, and `.` or nothing stays. -/
theorem C61_path_meaning (cwd : Loc) (p n : String) (hp : p ≠ "") (hn : SimpleName n) :
    (∀ cwd', resolve cwd ("/" ++ p) = resolve cwd' ("/" ++ p)) ∧
    resolve cwd "/" = [] ∧ resolve cwd ("/" ++ n) = [n] ∧ resolve cwd n = cwd ++ [n] ∧
    resolve cwd ".." = cwd.dropLast ∧ resolve cwd "." = cwd ∧
    resolve cwd (p ++ "/" ++ n) = resolve cwd p ++ [n] ∧
    resolve cwd (p ++ "/" ++ "..") = (resolve cwd p).dropLast ∧
    resolve cwd (p ++ "/" ++ ".") = resolve cwd p ∧
    resolve cwd (p ++ "/" ++ "") = resolve cwd p := by
  have abs : ∀ cwd' q, resolve cwd' ("/" ++ q) = ((splitSlash q.toList).map String.ofList).foldl walk [] := by
    intro cwd' q
    have : ("/" ++ q).toList = '/' :: q.toList := by simp
    simp [resolve, this, splitSlash, walk]
  have hh : n.toList.head? ≠ some '/' := fun h => hn.2.1 (List.mem_of_head? h)
  refine ⟨fun cwd' => by rw [abs, abs], rfl, ?_, ?_, rfl, rfl, ?_, ?_, ?_, ?_⟩
  · rw [abs, splitSlash_noSlash hn.2.1]
    simp [String.ofList_toList, walk_simple hn]
  · simp [resolve, hh, splitSlash_noSlash hn.2.1, String.ofList_toList, walk_simple hn]
  · rw [resolve_snoc _ hp hn.2.1, walk_simple hn]
  · rw [resolve_snoc _ hp (by decide)]; rfl
  · rw [resolve_snoc _ hp (by decide)]; rfl
  · rw [resolve_snoc _ hp (by decide)]; rfl

/-- **C61** Where the things of a step are: under the working directory, the repository of the event (if there is
one), the workflow and the job. -/
theorem C61_places (cwd : Loc) (wd : String) (ev : Option TriggerEvent) (s : StepId)
    (hw : SimpleName s.workflow) (hj : SimpleName s.job)
    (hrepo : ∀ e, ev = some e → SimpleName e.repoOwner ∧ SimpleName e.repoName) :
    let base := resolve cwd wd ++ repoPart ev
    resolve cwd (pathsOf wd ev s).stepDir = base ++ [s.workflow, s.job, s.number.repr] ∧
    resolve cwd (pathsOf wd ev s).entrypoint = base ++ [s.workflow, s.job, s.number.repr, "entrypoint"] ∧
    resolve cwd (pathsOf wd ev s).jobData = base ++ [s.workflow, s.job, "data"] ∧
    resolve cwd (pathsOf wd ev s).caches = base ++ ["caches"] ∧
    (pathsOf wd ev s).dockerName = s.workflow ++ "-" ++ s.job ++ "-" ++ s.number.repr ∧
    workflowLoc cwd wd ev s.workflow = base ++ [s.workflow] := by
  have hbase : resolve cwd (repoDir wd (ev.map fun e => (e.repoOwner, e.repoName))) =
        resolve cwd wd ++ repoPart ev := by
    cases ev with
    | none => simp [repoDir, repoPart]
    | some e =>
      obtain ⟨a, b⟩ := hrepo e rfl
      simp [repoDir, repoPart, resolve_join _ _ a, resolve_join _ _ b]
  obtain ⟨h1, h2, h3, h4⟩ := resolve_paths cwd wd ev s hw hj
  simp only [h1, h2, h3, h4, workflowLoc, hbase]
  refine ⟨?_, ?_, ?_, ?_, rfl, trivial⟩ <;> simp

example : resolve [] (pathsOf "/srv" (some RunnerEx.ev) ⟨"w1", "build", 2⟩).entrypoint =
    ["srv", "octo", "hello", "w1", "build", "2", "entrypoint"] := by decide

namespace RunnerEx
/-- Jobs `a` and `a/1`. -/
def nested : UserWorkflow :=
  { jobs := [("a", { steps := [.command { run := "x" }, .command { run := "y" }] }),
      ("a/1", { steps := [.command { run := "z" }] })] }
end RunnerEx

/-- **C61 is false of the code**: an accepted workflow whose second step of job `a` has a directory that contains
the directories of job `a/1`; removing the former at the end of that step destroys the latter. -/
theorem C61_refuted : ∃ (w : UserWorkflow) (wf : Workflow) (s t : StepId),
    buildWorkflow { durations := fun _ => some 3600 } "w" w = .ok wf ∧
    s ∈ wf.jobs.flatMap (fun e => e.2.steps.map Step.id) ∧ t ∈ wf.jobs.flatMap (fun e => e.2.steps.map Step.id) ∧
    s ≠ t ∧
    Under (resolve [] (pathsOf "/srv" none s).stepDir) (resolve [] (pathsOf "/srv" none t).stepDir) ∧
    Under (resolve [] (pathsOf "/srv" none s).stepDir) (resolve [] (pathsOf "/srv" none t).jobData) := by
  refine ⟨RunnerEx.nested, _, ⟨"w", "a", 1⟩, ⟨"w", "a/1", 0⟩, rfl, ?_, ?_, by decide, ⟨["0"], by decide⟩,
    ⟨["data"], by decide⟩⟩ <;> decide

/-! ## C62: clean-up of a workflow -/

/-- **C62** (partial) When a workflow with a simple id completes, after any history of runs in which all its steps
came with the same event, exactly its directory is removed (all of it if the removal succeeds), and nothing outside
it changes.  Missing: ids that are not simple names. -/
theorem C62_confined_partial (cwd : Loc) (wd : String) (fs : FS) (hfs : TreeShaped fs)
    (hist : List (Command × Option TriggerEvent)) (w : Id) (ev : Option TriggerEvent) (hw : SimpleName w)
    (hsome : ∃ x ∈ hist, x.1.id.workflow = w) (hall : ∀ x ∈ hist, x.1.id.workflow = w → x.2 = ev)
    (survives : Loc → Bool) :
    let fs' := (memAfter hist).onWorkflowCompleted wd cwd fs ⟨w⟩ survives
    (∀ l, ¬ Under (workflowLoc cwd wd ev w) l → fs' l = fs l) ∧
    (∀ l, Under (workflowLoc cwd wd ev w) l → survives l = false → fs' l = none) := by
  have hw' : ∀ x : Command × Option TriggerEvent, x.1.id.workflowId = ⟨w⟩ ↔ x.1.id.workflow = w := by
    intro x
    simp [StepId.workflowId]
  have hget : (memAfter hist).workflowEvents.get? ⟨w⟩ = ev := by
    rw [memAfter_get hist ⟨w⟩ ev (fun x hx h => hall x hx ((hw' x).1 h)), if_pos]
    obtain ⟨x, hx, hxw⟩ := hsome
    exact List.any_eq_true.2 ⟨x, hx, by simp [(hw' x).2 hxw]⟩
  have hdir : resolve cwd ((memAfter hist).workflowDir wd ⟨w⟩) = workflowLoc cwd wd ev w := by
    simp only [RunnerMem.workflowDir, hget, workflowLoc]
    exact resolve_join _ _ hw
  have hpre : ∀ d l : Loc, d <+: l ↔ Under d l := by
    intro d l
    exact ⟨fun ⟨t, ht⟩ => ⟨t, ht.symm⟩, fun ⟨t, ht⟩ => ⟨t, ht.symm⟩⟩
  simp only [RunnerMem.onWorkflowCompleted, hdir]
  constructor
  · intro l hl
    split
    · simp only [removeDirAll, hpre, hl, false_and, if_false]
    · rfl
  · intro l hl hs
    split
    · simp only [removeDirAll, hpre, hl, hs, and_self, if_true]
    · rename_i hnone
      obtain ⟨rest, rfl⟩ := hl
      have : fs (workflowLoc cwd wd ev w) = none := by
        cases h : fs (workflowLoc cwd wd ev w) with
        | none => rfl
        | some n => rw [h] at hnone; simp at hnone
      clear hs
      induction rest using List.reverseRecOn with
      | nil => simpa using this
      | append_singleton rest x ih =>
        cases h : fs (workflowLoc cwd wd ev w ++ (rest ++ [x])) with
        | none => rfl
        | some n => exact absurd ih (hfs _ x (by rw [List.append_assoc, h]; simp))

/-- **C62** (partial) In particular every step directory and data directory of the workflow is in the removed
directory, while those of every other workflow, of the same or another repository, and the caches are not; provided
both workflows came with an event or neither did, and the ids are simple names, not `caches`. -/
theorem C62_others_stay_partial (cwd : Loc) (wd : String) (ev ev' : Option TriggerEvent) (w : Id) (s : StepId)
    (hs : SimpleName s.workflow) (hj : SimpleName s.job)
    (hev : ev.isSome = ev'.isSome)
    (hrepo : ∀ e, ev = some e ∨ ev' = some e → SimpleName e.repoOwner ∧ SimpleName e.repoName) :
    let d := workflowLoc cwd wd ev w
    let p := pathsOf wd ev' s
    (s.workflow = w → ev' = ev → Under d (resolve cwd p.stepDir) ∧ Under d (resolve cwd p.jobData)) ∧
    (s.workflow ≠ w → ¬ Under d (resolve cwd p.stepDir) ∧ ¬ Under d (resolve cwd p.jobData)) ∧
    (w ≠ "caches" → ¬ Under d (resolve cwd p.caches)) := by
  obtain ⟨h1, h2, _, h4⟩ := resolve_paths cwd wd ev' s hs hj
  have hbase : ∀ ev : Option TriggerEvent,
      (∀ e, ev = some e → SimpleName e.repoOwner ∧ SimpleName e.repoName) →
      resolve cwd (repoDir wd (ev.map fun e => (e.repoOwner, e.repoName))) =
        resolve cwd wd ++ (match ev with | some e => [e.repoOwner, e.repoName] | none => []) := by
    intro ev h
    cases ev with
    | none => simp [repoDir]
    | some e =>
      obtain ⟨a, b⟩ := h e rfl
      simp [repoDir, resolve_join _ _ a, resolve_join _ _ b]
  have b1 := hbase ev (fun e he => hrepo e (.inl he))
  have b2 := hbase ev' (fun e he => hrepo e (.inr he))
  simp only [h1, h2, h4]
  simp only [workflowLoc]
  have hsame : ev' = ev → resolve cwd (repoDir wd (ev'.map fun e => (e.repoOwner, e.repoName))) =
      resolve cwd (repoDir wd (ev.map fun e => (e.repoOwner, e.repoName))) := by rintro rfl; rfl
  have hlen : (match ev with | some e => [e.repoOwner, e.repoName] | none => []).length =
      (match ev' with | some e => [e.repoOwner, e.repoName] | none => []).length := by
    cases ev <;> cases ev' <;> first | rfl | simp at hev
  generalize (match ev with | some e => [e.repoOwner, e.repoName] | none => []) = P at b1 hlen
  generalize (match ev' with | some e => [e.repoOwner, e.repoName] | none => []) = P' at b2 hlen
  have key : ∀ (x : String) (tail : List String), Under (resolve cwd wd ++ P ++ [w])
      (resolve cwd wd ++ P' ++ x :: tail) → w = x := by
    rintro x tail ⟨rest, hr⟩
    simp only [List.append_assoc] at hr
    have hr := List.append_cancel_left hr
    have := (List.append_inj hr hlen.symm).2
    simp only [List.singleton_append, List.cons.injEq] at this
    exact this.1.symm
  refine ⟨?_, ?_, ?_⟩
  · intro hsw hee
    rw [hsame hee, hsw]
    exact ⟨⟨[s.job, s.number.repr], rfl⟩, ⟨[s.job, "data"], rfl⟩⟩
  · intro hne
    rw [b1, b2]
    constructor
    · intro hu
      rw [List.append_assoc (resolve cwd wd ++ P')] at hu
      exact hne (key _ _ hu).symm
    · intro hu
      rw [List.append_assoc (resolve cwd wd ++ P')] at hu
      exact hne (key _ _ hu).symm
  · intro hne hu
    rw [b1, b2] at hu
    exact hne (key _ _ hu)

namespace RunnerEx
/-- A working directory with caches and a step's directory in it. -/
def fs : FS := fun l =>
  if l ∈ [[], ["srv"], ["srv", "caches"], ["srv", "w1"], ["srv", "w1", "build"]] then some .dir
  else if l = ["srv", "caches", "x"] then some (.file "cached")
  else none
end RunnerEx

/-- **C62 is false of the code**: the id of a workflow is not checked.  A workflow with the id `caches` removes the
caches when it completes, and one with the id `..` everything around the working directory. -/
theorem C62_refuted :
    ((memAfter [({ id := ⟨"caches", "j", 0⟩ }, none)]).onWorkflowCompleted "/srv" [] RunnerEx.fs ⟨"caches"⟩
      (fun _ => false)) ["srv", "caches", "x"] = none ∧
    RunnerEx.fs ["srv", "caches", "x"] = some (.file "cached") ∧
    resolve [] (pathsOf "/srv" none ⟨"other", "j", 0⟩).caches = ["srv", "caches"] ∧
    ((memAfter [({ id := ⟨"..", "j", 0⟩ }, none)]).onWorkflowCompleted "/srv" [] RunnerEx.fs ⟨".."⟩
      (fun _ => false)) ["srv"] = none := by
  decide

example : TreeShaped RunnerEx.fs ∧
    ((memAfter [({ id := ⟨"w1", "build", 0⟩ }, none)]).onWorkflowCompleted "/srv" [] RunnerEx.fs ⟨"w1"⟩
      (fun _ => false)) ["srv", "w1", "build"] = none := by
  refine ⟨?_, by decide⟩
  intro d x h
  have hmem : d ++ [x] ∈ [[], ["srv"], ["srv", "caches"], ["srv", "w1"], ["srv", "w1", "build"], ["srv", "caches", "x"]] := by
    simp only [RunnerEx.fs] at h
    split at h
    · rename_i h'; simp only [List.mem_cons] at h' ⊢; tauto
    · split at h
      · rename_i h'; simp only [List.mem_cons, h', true_or, or_true]
      · exact absurd rfl h
  have e : ∀ (l : Loc), d ++ [x] = l → d = l.dropLast := by
    intro l h
    rw [← h]; simp
  simp only [List.mem_cons, List.not_mem_nil, or_false] at hmem
  rcases hmem with h | h | h | h | h | h
  · simp at h
  all_goals
    rw [e _ h]
    decide

end AstroRun
