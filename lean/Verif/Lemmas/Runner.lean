import Mathlib.Data.List.Induction
import Verif.Spec.Runner
import Verif.Lemmas.Id
import Verif.Lemmas.Map

/-! # Helper lemmas for the local runner -/

namespace AstroRun
open Spec

/-! ## Words -/

theorem foldl_push {α β : Type} (f : α → List β) (l : List α) (w : List β) :
    l.foldl (fun w x => w ++ f x) w = w ++ l.flatMap f := by
  induction l generalizing w with
  | nil => simp
  | cons x xs ih => simp [ih, List.append_assoc]

theorem toStr_shown : EnvironmentVariable.toStr = shown := by
  funext v
  cases v with
  | boolean b => cases b <;> rfl
  | _ => rfl

/-- Folding `docker.environment` over entries with distinct new names only adds them. -/
theorem foldl_environment (es : EnvironmentVariables) (d : Docker)
    (hn : (es.map Prod.fst).Nodup) (hd : ∀ e ∈ es, e.1 ∉ d.environments.keys) :
    ∃ envs, es.foldl (fun d e => d.environment e.1 e.2.toStr) d = { d with environments := envs } ∧
      envs.Perm (d.environments ++ es.map fun e => (e.1, e.2.toStr)) := by
  induction es generalizing d with
  | nil => exact ⟨d.environments, rfl, by simp⟩
  | cons e es ih =>
    simp only [List.map_cons, List.nodup_cons] at hn
    have hfresh : e.1 ∉ d.environments.keys := hd e (by simp)
    have hins : d.environments.insert e.1 e.2.toStr = (e.1, e.2.toStr) :: d.environments := by
      simp only [AMap.insert, AMap.erase]
      congr 1
      rw [List.filter_eq_self]
      intro x hx
      have : x.1 ≠ e.1 := by
        rintro h
        exact hfresh (by rw [← h]; exact List.mem_map_of_mem hx)
      simp [this]
    obtain ⟨envs, h1, h2⟩ := ih (d.environment e.1 e.2.toStr) hn.2 (by
      intro x hx
      simp only [Docker.environment, hins]
      simp only [AMap.keys, List.map_cons, List.mem_cons, not_or]
      refine ⟨?_, hd x (by simp [hx])⟩
      rintro h
      exact hn.1 (by rw [← h]; exact List.mem_map_of_mem hx))
    refine ⟨envs, ?_, h2.trans ?_⟩
    · simp only [List.foldl_cons]
      rw [h1]
      simp [Docker.environment]
    · simp only [Docker.environment, hins, List.map_cons, List.cons_append]
      exact (List.perm_middle (l₁ := d.environments)).symm

theorem splitChar_ne_nil (sep : Char) (cs : List Char) : splitChar sep cs ≠ [] := by
  cases cs with
  | nil => simp [splitChar]
  | cons c cs =>
    simp only [splitChar]
    split
    · simp
    · split <;> simp

theorem splitChar_length (sep : Char) (cs : List Char) : (splitChar sep cs).length = cs.count sep + 1 := by
  induction cs with
  | nil => simp [splitChar]
  | cons c cs ih =>
    simp only [splitChar]
    by_cases hc : c = sep
    · simp [hc, ih]
    · simp only [hc, if_false]
      cases hs : splitChar sep cs with
      | nil => exact absurd hs (splitChar_ne_nil sep cs)
      | cons q qs =>
        rw [hs] at ih
        simpa [List.count_cons, hc] using ih

theorem splitChar_join (sep : Char) (cs : List Char) : List.intercalate [sep] (splitChar sep cs) = cs := by
  induction cs with
  | nil => simp [splitChar, List.intercalate]
  | cons c cs ih =>
    simp only [splitChar]
    cases hs : splitChar sep cs with
    | nil => exact absurd hs (splitChar_ne_nil sep cs)
    | cons q qs =>
      rw [hs] at ih
      by_cases hc : c = sep
      · simp only [hc, if_true]
        rw [← ih]
        simp [List.intercalate]
      · simp only [hc, if_false]
        rw [← ih]
        cases qs <;> simp [List.intercalate, List.intersperse]

theorem addVolume_eq (d : Docker) (v : String) :
    d.addVolume v = if v.toList.count ':' = 1 then { d with volumes := d.volumes ++ [dquote v] } else d := by
  have hl := splitChar_length ':' v.toList
  have hj := splitChar_join ':' v.toList
  simp only [Docker.addVolume]
  split
  · rename_i a b heq
    rw [heq] at hl hj
    have h1 : v.toList.count ':' = 1 := by simpa using hl.symm
    rw [if_pos h1]
    simp only [Docker.volume, dquote]
    have : String.ofList a ++ ":" ++ String.ofList b = v := by
      apply String.toList_injective
      rw [← hj]
      simp [List.intercalate]
    rw [← this]
    simp [String.append_assoc]
  · rename_i hne
    rw [if_neg]
    intro h1
    rw [h1] at hl
    match hs : splitChar ':' v.toList, hl with
    | [a, b], _ => exact hne a b hs

theorem foldl_addVolume (vs : List String) (d : Docker) :
    vs.foldl Docker.addVolume d =
      { d with volumes := d.volumes ++ (vs.filter fun v => v.toList.count ':' == 1).map dquote } := by
  induction vs generalizing d with
  | nil => simp
  | cons v vs ih =>
    rw [List.foldl_cons, ih, addVolume_eq]
    by_cases h : v.toList.count ':' = 1
    · simp [h]
    · simp [h]

theorem foldl_securityOpt (os : List String) (d : Docker) :
    os.foldl Docker.securityOpt d = { d with securityOpts := d.securityOpts ++ os } := by
  induction os generalizing d with
  | nil => simp
  | cons o os ih => rw [List.foldl_cons, ih]; simp [Docker.securityOpt]

/-- The docker description of a step. -/
theorem ofStep_eq (c : Command) (md : Metadata) (hn : (c.environments.map Prod.fst).Nodup) :
    ∃ envs : AMap String String, envs.Perm (printedEnv c) ∧
      Docker.ofStep c md =
        { image := imageOf c, name := some md.dockerName, environments := envs,
          workingDir := some md.dockerWorkdir, entrypoint := some "/home/work/runner/entrypoint",
          volumes := [dquote (md.entrypoint ++ ":/home/work/runner/entrypoint"),
            dquote (md.jobData ++ ":" ++ md.dockerWorkdir), dquote (md.caches ++ ":/home/work/caches")] ++
            (twoPartVolumes c).map dquote,
          autoRemove := true, securityOpts := configuredSecurity c } := by
  simp only [Docker.ofStep]
  generalize hd0 : Docker.volume (Docker.volume (Docker.volume _ _ _) _ _) _ _ = d0
  obtain ⟨envs, h1, h2⟩ := foldl_environment c.environments d0 hn (by
    intro e _
    rw [← hd0]
    simp [Docker.volume, AMap.keys])
  refine ⟨envs, ?_, ?_⟩
  · rw [← hd0] at h2
    simpa [Docker.volume, printedEnv, ← toStr_shown] using h2
  · rw [h1, ← hd0]
    have himg : (c.container.map ContainerOptions.name).getD "ubuntu" = imageOf c := by
      unfold imageOf
      cases c.container <;> rfl
    simp only [Docker.volume, himg, twoPartVolumes, configuredSecurity, dquote]
    cases hv : c.container.bind ContainerOptions.volumes with
    | none =>
      cases hs : c.container.bind ContainerOptions.securityOpts with
      | none => simp [String.append_assoc]
      | some os => simp only [foldl_securityOpt]; simp [String.append_assoc]
    | some vs =>
      cases hs : c.container.bind ContainerOptions.securityOpts with
      | none => simp only [foldl_addVolume]; simp [String.append_assoc]
      | some os => simp only [foldl_securityOpt, foldl_addVolume]; simp [String.append_assoc]

theorem words_eq (c : Command) (md : Metadata) (hmd : md.dockerWorkdir = "/home/runner/work")
    (hn : (c.environments.map Prod.fst).Nodup) (envs : List (String × String)) :
    (Docker.ofStep c md).words envs = dockerArgs dquote c md envs := by
  obtain ⟨m, _, h⟩ := ofStep_eq c md hn
  rw [h]
  simp only [Docker.words, if_true]
  rw [foldl_push (fun o => ["--security-opt", o]), foldl_push (fun v => ["-v", v]),
    foldl_push (fun e : String × String => ["-e", e.1 ++ "=\"" ++ e.2 ++ "\""])]
  simp only [dockerArgs, mountsOf, hmd]
  have hm : ∀ l : List String, (l.map dquote).flatMap (fun v => ["-v", v]) = l.flatMap fun v => ["-v", dquote v] := by
    intro l
    induction l with
    | nil => rfl
    | cons a l ih => simp [ih]
  have he : (fun e : String × String => ["-e", e.1 ++ "=\"" ++ e.2 ++ "\""]) =
      fun e => ["-e", e.1 ++ "=" ++ dquote e.2] := by
    funext e
    have : ("=\"" : String) = "=" ++ "\"" := by decide
    rw [this]
    simp only [dquote, String.append_assoc]
  rw [he]
  simp [List.append_assoc, hm, dquote, String.append_assoc]

/-! ## Shell lexing -/

/-- `w` is read as the one word `x`, whatever follows. -/
def Lexes (w x : List Char) : Prop :=
  shGo none false w = some [x] ∧ ∀ rest, shGo none false (w ++ ' ' :: rest) = (shGo none false rest).map (x :: ·)

theorem shGo_plain (w : List Char) (hw : ∀ c ∈ w, plainChar c = true) (cur : List Char) (rest : List Char) :
    shGo (some cur) false (w ++ rest) = shGo (some (cur ++ w)) false rest := by
  induction w generalizing cur with
  | nil => simp
  | cons c w ih =>
    have hc := hw c (by simp)
    have h1 : c ≠ ' ' := by rintro rfl; exact absurd hc (by decide)
    have h2 : c ≠ '"' := by rintro rfl; exact absurd hc (by decide)
    simp only [List.cons_append, shGo, h1, h2, hc, if_true, if_false, Option.getD_some]
    rw [ih (fun x hx => hw x (by simp [hx]))]
    simp

theorem shGo_plain_none (w : List Char) (hne : w ≠ []) (hw : ∀ c ∈ w, plainChar c = true) (rest : List Char) :
    shGo none false (w ++ rest) = shGo (some w) false rest := by
  cases w with
  | nil => exact absurd rfl hne
  | cons c w =>
    have hc := hw c (by simp)
    have h1 : c ≠ ' ' := by rintro rfl; exact absurd hc (by decide)
    have h2 : c ≠ '"' := by rintro rfl; exact absurd hc (by decide)
    simp only [List.cons_append, shGo, h1, h2, hc, if_true, if_false, Option.getD_none, List.nil_append]
    rw [shGo_plain w (fun x hx => hw x (by simp [hx]))]
    simp

theorem shGo_quoted (q : List Char) (hq : ∀ c ∈ q, quotableChar c = true) (cur rest : List Char) :
    shGo (some cur) true (q ++ '"' :: rest) = shGo (some (cur ++ q)) false rest := by
  induction q generalizing cur with
  | nil => simp [shGo]
  | cons c q ih =>
    have hc := hq c (by simp)
    have h2 : c ≠ '"' := by rintro rfl; exact absurd hc (by decide)
    simp only [List.cons_append, shGo, h2, hc, if_true, if_false, Option.getD_some]
    rw [ih (fun x hx => hq x (by simp [hx]))]
    simp

theorem shGo_space (x rest : List Char) :
    shGo (some x) false (' ' :: rest) = (shGo none false rest).map (x :: ·) := by
  simp [shGo]

theorem shGo_end (x : List Char) : shGo (some x) false [] = some [x] := by simp [shGo]

theorem lexes_plain {w : List Char} (hne : w ≠ []) (hw : ∀ c ∈ w, plainChar c = true) : Lexes w w := by
  constructor
  · have := shGo_plain_none w hne hw []
    simpa [shGo_end] using this
  · intro rest
    rw [shGo_plain_none w hne hw, shGo_space]

theorem lexes_quoted {p q : List Char} (hp : ∀ c ∈ p, plainChar c = true) (hq : ∀ c ∈ q, quotableChar c = true) :
    Lexes (p ++ '"' :: (q ++ ['"'])) (p ++ q) := by
  have key : ∀ rest, shGo none false (p ++ '"' :: (q ++ '"' :: rest)) = shGo (some (p ++ q)) false rest := by
    intro rest
    by_cases hne : p = []
    · subst hne
      simp only [List.nil_append]
      simp only [shGo]
      simp only [show ('"' : Char) ≠ ' ' by decide, if_false, if_true, Option.getD_none]
      rw [shGo_quoted q hq]
      simp
    · rw [shGo_plain_none p hne hp]
      simp only [shGo]
      simp only [show ('"' : Char) ≠ ' ' by decide, if_false, if_true, Option.getD_some]
      rw [shGo_quoted q hq]
  constructor
  · simpa [shGo_end] using key []
  · intro rest
    have := key (' ' :: rest)
    rw [shGo_space] at this
    simpa using this

/-- A line of words is read as those words. -/
theorem shGo_line (ws : List (List Char × List Char)) (hne : ws ≠ []) (h : ∀ p ∈ ws, Lexes p.1 p.2) :
    shGo none false ([' '].intercalate (ws.map Prod.fst)) = some (ws.map Prod.snd) := by
  induction ws with
  | nil => exact absurd rfl hne
  | cons p ws ih =>
    cases ws with
    | nil => simpa [List.intercalate] using (h p (by simp)).1
    | cons p' ws =>
      have hi := ih (by simp) (fun x hx => h x (by simp [hx]))
      have : [' '].intercalate ((p :: p' :: ws).map Prod.fst) =
          p.1 ++ ' ' :: [' '].intercalate ((p' :: ws).map Prod.fst) := by
        simp [List.intercalate]
      rw [this, (h p (by simp)).2, hi]
      rfl

/-! ## Paths -/

theorem splitSlash_append_slash (a b : List Char) : splitSlash (a ++ '/' :: b) = splitSlash a ++ splitSlash b := by
  induction a with
  | nil => simp [splitSlash]
  | cons c a ih =>
    simp only [List.cons_append, splitSlash]
    by_cases hc : c = '/'
    · simp [hc, ih]
    · simp only [hc, if_false, ih]
      cases hs : splitSlash a with
      | nil => exact absurd hs (splitSlash_ne_nil a)
      | cons q qs => simp

theorem walk_simple {b : String} (h : SimpleName b) (l : Loc) : walk l b = l ++ [b] := by
  obtain ⟨h1, _, h3, h4⟩ := h
  simp [walk, h1, h3, h4]

theorem resolve_join (cwd : Loc) (a : String) {b : String} (h : SimpleName b) :
    resolve cwd (pathJoin a b) = resolve cwd a ++ [b] := by
  have hb : splitSlash b.toList = [b.toList] := splitSlash_noSlash h.2.1
  have hne : b.toList ≠ [] := by
    intro hb'
    exact h.1 (String.toList_injective (by simpa using hb'))
  have hhead : b.toList.head? ≠ some '/' := by
    intro hh
    exact h.2.1 (List.mem_of_head? hh)
  simp only [pathJoin, if_neg hhead]
  rcases List.eq_nil_or_concat a.toList with ha | ⟨a', c, ha⟩
  · have ha' : a = "" := String.toList_injective (by simpa using ha)
    subst ha'
    simp only [resolve]
    have hw := walk_simple h cwd
    simp only [walk] at hw
    simp [hb, splitSlash, walk, hhead, String.ofList_toList, hw]
  · rw [List.concat_eq_append] at ha
    have hahead : ∀ t, (a.toList ++ t).head? = a.toList.head? := by
      intro t
      rw [ha]
      cases a' <;> simp
    by_cases hc : c = '/'
    · subst hc
      have hl : (a.toList.getLast?.any fun c => decide (c ≠ '/')) = false := by simp [ha]
      rw [if_neg (by rw [hl]; simp)]
      simp only [resolve, String.toList_append, hahead]
      have e1 : splitSlash (a.toList ++ b.toList) = splitSlash a' ++ [b.toList] := by
        rw [ha, List.append_assoc, List.singleton_append, splitSlash_append_slash, hb]
      have e2 : splitSlash a.toList = splitSlash a' ++ [[]] := by
        rw [ha, splitSlash_append_slash]
        simp [splitSlash]
      rw [e1, e2]
      simp only [List.map_append, List.foldl_append, List.map_cons, List.map_nil, List.foldl_cons, List.foldl_nil,
        String.ofList_toList, walk_simple h]
      simp [walk]
    · have hl : (a.toList.getLast?.any fun c => decide (c ≠ '/')) = true := by simp [ha, hc]
      rw [if_pos hl]
      simp only [resolve, String.toList_append, hahead, List.append_assoc]
      have : ("/" : String).toList ++ b.toList = '/' :: b.toList := by simp
      rw [this, splitSlash_append_slash, hb]
      simp [List.map_append, List.foldl_append, String.ofList_toList, walk_simple h]

theorem simple_repr (n : Nat) : SimpleName n.repr := by
  have hl : n.repr.toList = Nat.toDigits 10 n := by simp
  have hd : ∀ c ∈ n.repr.toList, c.isDigit = true := by
    intro c hc
    rw [hl] at hc
    exact Nat.isDigit_of_mem_toDigits (by decide) (by decide) hc
  have hne : n.repr.toList ≠ [] := by rw [hl]; exact Nat.toDigits_ne_nil
  refine ⟨?_, ?_, ?_, ?_⟩
  · intro h
    rw [h] at hne
    exact hne rfl
  · intro h
    exact absurd (hd _ h) (by decide)
  · intro h
    rw [h] at hd
    exact absurd (hd '.' (by decide)) (by decide)
  · intro h
    rw [h] at hd
    exact absurd (hd '.' (by decide)) (by decide)

theorem repr_ne_data (n : Nat) : n.repr ≠ "data" := by
  have hl : n.repr.toList = Nat.toDigits 10 n := by simp
  intro h
  have : ('d' : Char) ∈ n.repr.toList := by rw [h]; decide
  rw [hl] at this
  exact absurd (Nat.isDigit_of_mem_toDigits (by decide) (by decide) this) (by decide)

theorem repr_injective {m n : Nat} (h : m.repr = n.repr) : m = n := by
  have : Nat.toDigits 10 m = Nat.toDigits 10 n := by
    have := congrArg String.toList h
    simpa using this
  have h2 := congrArg (fun l => Nat.ofDigitChars 10 l 0) this
  simpa [Nat.ofDigitChars_ten_toDigits] using h2

theorem simple_data : SimpleName "data" := by refine ⟨?_, ?_, ?_, ?_⟩ <;> decide
theorem simple_caches : SimpleName "caches" := by refine ⟨?_, ?_, ?_, ?_⟩ <;> decide
theorem simple_entrypoint : SimpleName "entrypoint" := by refine ⟨?_, ?_, ?_, ?_⟩ <;> decide

/-- Where the paths of a step are. -/
theorem resolve_paths (cwd : Loc) (wd : String) (ev : Option TriggerEvent) (id : StepId)
    (hw : SimpleName id.workflow) (hj : SimpleName id.job) :
    resolve cwd (pathsOf wd ev id).stepDir = workflowLoc cwd wd ev id.workflow ++ [id.job, id.number.repr] ∧
    resolve cwd (pathsOf wd ev id).jobData = workflowLoc cwd wd ev id.workflow ++ [id.job, "data"] ∧
    resolve cwd (pathsOf wd ev id).entrypoint =
      workflowLoc cwd wd ev id.workflow ++ [id.job, id.number.repr, "entrypoint"] ∧
    resolve cwd (pathsOf wd ev id).caches =
      resolve cwd (repoDir wd (ev.map fun e => (e.repoOwner, e.repoName))) ++ ["caches"] := by
  simp only [pathsOf, Metadata.build, workflowLoc, resolve_join _ _ simple_data, resolve_join _ _ simple_caches,
    resolve_join _ _ simple_entrypoint, resolve_join _ _ (simple_repr _), resolve_join _ _ hw, resolve_join _ _ hj,
    List.append_assoc, List.cons_append, List.nil_append, and_self]

/-! ## The runner's memory -/

theorem memAfter_snoc (h : List (Command × Option TriggerEvent)) (c : Command) (ev : Option TriggerEvent) :
    memAfter (h ++ [(c, ev)]) = (memAfter h).noteRun c ev := by
  simp [memAfter]

theorem memAfter_get (h : List (Command × Option TriggerEvent)) (w : WorkflowId) (ev : Option TriggerEvent)
    (hall : ∀ x ∈ h, x.1.id.workflowId = w → x.2 = ev) :
    (memAfter h).workflowEvents.get? w = if (h.any fun x => decide (x.1.id.workflowId = w)) then ev else none := by
  induction h using List.reverseRecOn with
  | nil => simp [memAfter]
  | append_singleton h x ih =>
    obtain ⟨c, e⟩ := x
    have ih := ih (fun y hy => hall y (by simp [hy]))
    rw [memAfter_snoc]
    have hx := hall (c, e) (by simp)
    simp only [List.any_append, List.any_cons, List.any_nil, Bool.or_false]
    by_cases hw : c.id.workflowId = w
    · have he : e = ev := hx hw
      subst he
      simp only [hw, decide_true, Bool.or_true, if_true]
      cases e with
      | none =>
        simp only [RunnerMem.noteRun, ih]
        split <;> rfl
      | some t => simp [RunnerMem.noteRun, hw]
    · simp only [hw, decide_false, Bool.or_false]
      rw [← ih]
      cases e with
      | none => rfl
      | some t => simp [RunnerMem.noteRun, AMap.get?_insert, hw]

end AstroRun
