import Verif.Spec.MatcherDialog
import Verif.Props.MatcherConc

/-! # C129: what GitHub is asked, and with which credentials -/

namespace AstroRun
open Spec

namespace GhLem

/-- Events the matcher knows. -/
def Known (e : TriggerEvent) : Prop := e.event = "push" ∨ e.event = "pull_request"

/-- What is true of a call at `pc`, that has asked `qs` and been answered `xs`. -/
def CallOk (g : GlobLang) (event : Option TriggerEvent) (auth : Option GithubAuthorization) (acts : List GhAct) (c : Condition)
    (qs : List (GhCred × GhRequest)) (xs : List GhAnswer) : GhPc → Prop
  | .start => qs = [] ∧ xs = []
  | .installation => ∃ n k e, auth = some (.githubApp n k) ∧ event = some e ∧ Known e ∧ xs = [] ∧ qs = questions e (.githubApp n k) xs
  | .token id => ∃ n k e, auth = some (.githubApp n k) ∧ event = some e ∧ Known e ∧ xs = [.installation id] ∧
      qs = questions e (.githubApp n k) xs
  | .files t => ∃ a e, auth = some a ∧ event = some e ∧ Known e ∧ (e.event = "pull_request" → e.prNumber ≠ none) ∧
      ((a = .personalAccessToken t ∧ xs = []) ∨ ∃ n k id, a = .githubApp n k ∧ xs = [.installation id, .token t]) ∧ qs = questions e a xs
  | .got p => ∃ a e files, auth = some a ∧ event = some e ∧ filesNamed e a xs = some files ∧ p = ⟨e.event, e.branch, files⟩ ∧
      qs = questions e a xs
  | .done b => ((auth = none ∨ event = none) ∧ b = true ∧ qs = [] ∧ xs = []) ∨ ∃ a e, auth = some a ∧ event = some e ∧
      ((Hopeless e a xs ∧ b = true ∧ qs = questions e a xs) ∨
       (∃ files, filesNamed e a xs = some files ∧ b = c.isMatch g ⟨e.event, e.branch, files⟩ ∧ qs = questions e a xs) ∨
       (qs = [] ∧ xs = [] ∧ ∃ j files, filesNamed e a (answersTo j acts) = some files ∧ b = c.isMatch g ⟨e.event, e.branch, files⟩))

structure GhInv (g : GlobLang) (event : Option TriggerEvent) (auth : Option GithubAuthorization) (acts : List GhAct) (m : GhM) : Prop where
  hauth : m.matcher.githubAuth = auth
  hevent : m.matcher.event = event
  payload : ∀ p, m.matcher.payload = some p → ∃ a e j files, auth = some a ∧ event = some e ∧
    filesNamed e a (answersTo j acts) = some files ∧ p = ⟨e.event, e.branch, files⟩
  fresh : ∀ i, m.calls.length ≤ i → askedBy i m = [] ∧ answersTo i acts = []
  calls : ∀ i k, m.calls[i]? = some k → CallOk g event auth acts k.cond (askedBy i m) (answersTo i acts) k.pc

theorem answersTo_snoc (i : Nat) (acts : List GhAct) (y : GhAct) : answersTo i (acts ++ [y]) = answersTo i acts ++ answersTo i [y] := by
  simp [answersTo, List.filterMap_append]

theorem named_nil {e a} : filesNamed e a [] = none := by cases a <;> rfl
theorem named_one {e a id} : filesNamed e a [.installation id] = none := by cases a <;> rfl
theorem named_two {e a id t} : filesNamed e a [.installation id, .token t] = none := by cases a <;> rfl

theorem CallOk.mono {g event auth acts acts' c qs xs pc} (h : CallOk g event auth acts c qs xs pc)
    (hm : ∀ j e a files, filesNamed e a (answersTo j acts) = some files → filesNamed e a (answersTo j acts') = some files) :
    CallOk g event auth acts' c qs xs pc := by
  cases pc with
  | done b =>
    rcases h with h | ⟨a, e, h1, h2, h | h | ⟨h3, h4, j, files, h5, h6⟩⟩
    · exact .inl h
    · exact .inr ⟨a, e, h1, h2, .inl h⟩
    · exact .inr ⟨a, e, h1, h2, .inr (.inl h)⟩
    · exact .inr ⟨a, e, h1, h2, .inr (.inr ⟨h3, h4, j, files, hm _ _ _ _ h5, h6⟩)⟩
  | _ => exact h

/-- Call `i` moves. -/
theorem GhInv.move {g event auth acts m} (ih : GhInv g event auth acts m) {i : Nat} {k : GhCall} (hk : m.calls[i]? = some k) (y : GhAct)
    (hother : ∀ j, j ≠ i → answersTo j [y] = []) (hself : answersTo i [y] = [] ∨ ∀ e a, filesNamed e a (answersTo i acts) = none)
    (pc : GhPc) (m' : GhM) (ha : m'.matcher.githubAuth = auth) (he : m'.matcher.event = event)
    (hc : m'.calls = m.calls.modify i fun k => { k with pc := pc }) (hq : ∀ j, j ≠ i → askedBy j m' = askedBy j m)
    (hp : ∀ p, m'.matcher.payload = some p → m.matcher.payload = some p ∨ ∃ a e j files, auth = some a ∧ event = some e ∧
      filesNamed e a (answersTo j acts) = some files ∧ p = ⟨e.event, e.branch, files⟩)
    (hnew : CallOk g event auth (acts ++ [y]) k.cond (askedBy i m') (answersTo i acts ++ answersTo i [y]) pc) :
    GhInv g event auth (acts ++ [y]) m' := by
  have hm : ∀ j e a files, filesNamed e a (answersTo j acts) = some files → filesNamed e a (answersTo j (acts ++ [y])) = some files := by
    intro j e a files h
    rw [answersTo_snoc]
    by_cases hj : j = i
    · subst hj
      rcases hself with hs | hs
      · rw [hs, List.append_nil]; exact h
      · rw [hs] at h; cases h
    · rw [hother j hj, List.append_nil]; exact h
  have hlt := (List.getElem?_eq_some_iff.1 hk).1
  refine ⟨ha, he, ?_, ?_, ?_⟩
  · intro p h
    rcases hp p h with h | ⟨a, e, j, files, h1, h2, h3, h4⟩
    · obtain ⟨a, e, j, files, h1, h2, h3, h4⟩ := ih.payload p h
      exact ⟨a, e, j, files, h1, h2, hm _ _ _ _ h3, h4⟩
    · exact ⟨a, e, j, files, h1, h2, hm _ _ _ _ h3, h4⟩
  · intro j hj
    rw [hc, List.length_modify] at hj
    have hne : j ≠ i := by omega
    rw [hq j hne, answersTo_snoc, hother j hne, List.append_nil]
    exact ih.fresh j hj
  · intro j k' hk'
    rw [hc] at hk'
    by_cases hj : j = i
    · subst hj
      rw [List.getElem?_modify_eq, hk] at hk'
      cases hk'
      rw [answersTo_snoc]
      exact hnew
    · have hij : i ≠ j := Ne.symm hj
      simp only [List.getElem?_modify, hij, if_false, id_map'] at hk'
      rw [hq j hj, answersTo_snoc, hother j hj, List.append_nil]
      exact (ih.calls j k' hk').mono hm

theorem asked_goto (m : GhM) (i : Nat) (pc : GhPc) (j : Nat) : askedBy j (m.goto i pc) = askedBy j m := rfl

theorem asked_ask (m : GhM) (i : Nat) (c : GhCred) (q : GhRequest) (pc : GhPc) (j : Nat) :
    askedBy j (m.ask i c q pc) = askedBy j m ++ if i = j then [(c, q)] else [] := by
  simp only [askedBy, GhM.ask, GhM.goto, List.filterMap_append]
  congr 1
  by_cases h : i = j <;> simp [h]

/-- A call does not move but asks (nothing, or one thing). -/
theorem GhInv.goes {g event auth acts m} (ih : GhInv g event auth acts m) {i : Nat} {k : GhCall} (hk : m.calls[i]? = some k) {y : GhAct}
    (hother : ∀ j, j ≠ i → answersTo j [y] = []) (hself : answersTo i [y] = [] ∨ ∀ e a, filesNamed e a (answersTo i acts) = none)
    {pc : GhPc} (hnew : CallOk g event auth (acts ++ [y]) k.cond (askedBy i m) (answersTo i acts ++ answersTo i [y]) pc) :
    GhInv g event auth (acts ++ [y]) (m.goto i pc) :=
  ih.move hk y hother hself pc _ ih.hauth ih.hevent rfl (fun _ _ => rfl) (fun _ h => .inl h) hnew

theorem GhInv.asks {g event auth acts m} (ih : GhInv g event auth acts m) {i : Nat} {k : GhCall} (hk : m.calls[i]? = some k) {y : GhAct}
    (hother : ∀ j, j ≠ i → answersTo j [y] = []) (hself : answersTo i [y] = [] ∨ ∀ e a, filesNamed e a (answersTo i acts) = none)
    {c : GhCred} {q : GhRequest} {pc : GhPc}
    (hnew : CallOk g event auth (acts ++ [y]) k.cond (askedBy i m ++ [(c, q)]) (answersTo i acts ++ answersTo i [y]) pc) :
    GhInv g event auth (acts ++ [y]) (m.ask i c q pc) := by
  refine ih.move hk y hother hself pc _ ih.hauth ih.hevent rfl (fun j hj => ?_) (fun _ h => .inl h) ?_
  · rw [asked_ask, if_neg (Ne.symm hj), List.append_nil]
  · rw [asked_ask, if_pos rfl]; exact hnew

/-- A call that has got a token asks for the files. -/
theorem GhInv.asksFiles {g event auth acts m} (ih : GhInv g event auth acts m) {i : Nat} {k : GhCall} (hk : m.calls[i]? = some k) {y : GhAct}
    (hother : ∀ j, j ≠ i → answersTo j [y] = []) (hself : answersTo i [y] = [] ∨ ∀ e a, filesNamed e a (answersTo i acts) = none)
    {a : GithubAuthorization} {e : TriggerEvent} (ha : auth = some a) (he : event = some e) (hkn : Known e) {t : String} {xs : List GhAnswer}
    (hx : answersTo i acts ++ answersTo i [y] = xs)
    (hcase : (a = .personalAccessToken t ∧ xs = []) ∨ ∃ n k id, a = .githubApp n k ∧ xs = [.installation id, .token t])
    (hq : questions e a xs = askedBy i m ++ filesQuestion e t) :
    GhInv g event auth (acts ++ [y]) (m.askFiles e i t) := by
  have hpr : ¬ (e.event = "push" ∧ e.event = "pull_request") := by
    rintro ⟨h1, h2⟩; rw [h1] at h2; exact absurd h2 (by decide)
  unfold GhM.askFiles
  split
  · rename_i hpush
    refine ih.asks hk hother hself ?_
    rw [hx]
    refine ⟨a, e, ha, he, hkn, fun h => absurd ⟨hpush, h⟩ hpr, hcase, ?_⟩
    rw [hq, filesQuestion, if_pos hpush]
  · rename_i hpush
    have hpull : e.event = "pull_request" := hkn.resolve_left hpush
    split
    · rename_i hn
      refine ih.goes hk hother hself ?_
      rw [hx]
      refine .inr ⟨a, e, ha, he, .inl ⟨.inr (.inr ⟨hpull, hn, ?_⟩), rfl, ?_⟩⟩
      · rcases hcase with ⟨h, _⟩ | ⟨_, _, id, _, h⟩
        · exact .inl ⟨t, h⟩
        · exact .inr ⟨id, t, h⟩
      · rw [hq, filesQuestion, if_neg hpush, if_pos hpull, hn, List.append_nil]
    · rename_i n hn
      refine ih.asks hk hother hself ?_
      rw [hx]
      refine ⟨a, e, ha, he, hkn, fun _ => by rw [hn]; simp, hcase, ?_⟩
      rw [hq, filesQuestion, if_neg hpush, if_pos hpull, hn]

theorem inv_reach {g : GlobLang} {event : Option TriggerEvent} {auth : Option GithubAuthorization} {acts : List GhAct} {m : GhM}
    (h : GhReach g event auth acts m) : GhInv g event auth acts m := by
  refine runs_induct (P := fun acts m => GhInv g event auth acts m) ?_ ?_ h
  · exact ⟨rfl, rfl, (by intro p h; cases h), fun i _ => ⟨rfl, rfl⟩, (by intro i k h; simp [GhM.new] at h)⟩
  · intro acts y m m' _ ih hs
    cases y with
    | call c =>
      simp only [GhM.step, Option.some.injEq] at hs
      subst hs
      have hsame : ∀ j, answersTo j (acts ++ [GhAct.call c]) = answersTo j acts := by
        intro j; rw [answersTo_snoc]; exact List.append_nil _
      refine ⟨ih.hauth, ih.hevent, ?_, ?_, ?_⟩
      · intro p hp
        obtain ⟨a, e, j, files, h1, h2, h3, h4⟩ := ih.payload p hp
        exact ⟨a, e, j, files, h1, h2, by rw [hsame]; exact h3, h4⟩
      · intro i hi
        simp only [List.length_append, List.length_singleton] at hi
        rw [hsame]
        exact ih.fresh i (by omega)
      · intro i k hk
        rw [hsame]
        have mono : ∀ j e a files, filesNamed e a (answersTo j acts) = some files →
            filesNamed e a (answersTo j (acts ++ [GhAct.call c])) = some files := by
          intro j e a files h; rw [hsame]; exact h
        rcases Nat.lt_or_ge i m.calls.length with hi | hi
        · rw [List.getElem?_append_left hi] at hk
          exact (ih.calls i k hk).mono mono
        · rw [List.getElem?_append_right hi] at hk
          obtain ⟨e1, e2⟩ := ih.fresh i hi
          cases hn : i - m.calls.length with
          | zero =>
            rw [hn] at hk
            cases hk
            exact ⟨e1, e2⟩
          | succ n => rw [hn] at hk; simp at hk
    | read i =>
      have hn : ∀ j, answersTo j [GhAct.read i] = [] := fun _ => rfl
      simp only [GhM.step] at hs
      cases hk : m.calls[i]? with
      | none => rw [hk] at hs; cases hs
      | some k =>
        obtain ⟨c, pc⟩ := k
        rw [hk] at hs
        cases pc with
        | start =>
          obtain ⟨q0, x0⟩ := ih.calls i _ hk
          simp only at hs
          cases ha : auth with
          | none =>
            rw [ih.hauth, ha] at hs
            cases hs
            subst ha
            refine ih.goes hk (fun j _ => hn j) (.inl (hn i)) ?_
            rw [hn, List.append_nil]
            exact .inl ⟨.inl rfl, rfl, q0, x0⟩
          | some a =>
            cases he : event with
            | none =>
              rw [ih.hauth, ih.hevent, ha, he] at hs
              cases hs
              subst ha he
              refine ih.goes hk (fun j _ => hn j) (.inl (hn i)) ?_
              rw [hn, List.append_nil]
              exact .inl ⟨.inr rfl, rfl, q0, x0⟩
            | some e =>
              rw [ih.hauth, ih.hevent, ha, he] at hs
              simp only at hs
              cases hpl : m.matcher.payload with
              | some p =>
                rw [hpl] at hs
                cases hs
                obtain ⟨a', e', j, files, h1, h2, h3, h4⟩ := ih.payload p hpl
                rw [ha] at h1; rw [he] at h2; cases h1; cases h2
                subst ha he
                refine ih.goes hk (fun j _ => hn j) (.inl (hn i)) ?_
                rw [hn, List.append_nil]
                refine .inr ⟨a, e, rfl, rfl, .inr (.inr ⟨q0, x0, j, files, ?_, by rw [h4]⟩)⟩
                rw [answersTo_snoc, hn, List.append_nil]
                exact h3
              | none =>
                rw [hpl] at hs
                cases hs
                subst ha he
                unfold GhM.begin
                split
                · rename_i hkn
                  cases a with
                  | personalAccessToken t =>
                    refine ih.asksFiles hk (fun j _ => hn j) (.inl (hn i)) rfl rfl hkn (xs := []) (by rw [hn, x0]; rfl) (.inl ⟨rfl, rfl⟩) ?_
                    rw [q0]; rfl
                  | githubApp n k =>
                    refine ih.asks hk (fun j _ => hn j) (.inl (hn i)) ?_
                    rw [hn, x0, q0]
                    refine ⟨n, k, e, rfl, rfl, hkn, rfl, ?_⟩
                    show _ = questions e (.githubApp n k) []
                    simp only [questions, hkn, if_true]
                    rfl
                · rename_i hkn
                  refine ih.goes hk (fun j _ => hn j) (.inl (hn i)) ?_
                  rw [hn, x0, q0]
                  refine .inr ⟨a, e, rfl, rfl, .inl ⟨.inr (.inl ⟨fun h => hkn (.inl h), fun h => hkn (.inr h)⟩), rfl, ?_⟩⟩
                  cases a with
                  | personalAccessToken t =>
                    rw [questions, filesQuestion, if_neg (fun h => hkn (.inl h)), if_neg (fun h => hkn (.inr h))]
                  | githubApp n k =>
                    show _ = questions e (.githubApp n k) []
                    simp only [questions, hkn, if_false]
        | _ => cases hs
    | answer i x =>
      have hself : answersTo i [GhAct.answer i x] = [x] := by simp [answersTo]
      have hother : ∀ j, j ≠ i → answersTo j [GhAct.answer i x] = [] := by
        intro j hj; simp [answersTo, Ne.symm hj]
      simp only [GhM.step] at hs
      cases hk : m.calls[i]? with
      | none => rw [hk] at hs; cases hs
      | some k =>
        obtain ⟨c, pc⟩ := k
        rw [hk] at hs
        have hok := ih.calls i _ hk
        cases pc with
        | installation =>
          obtain ⟨n, k, e, ha, he, hkn, hx, hq⟩ := hok
          have hif : (e.event = "push" ∨ e.event = "pull_request") = True := eq_true hkn
          have hno : ∀ e a, filesNamed e a (answersTo i acts) = none := by intro e a; rw [hx]; exact named_nil
          rw [ih.hauth, ih.hevent, ha, he] at hs
          simp only at hs
          cases x with
          | failed =>
            cases hs
            refine ih.goes hk hother (.inr hno) ?_
            rw [hself, hx, hq, hx]
            exact .inr ⟨_, e, ha, he, .inl ⟨.inl rfl, rfl, by simp only [questions, hif, if_true, List.nil_append]⟩⟩
          | installation id =>
            cases hs
            refine ih.asks hk hother (.inr hno) ?_
            rw [hself, hx, hq, hx]
            refine ⟨n, k, e, ha, he, hkn, rfl, ?_⟩
            simp only [questions, hif, if_true, List.nil_append]
            rfl
          | _ => cases hs
        | token id =>
          obtain ⟨n, k, e, ha, he, hkn, hx, hq⟩ := hok
          have hif : (e.event = "push" ∨ e.event = "pull_request") = True := eq_true hkn
          have hno : ∀ e a, filesNamed e a (answersTo i acts) = none := by intro e a; rw [hx]; exact named_one
          rw [ih.hauth, ih.hevent, ha, he] at hs
          simp only at hs
          cases x with
          | failed =>
            cases hs
            refine ih.goes hk hother (.inr hno) ?_
            rw [hself, hx, hq, hx]
            exact .inr ⟨_, e, ha, he, .inl ⟨.inl rfl, rfl, by simp only [questions, hif, if_true, List.cons_append, List.nil_append]⟩⟩
          | token t =>
            cases hs
            refine ih.asksFiles hk hother (.inr hno) ha he hkn (xs := [.installation id, .token t]) (by rw [hself, hx]; rfl)
              (.inr ⟨n, k, id, rfl, rfl⟩) ?_
            rw [hq, hx]
            simp only [questions, hif, if_true]
            rfl
          | _ => cases hs
        | files t =>
          obtain ⟨a, e, ha, he, hkn, hnum, hx, hq⟩ := hok
          have hno : ∀ e a, filesNamed e a (answersTo i acts) = none := by
            intro e a
            rcases hx with ⟨_, hx⟩ | ⟨_, _, id, _, hx⟩
            · rw [hx]; exact named_nil
            · rw [hx]; exact named_two
          have hq' : askedBy i m = questions e a (answersTo i acts ++ [x]) := by
            rcases hx with ⟨rfl, hx⟩ | ⟨n, k, id, rfl, hx⟩
            · rw [hq]; rfl
            · rw [hq, hx]; rfl
          rw [ih.hauth, ih.hevent, ha, he] at hs
          simp only at hs
          cases x with
          | failed =>
            cases hs
            refine ih.goes hk hother (.inr hno) ?_
            rw [hself]
            exact .inr ⟨a, e, ha, he, .inl ⟨.inl (by simp), rfl, hq'⟩⟩
          | commit files =>
            simp only at hs
            split at hs
            · rename_i hpush
              cases hs
              refine ih.goes hk hother (.inr hno) ?_
              rw [hself]
              refine ⟨a, e, files.getD [], ha, he, ?_, rfl, hq'⟩
              rcases hx with ⟨rfl, hx⟩ | ⟨n, k, id, rfl, hx⟩
              · rw [hx]; exact if_pos hpush
              · rw [hx]; exact if_pos hpush
            · cases hs
          | pulls files =>
            simp only at hs
            split at hs
            · cases hs
            · rename_i hpush
              cases hs
              refine ih.goes hk hother (.inr hno) ?_
              rw [hself]
              refine ⟨a, e, files, ha, he, ?_, rfl, hq'⟩
              rcases hx with ⟨rfl, hx⟩ | ⟨n, k, id, rfl, hx⟩
              · rw [hx]; exact if_pos (hkn.resolve_left hpush)
              · rw [hx]; exact if_pos (hkn.resolve_left hpush)
          | _ => cases hs
        | _ => cases hs
    | store i =>
      have hn : ∀ j, answersTo j [GhAct.store i] = [] := fun _ => rfl
      simp only [GhM.step] at hs
      cases hk : m.calls[i]? with
      | none => rw [hk] at hs; cases hs
      | some k =>
        obtain ⟨c, pc⟩ := k
        rw [hk] at hs
        cases pc with
        | got p =>
          cases hs
          obtain ⟨a, e, files, ha, he, h1, h2, h3⟩ := ih.calls i _ hk
          refine ih.move hk _ (fun j _ => hn j) (.inl (hn i)) _ _ ih.hauth ih.hevent rfl (fun _ _ => rfl) ?_ ?_
          · intro p' hp'
            cases hp'
            exact .inr ⟨a, e, i, files, ha, he, h1, h2⟩
          · rw [hn, List.append_nil]
            exact .inr ⟨a, e, ha, he, .inr (.inl ⟨files, h1, by rw [h2], h3⟩)⟩
        | _ => cases hs


theorem mem_answers {acts : List GhAct} {i : Nat} {x : GhAnswer} (h : x ∈ answersTo i acts) : GhAct.answer i x ∈ acts := by
  obtain ⟨y, hy, he⟩ := List.mem_filterMap.1 h
  cases y with
  | answer j z =>
    simp only at he
    split at he
    · rename_i hj; cases he; subst hj; exact hy
    · cases he
  | _ => cases he

theorem asked_questions {g event auth acts m} (ih : GhInv g event auth acts m) (i : Nat) : askedBy i m = [] ∨
    ∃ a e, auth = some a ∧ event = some e ∧ askedBy i m = questions e a (answersTo i acts) := by
  cases hk : m.calls[i]? with
  | none => exact .inl (ih.fresh i (List.getElem?_eq_none_iff.1 hk)).1
  | some k =>
    have h := ih.calls i k hk
    cases hpc : k.pc with
    | start => rw [hpc] at h; exact .inl h.1
    | installation =>
      rw [hpc] at h
      obtain ⟨n, k, e, h1, h2, _, _, h3⟩ := h
      exact .inr ⟨_, e, h1, h2, h3⟩
    | token id =>
      rw [hpc] at h
      obtain ⟨n, k, e, h1, h2, _, _, h3⟩ := h
      exact .inr ⟨_, e, h1, h2, h3⟩
    | files t =>
      rw [hpc] at h
      obtain ⟨a, e, h1, h2, _, _, _, h3⟩ := h
      exact .inr ⟨_, e, h1, h2, h3⟩
    | got p =>
      rw [hpc] at h
      obtain ⟨a, e, _, h1, h2, _, _, h3⟩ := h
      exact .inr ⟨_, e, h1, h2, h3⟩
    | done b =>
      rw [hpc] at h
      rcases h with ⟨_, _, h, _⟩ | ⟨a, e, h1, h2, ⟨_, _, h⟩ | ⟨_, _, _, h⟩ | ⟨h, _⟩⟩
      · exact .inl h
      · exact .inr ⟨_, e, h1, h2, h⟩
      · exact .inr ⟨_, e, h1, h2, h⟩
      · exact .inl h

theorem filesQuestion_may {a : GithubAuthorization} {e : TriggerEvent} {acts : List GhAct} {i : Nat} {t : String} (hu : MayUse a acts i t)
    {q : GhCred × GhRequest} (hq : q ∈ filesQuestion e t) : MayAsk a e acts i q := by
  unfold filesQuestion at hq
  split at hq
  · rename_i hp
    rw [List.mem_singleton.1 hq]
    exact ⟨hu, hp, rfl, rfl, rfl⟩
  · split at hq
    · rename_i hp
      split at hq
      · rename_i n hn
        rw [List.mem_singleton.1 hq]
        exact ⟨hu, hp, rfl, rfl, hn.symm⟩
      · cases hq
    · cases hq

theorem questions_may {a : GithubAuthorization} {e : TriggerEvent} {acts : List GhAct} {i : Nat}
    {q : GhCred × GhRequest} (hq : q ∈ questions e a (answersTo i acts)) : MayAsk a e acts i q := by
  cases a with
  | personalAccessToken t => exact filesQuestion_may (.inl rfl) hq
  | githubApp n k =>
    simp only [questions] at hq
    split at hq
    · rcases List.mem_cons.1 hq with rfl | hq
      · exact ⟨rfl, rfl, rfl⟩
      · split at hq
        · rename_i id t rest hx
          rcases List.mem_cons.1 hq with rfl | hq
          · exact ⟨rfl, mem_answers (by rw [hx]; simp)⟩
          · exact filesQuestion_may (.inr ⟨⟨n, k, rfl⟩, mem_answers (by rw [hx]; simp)⟩) hq
        · rename_i id rest _ hx
          rw [List.mem_singleton.1 hq]
          exact ⟨rfl, mem_answers (by rw [hx]; simp)⟩
        · cases hq
    · cases hq

theorem filesQuestion_length (e : TriggerEvent) (t : String) : (filesQuestion e t).length ≤ 1 := by
  unfold filesQuestion
  split
  · simp
  · split
    · split <;> simp
    · simp

end GhLem
open GhLem

/-- **C129** (the dialogue) Whatever checks the tasks of a run make, however they interleave and whatever GitHub answers: without
authorization or without an event nothing is ever asked; and a check asks nothing, or exactly what the event calls for given GitHub's
answers to that check, in that order. -/
theorem C129_dialogue (g : GlobLang) (event : Option TriggerEvent) (auth : Option GithubAuthorization) (acts : List GhAct) (m : GhM)
    (h : GhReach g event auth acts m) :
    ((auth = none ∨ event = none) → m.asked = []) ∧
    ∀ a e, auth = some a → event = some e → ∀ i, askedBy i m = [] ∨ askedBy i m = questions e a (answersTo i acts) := by
  have ih := inv_reach h
  refine ⟨fun hn => ?_, fun a e ha he i => ?_⟩
  · cases hq : m.asked with
    | nil => rfl
    | cons q rest =>
      exfalso
      have hm : q.2 ∈ askedBy q.1 m := List.mem_filterMap.2 ⟨q, by rw [hq]; simp, by simp⟩
      rcases asked_questions ih q.1 with h0 | ⟨a, e, h1, h2, _⟩
      · rw [h0] at hm; cases hm
      · rcases hn with hn | hn
        · rw [h1] at hn; cases hn
        · rw [h2] at hn; cases hn
  · rcases asked_questions ih i with h0 | ⟨a', e', h1, h2, h3⟩
    · exact .inl h0
    · rw [ha] at h1; rw [he] at h2; cases h1; cases h2
      exact .inr h3

/-- **C129** (whom, what and how) Every request is about the repository, commit or pull request of the event, with the credentials it needs
and no others: the app's private key goes with requests for its installation and for tokens of that installation only; everything else
goes with the user's token, or with a token GitHub has issued to this very check. -/
theorem C129_credentials (g : GlobLang) (event : Option TriggerEvent) (auth : Option GithubAuthorization) (acts : List GhAct) (m : GhM)
    (h : GhReach g event auth acts m) (i : Nat) (q : GhCred × GhRequest) (hq : (i, q) ∈ m.asked) :
    ∃ a e, auth = some a ∧ event = some e ∧ MayAsk a e acts i q := by
  have hm : q ∈ askedBy i m := List.mem_filterMap.2 ⟨(i, q), hq, by simp⟩
  rcases asked_questions (inv_reach h) i with h0 | ⟨a, e, h1, h2, h3⟩
  · rw [h0] at hm; cases hm
  · rw [h3] at hm
    exact ⟨a, e, h1, h2, questions_may hm⟩

/-- **C129** (how much) A check makes at most three requests; with a personal access token, one. -/
theorem C129_at_most (g : GlobLang) (event : Option TriggerEvent) (auth : Option GithubAuthorization) (acts : List GhAct) (m : GhM)
    (h : GhReach g event auth acts m) (i : Nat) :
    (askedBy i m).length ≤ 3 ∧ ((∃ t, auth = some (.personalAccessToken t)) → (askedBy i m).length ≤ 1) := by
  rcases asked_questions (inv_reach h) i with h0 | ⟨a, e, h1, h2, h3⟩
  · rw [h0]; simp
  · rw [h3]
    cases a with
    | personalAccessToken t =>
      have := filesQuestion_length e t
      exact ⟨Nat.le_trans this (by omega), fun _ => this⟩
    | githubApp n k =>
      refine ⟨?_, fun ⟨t, ht⟩ => by rw [h1] at ht; cases ht⟩
      simp only [questions]
      split
      · split
        · rename_i id t _ _
          have := filesQuestion_length e t
          simp only [List.length_cons]
          omega
        · simp
        · simp
      · simp

/-- **C129** (the answers) A check that has returned `b` for condition `c`: without authorization or event, `b` is true; otherwise either the
files could not be found out, `b` is true, and everything the event calls for had been asked; or GitHub has named files in answer to this
check, and `b` is `c` evaluated on them; or the check has asked nothing, and `b` is `c` evaluated on files named in answer to another
check of the same run. -/
theorem C129_answers (g : GlobLang) (event : Option TriggerEvent) (auth : Option GithubAuthorization) (acts : List GhAct) (m : GhM)
    (h : GhReach g event auth acts m) (i : Nat) (c : Condition) (b : Bool) (hi : m.calls[i]? = some ⟨c, .done b⟩) :
    ((auth = none ∨ event = none) → b = true) ∧
    ∀ a e, auth = some a → event = some e →
      (Hopeless e a (answersTo i acts) ∧ b = true ∧ askedBy i m = questions e a (answersTo i acts)) ∨
      (∃ files, filesNamed e a (answersTo i acts) = some files ∧ b = c.isMatch g ⟨e.event, e.branch, files⟩ ∧
        askedBy i m = questions e a (answersTo i acts)) ∨
      (askedBy i m = [] ∧ ∃ j files, j ≠ i ∧ filesNamed e a (answersTo j acts) = some files ∧ b = c.isMatch g ⟨e.event, e.branch, files⟩) := by
  have hd := (inv_reach h).calls i _ hi
  rcases hd with ⟨h1, h2, _⟩ | ⟨a, e, h1, h2, h3⟩
  · refine ⟨fun _ => h2, fun a e ha he => ?_⟩
    rcases h1 with h1 | h1
    · rw [h1] at ha; cases ha
    · rw [h1] at he; cases he
  · refine ⟨fun hn => ?_, fun a' e' ha he => ?_⟩
    · rcases hn with hn | hn
      · rw [hn] at h1; cases h1
      · rw [hn] at h2; cases h2
    · rw [h1] at ha; rw [h2] at he; cases ha; cases he
      rcases h3 with h3 | h3 | ⟨h3, h4, j, files, h5, h6⟩
      · exact .inl h3
      · exact .inr (.inl h3)
      · refine .inr (.inr ⟨h3, j, files, ?_, h5, h6⟩)
        rintro rfl
        rw [h4, named_nil] at h5
        cases h5

namespace GhLem
theorem mayread {g : GlobLang} {m : GhM} {i : Nat} {c : Condition} (hk : m.calls[i]? = some ⟨c, .start⟩) : m.step g (.read i) ≠ none := by
  simp only [GhM.step, hk]
  cases m.matcher.githubAuth <;> cases m.matcher.event <;> cases m.matcher.payload <;> simp
end GhLem

/-- **C129** (nobody is stuck, and GitHub decides nothing but the answers) A check that has not returned can go on by itself, or waits for
the answer to its last request, to which any answer of the kind asked for will do, and no other. -/
theorem C129_waits_for_github (g : GlobLang) (event : Option TriggerEvent) (auth : Option GithubAuthorization) (acts : List GhAct) (m : GhM)
    (h : GhReach g event auth acts m) (i : Nat) (k : GhCall) (hk : m.calls[i]? = some k) :
    (∃ b, k.pc = .done b) ∨ m.step g (.read i) ≠ none ∨ m.step g (.store i) ≠ none ∨
    ∃ pre c q, askedBy i m = pre ++ [(c, q)] ∧ pre.length = (answersTo i acts).length ∧ ∀ x, m.step g (.answer i x) ≠ none ↔ Fits q x := by
  have ih := inv_reach h
  have hok := ih.calls i k hk
  obtain ⟨c, pc⟩ := k
  cases pc with
  | start => exact .inr (.inl (mayread hk))
  | done b => exact .inl ⟨b, rfl⟩
  | got p => exact .inr (.inr (.inl (by simp [GhM.step, hk])))
  | installation =>
    obtain ⟨n, k, e, ha, he, hkn, hx, hq⟩ := hok
    have hif : (e.event = "push" ∨ e.event = "pull_request") = True := eq_true hkn
    refine .inr (.inr (.inr ⟨[], _, _, by rw [hq, hx]; simp only [questions, hif, if_true]; rfl, by rw [hx]; rfl, fun x => ?_⟩))
    simp only [GhM.step, hk, ih.hauth, ih.hevent, ha, he]
    cases x <;> simp [Fits]
  | token id =>
    obtain ⟨n, k, e, ha, he, hkn, hx, hq⟩ := hok
    have hif : (e.event = "push" ∨ e.event = "pull_request") = True := eq_true hkn
    refine .inr (.inr (.inr ⟨[(.app n k, .repoInstallation e.repoOwner e.repoName)], _, _,
      by rw [hq, hx]; simp only [questions, hif, if_true]; rfl, by rw [hx]; rfl, fun x => ?_⟩))
    simp only [GhM.step, hk, ih.hauth, ih.hevent, ha, he]
    cases x <;> simp [Fits]
  | files t =>
    obtain ⟨a, e, ha, he, hkn, hnum, hx, hq⟩ := hok
    have hif : (e.event = "push" ∨ e.event = "pull_request") = True := eq_true hkn
    have hfq : ∃ q, filesQuestion e t = [(.token t, q)] ∧ ∀ x, m.step g (.answer i x) ≠ none ↔ Fits q x := by
      simp only [GhM.step, hk, ih.hauth, ih.hevent, ha, he]
      unfold filesQuestion
      by_cases hp : e.event = "push"
      · refine ⟨_, by rw [if_pos hp], fun x => ?_⟩
        cases x <;> simp [Fits, hp]
      · obtain ⟨n, hn⟩ := Option.ne_none_iff_exists'.1 (hnum (hkn.resolve_left hp))
        refine ⟨.pullFiles e.repoOwner e.repoName n, by rw [if_neg hp, if_pos (hkn.resolve_left hp), hn], fun x => ?_⟩
        cases x <;> simp [Fits, hp]
    obtain ⟨q, h1, h2⟩ := hfq
    rcases hx with ⟨rfl, hx⟩ | ⟨n, k, id, rfl, hx⟩
    · exact .inr (.inr (.inr ⟨[], _, q, by rw [hq, hx]; exact h1, by rw [hx]; rfl, h2⟩))
    · refine .inr (.inr (.inr ⟨[(.app n k, .repoInstallation e.repoOwner e.repoName), (.app n k, .installationToken id)], .token t, q, ?_,
        by rw [hx]; rfl, h2⟩))
      rw [hq, hx]
      simp only [questions, hif, if_true, h1]
      rfl

/-- **C129** (asked once) Once files are stored, checks that begin later ask GitHub nothing, in whatever happens afterwards. -/
theorem C129_asked_once (g : GlobLang) (event : Option TriggerEvent) (auth : Option GithubAuthorization) (acts more : List GhAct)
    (m m' : GhM) (h : GhReach g event auth acts m) (h' : GhReach g event auth (acts ++ more) m') (p : ConditionPayload)
    (hp : m.matcher.payload = some p) (i : Nat) (hi : ∀ k, m.calls[i]? = some k → k.pc = .start) : askedBy i m' = [] := by
  have hrest : runs (GhM.step g) m more = some m' := by
    have h1 : runs (GhM.step g) (GhM.new event auth) (acts ++ more) = some m' := h'
    rw [runs_append, show runs (GhM.step g) (GhM.new event auth) acts = some m from h] at h1
    exact h1
  have h0 : askedBy i m = [] := by
    cases hk : m.calls[i]? with
    | none => exact ((inv_reach h).fresh i (List.getElem?_eq_none_iff.1 hk)).1
    | some k =>
      have := (inv_reach h).calls i k hk
      rw [hi k hk] at this
      exact this.1
  suffices hs : m'.matcher.payload ≠ none ∧ (∀ k, m'.calls[i]? = some k → k.pc = .start ∨ ∃ b, k.pc = .done b) ∧ askedBy i m' = [] from hs.2.2
  refine runs_induct (P := fun _ (m : GhM) => m.matcher.payload ≠ none ∧ (∀ k, m.calls[i]? = some k → k.pc = .start ∨ ∃ b, k.pc = .done b) ∧
    askedBy i m = []) ⟨by rw [hp]; simp, fun k hk => .inl (hi k hk), h0⟩ ?_ hrest
  rintro acts y m m' _ ⟨i1, i2, i3⟩ hs
  have goes : ∀ j pc, j ≠ i ∨ (∃ b, pc = .done b) → ∀ k, (m.goto j pc).calls[i]? = some k → k.pc = .start ∨ ∃ b, k.pc = .done b := by
    intro j pc hj k hk
    simp only [GhM.goto, List.getElem?_modify] at hk
    by_cases hji : j = i
    · simp only [hji, if_true] at hk
      cases hk' : m.calls[i]? with
      | none => rw [hk'] at hk; cases hk
      | some k' =>
        rw [hk'] at hk
        cases hk
        exact .inr (hj.resolve_left fun hne => hne hji)
    · simp only [hji, if_false, id_map'] at hk
      exact i2 k hk
  have asks : ∀ j c q pc, j ≠ i → (∀ k, (m.ask j c q pc).calls[i]? = some k → k.pc = .start ∨ ∃ b, k.pc = .done b) ∧
      askedBy i (m.ask j c q pc) = [] := by
    intro j c q pc hj
    refine ⟨fun k hk => goes j pc (.inl hj) k hk, ?_⟩
    rw [asked_ask, if_neg hj, List.append_nil]
    exact i3
  have files : ∀ e j t, j ≠ i → ((m.askFiles e j t).matcher.payload ≠ none ∧
      (∀ k, (m.askFiles e j t).calls[i]? = some k → k.pc = .start ∨ ∃ b, k.pc = .done b) ∧ askedBy i (m.askFiles e j t) = []) := by
    intro e j t hj
    unfold GhM.askFiles
    split
    · exact ⟨i1, asks _ _ _ _ hj⟩
    · split
      · exact ⟨i1, goes _ _ (.inl hj), i3⟩
      · exact ⟨i1, asks _ _ _ _ hj⟩
  cases y with
  | call c =>
    cases hs
    refine ⟨i1, fun k hk => ?_, i3⟩
    rcases Nat.lt_or_ge i m.calls.length with hlt | hge
    · rw [List.getElem?_append_left hlt] at hk; exact i2 k hk
    · rw [List.getElem?_append_right hge] at hk
      have := List.mem_singleton.1 (List.mem_of_getElem? hk)
      rw [this]
      exact .inl rfl
  | read j =>
    simp only [GhM.step] at hs
    cases hk : m.calls[j]? with
    | none => rw [hk] at hs; cases hs
    | some k =>
      obtain ⟨c, pc⟩ := k
      rw [hk] at hs
      cases pc with
      | start =>
        obtain ⟨p', hp'⟩ := Option.ne_none_iff_exists'.1 i1
        rw [hp'] at hs
        cases ha : m.matcher.githubAuth <;> cases he : m.matcher.event <;> rw [ha, he] at hs <;> cases hs <;>
          exact ⟨i1, goes _ _ (.inr ⟨_, rfl⟩), i3⟩
      | _ => cases hs
  | answer j x =>
    have hne : j ≠ i := by
      rintro rfl
      simp only [GhM.step] at hs
      cases hk : m.calls[j]? with
      | none => rw [hk] at hs; cases hs
      | some k =>
        rw [hk] at hs
        obtain ⟨c, pc⟩ := k
        rcases i2 _ hk with h | ⟨b, h⟩ <;> simp only at h <;> subst h <;> cases hs
    simp only [GhM.step] at hs
    cases hk : m.calls[j]? with
    | none => rw [hk] at hs; cases hs
    | some k =>
      obtain ⟨c, pc⟩ := k
      rw [hk] at hs
      cases ha : m.matcher.githubAuth with
      | none => rw [ha] at hs; cases pc <;> cases hs
      | some a =>
        cases he : m.matcher.event with
        | none => rw [ha, he] at hs; cases pc <;> cases a <;> cases hs
        | some e =>
          rw [ha, he] at hs
          cases pc with
          | installation =>
            cases a with
            | personalAccessToken t => cases hs
            | githubApp n k => cases x <;> cases hs <;> first | exact ⟨i1, goes _ _ (.inl hne), i3⟩ | exact ⟨i1, asks _ _ _ _ hne⟩
          | token id => cases x <;> cases hs <;> first | exact ⟨i1, goes _ _ (.inl hne), i3⟩ | exact files _ _ _ hne
          | files t =>
            cases x with
            | commit fs =>
              simp only at hs
              split at hs <;> cases hs
              exact ⟨i1, goes _ _ (.inl hne), i3⟩
            | pulls fs =>
              simp only at hs
              split at hs <;> cases hs
              exact ⟨i1, goes _ _ (.inl hne), i3⟩
            | _ => cases hs <;> exact ⟨i1, goes _ _ (.inl hne), i3⟩
          | _ => cases hs
  | store j =>
    simp only [GhM.step] at hs
    cases hk : m.calls[j]? with
    | none => rw [hk] at hs; cases hs
    | some k =>
      obtain ⟨c, pc⟩ := k
      rw [hk] at hs
      cases pc with
      | got p' => cases hs; exact ⟨by simp [GhM.goto], goes _ _ (.inr ⟨_, rfl⟩), i3⟩
      | _ => cases hs

namespace GhLem

theorem piece_call {m : GhM} {i : Nat} {c : Condition} {pc : GhPc} (hk : m.calls[i]? = some ⟨c, pc⟩) :
    (lookupsInOnePiece m).calls[i]? = some ⟨c, stageOf pc⟩ := by
  simp only [lookupsInOnePiece, List.getElem?_map, hk]
  rfl

theorem piece_goto (m : GhM) (i : Nat) (pc : GhPc) : lookupsInOnePiece (m.goto i pc) = (lookupsInOnePiece m).goto i (stageOf pc) := by
  simp only [lookupsInOnePiece, GhM.goto, MatchM.goto]
  congr 1
  refine List.ext_getElem? fun j => ?_
  simp only [List.getElem?_map, List.getElem?_modify]
  by_cases h : i = j
  · simp only [h, if_true]; cases m.calls[j]? <;> rfl
  · simp only [h, if_false, id_map']

theorem piece_ask (m : GhM) (i : Nat) (c : GhCred) (q : GhRequest) (pc : GhPc) :
    lookupsInOnePiece (m.ask i c q pc) = (lookupsInOnePiece m).goto i (stageOf pc) := piece_goto { m with asked := _ } i pc

theorem goto_same {m : MatchM} {i : Nat} {c : Condition} {pc : CheckPc} (hk : m.calls[i]? = some ⟨c, pc⟩) : m.goto i pc = m := by
  simp only [MatchM.goto]
  cases m with
  | mk mt calls =>
    congr 1
    refine List.ext_getElem? fun j => ?_
    simp only [List.getElem?_modify]
    by_cases h : i = j
    · subst h
      simp only at hk
      simp only [if_true, hk]
      rfl
    · simp only [h, if_false, id_map']

theorem goto_goto (m : MatchM) (i : Nat) (pc pc' : CheckPc) : (m.goto i pc).goto i pc' = m.goto i pc' := by
  simp only [MatchM.goto]
  congr 1
  refine List.ext_getElem? fun j => ?_
  simp only [List.getElem?_modify]
  by_cases h : i = j
  · simp only [h, if_true]; cases m.calls[j]? <;> rfl
  · simp only [h, if_false, id_map']

/-- A failed lookup in one move. -/
theorem piece_fails {g : GlobLang} {M : MatchM} {i : Nat} {c : Condition} {a : GithubAuthorization} {e : TriggerEvent}
    (hk : M.calls[i]? = some ⟨c, .looking⟩) (ha : M.matcher.githubAuth = some a) (he : M.matcher.event = some e)
    {api : GithubApi} {x : Error} (hx : changedFiles a api e = .error x) : M.step g (.answer i api) = some (M.goto i (.done true)) := by
  simp only [MatchM.step, hk, ha, he, hx]

theorem piece_names {g : GlobLang} {M : MatchM} {i : Nat} {c : Condition} {a : GithubAuthorization} {e : TriggerEvent}
    (hk : M.calls[i]? = some ⟨c, .looking⟩) (ha : M.matcher.githubAuth = some a) (he : M.matcher.event = some e)
    {api : GithubApi} {fs : List String} (hx : changedFiles a api e = .ok fs) :
    M.step g (.answer i api) = some (M.goto i (.got ⟨e.event, e.branch, fs⟩)) := by
  simp only [MatchM.step, hk, ha, he, hx]

/-- GitHub out of order. -/
def dead : GithubApi := ⟨fun _ _ => .error (.internalRuntimeError ""), fun _ _ _ => .error (.internalRuntimeError ""),
  fun _ _ _ => .error (.internalRuntimeError "")⟩
/-- GitHub naming `fs`. -/
def naming (c : Option (List String)) (fs : List String) : GithubApi := ⟨fun _ _ => .ok (), fun _ _ _ => .ok c, fun _ _ _ => .ok fs⟩

theorem dead_fails (a : GithubAuthorization) (e : TriggerEvent) : ∃ x, changedFiles a dead e = .error x := by
  unfold changedFiles
  split
  · cases a <;> exact ⟨_, rfl⟩
  · split
    · cases a
      · simp only [pullRequestChangedFiles, githubApiByRepo]
        cases e.prNumber <;> exact ⟨_, rfl⟩
      · exact ⟨_, rfl⟩
    · exact ⟨_, rfl⟩

theorem naming_push (a : GithubAuthorization) (e : TriggerEvent) (h : e.event = "push") (c fs) :
    changedFiles a (naming c fs) e = .ok (c.getD []) := by
  unfold changedFiles
  rw [if_pos h]
  cases a <;> rfl

theorem naming_pull (a : GithubAuthorization) (e : TriggerEvent) (h : e.event = "pull_request") (hn : e.prNumber ≠ none) (c fs) :
    changedFiles a (naming c fs) e = .ok fs := by
  unfold changedFiles
  rw [if_neg (by rw [h]; decide), if_pos h]
  obtain ⟨n, hn⟩ := Option.ne_none_iff_exists'.1 hn
  cases a <;> simp only [pullRequestChangedFiles, githubApiByRepo, naming, hn]

theorem askFiles_piece (m : GhM) (e : TriggerEvent) (i : Nat) (t : String) :
    lookupsInOnePiece (m.askFiles e i t) = (lookupsInOnePiece m).goto i .looking ∨
      lookupsInOnePiece (m.askFiles e i t) = (lookupsInOnePiece m).goto i (.done true) := by
  unfold GhM.askFiles
  split
  · exact .inl (piece_ask ..)
  · split
    · exact .inr (piece_goto ..)
    · exact .inl (piece_ask ..)

end GhLem

/-- **C129** (refinement) Taking each lookup as one piece, the matcher behaves as in C85: every state it gets into, request by request, is
one of those, so all that is said there holds. -/
theorem C129_lookups_in_one_piece (g : GlobLang) (event : Option TriggerEvent) (auth : Option GithubAuthorization) (acts : List GhAct) (m : GhM)
    (h : GhReach g event auth acts m) : ∃ acts', MatchReach g event auth acts' (lookupsInOnePiece m) := by
  refine runs_induct (P := fun _ (m : GhM) => ∃ acts', MatchReach g event auth acts' (lookupsInOnePiece m))
    (show ∃ acts', MatchReach g event auth acts' (lookupsInOnePiece (GhM.new event auth)) from ⟨[], rfl⟩) ?_ h
  rintro acts y m m' hm ⟨acts', hr⟩ hs
  have ih := inv_reach hm
  have one : ∀ z, (lookupsInOnePiece m).step g z = some (lookupsInOnePiece m') →
      ∃ acts', MatchReach g event auth acts' (lookupsInOnePiece m') := fun z hz => ⟨acts' ++ [z], runs_snoc.2 ⟨_, hr, hz⟩⟩
  have two : ∀ z M z', (lookupsInOnePiece m).step g z = some M → M.step g z' = some (lookupsInOnePiece m') →
      ∃ acts', MatchReach g event auth acts' (lookupsInOnePiece m') :=
    fun z M z' hz hz' => ⟨(acts' ++ [z]) ++ [z'], runs_snoc.2 ⟨_, runs_snoc.2 ⟨_, hr, hz⟩, hz'⟩⟩
  have same : lookupsInOnePiece m' = lookupsInOnePiece m → ∃ acts', MatchReach g event auth acts' (lookupsInOnePiece m') :=
    fun e => ⟨acts', by rw [e]; exact hr⟩
  cases y with
  | call c =>
    cases hs
    exact one (.call c) (by simp [MatchM.step, lookupsInOnePiece, stageOf])
  | read i =>
    simp only [GhM.step] at hs
    cases hk : m.calls[i]? with
    | none => rw [hk] at hs; cases hs
    | some k =>
      obtain ⟨c, pc⟩ := k
      rw [hk] at hs
      cases pc with
      | start =>
        have hk' := piece_call hk
        have hmt : (lookupsInOnePiece m).matcher = m.matcher := rfl
        cases ha : m.matcher.githubAuth with
        | none =>
          rw [ha] at hs
          cases hs
          exact one (.read i) (by simp only [MatchM.step, hk', stageOf, hmt, ha, piece_goto])
        | some a =>
          cases he : m.matcher.event with
          | none =>
            rw [ha, he] at hs
            cases hs
            exact one (.read i) (by simp only [MatchM.step, hk', stageOf, hmt, ha, he, piece_goto])
          | some e =>
            rw [ha, he] at hs
            simp only at hs
            cases hp : m.matcher.payload with
            | some p =>
              rw [hp] at hs
              cases hs
              exact one (.read i) (by simp only [MatchM.step, hk', stageOf, hmt, ha, he, hp, piece_goto])
            | none =>
              rw [hp] at hs
              cases hs
              have hread : (lookupsInOnePiece m).step g (.read i) = some ((lookupsInOnePiece m).goto i .looking) := by
                simp only [MatchM.step, hk', stageOf, hmt, ha, he, hp]
              have hlook : ((lookupsInOnePiece m).goto i .looking).calls[i]? = some ⟨c, .looking⟩ := by
                simp only [MatchM.goto, List.getElem?_modify, hk', if_true]; rfl
              obtain ⟨x, hx⟩ := dead_fails a e
              have hdone : ((lookupsInOnePiece m).goto i .looking).step g (.answer i dead) = some ((lookupsInOnePiece m).goto i (.done true)) := by
                rw [piece_fails hlook ha he hx, goto_goto]
              unfold GhM.begin at one two same ⊢
              split
              · cases a with
                | personalAccessToken t =>
                  rename_i hif
                  simp only [hif, if_true] at one two
                  rcases askFiles_piece m e i t with h1 | h1
                  · exact one _ (by rw [h1]; exact hread)
                  · exact two _ _ _ hread (by rw [h1]; exact hdone)
                | githubApp n k =>
                  rename_i hif
                  simp only [hif, if_true] at one two
                  exact one _ (by rw [piece_ask]; exact hread)
              · rename_i hif
                simp only [hif, if_false] at one two
                exact two _ _ _ hread (by rw [piece_goto]; exact hdone)
      | _ => cases hs
  | answer i x =>
    simp only [GhM.step] at hs
    cases hk : m.calls[i]? with
    | none => rw [hk] at hs; cases hs
    | some k =>
      obtain ⟨c, pc⟩ := k
      rw [hk] at hs
      have hk' := piece_call hk
      have hok := ih.calls i _ hk
      cases ha : m.matcher.githubAuth with
      | none => rw [ha] at hs; cases pc <;> cases hs
      | some a =>
        cases he : m.matcher.event with
        | none => rw [ha, he] at hs; cases pc <;> cases a <;> cases hs
        | some e =>
          rw [ha, he] at hs
          obtain ⟨er, hx⟩ := dead_fails a e
          cases pc with
          | installation =>
            have hdone := piece_fails (g := g) hk' ha he hx
            cases a with
            | personalAccessToken t => cases hs
            | githubApp n k =>
              cases x <;> cases hs
              · exact one _ (by rw [piece_goto]; exact hdone)
              · exact same (by rw [piece_ask]; exact goto_same hk')
          | token id =>
            have hdone := piece_fails (g := g) hk' ha he hx
            cases x <;> cases hs
            · exact one _ (by rw [piece_goto]; exact hdone)
            · rename_i t
              rcases askFiles_piece m e i t with h1 | h1
              · exact same (by rw [h1]; exact goto_same hk')
              · exact one _ (by rw [h1]; exact hdone)
          | files t =>
            have hdone := piece_fails (g := g) hk' ha he hx
            obtain ⟨a', e', ha', he', hkn, hnum, _⟩ := hok
            rw [← ih.hauth, ha] at ha'
            rw [← ih.hevent, he] at he'
            cases ha'
            cases he'
            cases x with
            | failed => cases hs; exact one _ (by rw [piece_goto]; exact hdone)
            | commit fs =>
              simp only at hs
              split at hs
              · rename_i hp
                cases hs
                exact one _ (by rw [piece_goto]; exact piece_names hk' ha he (naming_push a e hp fs []))
              · cases hs
            | pulls fs =>
              simp only at hs
              split at hs
              · cases hs
              · rename_i hp
                cases hs
                have hpr := hkn.resolve_left hp
                exact one _ (by rw [piece_goto]; exact piece_names hk' ha he (naming_pull a e hpr (hnum hpr) none fs))
            | _ => cases hs
          | _ => cases hs
  | store i =>
    simp only [GhM.step] at hs
    cases hk : m.calls[i]? with
    | none => rw [hk] at hs; cases hs
    | some k =>
      obtain ⟨c, pc⟩ := k
      rw [hk] at hs
      cases pc with
      | got p =>
        cases hs
        have hk' := piece_call hk
        refine one (.store i) ?_
        rw [piece_goto]
        simp only [MatchM.step, hk', stageOf]
        rfl
      | _ => cases hs

namespace GhEx
/-- a push to `o/r` -/
def push : TriggerEvent := { demoPush with event := "push", repoOwner := "o", repoName := "r", sha := "c0ffee" }
/-- an app -/
def app : GithubAuthorization := .githubApp 7 "key"
/-- Two checks of a run at the same time; each gets a token of its own, the second one's lookup fails in the end. -/
def acts : List GhAct :=
  [.call (.event ["push"]), .call (.event ["push"]), .read 0, .read 1, .answer 1 (.installation 3), .answer 0 (.installation 3),
    .answer 0 (.token "t0"), .answer 1 (.token "t1"), .answer 1 .failed, .answer 0 (.commit (some ["a.rs"])), .store 0, .call (.event ["push"])]
end GhEx

/-- The hypotheses are met, in a run with three checks: two of them ask at the same time, the third is to come when files are stored. -/
example : ∃ m, GhReach literalGlobs (some GhEx.push) (some GhEx.app) GhEx.acts m ∧ m.calls.length = 3 ∧ m.asked.length = 6 ∧
    askedBy 0 m = [(.app 7 "key", .repoInstallation "o" "r"), (.app 7 "key", .installationToken 3), (.token "t0", .commit "o" "r" "c0ffee")] ∧
    (∃ c, m.calls[1]? = some ⟨c, .done true⟩) ∧ (∃ p, m.matcher.payload = some p) ∧ (∀ k, m.calls[2]? = some k → k.pc = .start) := by
  refine ⟨_, rfl, rfl, rfl, rfl, ⟨_, rfl⟩, ⟨_, rfl⟩, ?_⟩
  intro k hk
  cases hk
  rfl

end AstroRun
