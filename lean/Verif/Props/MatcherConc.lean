import Verif.Props.Matcher
import Verif.Lemmas.Run

/-!
# Concurrent condition checks (C85)
-/

namespace AstroRun

@[simp] theorem lookupsOf_append (i : Nat) (p q : List MatchAct) : lookupsOf i (p ++ q) = lookupsOf i p ++ lookupsOf i q := by
  simp [lookupsOf]

@[simp] theorem lookupsOf_call (i : Nat) (c : Condition) : lookupsOf i [.call c] = [] := rfl
@[simp] theorem lookupsOf_read (i j : Nat) : lookupsOf i [.read j] = [] := rfl
@[simp] theorem lookupsOf_store (i j : Nat) : lookupsOf i [.store j] = [] := rfl
@[simp] theorem lookupsOf_answer (i j : Nat) (api : GithubApi) :
    lookupsOf i [.answer j api] = if j = i then [api] else [] := by
  by_cases h : j = i <;> simp [lookupsOf, h]

/-- How check `i` of condition `c` came to its answer `b`. -/
def CheckDecided (g : GlobLang) (event : Option TriggerEvent) (auth : Option GithubAuthorization) (acts : List MatchAct)
    (i : Nat) (c : Condition) (b : Bool) : Prop :=
  ((auth = none ∨ event = none) ∧ b = true ∧ lookupsOf i acts = []) ∨
  ∃ a e, auth = some a ∧ event = some e ∧
    ((∃ api, lookupsOf i acts = [api] ∧ LookupFails a api e ∧ b = true) ∨
     (∃ files, LookedUp a e acts i files ∧ b = c.isMatch g ⟨e.event, e.branch, files⟩) ∨
     (lookupsOf i acts = [] ∧ ∃ j files, LookedUp a e acts j files ∧ b = c.isMatch g ⟨e.event, e.branch, files⟩))

/-- What is true of check `i` in every reachable state. -/
def CheckInv (g : GlobLang) (event : Option TriggerEvent) (auth : Option GithubAuthorization) (acts : List MatchAct)
    (i : Nat) (k : Check) : Prop :=
  match k.pc with
  | .start => lookupsOf i acts = []
  | .looking => lookupsOf i acts = [] ∧ ∃ a e, auth = some a ∧ event = some e
  | .got p => ∃ a e files, auth = some a ∧ event = some e ∧ LookedUp a e acts i files ∧ p = ⟨e.event, e.branch, files⟩
  | .done b => CheckDecided g event auth acts i k.cond b

structure MatchInv (g : GlobLang) (event : Option TriggerEvent) (auth : Option GithubAuthorization) (acts : List MatchAct)
    (m : MatchM) : Prop where
  hauth : m.matcher.githubAuth = auth
  hevent : m.matcher.event = event
  payload : ∀ p, m.matcher.payload = some p → ∃ a e j files, auth = some a ∧ event = some e ∧
    LookedUp a e acts j files ∧ p = ⟨e.event, e.branch, files⟩
  fresh : ∀ i, m.calls.length ≤ i → lookupsOf i acts = []
  calls : ∀ (i : Nat) (k : Check), m.calls[i]? = some k → CheckInv g event auth acts i k

theorem LookedUp.mono {a : GithubAuthorization} {e : TriggerEvent} {acts : List MatchAct} {i : Nat} {files : List String}
    (h : LookedUp a e acts i files) {x : MatchAct} (hx : lookupsOf i [x] = []) : LookedUp a e (acts ++ [x]) i files := by
  obtain ⟨api, h1, h2, h3⟩ := h
  exact ⟨api, by simp [h1, hx], h2, h3⟩

theorem CheckInv.mono {g : GlobLang} {event : Option TriggerEvent} {auth : Option GithubAuthorization}
    {acts : List MatchAct} {i : Nat} {k : Check} (h : CheckInv g event auth acts i k) {x : MatchAct}
    (hx : lookupsOf i [x] = []) (hL : ∀ a e j files, LookedUp a e acts j files → LookedUp a e (acts ++ [x]) j files) :
    CheckInv g event auth (acts ++ [x]) i k := by
  unfold CheckInv at h ⊢
  split <;> rename_i hpc <;> rw [hpc] at h <;> simp only at h
  · simp [h, hx]
  · simpa [h.1, hx] using h.2
  · obtain ⟨a, e, files, h1, h2, h3, h4⟩ := h
    exact ⟨a, e, files, h1, h2, hL _ _ _ _ h3, h4⟩
  · rcases h with ⟨h1, h2, h3⟩ | ⟨a, e, h1, h2, h3⟩
    · exact .inl ⟨h1, h2, by simp [h3, hx]⟩
    · refine .inr ⟨a, e, h1, h2, ?_⟩
      rcases h3 with ⟨api, h3, h4, h5⟩ | ⟨files, h3, h4⟩ | ⟨h3, j, files, h4, h5⟩
      · exact .inl ⟨api, by simp [h3, hx], h4, h5⟩
      · exact .inr (.inl ⟨files, hL _ _ _ _ h3, h4⟩)
      · exact .inr (.inr ⟨by simp [h3, hx], j, files, hL _ _ _ _ h4, h5⟩)

theorem MatchM.goto_get {m : MatchM} {i j : Nat} {pc : CheckPc} {k : Check} (h : (m.goto i pc).calls[j]? = some k) :
    (i ≠ j ∧ m.calls[j]? = some k) ∨ (i = j ∧ ∃ k0, m.calls[j]? = some k0 ∧ k = { k0 with pc := pc }) := by
  simp only [MatchM.goto, List.getElem?_modify] at h
  by_cases hij : i = j
  · simp only [hij, if_true] at h
    cases hk : m.calls[j]? with
    | none => simp [hk] at h
    | some k0 => simp [hk] at h; exact .inr ⟨hij, k0, by simp, h.symm⟩
  · simp [hij] at h; exact .inl ⟨hij, h⟩

@[simp] theorem MatchM.goto_matcher {m : MatchM} {i : Nat} {pc : CheckPc} : (m.goto i pc).matcher = m.matcher := rfl
@[simp] theorem MatchM.goto_length {m : MatchM} {i : Nat} {pc : CheckPc} :
    (m.goto i pc).calls.length = m.calls.length := by simp [MatchM.goto]

/-- A move of check `i` other than an answer keeps the invariant if the new state of the check satisfies it. -/
theorem MatchInv.goto {g : GlobLang} {event : Option TriggerEvent} {auth : Option GithubAuthorization}
    {acts : List MatchAct} {m : MatchM} (h : MatchInv g event auth acts m) (i : Nat) (k : Check) (hk : m.calls[i]? = some k)
    (x : MatchAct) (hx : ∀ j, j ≠ i → lookupsOf j [x] = [])
    (hL : ∀ a e j files, LookedUp a e acts j files → LookedUp a e (acts ++ [x]) j files) (pc : CheckPc)
    (hpc : CheckInv g event auth (acts ++ [x]) i { k with pc := pc }) : MatchInv g event auth (acts ++ [x]) (m.goto i pc) := by
  refine ⟨h.hauth, h.hevent, ?_, ?_, ?_⟩
  · intro p hp
    obtain ⟨a, e, j, files, h1, h2, h3, h4⟩ := h.payload p hp
    exact ⟨a, e, j, files, h1, h2, hL _ _ _ _ h3, h4⟩
  · intro j hj
    rw [MatchM.goto_length] at hj
    have : j ≠ i := by
      rintro rfl
      have := (List.getElem?_eq_some_iff.1 hk).1
      omega
    simp [h.fresh j hj, hx j this]
  · intro j k' hj
    rcases MatchM.goto_get hj with ⟨hij, hj'⟩ | ⟨rfl, k0, hj', rfl⟩
    · exact (h.calls j k' hj').mono (hx j (Ne.symm hij)) hL
    · rw [hk] at hj'; cases hj'; exact hpc

theorem matchInv_reach {g : GlobLang} {event : Option TriggerEvent} {auth : Option GithubAuthorization}
    {acts : List MatchAct} {m : MatchM} (h : MatchReach g event auth acts m) : MatchInv g event auth acts m := by
  refine runs_induct (P := MatchInv g event auth) ?_ ?_ h
  · exact ⟨rfl, rfl, by simp [MatchM.new, Matcher.new], fun _ _ => rfl, by simp [MatchM.new]⟩
  · intro acts x m m' _ ih hs
    cases x with
    | call c =>
      simp only [MatchM.step, Option.some.injEq] at hs
      subst hs
      have hL : ∀ a e j files, LookedUp a e acts j files → LookedUp a e (acts ++ [.call c]) j files :=
        fun a e j files h => h.mono rfl
      refine ⟨ih.hauth, ih.hevent, ?_, ?_, ?_⟩
      · intro p hp
        obtain ⟨a, e, j, files, h1, h2, h3, h4⟩ := ih.payload p hp
        exact ⟨a, e, j, files, h1, h2, hL _ _ _ _ h3, h4⟩
      · intro i hi
        simp only [List.length_append, List.length_cons, List.length_nil] at hi
        simp [ih.fresh i (by omega)]
      · intro i k hk
        rw [List.getElem?_append] at hk
        split at hk
        · exact (ih.calls i k hk).mono rfl hL
        · rename_i hi
          rw [List.getElem?_singleton] at hk
          split at hk
          · cases hk
            simp only [CheckInv]
            simp [ih.fresh i (by omega)]
          · simp at hk
    | read i =>
      have hL : ∀ a e j files, LookedUp a e acts j files → LookedUp a e (acts ++ [.read i]) j files :=
        fun a e j files h => h.mono rfl
      simp only [MatchM.step] at hs
      split at hs
      · rename_i c hk
        have h0 : lookupsOf i acts = [] := ih.calls i _ hk
        split at hs
        · rename_i a e ha he
          split at hs
          · rename_i p hp
            cases hs
            refine ih.goto i _ hk _ (fun _ _ => rfl) hL _ ?_
            obtain ⟨a', e', j, files, h1, h2, h3, h4⟩ := ih.payload p hp
            refine .inr ⟨a', e', h1, h2, .inr (.inr ⟨by simp [h0], j, files, hL _ _ _ _ h3, by rw [h4]⟩)⟩
          · cases hs
            refine ih.goto i _ hk _ (fun _ _ => rfl) hL _ ?_
            exact ⟨by simp [h0], a, e, by rw [← ih.hauth, ha], by rw [← ih.hevent, he]⟩
        · rename_i hno
          cases hs
          refine ih.goto i _ hk _ (fun _ _ => rfl) hL _ (.inl ⟨?_, rfl, by simp [h0]⟩)
          rw [← ih.hauth, ← ih.hevent]
          cases ha : m.matcher.githubAuth with
          | none => simp
          | some a =>
            cases he : m.matcher.event with
            | none => simp
            | some e => exact absurd he (by have := hno a e ha; simp_all)
      · cases hs
    | answer i api =>
      simp only [MatchM.step] at hs
      split at hs
      · rename_i c hk
        obtain ⟨h0, -⟩ := ih.calls i _ hk
        have hL : ∀ a e j files, LookedUp a e acts j files → LookedUp a e (acts ++ [.answer i api]) j files := by
          intro a e j files h
          refine h.mono ?_
          obtain ⟨api', h1, -⟩ := h
          have : i ≠ j := by rintro rfl; simp [h0] at h1
          simp [this]
        have hx : ∀ j, j ≠ i → lookupsOf j [.answer i api] = [] := fun j hj => by simp [Ne.symm hj]
        split at hs
        · rename_i a e ha he
          have ha' : auth = some a := by rw [← ih.hauth, ha]
          have he' : event = some e := by rw [← ih.hevent, he]
          rcases changedFiles_cases a api e with ⟨hf, x, hc⟩ | ⟨hf, files, hg, hc⟩ <;> rw [hc] at hs
          · cases hs
            exact ih.goto i _ hk _ hx hL _ (.inr ⟨a, e, ha', he', .inl ⟨api, by simp [h0], hf, rfl⟩⟩)
          · cases hs
            exact ih.goto i _ hk _ hx hL _ ⟨a, e, files, ha', he', ⟨api, by simp [h0], hf, hg⟩, rfl⟩
        · cases hs
      · cases hs
    | store i =>
      have hL : ∀ a e j files, LookedUp a e acts j files → LookedUp a e (acts ++ [.store i]) j files :=
        fun a e j files h => h.mono rfl
      simp only [MatchM.step] at hs
      split at hs
      · rename_i c p hk
        cases hs
        obtain ⟨a, e, files, h1, h2, h3, h4⟩ := ih.calls i _ hk
        refine MatchInv.goto (m := { m with matcher := { m.matcher with payload := some p } }) ?_ i _ hk _
          (fun _ _ => rfl) hL _ (.inr ⟨a, e, h1, h2, .inr (.inl ⟨files, hL _ _ _ _ h3, by rw [h4]⟩)⟩)
        refine ⟨ih.hauth, ih.hevent, ?_, ih.fresh, ih.calls⟩
        intro p' hp'
        cases hp'
        exact ⟨a, e, i, files, h1, h2, h3, h4⟩
      · cases hs

/-- **C85** every answer has a cause.  Whatever checks the tasks of a run make, however they interleave and whatever GitHub answers:
a check that has returned `b` for condition `c`
* without authorization or without an event made no lookup, and `b` is true;
* otherwise made at most one lookup; if that failed `b` is true; if it returned `files`, `b` is `c` evaluated on them; if the
  check made none, `b` is `c` evaluated on the files that some other check of the same run got. -/
theorem C85_answers (g : GlobLang) (event : Option TriggerEvent) (auth : Option GithubAuthorization)
    (acts : List MatchAct) (m : MatchM) (h : MatchReach g event auth acts m)
    (i : Nat) (c : Condition) (b : Bool) (hi : m.calls[i]? = some ⟨c, .done b⟩) :
    ((auth = none ∨ event = none) → b = true ∧ lookupsOf i acts = []) ∧
    (∀ a e, auth = some a → event = some e →
      (∃ api, lookupsOf i acts = [api] ∧ LookupFails a api e ∧ b = true) ∨
      (∃ files, LookedUp a e acts i files ∧ b = c.isMatch g ⟨e.event, e.branch, files⟩) ∨
      (lookupsOf i acts = [] ∧ ∃ j files, j ≠ i ∧ LookedUp a e acts j files ∧
        b = c.isMatch g ⟨e.event, e.branch, files⟩)) := by
  have hd : CheckDecided g event auth acts i c b := (matchInv_reach h).calls i _ hi
  rcases hd with ⟨h1, h2, h3⟩ | ⟨a, e, h1, h2, h3⟩
  · refine ⟨fun _ => ⟨h2, h3⟩, fun a e ha he => ?_⟩
    rcases h1 with h1 | h1 <;> simp_all
  · refine ⟨fun h0 => by rcases h0 with h0 | h0 <;> simp_all, fun a' e' ha he => ?_⟩
    rw [h1] at ha; rw [h2] at he; cases ha; cases he
    rcases h3 with h3 | h3 | ⟨h3, j, files, h4, h5⟩
    · exact .inl h3
    · exact .inr (.inl h3)
    · refine .inr (.inr ⟨h3, j, files, ?_, h4, h5⟩)
      rintro rfl
      obtain ⟨api, h6, -⟩ := h4
      simp [h3] at h6

/-- **C85** no check is stuck: one that has not returned can move, whatever GitHub answers. -/
theorem C85_progress (g : GlobLang) (event : Option TriggerEvent) (auth : Option GithubAuthorization)
    (acts : List MatchAct) (m : MatchM) (h : MatchReach g event auth acts m)
    (i : Nat) (k : Check) (hi : m.calls[i]? = some k) (hk : ∀ b, k.pc ≠ .done b) :
    (∃ m', m.step g (.read i) = some m') ∨ (∀ api, ∃ m', m.step g (.answer i api) = some m') ∨
    (∃ m', m.step g (.store i) = some m') := by
  have hinv := matchInv_reach h
  obtain ⟨c, pc⟩ := k
  cases pc with
  | start =>
    left
    simp only [MatchM.step, hi]
    cases m.matcher.githubAuth <;> cases m.matcher.event <;> cases m.matcher.payload <;> simp
  | looking =>
    right; left
    intro api
    obtain ⟨-, a, e, ha, he⟩ := hinv.calls i _ hi
    simp only [MatchM.step, hi, hinv.hauth, hinv.hevent, ha, he]
    cases changedFiles a api e <;> simp
  | got p => right; right; simp [MatchM.step, hi]
  | done b => exact absurd rfl (hk b)

/-- Once stored, a payload is there for good (it may be replaced). -/
theorem payload_kept {g : GlobLang} {m m' : MatchM} {acts : List MatchAct} (h : runs (MatchM.step g) m acts = some m')
    (hp : m.matcher.payload.isSome) : m'.matcher.payload.isSome := by
  refine runs_induct (P := fun _ m => m.matcher.payload.isSome) hp ?_ h
  intro acts x m m' _ ih hs
  cases x <;> simp only [MatchM.step] at hs <;> (repeat' split at hs) <;> cases hs <;> simp_all

theorem matchStep_length {g : GlobLang} {m m' : MatchM} {x : MatchAct} (hs : m.step g x = some m') :
    m.calls.length ≤ m'.calls.length := by
  cases x <;> simp only [MatchM.step] at hs <;> (repeat' split at hs) <;> cases hs <;> simp

theorem matchRuns_length {g : GlobLang} {m m' : MatchM} {acts : List MatchAct} (h : runs (MatchM.step g) m acts = some m') :
    m.calls.length ≤ m'.calls.length := by
  refine runs_induct (P := fun _ m' => m.calls.length ≤ m'.calls.length) (Nat.le_refl _) ?_ h
  intro acts x m1 m2 _ ih hs
  exact Nat.le_trans ih (matchStep_length hs)

/-- **C85** after a success no new lookups: a check made after some check has stored its files makes no lookup. -/
theorem C85_no_lookup_after_success (g : GlobLang) (event : Option TriggerEvent) (auth : Option GithubAuthorization)
    (pre post : List MatchAct) (j : Nat) (m0 m : MatchM) (h0 : MatchReach g event auth (pre ++ [.store j]) m0)
    (h : MatchReach g event auth (pre ++ [.store j] ++ post) m) (i : Nat) (hi : m0.calls.length ≤ i) :
    lookupsOf i (pre ++ [.store j] ++ post) = [] := by
  obtain ⟨m1, h1, h2⟩ := runs_split h
  have : m1 = m0 := by have := h1.symm.trans h0; simpa using this
  subst this
  have hp : m1.matcher.payload.isSome := by
    obtain ⟨m2, -, h4⟩ := runs_snoc.1 h0
    simp only [MatchM.step] at h4
    split at h4 <;> cases h4
    rfl
  have hinv := matchInv_reach h0
  have key : (∀ i, m1.calls.length ≤ i → lookupsOf i post = []) ∧
      (∀ (i : Nat) (k : Check), m1.calls.length ≤ i → m.calls[i]? = some k → k.pc = .start ∨ ∃ b, k.pc = .done b) := by
    refine runs_induct (P := fun acts m => (∀ i, m1.calls.length ≤ i → lookupsOf i acts = []) ∧
      (∀ (i : Nat) (k : Check), m1.calls.length ≤ i → m.calls[i]? = some k → k.pc = .start ∨ ∃ b, k.pc = .done b)) ?_ ?_ h2
    · refine ⟨fun _ _ => rfl, fun i k hi hk => ?_⟩
      have := (List.getElem?_eq_some_iff.1 hk).1
      omega
    · intro acts x m2 m3 hr ih hs
      have hp2 := payload_kept hr hp
      obtain ⟨ih1, ih2⟩ := ih
      cases x with
      | call c =>
        cases hs
        refine ⟨fun i hi => by simp [ih1 i hi], fun i k hi hk => ?_⟩
        rw [List.getElem?_append] at hk
        split at hk
        · exact ih2 i k hi hk
        · rw [List.getElem?_singleton] at hk
          split at hk <;> cases hk
          exact .inl rfl
      | read l =>
        refine ⟨fun i hi => by simp [ih1 i hi], fun i k hi hk => ?_⟩
        simp only [MatchM.step] at hs
        repeat' split at hs
        all_goals first | cases hs | skip
        · rcases MatchM.goto_get hk with ⟨hij, hk'⟩ | ⟨rfl, k0, hk', rfl⟩
          · exact ih2 i k hi hk'
          · exact .inr ⟨_, rfl⟩
        · rename_i hn; simp [hn] at hp2
        · rcases MatchM.goto_get hk with ⟨hij, hk'⟩ | ⟨rfl, k0, hk', rfl⟩
          · exact ih2 i k hi hk'
          · exact .inr ⟨_, rfl⟩
      | answer l api =>
        simp only [MatchM.step] at hs
        split at hs
        · rename_i c hl
          have hlt : l < m1.calls.length := by
            refine Nat.lt_of_not_le fun hc => ?_
            rcases ih2 l _ hc hl with h5 | ⟨b, h5⟩ <;> cases h5
          refine ⟨fun i hi => by simp [ih1 i hi]; omega, fun i k hi hk => ?_⟩
          repeat' split at hs
          all_goals first | cases hs | skip
          all_goals
            rcases MatchM.goto_get hk with ⟨hij, hk'⟩ | ⟨rfl, k0, hk', rfl⟩
            · exact ih2 i k hi hk'
            · omega
        · cases hs
      | store l =>
        refine ⟨fun i hi => by simp [ih1 i hi], fun i k hi hk => ?_⟩
        simp only [MatchM.step] at hs
        split at hs <;> cases hs
        rcases MatchM.goto_get hk with ⟨hij, hk'⟩ | ⟨rfl, k0, hk', rfl⟩
        · exact ih2 i k hi hk'
        · exact .inr ⟨_, rfl⟩
  rw [lookupsOf_append, hinv.fresh i hi, key.1 i hi]
  rfl

/-- **C85** with no lookup left in flight the files are fixed: if at some moment a payload `p` is stored and no check is between its
first look and its answer, every check that returns later is decided on `p`.  Missing from the full claim: "the payload is fixed by
the first success", which is false, see `C85_refuted`. -/
theorem C85_fixed_partial (g : GlobLang) (event : Option TriggerEvent) (auth : Option GithubAuthorization)
    (pre post : List MatchAct) (m0 m : MatchM) (h0 : MatchReach g event auth pre m0)
    (h : MatchReach g event auth (pre ++ post) m) (p : ConditionPayload) (hp : m0.matcher.payload = some p)
    (hq : ∀ (i : Nat) (k : Check), m0.calls[i]? = some k → k.pc = .start ∨ ∃ b, k.pc = .done b)
    (i : Nat) (c : Condition) (b : Bool) (hi : m.calls[i]? = some ⟨c, .done b⟩)
    (hn : ∀ b', m0.calls[i]? ≠ some ⟨c, .done b'⟩) : b = c.isMatch g p := by
  obtain ⟨m1, h1, h2⟩ := runs_split h
  have : m1 = m0 := by have := h1.symm.trans h0; simpa using this
  subst this
  obtain ⟨p0, hp0⟩ : ∃ p0, m1.matcher.payload = some p0 := ⟨p, hp⟩
  have hauth : m1.matcher.githubAuth.isSome ∧ m1.matcher.event.isSome := by
    have hinv := matchInv_reach h0
    obtain ⟨a, e, _, _, h1, h2, -⟩ := hinv.payload p hp
    simp [hinv.hauth, hinv.hevent, h1, h2]
  have key : m.matcher = m1.matcher ∧ ∀ (i : Nat) (k : Check), m.calls[i]? = some k →
      k.pc = .start ∨ m1.calls[i]? = some k ∨ k.pc = .done (k.cond.isMatch g p) := by
    refine runs_induct (P := fun _ m => m.matcher = m1.matcher ∧ ∀ (i : Nat) (k : Check), m.calls[i]? = some k →
      k.pc = .start ∨ m1.calls[i]? = some k ∨ k.pc = .done (k.cond.isMatch g p)) ?_ ?_ h2
    · exact ⟨rfl, fun i k hk => .inr (.inl hk)⟩
    · intro acts x m2 m3 hr ih hs
      obtain ⟨ih1, ih2⟩ := ih
      cases x with
      | call c =>
        cases hs
        refine ⟨ih1, fun i k hk => ?_⟩
        rw [List.getElem?_append] at hk
        split at hk
        · exact ih2 i k hk
        · rw [List.getElem?_singleton] at hk
          split at hk <;> cases hk
          exact .inl rfl
      | read l =>
        simp only [MatchM.step] at hs
        split at hs
        · rename_i c0 hl
          split at hs
          · split at hs
            · rename_i p' hp'
              cases hs
              refine ⟨ih1, fun i k hk => ?_⟩
              rcases MatchM.goto_get hk with ⟨hij, hk'⟩ | ⟨rfl, k0, hk', rfl⟩
              · exact ih2 i k hk'
              · rw [hl] at hk'; cases hk'
                rw [ih1, hp] at hp'; cases hp'
                exact .inr (.inr rfl)
            · rename_i hn
              rw [ih1, hp] at hn; cases hn
          · rename_i hno
            obtain ⟨h5, h6⟩ := hauth
            rw [← ih1] at h5 h6
            obtain ⟨a, ha⟩ := Option.isSome_iff_exists.1 h5
            obtain ⟨e, he⟩ := Option.isSome_iff_exists.1 h6
            exact absurd he (by have := hno a e ha; simp_all)
        · cases hs
      | answer l api =>
        simp only [MatchM.step] at hs
        split at hs
        · rename_i c0 hl
          rcases ih2 l _ hl with h5 | h5 | h5
          · cases h5
          · rcases hq l _ h5 with h6 | ⟨b, h6⟩ <;> cases h6
          · cases h5
        · cases hs
      | store l =>
        simp only [MatchM.step] at hs
        split at hs
        · rename_i c0 p0 hl
          rcases ih2 l _ hl with h5 | h5 | h5
          · cases h5
          · rcases hq l _ h5 with h6 | ⟨b, h6⟩ <;> cases h6
          · cases h5
        · cases hs
  rcases key.2 i _ hi with h5 | h5 | h5
  · cases h5
  · exact absurd h5 (hn b)
  · simpa using h5

/-- Globs that match themselves only. -/
def literalGlobs : GlobLang := fun p => some fun v => v == p

/-- A push of one file. -/
def apiPush (f : String) : GithubApi := ⟨fun _ _ => .ok (), fun _ _ _ => .ok (some [f]), fun _ _ _ => .error (.error "x")⟩

/-- Runs when `a.rs` changes in a push. -/
def onFileA : Condition := .config { push := some { branches := none, paths := some ["a.rs"] }, pullRequest := none }

/-- Two checks look the files up at the same time; GitHub answers them differently (say because its cache expired). -/
def racingChecks : List MatchAct :=
  [.call onFileA, .call onFileA, .read 0, .read 1, .answer 0 (apiPush "a.rs"), .answer 1 (apiPush "b.rs"), .store 0,
   .call onFileA, .read 2, .store 1, .call onFileA, .read 3]

/-- **C85** (full claim refuted) "the first successful lookup fixes the files for the rest of the run" is false: here checks 2 and 3
of the same condition are both made after check 0 has stored its files, neither makes a lookup, and they get different answers, because
the lookup of check 1, which was in flight, replaces the stored files. -/
theorem C85_refuted : ∃ m, MatchReach literalGlobs (some demoPush) (some (.personalAccessToken "t")) racingChecks m ∧
    m.calls[2]? = some ⟨onFileA, .done true⟩ ∧ m.calls[3]? = some ⟨onFileA, .done false⟩ ∧
    lookupsOf 2 racingChecks = [] ∧ lookupsOf 3 racingChecks = [] :=
  ⟨_, rfl, by decide, by decide, rfl, rfl⟩

-- the hypotheses of the theorems above are met: two racing checks have returned, decided on different files
example : ∃ m, MatchReach literalGlobs (some demoPush) (some (.personalAccessToken "t")) racingChecks m ∧
    m.calls[0]? = some ⟨onFileA, .done true⟩ ∧ m.calls[1]? = some ⟨onFileA, .done false⟩ := ⟨_, rfl, by decide, by decide⟩
example : ∃ m0 m, MatchReach literalGlobs (some demoPush) (some (.personalAccessToken "t")) (racingChecks.take 10) m0 ∧
    MatchReach literalGlobs (some demoPush) (some (.personalAccessToken "t")) (racingChecks.take 10 ++ racingChecks.drop 10) m ∧
    m0.matcher.payload = some ⟨"push", "main", ["b.rs"]⟩ ∧ m0.calls.length = 3 ∧ m.calls.length = 4 :=
  ⟨_, _, rfl, rfl, by decide, by decide, by decide⟩

end AstroRun
