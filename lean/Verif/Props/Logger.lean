import Verif.Spec.Logger

/-! # C93: the logger -/

namespace AstroRun
open Logging

namespace Logging

/-- The calls of `s'` are those of `s`, but call `i` is `x`. -/
def Upd (s s' : Sys) (i : Nat) (x : Init × Pc) : Prop :=
  ∀ j : Nat, s'.calls[j]? = if j = i then some x else s.calls[j]?

theorem le_serious (a b : Level) : a.le b = true ↔ AsSerious a b := by
  cases a <;> cases b <;> decide

theorem get_length {α : Type} {l : List α} {i : Nat} {x : α} (h : l[i]? = some x) : i < l.length := by
  rw [List.getElem?_eq_some_iff] at h
  exact h.1

theorem upd_goto (s : Sys) {i : Nat} {x : Init × Pc} (h : s.calls[i]? = some x) (c : Init) (pc : Pc) :
    Upd s (s.goto i c pc) i (c, pc) := by
  intro j
  have hi := get_length h
  simp only [Sys.goto, List.getElem?_set]
  by_cases hj : i = j
  · subst hj; simp [hi]
  · have : ¬ j = i := fun e => hj e.symm
    simp [hj, this]

/-- The steps of one call. -/
inductive Move (s s' : Sys) (i : Nat) (c : Init) : Pc → Pc → Prop
  | seen : s.once = .full → s'.once = s.once → s'.logger = s.logger → s'.maxLevel = s.maxLevel →
      Move s s' i c .checking .returned
  | unseen : s.once ≠ .full → s'.once = s.once → s'.logger = s.logger → s'.maxLevel = s.maxLevel →
      Move s s' i c .checking .entering
  | late : s.once = .full → s'.once = s.once → s'.logger = s.logger → s'.maxLevel = s.maxLevel →
      Move s s' i c .entering .returned
  | enter : s.once = .empty → s'.once = .running i → s'.logger = s.logger → s'.maxLevel = s.maxLevel →
      Move s s' i c .entering .inside
  | install : s.logger = none → s'.once = s.once → s'.logger = some (.ours c.level) → s'.maxLevel = s.maxLevel →
      Move s s' i c .inside .installed
  | panic : s.logger ≠ none → s'.once = .empty → s'.logger = s.logger → s'.maxLevel = s.maxLevel →
      Move s s' i c .inside .panicked
  | level : s'.once = s.once → s'.logger = s.logger → s'.maxLevel = some c.level →
      Move s s' i c .installed .leveled
  | done : s'.once = .full → s'.logger = s.logger → s'.maxLevel = s.maxLevel → Move s s' i c .leveled .returned

theorem go_cases {s s' : Sys} {i : Nat} (h : s.step (.go i) = some s') :
    ∃ (c : Init) (pc pc' : Pc), s.calls[i]? = some (c, pc) ∧ Move s s' i c pc pc' ∧ Upd s s' i (c, pc') ∧
      s'.printed = s.printed := by
  simp only [Sys.step, Sys.go] at h
  cases hc : s.calls[i]? with
  | none => simp [hc] at h
  | some x =>
    obtain ⟨c, pc⟩ := x
    simp only [hc] at h
    cases pc with
    | checking =>
      simp only [Option.some.injEq] at h
      by_cases ho : s.once = .full
      · rw [if_pos ho] at h; subst h
        exact ⟨c, _, _, rfl, .seen ho rfl rfl rfl, upd_goto s hc c _, rfl⟩
      · rw [if_neg ho] at h; subst h
        exact ⟨c, _, _, rfl, .unseen ho rfl rfl rfl, upd_goto s hc c _, rfl⟩
    | entering =>
      simp only at h
      cases ho : s.once with
      | full =>
        simp only [ho, Option.some.injEq] at h; subst h
        exact ⟨c, _, _, rfl, .late ho rfl rfl rfl, upd_goto s hc c _, rfl⟩
      | running k => simp [ho] at h
      | empty =>
        simp only [ho, Option.some.injEq] at h; subst h
        exact ⟨c, _, _, rfl, .enter ho rfl rfl rfl, upd_goto { s with once := .running i } hc c _, rfl⟩
    | inside =>
      simp only at h
      cases hl : s.logger with
      | none =>
        simp only [hl, Option.some.injEq] at h; subst h
        exact ⟨c, _, _, rfl, .install hl rfl rfl rfl, upd_goto { s with logger := some (.ours c.level) } hc c _, rfl⟩
      | some g =>
        simp only [hl, Option.some.injEq] at h; subst h
        exact ⟨c, _, _, rfl, .panic (by simp [hl]) rfl hl.symm rfl, upd_goto { s with once := .empty } hc c _, rfl⟩
    | installed =>
      simp only [Option.some.injEq] at h; subst h
      exact ⟨c, _, _, rfl, .level rfl rfl rfl, upd_goto { s with maxLevel := some c.level } hc c _, rfl⟩
    | leveled =>
      simp only [Option.some.injEq] at h; subst h
      exact ⟨c, _, _, rfl, .done rfl rfl rfl, upd_goto { s with once := .full } hc c _, rfl⟩
    | returned => simp at h
    | panicked => simp at h

/-- In the closure. -/
def Critical (pc : Pc) : Prop := pc = .inside ∨ pc = .installed ∨ pc = .leveled

/-- What holds in every state. -/
structure LogInv (s : Sys) : Prop where
  owner : ∀ (i : Nat) (c : Init) (pc : Pc), s.calls[i]? = some (c, pc) → Critical pc → s.once = .running i
  running : ∀ i : Nat, s.once = .running i → ∃ (c : Init) (pc : Pc), s.calls[i]? = some (c, pc) ∧ Critical pc
  full : s.once = .full → ∃ l, s.logger = some (.ours l) ∧ s.maxLevel = some l
  returned : ∀ (i : Nat) (c : Init), s.calls[i]? = some (c, .returned) → s.once = .full
  inside : ∀ (i : Nat) (c : Init), s.calls[i]? = some (c, .inside) → s.maxLevel = none
  installed : ∀ (i : Nat) (c : Init), s.calls[i]? = some (c, .installed) →
    s.logger = some (.ours c.level) ∧ s.maxLevel = none
  leveled : ∀ (i : Nat) (c : Init), s.calls[i]? = some (c, .leveled) →
    s.logger = some (.ours c.level) ∧ s.maxLevel = some c.level
  ours : ∀ l : Level, s.logger = some (.ours l) → ∃ (i : Nat) (c : Init) (pc : Pc), s.calls[i]? = some (c, pc) ∧
    c.level = l ∧ pc ≠ .checking ∧ pc ≠ .entering ∧ pc ≠ .inside ∧ pc ≠ .panicked
  panicked : ∀ (i : Nat) (c : Init), s.calls[i]? = some (c, .panicked) → s.logger = some .foreign
  levels : ∀ m : Level, s.maxLevel = some m → s.logger = some (.ours m)
  empty : s.once = .empty → s.maxLevel = none

theorem logInv_init : LogInv {} where
  owner := by simp
  running := by simp
  full := by simp
  returned := by simp
  inside := by simp
  installed := by simp
  leveled := by simp
  ours := by simp
  panicked := by simp
  levels := by simp
  empty := by simp

theorem logInv_go {s s' : Sys} {i : Nat} {c : Init} {pc pc' : Pc} (h : LogInv s) (hc : s.calls[i]? = some (c, pc))
    (hm : Move s s' i c pc pc') (hu : Upd s s' i (c, pc')) : LogInv s' := by
  have ⟨h1, h2, h3, h4, h4', h5, h6, h7, h8, h9, h10⟩ := h
  unfold Upd at hu
  unfold Critical at *
  have hself := hu i
  simp only [if_true] at hself
  have hne : ∀ j : Nat, j ≠ i → s'.calls[j]? = s.calls[j]? := by
    intro j hj; rw [hu j, if_neg hj]
  have get : ∀ (j : Nat) (d : Init) (p : Pc), s'.calls[j]? = some (d, p) →
      (j = i ∧ d = c ∧ p = pc') ∨ (j ≠ i ∧ s.calls[j]? = some (d, p)) := by
    intro j d p hj
    by_cases e : j = i
    · subst e
      rw [hself] at hj
      simp only [Option.some.injEq, Prod.mk.injEq] at hj
      exact .inl ⟨rfl, hj.1.symm, hj.2.symm⟩
    · rw [hne j e] at hj; exact .inr ⟨e, hj⟩
  clear hu
  have foreign : pc = .inside → s.logger ≠ none → s.logger = some .foreign := by
    intro e hl
    subst e
    have hr := h1 i c _ hc (.inl rfl)
    cases hs : s.logger with
    | none => exact absurd hs hl
    | some g =>
      cases g with
      | foreign => rfl
      | ours l =>
        obtain ⟨j, d, p, hj, _, hp⟩ := h7 l hs
        cases p <;> grind
  cases hm <;> (constructor <;> grind [Critical])

theorem logInv_step {s s' : Sys} {a : Act} (h : LogInv s) (hs : s.step a = some s') : LogInv s' := by
  cases a with
  | go i =>
    obtain ⟨c, pc, pc', hc, hm, hu, _⟩ := go_cases hs
    exact logInv_go h hc hm hu
  | call c =>
    simp only [Sys.step, Option.some.injEq] at hs
    subst hs
    have old : ∀ (i : Nat) (d : Init) (p : Pc), (s.calls ++ [(c, Pc.checking)])[i]? = some (d, p) →
        s.calls[i]? = some (d, p) ∨ p = .checking := by
      intro i d p hx
      rw [List.getElem?_append] at hx
      split at hx
      · exact .inl hx
      · right
        cases hn : i - s.calls.length with
        | zero => simp [hn] at hx; exact hx.2.symm
        | succ n => simp [hn] at hx
    have keep : ∀ (i : Nat) (x : Init × Pc), s.calls[i]? = some x → (s.calls ++ [(c, Pc.checking)])[i]? = some x := by
      intro i x hx
      rw [List.getElem?_append_left (get_length hx)]; exact hx
    have ⟨h1, h2, h3, h4, h4', h5, h6, h7, h8, h9, h10⟩ := h
    unfold Critical at *
    constructor <;> grind [Critical]
  | foreign =>
    simp only [Sys.step, Option.some.injEq] at hs
    subst hs
    have ⟨h1, h2, h3, h4, h4', h5, h6, h7, h8, h9, h10⟩ := h
    split
    · rename_i hn
      have hn' : s.logger = none := by simpa using hn
      constructor <;> grind
    · exact h
  | log l msg =>
    simp only [Sys.step, Option.some.injEq] at hs
    subst hs
    have ⟨h1, h2, h3, h4, h4', h5, h6, h7, h8, h9, h10⟩ := h
    split
    · exact ⟨h1, h2, h3, h4, h4', h5, h6, h7, h8, h9, h10⟩
    · exact h

theorem logInv_run {s s' : Sys} {acts : List Act} (h : LogInv s) (hr : s.run acts = some s') : LogInv s' := by
  induction acts generalizing s with
  | nil => simp only [Sys.run, Option.some.injEq] at hr; exact hr ▸ h
  | cons a acts ih =>
    simp only [Sys.run] at hr
    cases hs : s.step a with
    | none => simp [hs] at hr
    | some s1 => simp only [hs, Option.bind_some] at hr; exact ih (logInv_step h hs) hr

theorem logInv_reach {acts : List Act} {s : Sys} (h : LogReach acts s) : LogInv s := logInv_run logInv_init h

/-- The logger and the level are set once. -/
theorem keeps_step {s s' : Sys} {a : Act} (h : LogInv s) (hs : s.step a = some s') :
    (s.once = .full → s'.once = .full) ∧ (∀ g, s.logger = some g → s'.logger = some g) ∧
    (∀ m, s.maxLevel = some m → s'.maxLevel = some m) := by
  cases a with
  | go i =>
    obtain ⟨c, pc, pc', hc, hm, hu, _⟩ := go_cases hs
    have ⟨h1, h2, h3, h4, h4', h5, h6, h7, h8, h9, h10⟩ := h
    unfold Critical at *
    cases hm <;> grind
  | call c => simp only [Sys.step, Option.some.injEq] at hs; subst hs; exact ⟨id, fun _ => id, fun _ => id⟩
  | foreign =>
    simp only [Sys.step, Option.some.injEq] at hs; subst hs
    cases hl : s.logger with
    | none => simp
    | some g => simp [hl]
  | log lv msg =>
    simp only [Sys.step, Option.some.injEq] at hs; subst hs
    split <;> exact ⟨id, fun _ => id, fun _ => id⟩

theorem keeps_run {s s' : Sys} {acts : List Act} (h : LogInv s) (hr : s.run acts = some s') :
    (s.once = .full → s'.once = .full) ∧ (∀ g, s.logger = some g → s'.logger = some g) ∧
    (∀ m, s.maxLevel = some m → s'.maxLevel = some m) := by
  induction acts generalizing s with
  | nil => simp only [Sys.run, Option.some.injEq] at hr; subst hr; exact ⟨id, fun _ => id, fun _ => id⟩
  | cons a acts ih =>
    simp only [Sys.run] at hr
    cases hs : s.step a with
    | none => simp [hs] at hr
    | some s1 =>
      simp only [hs, Option.bind_some] at hr
      obtain ⟨a1, a2, a3⟩ := keeps_step h hs
      obtain ⟨b1, b2, b3⟩ := ih (logInv_step h hs) hr
      exact ⟨fun x => b1 (a1 x), fun g x => b2 g (a2 g x), fun m x => b3 m (a3 m x)⟩

/-- Induction along a run from the start. -/
theorem log_induct {P : List Act → Sys → Prop} (base : P [] {})
    (step : ∀ acts a s s', LogReach acts s → P acts s → s.step a = some s' → P (acts ++ [a]) s')
    {acts : List Act} {s : Sys} (h : LogReach acts s) : P acts s := by
  have key : ∀ (rest pre : List Act) (s0 : Sys), LogReach pre s0 → P pre s0 → s0.run rest = some s →
      P (pre ++ rest) s := by
    intro rest
    induction rest with
    | nil => intro pre s0 _ hp hr; simp only [Sys.run, Option.some.injEq] at hr; subst hr; simpa using hp
    | cons a rest ih =>
      intro pre s0 hpre hp hr
      simp only [Sys.run] at hr
      cases hs : s0.step a with
      | none => simp [hs] at hr
      | some s1 =>
        simp only [hs, Option.bind_some] at hr
        have hre : LogReach (pre ++ [a]) s1 := by
          unfold LogReach at *
          have app : ∀ (x : List Act) (t u v : Sys), t.run x = some u → u.step a = some v →
              t.run (x ++ [a]) = some v := by
            intro x
            induction x with
            | nil => intro t u v h1 h2; simp only [Sys.run, Option.some.injEq] at h1; subst h1; simp [Sys.run, h2]
            | cons y x ihx =>
              intro t u v h1 h2
              simp only [Sys.run, List.cons_append] at h1 ⊢
              cases hy : t.step y with
              | none => simp [hy] at h1
              | some w => simp only [hy, Option.bind_some] at h1 ⊢; exact ihx w u v h1 h2
          exact app pre {} s0 s1 hpre hs
        have := ih (pre ++ [a]) s1 hre (step pre a s0 s1 hpre hp hs) hr
        simpa using this
  simpa using key acts [] {} rfl base h

end Logging

/-- **C93** As soon as one initialisation has returned, whichever threads called how often and whatever other code
does, the process has one level: that of one of the calls.  From then on a line is printed exactly if its level is at
most that, and no later call changes it. -/
theorem C93_level (acts : List Act) (s : Sys) (h : LogReach acts s) (hr : Ready s) :
    ∃ l, (∃ c : Init × Pc, c ∈ s.calls ∧ c.1.level = l) ∧ Configured s l := by
  have hi := logInv_reach h
  obtain ⟨⟨c, pc⟩, hc, hp⟩ := hr
  simp only at hp
  subst hp
  obtain ⟨i, hci⟩ := List.getElem?_of_mem hc
  have hf := hi.returned i c hci
  obtain ⟨l, hl, hm⟩ := hi.full hf
  obtain ⟨j, d, p, hj, hd, _⟩ := hi.ours l hl
  refine ⟨l, ⟨(d, p), List.mem_of_getElem? hj, hd⟩, ?_⟩
  rintro s' ⟨more, hmore⟩ lv msg
  obtain ⟨_, k2, k3⟩ := keeps_run hi hmore
  refine ⟨_, rfl, ?_⟩
  simp only [Sys.prints, k2 _ hl, k3 _ hm, Bool.and_self, le_serious]
  split <;> simp

/-- **C93** Every line that was ever printed was logged, and the level of one initialisation allows all of them; so
without an initialisation nothing is printed. -/
theorem C93_printed (acts : List Act) (s : Sys) (h : LogReach acts s) (hp : s.printed ≠ []) :
    ∃ c : Init × Pc, c ∈ s.calls ∧
      ∀ lv msg, (lv, msg) ∈ s.printed → AsSerious lv c.1.level ∧ .log lv msg ∈ acts := by
  have key : (s.printed ≠ [] → ∃ m, s.maxLevel = some m) ∧
      ∀ lv msg, (lv, msg) ∈ s.printed → (∀ m, s.maxLevel = some m → AsSerious lv m) ∧ .log lv msg ∈ acts := by
    clear hp
    refine log_induct (P := fun acts s => (s.printed ≠ [] → ∃ m, s.maxLevel = some m) ∧
      ∀ lv msg, (lv, msg) ∈ s.printed → (∀ m, s.maxLevel = some m → AsSerious lv m) ∧ .log lv msg ∈ acts)
      (by simp) ?_ h
    intro acts a s s' hr ⟨h1, h2⟩ hs
    have hi := logInv_reach hr
    have hk := (keeps_step hi hs).2.2
    have same : s'.printed = s.printed → (s'.printed ≠ [] → ∃ m, s'.maxLevel = some m) ∧
        ∀ lv msg, (lv, msg) ∈ s'.printed →
          (∀ m, s'.maxLevel = some m → AsSerious lv m) ∧ .log lv msg ∈ acts ++ [a] := by
      intro e
      rw [e]
      refine ⟨fun hn => ?_, fun lv msg hm => ?_⟩
      · obtain ⟨m, hm⟩ := h1 hn; exact ⟨m, hk m hm⟩
      · refine ⟨fun m hm' => ?_, List.mem_append_left _ (h2 lv msg hm).2⟩
        obtain ⟨m0, hm0⟩ := h1 (List.ne_nil_of_mem hm)
        have := hk m0 hm0
        rw [this] at hm'
        simp only [Option.some.injEq] at hm'
        subst hm'
        exact (h2 lv msg hm).1 m0 hm0
    cases a with
    | go i => obtain ⟨_, _, _, _, _, _, e⟩ := go_cases hs; exact same e
    | call c => simp only [Sys.step, Option.some.injEq] at hs; exact same (by subst hs; rfl)
    | foreign => simp only [Sys.step, Option.some.injEq] at hs; exact same (by subst hs; split <;> rfl)
    | log lv0 msg0 =>
      simp only [Sys.step, Option.some.injEq] at hs
      split at hs
      · rename_i hpr
        subst hs
        simp only [Sys.prints] at hpr
        split at hpr
        · rename_i m own hm hl
          simp only [Bool.and_eq_true, le_serious] at hpr
          refine ⟨fun _ => ⟨m, hm⟩, fun lv msg hmem => ?_⟩
          simp only [List.mem_append, List.mem_singleton, Prod.mk.injEq] at hmem
          rcases hmem with hmem | ⟨rfl, rfl⟩
          · exact ⟨(h2 lv msg hmem).1, List.mem_append_left _ (h2 lv msg hmem).2⟩
          · refine ⟨fun m' hm' => ?_, by simp⟩
            simp only [hm, Option.some.injEq] at hm'
            subst hm'; exact hpr.1
        · simp at hpr
      · exact same (by subst hs; rfl)
  obtain ⟨m, hm⟩ := key.1 hp
  have hi := logInv_reach h
  obtain ⟨j, d, p, hj, hd, _⟩ := hi.ours m (hi.levels m hm)
  refine ⟨(d, p), List.mem_of_getElem? hj, fun lv msg hmem => ⟨?_, (key.2 lv msg hmem).2⟩⟩
  simp only [hd]
  exact (key.2 lv msg hmem).1 m hm

theorem Logging.upper_sameLetter (a b : Char) (hb : 'A' ≤ b ∧ b ≤ 'Z') : Logging.upper a = b ↔ SameLetter a b := by
  have valN : ∀ c : Char, c.toNat = c.val.toNat := fun _ => rfl
  have leN : ∀ c d : Char, c ≤ d ↔ c.toNat ≤ d.toNat := fun c d => by
    rw [valN, valN, ← UInt32.le_iff_toNat_le, Char.le_def]
  have hA : 'A'.toNat = 65 := rfl
  have hZ : 'Z'.toNat = 90 := rfl
  have ha : 'a'.toNat = 97 := rfl
  have hz : 'z'.toNat = 122 := rfl
  rw [leN, leN] at hb
  unfold Logging.upper SameLetter
  have toN : ∀ n, n < 200 → (Char.ofNat n).toNat = n := by
    intro n hn
    have hv : n.isValidChar := .inl (by omega)
    rw [Char.ofNat, dif_pos hv]
    rfl
  split
  · rename_i hr
    rw [leN, leN] at hr
    constructor
    · intro e
      refine .inr ⟨(leN _ _).2 hr.1, (leN _ _).2 hr.2, ?_⟩
      have := congrArg Char.toNat e
      rw [toN _ (by omega)] at this
      omega
    · rintro (e | ⟨_, _, e⟩)
      · subst e; omega
      · have : a.toNat - 32 = b.toNat := by omega
        rw [this, Char.ofNat_toNat]
  · rename_i hr
    rw [leN, leN] at hr
    constructor
    · exact .inl
    · rintro (e | ⟨h1, h2, _⟩)
      · exact e
      · rw [leN] at h1 h2; exact absurd ⟨h1, h2⟩ hr

theorem Logging.upper_list (n s : List Char) (hn : ∀ b ∈ n, 'A' ≤ b ∧ b ≤ 'Z') :
    s.map Logging.upper = n ↔ s.length = n.length ∧ ∀ p ∈ s.zip n, SameLetter p.1 p.2 := by
  induction n generalizing s with
  | nil => cases s <;> simp
  | cons b n ih =>
    cases s with
    | nil => simp
    | cons a s =>
      have h1 := Logging.upper_sameLetter a b (hn b (by simp))
      have h2 := ih s (fun c hc => hn c (by simp [hc]))
      simp only [List.map_cons, List.cons.injEq, h1, h2, List.length_cons, List.zip_cons_cons, List.mem_cons,
        forall_eq_or_imp, Nat.add_right_cancel_iff]
      constructor
      · rintro ⟨a, b, c⟩; exact ⟨b, a, c⟩
      · rintro ⟨b, a, c⟩; exact ⟨a, b, c⟩

theorem Logging.names_iff (s : String) (l : Level) :
    Names s l ↔ String.ofList (s.toList.map Logging.upper) = levelName l := by
  have hn : ∀ b ∈ (levelName l).toList, 'A' ≤ b ∧ b ≤ 'Z' := by cases l <;> decide
  unfold Names
  rw [← Logging.upper_list _ _ hn]
  constructor
  · intro e; rw [e, String.ofList_toList]
  · intro e; rw [← e, String.toList_ofList]

theorem Logging.ofText_iff (s : String) (l : Level) : Level.ofText s = some l ↔ Names s l := by
  rw [Logging.names_iff]
  simp only [Level.ofText]
  generalize String.ofList (s.toList.map Logging.upper) = u
  split
  · rename_i h; subst h; cases l <;> simp [levelName]
  split
  · rename_i h; subst h; cases l <;> simp [levelName]
  split
  · rename_i h; subst h; cases l <;> simp [levelName]
  split
  · rename_i h; subst h; cases l <;> simp [levelName]
  split
  · rename_i h; subst h; cases l <;> simp [levelName]
  · cases l <;> simp_all [levelName]

/-- **C93** The level of a call from the environment is the one `RUST_LOG` names, in any case; if it is not set or
names none, `info`. -/
theorem C93_environment (var : Option String) :
    (∀ s l, var = some s → Names s l → (Init.fromEnv var).level = l) ∧
    ((∀ s l, var = some s → ¬ Names s l) → (Init.fromEnv var).level = .info) := by
  constructor
  · rintro s l rfl hn
    simp [Init.level, envLevel, (Logging.ofText_iff s l).2 hn]
  · intro hn
    cases var with
    | none => decide
    | some s =>
      cases ho : Level.ofText s with
      | none => simp [Init.level, envLevel, ho]
      | some l => exact absurd ((Logging.ofText_iff s l).1 ho) (hn s l rfl)

/-- **C93** Initialisations do not block each other for ever: as long as one is pending, one can go on. -/
theorem C93_progress (acts : List Act) (s : Sys) (h : LogReach acts s) (i : Nat) (c : Init × Pc)
    (hc : s.calls[i]? = some c) (hp : Pending c) :
    ∃ (j : Nat) (d : Init × Pc) (s' : Sys), s.calls[j]? = some d ∧ Pending d ∧ s.step (.go j) = some s' := by
  have hi := logInv_reach h
  obtain ⟨c, pc⟩ := c
  have go : ∀ (j : Nat) (d : Init) (p : Pc), s.calls[j]? = some (d, p) → Critical p →
      ∃ (j : Nat) (d : Init × Pc) (s' : Sys), s.calls[j]? = some d ∧ Pending d ∧ s.step (.go j) = some s' := by
    intro j d p hj hp
    rcases hp with rfl | rfl | rfl
    · cases hl : s.logger with
      | none => exact ⟨j, _, _, hj, by simp [Pending], by simp only [Sys.step, Sys.go, hj, hl]; rfl⟩
      | some g => exact ⟨j, _, _, hj, by simp [Pending], by simp only [Sys.step, Sys.go, hj, hl]; rfl⟩
    · exact ⟨j, _, _, hj, by simp [Pending], by simp only [Sys.step, Sys.go, hj]; rfl⟩
    · exact ⟨j, _, _, hj, by simp [Pending], by simp only [Sys.step, Sys.go, hj]; rfl⟩
  cases pc with
  | checking => exact ⟨i, _, _, hc, hp, by simp only [Sys.step, Sys.go, hc]; rfl⟩
  | entering =>
    cases ho : s.once with
    | full => exact ⟨i, _, _, hc, hp, by simp only [Sys.step, Sys.go, hc, ho]; rfl⟩
    | empty => exact ⟨i, _, _, hc, hp, by simp only [Sys.step, Sys.go, hc, ho]; rfl⟩
    | running k =>
      obtain ⟨d, p, hk, hpk⟩ := hi.running k ho
      exact go k d p hk hpk
  | inside => exact go i c _ hc (.inl rfl)
  | installed => exact go i c _ hc (.inr (.inl rfl))
  | leveled => exact go i c _ hc (.inr (.inr rfl))
  | returned => simp [Pending] at hp
  | panicked => simp [Pending] at hp

/-- The steps a call still has to take, at most. -/
def Logging.stepsLeft : Pc → Nat
  | .checking => 5
  | .entering => 4
  | .inside => 3
  | .installed => 2
  | .leveled => 1
  | .returned => 0
  | .panicked => 0

/-- **C93** Every initialisation is over after at most five steps of its own. -/
theorem C93_bounded (acts : List Act) (s : Sys) (h : LogReach acts s) (i : Nat) : stepsOf i acts ≤ 5 := by
  have key : (s.calls[i]? = none → stepsOf i acts = 0) ∧
      ∀ (c : Init) (pc : Pc), s.calls[i]? = some (c, pc) → stepsOf i acts + stepsLeft pc ≤ 5 := by
    refine log_induct (P := fun acts s => (s.calls[i]? = none → stepsOf i acts = 0) ∧
      ∀ (c : Init) (pc : Pc), s.calls[i]? = some (c, pc) → stepsOf i acts + stepsLeft pc ≤ 5)
      (by simp [stepsOf]) ?_ h
    intro acts a s s' _ ⟨h1, h2⟩ hs
    have cnt : stepsOf i (acts ++ [a]) = stepsOf i acts + if a = .go i then 1 else 0 := by
      simp only [stepsOf, List.count_append, List.count_singleton, beq_iff_eq]
    rw [cnt]
    cases a with
    | go j =>
      obtain ⟨c, pc, pc', hc, hm, hu, _⟩ := go_cases hs
      have hui := hu i
      by_cases hij : i = j
      · subst hij
        simp only [if_true] at hui ⊢
        have := h2 c pc hc
        cases hm <;> simp only [stepsLeft] at this <;> grind [stepsLeft]
      · have hji : ¬ (Act.go j = Act.go i) := by simp only [Act.go.injEq]; exact fun e => hij e.symm
        rw [if_neg hij] at hui
        rw [hui, if_neg hji]
        exact ⟨h1, h2⟩
    | foreign =>
      simp only [Sys.step, Option.some.injEq] at hs; subst hs
      split <;> exact ⟨by simpa using h1, by simpa using h2⟩
    | log lv msg =>
      simp only [Sys.step, Option.some.injEq] at hs; subst hs
      split <;> exact ⟨by simpa using h1, by simpa using h2⟩
    | call d =>
      simp only [Sys.step, Option.some.injEq] at hs; subst hs
      simp only [reduceCtorEq, if_false, Nat.add_zero]
      refine ⟨fun hn => h1 ?_, fun c pc hc => ?_⟩
      · simp only [List.getElem?_eq_none_iff, List.length_append, List.length_singleton] at hn ⊢; omega
      · rw [List.getElem?_append] at hc
        split at hc
        · exact h2 c pc hc
        · rename_i hlen
          have h0 := h1 (by simpa using hlen)
          rw [h0]
          cases pc <;> simp [stepsLeft]
  cases hc : s.calls[i]? with
  | none => rw [key.1 hc]; omega
  | some x => obtain ⟨c, pc⟩ := x; have := key.2 c pc hc; omega

/-- **C93** A call panics only if other code has set a logger of its own, and then no call ever prints. -/
theorem C93_foreign (acts : List Act) (s : Sys) (h : LogReach acts s) (c : Init × Pc) (hc : c ∈ s.calls)
    (hp : c.2 = .panicked) : .foreign ∈ acts ∧ s.printed = [] ∧ ∀ d ∈ s.calls, d.2 ≠ .returned := by
  have hi := logInv_reach h
  obtain ⟨c, pc⟩ := c
  simp only at hp
  subst hp
  obtain ⟨i, hci⟩ := List.getElem?_of_mem hc
  have hl := hi.panicked i c hci
  have key : s.logger = some .foreign → .foreign ∈ acts := by
    clear hl hi hci hc
    refine log_induct (P := fun acts s => s.logger = some .foreign → .foreign ∈ acts) (by simp) ?_ h
    intro acts a s s' _ ih hs hl
    cases a with
    | go i =>
      obtain ⟨_, _, _, _, hm, _, _⟩ := go_cases hs
      refine List.mem_append_left _ (ih ?_)
      cases hm <;> grind
    | call c => simp only [Sys.step, Option.some.injEq] at hs; subst hs; exact List.mem_append_left _ (ih hl)
    | foreign => simp
    | log lv msg =>
      simp only [Sys.step, Option.some.injEq] at hs; subst hs
      refine List.mem_append_left _ (ih ?_)
      split at hl <;> exact hl
  refine ⟨key hl, ?_, ?_⟩
  · apply Classical.byContradiction
    intro hn
    have hmax : s.printed ≠ [] → s.maxLevel ≠ none := by
      refine log_induct (P := fun _ s => s.printed ≠ [] → s.maxLevel ≠ none) (by simp) ?_ h
      intro acts a s s' hr ih hs hn hm
      have hk := (keeps_step (logInv_reach hr) hs).2.2
      have h0 : s.maxLevel = none := by
        cases e : s.maxLevel with
        | none => rfl
        | some m => rw [hk m e] at hm; simp at hm
      apply ih _ h0
      cases a with
      | go i => obtain ⟨_, _, _, _, _, _, e⟩ := go_cases hs; rw [← e]; exact hn
      | call c => simp only [Sys.step, Option.some.injEq] at hs; subst hs; exact hn
      | foreign =>
        simp only [Sys.step, Option.some.injEq] at hs; subst hs
        split at hn <;> exact hn
      | log lv msg =>
        simp only [Sys.step, Option.some.injEq] at hs; subst hs
        rw [if_neg (by simp [Sys.prints, h0])] at hn
        exact hn
    cases hm : s.maxLevel with
    | none => exact hmax hn hm
    | some m => have := hi.levels m hm; rw [hl] at this; simp at this
  · rintro ⟨d, p⟩ hd hpd
    simp only at hpd
    subst hpd
    obtain ⟨j, hj⟩ := List.getElem?_of_mem hd
    obtain ⟨l, hl', _⟩ := hi.full (hi.returned j d hj)
    rw [hl] at hl'; simp at hl'

/-- If every initialisation asks for the same level by name, that is the level of the process. -/
theorem C93_explicit (acts : List Act) (s : Sys) (h : LogReach acts s) (hr : Ready s) (l : Level)
    (hall : ∀ c : Init × Pc, c ∈ s.calls → c.1 = .withLevel l) : Configured s l := by
  obtain ⟨l', ⟨c, hc, hl⟩, hconf⟩ := C93_level acts s h hr
  rw [hall c hc] at hl
  exact (show l = l' from hl) ▸ hconf

/-! ### Concrete cases -/

/-- Two threads initialise at once, with different levels; the second one wins the cell. -/
def Logging.race : List Act :=
  [.call (.fromEnv (some "Debug")), .call (.withLevel .warn), .go 0, .go 1, .log .error "early", .go 1, .go 1,
   .go 1, .log .warn "soon", .go 1, .go 0, .log .info "hidden", .log .warn "shown"]

example : ∃ s, LogReach Logging.race s ∧ Ready s ∧ s.printed = [(.warn, "soon"), (.warn, "shown")] :=
  ⟨_, rfl, ⟨(.fromEnv (some "Debug"), .returned), by decide, rfl⟩, by decide⟩

example : ∃ s, LogReach [.call (.withLevel .warn), .call (.withLevel .warn), .go 0, .go 1, .go 1, .go 1, .go 1, .go 1] s ∧ Ready s ∧
    s.calls.length = 2 ∧ ∀ c ∈ s.calls, c.1 = .withLevel .warn :=
  ⟨_, rfl, ⟨(.withLevel .warn, .returned), by decide, rfl⟩, by decide, by decide⟩

example : Names "dEbug" .debug := by
  refine ⟨rfl, ?_⟩
  intro p hp
  have : p ∈ [('d', 'D'), ('E', 'E'), ('b', 'B'), ('u', 'U'), ('g', 'G')] := hp
  simp only [List.mem_cons, List.not_mem_nil, or_false] at this
  rcases this with rfl | rfl | rfl | rfl | rfl
  · exact .inr (by decide)
  · exact .inl rfl
  · exact .inr (by decide)
  · exact .inr (by decide)
  · exact .inr (by decide)

/-- Other code was first. -/
example : ∃ s, LogReach [.foreign, .call (.withLevel .trace), .go 0, .go 0, .go 0, .log .error "x"] s ∧
    (.withLevel .trace, .panicked) ∈ s.calls :=
  ⟨_, rfl, by decide⟩

end AstroRun
