import Verif.Spec.Process
import Verif.Props.Runner

/-! # C90: the process that is started for a command -/

namespace AstroRun
open Spec

/-! ## Lemmas -/

theorem lastOf_append {α β : Type} (f : α → Option β) (xs ys : List α) :
    lastOf f (xs ++ ys) = (lastOf f ys).or (lastOf f xs) := by
  induction xs with
  | nil => simp [lastOf]
  | cons x xs ih => simp [lastOf, ih, Option.or_assoc]

/-- A fold of `insert`s gives each name its last value. -/
theorem get?_foldl_insert (es : List (String × String)) (m : AMap String String) (k : String) :
    (es.foldl (fun m e => m.insert e.1 e.2) m).get? k =
      (lastOf (fun e : String × String => if e.1 = k then some e.2 else none) es).or (m.get? k) := by
  induction es generalizing m with
  | nil => simp [lastOf]
  | cons e es ih =>
    simp only [List.foldl_cons, ih, lastOf]
    rw [Option.or_assoc]
    congr 1
    by_cases h : e.1 = k
    · subst h; simp [AMap.insert, AMap.get?]
    · have : ∀ m : AMap String String, (AMap.erase m e.1).get? k = m.get? k := by
        intro m
        induction m with
        | nil => rfl
        | cons x m ihm =>
          obtain ⟨a, b⟩ := x
          by_cases h1 : a = e.1
          · have h2 : a ≠ k := fun he => h (h1 ▸ he)
            simpa [AMap.erase, h1, AMap.get?, h] using ihm
          · by_cases h2 : a = k
            · simp [AMap.erase, h1, AMap.get?, h2]
              simp [h2 ▸ h1, AMap.get?]
            · simpa [AMap.erase, h1, AMap.get?, h2] using ihm
      simp [AMap.insert, AMap.get?, h, this]

theorem build_set (c : ShellCommand) :
    c.build.program = "sh" ∧ c.build.args = ["-c", c.command] ∧ c.build.dir = c.currentDir ∧
      c.build.set = c.envs.foldl (fun m e => AMap.insert m e.1 e.2) ([] : AMap String String) := by
  have : ∀ (es : List (String × String)) (s : Spawn),
      es.foldl (fun (s : Spawn) e => { s with set := s.set.insert e.1 e.2 }) s =
        { s with set := es.foldl (fun m e => m.insert e.1 e.2) s.set } := by
    intro es
    induction es with
    | nil => simp
    | cons e es ih => intro s; simp [ih]
  unfold ShellCommand.build
  cases hd : c.currentDir <;> simp [this]

theorem erase_sub (m : AMap String String) (k : String) : (m.erase k).Sublist m := List.filter_sublist

/-- Names stay distinct. -/
theorem nodup_insert {m : AMap String String} (h : (m.map Prod.fst).Nodup) (k v : String) :
    ((m.insert k v).map Prod.fst).Nodup := by
  simp only [AMap.insert, List.map_cons, List.nodup_cons]
  refine ⟨?_, h.sublist ((erase_sub m k).map _)⟩
  simp [AMap.erase]

theorem nodup_foldl (es : List (String × String)) {m : AMap String String} (h : (m.map Prod.fst).Nodup) :
    ((es.foldl (fun m e => m.insert e.1 e.2) m).map Prod.fst).Nodup := by
  induction es generalizing m with
  | nil => exact h
  | cons e es ih => exact ih (nodup_insert h _ _)

theorem names_foldl (P : String → Prop) (es : List (String × String)) {m : AMap String String}
    (h : ∀ e ∈ m, P e.1) (he : ∀ e ∈ es, P e.1) :
    ∀ e ∈ es.foldl (fun m e => m.insert e.1 e.2) m, P e.1 := by
  induction es generalizing m with
  | nil => exact h
  | cons e es ih =>
    refine ih (m := m.insert e.1 e.2) ?_ (fun x hx => he x (.tail _ hx))
    intro x hx
    rcases List.mem_cons.1 hx with rfl | hx
    · exact he e (.head _)
    · exact h x ((erase_sub m e.1).subset hx)

/-- An entry begins with `k=` exactly when it is the entry of `k`. -/
theorem entry_prefix {n v k : String} (hn : NameOk n) (hk : NameOk k) :
    (k ++ "=").toList <+: (envEntry (n, v)).toList ↔ n = k := by
  constructor
  · rintro ⟨r, h⟩
    simp only [envEntry, String.toList_append] at h
    have key : ∀ (a b x y : List Char), '=' ∉ a → '=' ∉ b → a ++ '=' :: x = b ++ '=' :: y → a = b := by
      intro a
      induction a with
      | nil =>
        intro b x y _ hb h
        cases b with
        | nil => rfl
        | cons c b =>
          injection h with h1 _
          exact absurd h1 (fun e => hb (by rw [← e]; exact .head _))
      | cons a as ih =>
        intro b x y ha hb h
        cases b with
        | nil =>
          injection h with h1 _
          exact absurd h1.symm (fun e => ha (by rw [e]; exact .head _))
        | cons c b =>
          injection h with h1 h2
          rw [h1, ih b x y (fun e => ha (.tail _ e)) (fun e => hb (.tail _ e)) h2]
    have h2 : k.toList ++ '=' :: r = n.toList ++ '=' :: v.toList := by simpa using h
    exact (String.toList_injective (key _ _ _ _ hk hn h2)).symm
  · rintro rfl
    exact ⟨v.toList, by simp [envEntry]⟩

theorem entry_rest (k v : String) :
    String.ofList ((envEntry (k, v)).toList.drop (k ++ "=").toList.length) = v := by
  have : (envEntry (k, v)).toList = (k ++ "=").toList ++ v.toList := by simp [envEntry]
  rw [this, List.drop_left]
  simp

theorem getenv_mem {vars : AMap String String} {k v : String} (hn : ∀ e ∈ vars, NameOk e.1) (hk : NameOk k)
    (hd : (vars.map Prod.fst).Nodup) : ∀ (l : AMap String String), (∀ e ∈ l, e ∈ vars) → (k, v) ∈ l →
      (k, v) ∈ vars → getenv (l.map envEntry) k = some v := by
  intro l
  induction l with
  | nil => simp
  | cons e l ih =>
    intro hl hm hv
    obtain ⟨n, w⟩ := e
    have he := hl (n, w) (.head _)
    simp only [List.map_cons, getenv]
    by_cases hnk : n = k
    · subst hnk
      have : w = v := by
        apply Classical.byContradiction
        intro hw
        have hinj : ∀ (vars : AMap String String), (vars.map Prod.fst).Nodup → (n, w) ∈ vars → (n, v) ∈ vars → w = v := by
          intro vars
          induction vars with
          | nil => simp
          | cons x xs ihx =>
            intro hd h1 h2
            simp only [List.map_cons, List.nodup_cons] at hd
            rcases List.mem_cons.1 h1 with e1 | h1 <;> rcases List.mem_cons.1 h2 with e2 | h2
            · simpa using e1.trans e2.symm
            · exact absurd (List.mem_map.2 ⟨_, h2, by rw [← e1]⟩) hd.1
            · exact absurd (List.mem_map.2 ⟨_, h1, by rw [← e2]⟩) hd.1
            · exact ihx hd.2 h1 h2
        exact hw (hinj vars hd he hv)
      subst this
      rw [if_pos ((entry_prefix (hn _ he) hk).2 rfl), entry_rest]
    · rw [if_neg (fun h => hnk ((entry_prefix (hn _ he) hk).1 h))]
      refine ih (fun e h => hl e (.tail _ h)) ?_ hv
      rcases List.mem_cons.1 hm with h | h
      · exact absurd (by simpa using (congrArg Prod.fst h).symm) hnk
      · exact h

theorem getenv_absent {k : String} (hk : NameOk k) : ∀ (l : AMap String String), (∀ e ∈ l, NameOk e.1) →
    (∀ e ∈ l, e.1 ≠ k) → getenv (l.map envEntry) k = none := by
  intro l
  induction l with
  | nil => simp [getenv]
  | cons e l ih =>
    intro hn hne
    obtain ⟨n, w⟩ := e
    simp only [List.map_cons, getenv]
    rw [if_neg (fun h => hne (n, w) (.head _) ((entry_prefix (hn _ (.head _)) hk).1 h))]
    exact ih (fun e h => hn e (.tail _ h)) (fun e h => hne e (.tail _ h))

theorem perm_map_entry {envp : List String} {vars : AMap String String} (h : Lists envp vars) :
    ∃ l : AMap String String, l.Perm vars ∧ envp = l.map envEntry := by
  unfold Lists at h
  generalize hm : vars.map envEntry = ys at h
  induction h generalizing vars with
  | nil => exact ⟨[], by cases vars <;> simp_all, rfl⟩
  | cons x _ ih =>
    cases vars with
    | nil => simp at hm
    | cons e vars =>
      simp only [List.map_cons, List.cons.injEq] at hm
      obtain ⟨l, hl, rfl⟩ := ih hm.2
      exact ⟨e :: l, hl.cons e, by simp [hm.1]⟩
  | swap x y l =>
    match vars, hm with
    | a :: b :: vs, hm =>
      simp only [List.map_cons, List.cons.injEq] at hm
      exact ⟨b :: a :: vs, List.Perm.swap a b vs, by simp [hm.1, hm.2.1, hm.2.2]⟩
  | trans _ _ ih1 ih2 =>
    obtain ⟨l2, hl2, e2⟩ := ih2 hm
    obtain ⟨l1, hl1, e1⟩ := ih1 e2.symm
    exact ⟨l1, hl1.trans hl2, e1⟩

theorem get?_mem {m : AMap String String} {k v : String} (h : m.get? k = some v) : (k, v) ∈ m := by
  induction m with
  | nil => simp [AMap.get?] at h
  | cons e m ih =>
    obtain ⟨a, b⟩ := e
    simp only [AMap.get?] at h
    split at h
    · rename_i hk; simp only [Option.some.injEq] at h; simp [hk, h]
    · exact .tail _ (ih h)

theorem get?_none_ne {m : AMap String String} {k : String} (h : m.get? k = none) : ∀ e ∈ m, e.1 ≠ k := by
  induction m with
  | nil => simp
  | cons e m ih =>
    obtain ⟨a, b⟩ := e
    simp only [AMap.get?] at h
    split at h
    · simp at h
    · rename_i hk
      intro x hx
      rcases List.mem_cons.1 hx with rfl | hx
      · exact hk
      · exact ih h x hx

/-- What the child sees is what the map of its variables says. -/
theorem getenv_listed {envp : List String} {vars : AMap String String} {k : String} (h : Lists envp vars)
    (hn : ∀ e ∈ vars, NameOk e.1) (hk : NameOk k) (hd : (vars.map Prod.fst).Nodup) :
    getenv envp k = vars.get? k := by
  obtain ⟨l, hl, rfl⟩ := perm_map_entry h
  cases hg : vars.get? k with
  | some v =>
    have hv := get?_mem hg
    exact getenv_mem hn hk hd l (fun e he => hl.subset he) (hl.symm.subset hv) hv
  | none =>
    exact getenv_absent hk l (fun e he => hn e (hl.subset he)) (fun e he => get?_none_ne hg e (hl.subset he))

theorem lastOf_foldl_insert (es : List (String × String)) (k : String) :
    lastOf (fun e : String × String => if e.1 = k then some e.2 else none)
        (es.foldl (fun m e => AMap.insert m e.1 e.2) ([] : AMap String String)) =
      lastOf (fun e : String × String => if e.1 = k then some e.2 else none) es := by
  have hd := nodup_foldl es (m := []) (by simp)
  have h1 := get?_foldl_insert es [] k
  simp only [AMap.get?, Option.or_none] at h1
  rw [← h1]
  generalize es.foldl (fun m e => AMap.insert m e.1 e.2) ([] : AMap String String) = m at hd
  induction m with
  | nil => rfl
  | cons e m ih =>
    obtain ⟨a, b⟩ := e
    simp only [List.map_cons, List.nodup_cons] at hd
    simp only [lastOf, AMap.get?, ih hd.2]
    by_cases ha : a = k
    · subst ha
      have : AMap.get? m a = none := by
        cases hg : AMap.get? m a with
        | none => rfl
        | some v => exact absurd (List.mem_map.2 ⟨_, get?_mem hg, rfl⟩) hd.1
      simp [this]
    · simp [ha]

/-- What a child sees of a variable: the last value that was set for it, or the parent's. -/
theorem childSees (parent : AMap String String) (c : ShellCommand) (k : String)
    (hd : (parent.map Prod.fst).Nodup) (hp : ∀ e ∈ parent, NameOk e.1) (hc : ∀ e ∈ c.envs, NameOk e.1)
    (hk : NameOk k) :
    ChildSees parent c k
      ((lastOf (fun e : String × String => if e.1 = k then some e.2 else none) c.envs).or (parent.get? k)) := by
  intro envp he
  have hs := (build_set c).2.2.2
  have hset : ∀ e ∈ c.build.set, NameOk e.1 := by
    rw [hs]; exact names_foldl NameOk c.envs (by simp) hc
  rw [getenv_listed he (names_foldl NameOk _ hp hset) hk (nodup_foldl _ hd)]
  unfold Spawn.variables
  rw [get?_foldl_insert, hs, lastOf_foldl_insert]

/-- The variable a call sets. -/
def callEnv : BuilderCall → Option (String × String)
  | .env k v => some (k, v)
  | .dir _ => none

theorem built_fields (cmd : String) (calls : List BuilderCall) :
    (built cmd calls).command = cmd ∧ (built cmd calls).currentDir = lastOf dirOf calls ∧
      (built cmd calls).envs = calls.filterMap callEnv := by
  have : ∀ (calls : List BuilderCall) (c : ShellCommand),
      let c' := calls.foldl applyCall c
      c'.command = c.command ∧ c'.currentDir = (lastOf dirOf calls).or c.currentDir ∧
        c'.envs = c.envs ++ calls.filterMap callEnv := by
    intro calls
    induction calls with
    | nil => simp [lastOf]
    | cons x calls ih =>
      intro c
      cases x with
      | env k v =>
        obtain ⟨h1, h2, h3⟩ := ih (c.env k v)
        refine ⟨h1, h2.trans ?_, h3.trans ?_⟩
        · simp only [lastOf, dirOf, ShellCommand.env, Option.or_none]
        · simp [callEnv, ShellCommand.env]
      | dir d =>
        obtain ⟨h1, h2, h3⟩ := ih (c.dir d)
        refine ⟨h1, h2.trans ?_, h3.trans ?_⟩
        · simp only [lastOf, dirOf, ShellCommand.dir, Option.or_assoc]; simp
        · simp [List.filterMap_cons, callEnv, ShellCommand.dir]
  have := this calls (ShellCommand.new cmd)
  simpa [built, ShellCommand.new] using this

theorem lastOf_filterMap (calls : List BuilderCall) (k : String) :
    lastOf (fun e : String × String => if e.1 = k then some e.2 else none)
      (calls.filterMap callEnv) = lastOf (valueFor k) calls := by
  induction calls with
  | nil => rfl
  | cons x calls ih =>
    cases x with
    | env a b => simp [lastOf, ih, valueFor, callEnv]
    | dir d => simp [List.filterMap_cons, lastOf, ih, valueFor, callEnv]

theorem isWhite_iff (c : Char) : isWhite c = true ↔ IsWhiteSpace c := by
  simp only [isWhite, IsWhiteSpace, whiteSpaces, Bool.or_eq_true, decide_eq_true_eq, List.mem_cons, List.not_mem_nil,
    or_false]
  omega
theorem isWhite_not (c : Char) : isWhite c = false ↔ ¬ IsWhiteSpace c := by
  rw [← isWhite_iff]; simp
theorem blank_iff (s : String) : Blank s ↔ ∀ c ∈ s.toList, isWhite c = true := by simp only [Blank, isWhite_iff]
theorem trimmed_iff (s : String) : Trimmed s ↔
    (∀ c, s.toList.head? = some c → isWhite c = false) ∧ (∀ c, s.toList.getLast? = some c → isWhite c = false) := by
  simp only [Trimmed, isWhite_not]

theorem dropWhile_white (l : List Char) :
    ∃ a, l = a ++ l.dropWhile isWhite ∧ (∀ c ∈ a, isWhite c = true) ∧
      ∀ c, (l.dropWhile isWhite).head? = some c → isWhite c = false := by
  refine ⟨l.takeWhile isWhite, (List.takeWhile_append_dropWhile).symm, ?_, ?_⟩
  · intro c hc
    induction l with
    | nil => simp at hc
    | cons x l ih =>
      rw [List.takeWhile_cons] at hc
      split at hc
      · rename_i hx
        rcases List.mem_cons.1 hc with rfl | hc
        · exact hx
        · exact ih hc
      · simp at hc
  · intro c hc
    induction l with
    | nil => simp at hc
    | cons x l ih =>
      rw [List.dropWhile_cons] at hc
      split at hc
      · exact ih hc
      · rename_i hx
        simp only [List.head?_cons, Option.some.injEq] at hc
        subst hc; simpa using hx

/-- Trimming takes white space, and all of it, from both ends. -/
theorem trim_spec (s : String) :
    Trimmed (trimText s) ∧ ∃ a b, Blank a ∧ Blank b ∧ s = a ++ trimText s ++ b := by
  simp only [blank_iff, trimmed_iff]
  obtain ⟨a, h1, h2, h3⟩ := dropWhile_white s.toList
  obtain ⟨b, h4, h5, h6⟩ := dropWhile_white (s.toList.dropWhile isWhite).reverse
  have ht : (trimText s).toList = ((s.toList.dropWhile isWhite).reverse.dropWhile isWhite).reverse := by
    simp [trimText]
  have hdec : s.toList.dropWhile isWhite = (trimText s).toList ++ b.reverse := by
    rw [ht, ← List.reverse_append, ← h4, List.reverse_reverse]
  refine ⟨⟨?_, ?_⟩, String.ofList a, String.ofList b.reverse, ?_, ?_, ?_⟩
  · intro c hc
    apply h3
    rw [hdec, List.head?_append, hc]; rfl
  · intro c hc
    apply h6
    rw [ht, List.getLast?_reverse] at hc
    exact hc
  · intro c hc; exact h2 c (by simpa using hc)
  · intro c hc; exact h5 c (by simpa using hc)
  · apply String.toList_injective
    simp only [String.toList_append, String.toList_ofList]
    rw [List.append_assoc, ← hdec, ← h1]

theorem split_unique : ∀ (a a' t t' : List Char), (∀ c ∈ a, isWhite c = true) → (∀ c ∈ a', isWhite c = true) →
    (∀ c, t.head? = some c → isWhite c = false) → (∀ c, t'.head? = some c → isWhite c = false) →
    (t = [] ↔ t' = []) → a ++ t = a' ++ t' → a = a' ∧ t = t' := by
  intro a
  induction a with
  | nil =>
    intro a' t t' _ ha' ht ht' he h
    cases a' with
    | nil => exact ⟨rfl, by simpa using h⟩
    | cons x a' =>
      simp only [List.nil_append] at h
      have := ht x (by rw [h]; rfl)
      rw [ha' x (.head _)] at this; simp at this
  | cons x a ih =>
    intro a' t t' ha ha' ht ht' he h
    cases a' with
    | nil =>
      simp only [List.nil_append] at h
      have := ht' x (by rw [← h]; rfl)
      rw [ha x (.head _)] at this; simp at this
    | cons y a' =>
      injection h with h1 h2
      obtain ⟨e1, e2⟩ := ih a' t t' (fun c hc => ha c (.tail _ hc)) (fun c hc => ha' c (.tail _ hc)) ht ht' he h2
      exact ⟨by rw [h1, e1], e2⟩

/-- There is one way to take all white space from both ends. -/
theorem trim_unique {s t a b : String} (ht : Trimmed t) (ha : Blank a) (hb : Blank b) (h : s = a ++ t ++ b) :
    trimText s = t := by
  have hs := trim_spec s
  simp only [blank_iff, trimmed_iff] at ht ha hb hs
  obtain ⟨⟨t1, t2⟩, a', b', ha', hb', h'⟩ := hs
  generalize trimText s = u at *
  have hl : a.toList ++ (t.toList ++ b.toList) = a'.toList ++ (u.toList ++ b'.toList) := by
    rw [← List.append_assoc, ← List.append_assoc, ← String.toList_append, ← String.toList_append,
      ← String.toList_append, ← String.toList_append, ← h, ← h']
  apply String.toList_injective
  have allw : ∀ {x y z : List Char}, (∀ c ∈ x, isWhite c = true) → (∀ c ∈ z, isWhite c = true) →
      (∀ c, y.head? = some c → isWhite c = false) → ∀ w : List Char, (∀ c ∈ w, isWhite c = true) →
      w = x ++ (y ++ z) → y = [] := by
    intro x y z _ _ hy w hw he
    cases y with
    | nil => rfl
    | cons c y =>
      have h1 := hy c rfl
      have h2 := hw c (by rw [he]; simp)
      simp [h1] at h2
  cases htl : t.toList with
  | nil =>
    rw [htl, List.nil_append] at hl
    refine (allw ha' hb' t1 _ ?_ hl)
    intro c hc
    rcases List.mem_append.1 hc with hc | hc
    · exact ha c hc
    · exact hb c hc
  | cons x xs =>
    cases hul : u.toList with
    | nil =>
      rw [hul, List.nil_append] at hl
      have := allw ha hb ht.1 _ (by
        intro c hc
        rcases List.mem_append.1 hc with hc | hc
        · exact ha' c hc
        · exact hb' c hc) hl.symm
      rw [htl] at this; simp at this
    | cons y ys =>
      obtain ⟨e1, e2⟩ := split_unique a.toList a'.toList (t.toList ++ b.toList) (u.toList ++ b'.toList) ha ha'
        (by intro c hc; rw [htl] at hc; exact ht.1 c (by rw [htl]; simpa using hc))
        (by intro c hc; rw [hul] at hc; exact t1 c (by rw [hul]; simpa using hc))
        (by rw [htl, hul]; simp) hl
      have e3 : b.toList.reverse ++ t.toList.reverse = b'.toList.reverse ++ u.toList.reverse := by
        rw [← List.reverse_append, ← List.reverse_append, e2]
      obtain ⟨_, e4⟩ := split_unique b.toList.reverse b'.toList.reverse t.toList.reverse u.toList.reverse
        (by intro c hc; exact hb c (by simpa using hc)) (by intro c hc; exact hb' c (by simpa using hc))
        (by intro c hc; rw [List.head?_reverse] at hc; exact ht.2 c hc)
        (by intro c hc; rw [List.head?_reverse] at hc; exact t2 c hc)
        (by rw [htl, hul]; simp) e3
      have := congrArg List.reverse e4
      simp only [List.reverse_reverse] at this
      rw [← hul, ← htl, this]

/-! ## C90 -/

/-- **C90** Whatever calls a command was built with, `sh -c` runs its text, in the directory that was set last; in
the process a variable has the value that was set for it last, and the runner's own value if it was not set. -/
theorem C90_process (cmd : String) (calls : List BuilderCall) (parent : AMap String String) :
    (built cmd calls).build.program = "sh" ∧ (built cmd calls).build.args = ["-c", cmd] ∧
    (built cmd calls).build.dir = lastOf dirOf calls ∧
    ∀ k, (parent.map Prod.fst).Nodup → (∀ e ∈ parent, NameOk e.1) → (∀ k v, .env k v ∈ calls → NameOk k) →
      NameOk k → ChildSees parent (built cmd calls) k ((lastOf (valueFor k) calls).or (parent.get? k)) := by
  obtain ⟨h1, h2, h3, _⟩ := build_set (built cmd calls)
  obtain ⟨f1, f2, f3⟩ := built_fields cmd calls
  refine ⟨h1, by rw [h2, f1], by rw [h3, f2], ?_⟩
  intro k hd hp hc hk
  have := childSees parent (built cmd calls) k hd hp (by
    intro e he
    rw [f3, List.mem_filterMap] at he
    obtain ⟨x, hx, he⟩ := he
    cases x with
    | env a b => simp only [callEnv, Option.some.injEq] at he; subst he; exact hc _ _ hx
    | dir d => simp [callEnv] at he) hk
  rwa [f3, lastOf_filterMap] at this

/-- **C90** A step on the host platform: in its process every configured variable has the configured value, written
out, and every other variable the value it has in the runner; the order of the configuration does not matter. -/
theorem C90_step_environment (os arch wd : String) (c : Command) (ev : Option TriggerEvent)
    (envs : List (String × String)) (parent : AMap String String) (h : AsksForHost os arch c)
    (hu : (c.environments.map Prod.fst).Nodup) (hd : (parent.map Prod.fst).Nodup)
    (hp : ∀ e ∈ parent, NameOk e.1) (hc : ∀ e ∈ c.environments, NameOk e.1) :
    (∀ k v, (k, v) ∈ c.environments → ChildSees parent (stepProcess os arch wd c ev envs) k (some (shown v))) ∧
    (∀ k, NameOk k → k ∉ c.environments.map Prod.fst →
      ChildSees parent (stepProcess os arch wd c ev envs) k (parent.get? k)) := by
  rw [C58_host os arch wd c ev envs h]
  have hok : ∀ e ∈ printedEnv c, NameOk e.1 := by
    intro e he
    obtain ⟨x, hx, rfl⟩ := List.mem_map.1 he
    exact hc x hx
  have absent : ∀ (l : EnvironmentVariables) (k : String), k ∉ l.map Prod.fst →
      lastOf (fun e : String × String => if e.1 = k then some e.2 else none)
        (l.map fun e => (e.1, shown e.2)) = none := by
    intro l k
    induction l with
    | nil => simp [lastOf]
    | cons e l ih =>
      intro hk
      simp only [List.map_cons, List.mem_cons, not_or] at hk
      simp [lastOf, ih hk.2, Ne.symm hk.1]
  constructor
  · intro k v hkv
    have hk : NameOk k := hc _ hkv
    have := childSees parent
      { command := c.run, currentDir := some (pathsOf wd ev c.id).jobData, envs := printedEnv c } k hd hp hok hk
    have hl : ∀ (l : EnvironmentVariables), (l.map Prod.fst).Nodup → (k, v) ∈ l →
        lastOf (fun e : String × String => if e.1 = k then some e.2 else none)
          (l.map fun e => (e.1, shown e.2)) = some (shown v) := by
      intro l
      induction l with
      | nil => simp
      | cons e l ih =>
        intro hn hm
        simp only [List.map_cons, List.nodup_cons] at hn
        rcases List.mem_cons.1 hm with rfl | hm
        · simp only [List.map_cons, lastOf]; rw [absent l k hn.1]; simp
        · simp only [List.map_cons, lastOf]; rw [ih hn.2 hm]; simp
    rw [show (ShellCommand.mk c.run (some (pathsOf wd ev c.id).jobData) (printedEnv c)).envs =
      c.environments.map fun e => (e.1, shown e.2) from rfl, hl _ hu hkv] at this
    simpa using this
  · intro k hk hn
    have := childSees parent
      { command := c.run, currentDir := some (pathsOf wd ev c.id).jobData, envs := printedEnv c } k hd hp hok hk
    rw [show (ShellCommand.mk c.run (some (pathsOf wd ev c.id).jobData) (printedEnv c)).envs =
      c.environments.map fun e => (e.1, shown e.2) from rfl, absent _ k hn] at this
    simpa using this

theorem fromUTF8_toUTF8 (x : String) : String.fromUTF8? x.toUTF8 = some x := by
  unfold String.fromUTF8?
  have h : x.toUTF8.IsValidUTF8 := x.isValidUTF8
  rw [dif_pos h]
  rfl

/-- **C90** `exec` answers with a text exactly when the process was started, ended with code 0 and wrote valid
UTF-8 to its standard output: that output without the white space around it. -/
theorem C90_exec_ok (c : ShellCommand) (t : ForeignTexts) (os : Spawn → SpawnOutcome) (s : String) :
    c.exec t os = .ok s ↔
      c.build.sawNul = false ∧ ∃ out text, os c.build = .ok out ∧ out.code = some 0 ∧
        out.stdout = String.toUTF8 text ∧
        Trimmed s ∧ ∃ a b, Blank a ∧ Blank b ∧ text = a ++ s ++ b := by
  have utf : ∀ (b : ByteArray) (x : String), String.fromUTF8? b = some x ↔ b = x.toUTF8 := by
    intro b x
    unfold String.fromUTF8?
    constructor
    · intro h
      split at h
      · simp only [Option.some.injEq] at h
        subst h; rfl
      · simp at h
    · rintro rfl
      exact fromUTF8_toUTF8 x
  unfold ShellCommand.exec
  constructor
  · intro h
    cases hn : c.build.sawNul with
    | true => simp [hn] at h
    | false =>
      simp only [hn, Bool.false_eq_true, if_false] at h
      cases ho : os c.build with
      | error e => simp [ho] at h
      | ok out =>
        simp only [ho] at h
        split at h
        · rename_i hcode
          cases hs : String.fromUTF8? out.stdout with
          | none => simp [hs] at h
          | some text =>
            simp only [hs, Except.ok.injEq] at h
            subst h
            exact ⟨rfl, out, text, rfl, hcode, (utf _ _).1 hs, trim_spec text⟩
        · cases hs : String.fromUTF8? out.stderr <;> simp [hs] at h
  · rintro ⟨hn, out, text, ho, hcode, hs, ht, a, b, ha, hb, hab⟩
    simp only [hn, Bool.false_eq_true, if_false, ho, hcode, if_true, (utf _ _).2 hs]
    rw [trim_unique ht ha hb hab]

/-- **C90** Otherwise `exec` answers with an error that says why: what the process wrote to its standard error if it
ended with another code (or was killed), the error of the system if it could not be started, and that the output was
not text if it was not. -/
theorem C90_exec_error (c : ShellCommand) (t : ForeignTexts) (os : Spawn → SpawnOutcome) :
    (c.build.sawNul = true → c.exec t os =
      .error (.internalRuntimeError ("Failed to spawn child process: " ++ t.nul))) ∧
    (c.build.sawNul = false →
      (∀ e, os c.build = .error e →
        c.exec t os = .error (.internalRuntimeError ("Failed to spawn child process: " ++ e))) ∧
      (∀ out, os c.build = .ok out → out.code ≠ some 0 →
        (∀ text : String, out.stderr = String.toUTF8 text → c.exec t os = .error (.internalRuntimeError text)) ∧
        ((∀ text : String, out.stderr ≠ String.toUTF8 text) →
          c.exec t os = .error (.internalRuntimeError ("Failed to parse stderr: " ++ t.utf8 out.stderr)))) ∧
      (∀ out, os c.build = .ok out → out.code = some 0 → (∀ text : String, out.stdout ≠ String.toUTF8 text) →
        c.exec t os = .error (.internalRuntimeError ("Failed to parse stdout: " ++ t.utf8 out.stdout)))) := by
  have undec : ∀ b : ByteArray, (∀ x : String, b ≠ x.toUTF8) → String.fromUTF8? b = none := by
    intro b h
    unfold String.fromUTF8?
    split
    · rename_i hv; exact absurd rfl (h (String.fromUTF8 b hv))
    · rfl
  unfold ShellCommand.exec
  refine ⟨fun h => by simp [h], fun h => ⟨fun e he => by simp [h, he], fun out ho hcode => ⟨?_, ?_⟩, ?_⟩⟩
  · intro text ht; simp only [h, ho, hcode, ht, Bool.false_eq_true, if_false, fromUTF8_toUTF8]
  · intro hu; simp [h, ho, hcode, undec _ hu]
  · intro out ho hcode hu; simp [h, ho, hcode, undec _ hu]

/-- **C90** The start is refused before the system is asked exactly when there is a NUL character in the text, in the
directory that was set last, or in a variable's name or the value that was set for it last. -/
theorem C90_refused (cmd : String) (calls : List BuilderCall) :
    (built cmd calls).build.sawNul = true ↔
      '\x00' ∈ cmd.toList ∨ (∃ d, lastOf dirOf calls = some d ∧ '\x00' ∈ d.toList) ∨
        ∃ k v, lastOf (valueFor k) calls = some v ∧ ('\x00' ∈ k.toList ∨ '\x00' ∈ v.toList) := by
  have nul : ∀ s : String, '\x00' ∈ s.toList ↔ hasNul s = true := fun s => by
    have : (Char.ofNat 0) = '\x00' := rfl
    simp [hasNul, this]
  simp only [nul]
  obtain ⟨_, h2, h3, h4⟩ := build_set (built cmd calls)
  obtain ⟨f1, f2, f3⟩ := built_fields cmd calls
  have hd := nodup_foldl (built cmd calls).envs (m := []) (by simp)
  have hget : ∀ k, AMap.get? (built cmd calls).build.set k = lastOf (valueFor k) calls := by
    intro k
    rw [h4, get?_foldl_insert, f3, lastOf_filterMap]
    simp [AMap.get?]
  rw [← h4] at hd
  have hmem : ∀ (m : AMap String String) k v, (m.map Prod.fst).Nodup → (k, v) ∈ m → m.get? k = some v := by
    intro m k v
    induction m with
    | nil => simp
    | cons e m ih =>
      obtain ⟨a, b⟩ := e
      intro hd hm
      simp only [List.map_cons, List.nodup_cons] at hd
      rcases List.mem_cons.1 hm with h | hm
      · simp only [Prod.mk.injEq] at h; simp [AMap.get?, h.1, h.2]
      · have : a ≠ k := by rintro rfl; exact hd.1 (List.mem_map.2 ⟨_, hm, rfl⟩)
        simp [AMap.get?, this, ih hd.2 hm]
  unfold Spawn.sawNul
  rw [h2, h3, f1, f2]
  simp only [Bool.or_eq_true, List.any_eq_true]
  constructor
  · rintro ((⟨x, hx, hn⟩ | h) | ⟨⟨k, v⟩, he, hn⟩)
    · simp only [List.mem_cons, List.not_mem_nil, or_false] at hx
      rcases hx with rfl | rfl
      · exact absurd hn (by decide)
      · exact .inl hn
    · cases hdir : lastOf dirOf calls with
      | none => simp [hdir] at h
      | some d => simp only [hdir, Option.map_some, Option.getD_some] at h; exact .inr (.inl ⟨d, rfl, h⟩)
    · exact .inr (.inr ⟨k, v, by rw [← hget]; exact hmem _ _ _ hd he, hn⟩)
  · rintro (h | ⟨d, hdir, h⟩ | ⟨k, v, hv, h⟩)
    · exact .inl (.inl ⟨cmd, by simp, h⟩)
    · exact .inl (.inr (by simp [hdir, h]))
    · exact .inr ⟨(k, v), get?_mem (by rw [hget, hv]), h⟩

/-- **C90** When a step in docker is stopped, `docker kill` is asked to stop the container of exactly that step. -/
theorem C90_kill (md : Metadata) (h : PlainWord md.dockerName) :
    shArgv (killCommand md).command = some ["docker", "kill", md.dockerName] := by
  have hgo : ∀ (cs cur : List Char), (∀ c ∈ cs, plainChar c = true) →
      shGo (some cur) false cs = some [cur ++ cs] := by
    intro cs
    induction cs with
    | nil => intro cur _; simp [shGo]
    | cons c cs ih =>
      intro cur hc
      have h1 := hc c (.head _)
      have h2 : c ≠ ' ' := by rintro rfl; exact absurd h1 (by decide)
      have h3 : c ≠ '"' := by rintro rfl; exact absurd h1 (by decide)
      simp [shGo, h1, h2, h3, ih _ (fun c hc' => hc c (.tail _ hc'))]
  obtain ⟨hne, hpl⟩ := h
  have hl : (killCommand md).command.toList = "docker kill ".toList ++ md.dockerName.toList := by
    simp [killCommand, ShellCommand.new]
  cases hd : md.dockerName.toList with
  | nil => exact absurd (String.toList_injective (by simpa using hd)) hne
  | cons c cs =>
    have hp : ∀ x ∈ c :: cs, plainChar x = true := by rw [← hd]; exact hpl
    have h1 := hp c (.head _)
    have h2 : c ≠ ' ' := by rintro rfl; exact absurd h1 (by decide)
    have h3 : c ≠ '"' := by rintro rfl; exact absurd h1 (by decide)
    have key : shGo none false (c :: cs) = some [c :: cs] := by
      simp [shGo, h1, h2, h3, hgo cs [c] (fun x hx => hp x (.tail _ hx))]
    unfold shArgv
    rw [hl, hd]
    have : "docker kill ".toList = ['d','o','c','k','e','r',' ','k','i','l','l',' '] := by decide
    rw [this]
    simp only [List.cons_append, List.nil_append]
    have step : ∀ (cur x : List Char), shGo (some cur) false (' ' :: x) = (shGo none false x).map ([cur] ++ ·) := by
      intro cur x; simp [shGo]
    have pl : ∀ (cur x : List Char) (c : Char), plainChar c = true → c ≠ ' ' → c ≠ '"' →
        shGo (some cur) false (c :: x) = shGo (some (cur ++ [c])) false x := by
      intro cur x c h1 h2 h3; simp [shGo, h1, h2, h3]
    have pn : ∀ (x : List Char) (c : Char), plainChar c = true → c ≠ ' ' → c ≠ '"' →
        shGo none false (c :: x) = shGo (some [c]) false x := by
      intro x c h1 h2 h3; simp [shGo, h1, h2, h3]
    rw [pn _ 'd' (by decide) (by decide) (by decide), pl _ _ 'o' (by decide) (by decide) (by decide),
      pl _ _ 'c' (by decide) (by decide) (by decide), pl _ _ 'k' (by decide) (by decide) (by decide),
      pl _ _ 'e' (by decide) (by decide) (by decide), pl _ _ 'r' (by decide) (by decide) (by decide), step,
      pn _ 'k' (by decide) (by decide) (by decide), pl _ _ 'i' (by decide) (by decide) (by decide),
      pl _ _ 'l' (by decide) (by decide) (by decide), pl _ _ 'l' (by decide) (by decide) (by decide), step, key]
    have hn : String.ofList (c :: cs) = md.dockerName := by rw [← hd]; simp
    simp only [List.nil_append, List.cons_append, Option.map_some, List.map_cons, List.map_nil, hn]

/-! ## Concrete cases -/

namespace ProcessEx
/-- A builder history that sets a variable twice. -/
def calls : List BuilderCall := [.env "A" "1", .dir "/tmp", .env "B" "x y", .env "A" "2", .dir "/srv"]
/-- The environment of the runner. -/
def parent : AMap String String := [("PATH", "/bin"), ("A", "0")]
/-- A step on the host with an environment. -/
def step : Command :=
  { RunnerEx.hostStep with environments := [("A", .number "7"), ("CI", .boolean true)] }
end ProcessEx

example : (parent : AMap String String) → parent = ProcessEx.parent →
    ChildSees parent (built "make" ProcessEx.calls) "A" (some "2") ∧
    ChildSees parent (built "make" ProcessEx.calls) "PATH" (some "/bin") ∧
    (built "make" ProcessEx.calls).build.dir = some "/srv" := by
  rintro _ rfl
  have hc : ∀ k v, BuilderCall.env k v ∈ ProcessEx.calls → NameOk k := by
    intro k v h
    simp only [ProcessEx.calls, List.mem_cons, reduceCtorEq, BuilderCall.env.injEq, List.not_mem_nil, or_false,
      false_or] at h
    rcases h with ⟨rfl, rfl⟩ | ⟨rfl, rfl⟩ | ⟨rfl, rfl⟩ <;> (unfold NameOk; decide)
  have hp : ∀ e ∈ ProcessEx.parent, NameOk e.1 := by unfold NameOk; decide
  have h := C90_process "make" ProcessEx.calls ProcessEx.parent
  exact ⟨h.2.2.2 "A" (by decide) hp hc (by unfold NameOk; decide),
    h.2.2.2 "PATH" (by decide) hp hc (by unfold NameOk; decide), h.2.2.1⟩

example : AsksForHost "linux" "x86_64" ProcessEx.step ∧ (ProcessEx.step.environments.map Prod.fst).Nodup ∧
    (ProcessEx.parent.map Prod.fst).Nodup ∧ (∀ e ∈ ProcessEx.parent, NameOk e.1) ∧
    (∀ e ∈ ProcessEx.step.environments, NameOk e.1) := by
  refine ⟨⟨_, rfl, .inl (by decide)⟩, by decide, by decide, ?_, ?_⟩ <;> (unfold NameOk; decide)

/-- `exec` of a command that prints ` hello ` and a line feed. -/
example (t : ForeignTexts) : (ShellCommand.new "echo hello").exec t
    (fun _ => .ok ⟨some 0, " hello \n".toUTF8, ByteArray.empty⟩) = .ok "hello" := by
  refine (C90_exec_ok _ _ _ _).2 ⟨by decide, _, " hello \n", rfl, rfl, rfl, ⟨?_, ?_⟩, " ", " \n", ?_, ?_, by decide⟩
  · intro c hc
    have : c = 'h' := by simpa using hc.symm
    subst this; decide
  · intro c hc
    have : c = 'o' := by simpa using hc.symm
    subst this; decide
  · unfold Blank; decide
  · unfold Blank; decide

example : (built "a" [.env "K" (String.ofList [Char.ofNat 0])]).build.sawNul = true := by decide

example : PlainWord (Metadata.build "/w" none ⟨"w1", "build", 2⟩).dockerName := by
  refine ⟨by decide, by decide⟩

end AstroRun
