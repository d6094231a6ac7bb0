import Verif.Spec.RemoteStarts
import Verif.Lemmas.Run

/-! # C111: a remote client that is started more than once -/

namespace AstroRun
open Spec

namespace StartsInv

/-- What the moves of one call do. -/
inductive Moved (m m' : Starts) (i : Nat) (c : StartCall) : StartCall → Prop
  | tried : c.pc = .connecting → m'.delivered = m.delivered → m'.failed = m.failed → Moved m m' i c { c with pc := .waiting }
  | lost : c.pc ≠ .over → m'.delivered = m.delivered → m'.failed = m.failed → Moved m m' i c { c with pc := .over }
  | take {order : List Id} : c.pc.atRecv = true → m.emitted - c.next ≤ 32 → c.next < m.emitted → order.Perm m.clients →
      m'.delivered = m.delivered → m'.failed = m.failed → Moved m m' i c { next := c.next + 1, pc := .sending c.next order }
  | ok {n : Nat} {id : Id} {rest : List Id} : c.pc = .sending n (id :: rest) → m'.delivered = m.delivered ++ [(i, id, n)] →
      m'.failed = m.failed → Moved m m' i c { c with pc := .sending n rest }
  | err {n : Nat} {id : Id} {rest : List Id} : c.pc = .sending n (id :: rest) → m'.delivered = m.delivered →
      m'.failed = m.failed ++ [(i, id, n)] → Moved m m' i c { c with pc := .sending n rest }

/-- The cases of a move. -/
inductive Cases (m m' : Starts) : StartAct → Prop
  | start : m' = { m with calls := m.calls ++ [{ next := m.emitted }] } → Cases m m' .start
  | emit : m' = { m with emitted := m.emitted + 1 } → Cases m m' .emit
  | refuse : m' = { m with refused := m.refused + 1 } → Cases m m' .emit
  | known {i id} : id ∈ m.clients → m' = m → Cases m m' (.connected i id)
  | new {i id} : id ∉ m.clients → m' = { m with clients := m.clients ++ [id] } → Cases m m' (.connected i id)
  | moved {a i c c'} : m.calls[i]? = some c → Moved m m' i c c' → m'.calls = m.calls.set i c' → m'.clients = m.clients →
      m'.emitted = m.emitted → (∀ j id, a ≠ .connected j id) → a ≠ .start →
      (∀ j order, a = .recv j order → j = i) → Cases m m' a

theorem step_cases {m m' : Starts} {a : StartAct} (h : m.step a = some m') : Cases m m' a := by
  cases a with
  | start => simp only [Starts.step, Option.some.injEq] at h; exact .start h.symm
  | emit =>
    simp only [Starts.step] at h
    split at h
    · simp only [Option.some.injEq] at h; exact .emit h.symm
    · simp only [Option.some.injEq] at h; exact .refuse h.symm
  | connected i id =>
    simp only [Starts.step] at h
    split at h
    · split at h
      · split at h
        · simp only [Option.some.injEq] at h; exact .known (by assumption) h.symm
        · simp only [Option.some.injEq] at h; exact .new (by assumption) h.symm
      · exact absurd h (by simp)
    · exact absurd h (by simp)
  | allTried i =>
    simp only [Starts.step] at h
    split at h
    · rename_i c hc
      split at h
      · rename_i hpc
        simp only [Option.some.injEq] at h; subst h
        exact .moved hc (.tried hpc rfl rfl) rfl rfl rfl (by simp) (by simp) (by simp)
      · exact absurd h (by simp)
    · exact absurd h (by simp)
  | recv i order =>
    simp only [Starts.step] at h
    split at h
    · rename_i c hc
      split at h
      · rename_i hat
        split at h
        · simp only [Option.some.injEq] at h; subst h
          exact .moved hc (.lost (by intro e; rw [e] at hat; simp [StartPc.atRecv] at hat) rfl rfl) rfl rfl rfl (by simp)
            (by simp) (by simp)
        · rename_i hlag
          split at h
          · rename_i hn
            simp only [Option.some.injEq] at h; subst h
            exact .moved hc (.take hat (Nat.not_lt.1 hlag) hn.1 hn.2 rfl rfl) rfl rfl rfl (by simp) (by simp) (by simp)
          · exact absurd h (by simp)
      · exact absurd h (by simp)
    · exact absurd h (by simp)
  | sendOk i =>
    simp only [Starts.step] at h
    split at h
    · rename_i c hc
      split at h
      · rename_i n id rest hpc
        simp only [Option.some.injEq] at h; subst h
        exact .moved hc (.ok hpc rfl rfl) rfl rfl rfl (by simp) (by simp) (by simp)
      · exact absurd h (by simp)
    · exact absurd h (by simp)
  | sendErr i =>
    simp only [Starts.step] at h
    split at h
    · rename_i c hc
      split at h
      · rename_i n id rest hpc
        simp only [Option.some.injEq] at h; subst h
        exact .moved hc (.err hpc rfl rfl) rfl rfl rfl (by simp) (by simp) (by simp)
      · exact absurd h (by simp)
    · exact absurd h (by simp)
  | drop i =>
    simp only [Starts.step] at h
    split at h
    · rename_i c hc
      split at h
      · exact absurd h (by simp)
      · rename_i hpc
        simp only [Option.some.injEq] at h; subst h
        exact .moved hc (.lost hpc rfl rfl) rfl rfl rfl (by simp) (by simp) (by simp)
    · exact absurd h (by simp)

/-- What holds in every state. -/
structure Inv (m : Starts) : Prop where
  nodup : m.clients.Nodup
  pos : ∀ (i : Nat) (c : StartCall), m.calls[i]? = some c → c.next ≤ m.emitted
  old : ∀ (i : Nat) (id : Id) (n : Nat), (i, id, n) ∈ m.delivered → ∃ c, m.calls[i]? = some c ∧ n < c.next
  sending : ∀ (i : Nat) (c : StartCall) (n : Nat) (rest : List Id), m.calls[i]? = some c → c.pc = .sending n rest →
    n + 1 = c.next ∧ rest.Nodup ∧ ∀ id ∈ rest, (i, id, n) ∉ m.delivered
  once : m.delivered.Nodup
  up : ∀ (i : Nat) (id : Id), Ascending (sentBy m i id)

theorem inv_init : Inv {} where
  nodup := by simp
  pos := by simp
  old := by simp
  sending := by simp
  once := by simp
  up := by simp [sentBy, Ascending]

theorem mem_sentBy {m : Starts} {i : Nat} {id : Id} {n : Nat} : n ∈ sentBy m i id ↔ (i, id, n) ∈ m.delivered := by
  simp only [sentBy, List.mem_filterMap]
  constructor
  · rintro ⟨⟨a, b, c⟩, h, e⟩
    split at e
    · rename_i hab; simp only at hab e; obtain ⟨rfl, rfl⟩ := hab; simp at e; subst e; exact h
    · simp at e
  · intro h; exact ⟨_, h, by simp⟩

theorem inv_step {m m' : Starts} {a : StartAct} (h : Inv m) (hs : m.step a = some m') : Inv m' := by
  have ⟨h1, h2, h3, h4, h5, h6⟩ := h
  cases step_cases hs with
  | start e =>
    subst e
    have get : ∀ (i : Nat) (c : StartCall), (m.calls ++ [({ next := m.emitted } : StartCall)])[i]? = some c →
        m.calls[i]? = some c ∨ c = { next := m.emitted } := by
      intro i c hc
      rw [List.getElem?_append] at hc
      split at hc
      · exact .inl hc
      · cases hn : i - m.calls.length with
        | zero => simp [hn] at hc; exact .inr hc.symm
        | succ n => simp [hn] at hc
    refine ⟨h1, ?_, ?_, ?_, h5, h6⟩
    · intro i c hc
      rcases get i c hc with hc | rfl
      · exact h2 i c hc
      · exact Nat.le_refl _
    · intro i id n hm
      obtain ⟨c, hc, hn⟩ := h3 i id n hm
      refine ⟨c, ?_, hn⟩
      rw [List.getElem?_append_left (List.getElem?_eq_some_iff.1 hc).1]; exact hc
    · intro i c n rest hc hp
      rcases get i c hc with hc | rfl
      · exact h4 i c n rest hc hp
      · simp at hp
  | emit e =>
    subst e
    exact ⟨h1, fun i c hc => Nat.le_succ_of_le (h2 i c hc), h3, h4, h5, h6⟩
  | refuse e => subst e; exact ⟨h1, h2, h3, h4, h5, h6⟩
  | known _ e => subst e; exact h
  | new hn e =>
    subst e
    refine ⟨?_, h2, h3, h4, h5, h6⟩
    rw [List.nodup_append]
    refine ⟨h1, by simp, ?_⟩
    intro a ha b hb
    simp only [List.mem_singleton] at hb
    rintro rfl; exact hn (hb ▸ ha)
  | @moved a i c c' hc hm hcalls hcl hem _ _ _ =>
    have hi := (List.getElem?_eq_some_iff.1 hc).1
    have self : m'.calls[i]? = some c' := by rw [hcalls, List.getElem?_set]; simp [hi]
    have other : ∀ j : Nat, j ≠ i → m'.calls[j]? = m.calls[j]? := by
      intro j hj; rw [hcalls, List.getElem?_set, if_neg (fun e => hj e.symm)]
    have same : m'.delivered = m.delivered → c.next ≤ c'.next → c'.next ≤ m.emitted →
        (∀ n rest, c'.pc = .sending n rest → n + 1 = c'.next ∧ rest.Nodup ∧ ∀ id ∈ rest, (i, id, n) ∉ m.delivered) → Inv m' := by
      intro hd hle hem' hsend
      refine ⟨hcl ▸ h1, ?_, ?_, ?_, hd ▸ h5, ?_⟩
      · intro j d hd'
        rw [hem]
        by_cases hj : j = i
        · subst hj; rw [self] at hd'; simp only [Option.some.injEq] at hd'; subst hd'; exact hem'
        · rw [other j hj] at hd'; exact h2 j d hd'
      · intro j id n hmem
        rw [hd] at hmem
        obtain ⟨d, hd', hn⟩ := h3 j id n hmem
        by_cases hj : j = i
        · subst hj; rw [hc] at hd'; simp only [Option.some.injEq] at hd'; subst hd'
          exact ⟨c', self, Nat.lt_of_lt_of_le hn hle⟩
        · exact ⟨d, by rw [other j hj]; exact hd', hn⟩
      · intro j d n rest hd' hp
        rw [hd]
        by_cases hj : j = i
        · subst hj; rw [self] at hd'; simp only [Option.some.injEq] at hd'; subst hd'; exact hsend n rest hp
        · rw [other j hj] at hd'; exact h4 j d n rest hd' hp
      · intro j id
        have : sentBy m' j id = sentBy m j id := by simp [sentBy, hd]
        rw [this]; exact h6 j id
    have hpos := h2 i c hc
    cases hm with
    | tried hpc hd hf => exact same hd (Nat.le_refl _) hpos (by simp)
    | lost hpc hd hf => exact same hd (Nat.le_refl _) hpos (by simp)
    | @take order hat hlag hlt hperm hd hf =>
      refine same hd (Nat.le_succ _) hlt ?_
      intro n rest hp
      simp only [StartPc.sending.injEq] at hp
      obtain ⟨rfl, rfl⟩ := hp
      refine ⟨rfl, hperm.nodup_iff.2 h1, ?_⟩
      intro id _ hmem
      obtain ⟨d, hd', hn⟩ := h3 i id _ hmem
      rw [hc] at hd'; simp only [Option.some.injEq] at hd'; subst hd'
      exact absurd hn (Nat.lt_irrefl _)
    | @err n id rest hpc hd hf =>
      refine same hd (Nat.le_refl _) hpos ?_
      intro n' rest' hp
      simp only [StartPc.sending.injEq] at hp
      obtain ⟨rfl, rfl⟩ := hp
      obtain ⟨e1, e2, e3⟩ := h4 i c _ _ hc hpc
      exact ⟨e1, (List.nodup_cons.1 e2).2, fun x hx => e3 x (List.mem_cons_of_mem _ hx)⟩
    | @ok n id rest hpc hd hf =>
      obtain ⟨e1, e2, e3⟩ := h4 i c _ _ hc hpc
      have hnew : (i, id, n) ∉ m.delivered := e3 id (by simp)
      refine ⟨hcl ▸ h1, ?_, ?_, ?_, ?_, ?_⟩
      · intro j d hd'
        rw [hem]
        by_cases hj : j = i
        · subst hj; rw [self] at hd'; simp only [Option.some.injEq] at hd'; subst hd'; exact hpos
        · rw [other j hj] at hd'; exact h2 j d hd'
      · intro j id' k hmem
        rw [hd] at hmem
        rcases List.mem_append.1 hmem with hmem | hmem
        · obtain ⟨d, hd', hn⟩ := h3 j id' k hmem
          by_cases hj : j = i
          · subst hj; rw [hc] at hd'; simp only [Option.some.injEq] at hd'; subst hd'; exact ⟨_, self, hn⟩
          · exact ⟨d, by rw [other j hj]; exact hd', hn⟩
        · simp only [List.mem_singleton, Prod.mk.injEq] at hmem
          obtain ⟨rfl, rfl, rfl⟩ := hmem
          exact ⟨_, self, by simp only; omega⟩
      · intro j d k rest' hd' hp
        rw [hd]
        by_cases hj : j = i
        · subst hj; rw [self] at hd'; simp only [Option.some.injEq] at hd'; subst hd'
          simp only [StartPc.sending.injEq] at hp
          obtain ⟨rfl, rfl⟩ := hp
          refine ⟨e1, (List.nodup_cons.1 e2).2, ?_⟩
          intro x hx hmem
          rcases List.mem_append.1 hmem with hmem | hmem
          · exact e3 x (List.mem_cons_of_mem _ hx) hmem
          · simp only [List.mem_singleton, Prod.mk.injEq, true_and, and_true] at hmem
            subst hmem; exact (List.nodup_cons.1 e2).1 hx
        · rw [other j hj] at hd'
          obtain ⟨f1, f2, f3⟩ := h4 j d k rest' hd' hp
          refine ⟨f1, f2, ?_⟩
          intro x hx hmem
          rcases List.mem_append.1 hmem with hmem | hmem
          · exact f3 x hx hmem
          · simp only [List.mem_singleton, Prod.mk.injEq] at hmem
            exact hj hmem.1
      · rw [hd, List.nodup_append]
        refine ⟨h5, by simp, ?_⟩
        intro a ha b hb
        simp only [List.mem_singleton] at hb
        rintro rfl; exact hnew (hb ▸ ha)
      · intro j id'
        by_cases hj : j = i ∧ id' = id
        · obtain ⟨rfl, rfl⟩ := hj
          have : sentBy m' j id' = sentBy m j id' ++ [n] := by simp [sentBy, hd]
          rw [this]
          unfold Ascending
          rw [List.pairwise_append]
          refine ⟨h6 j id', by simp, ?_⟩
          intro k hk b hb
          simp only [List.mem_singleton] at hb
          rw [hb]
          rw [mem_sentBy] at hk
          obtain ⟨d, hd', hn⟩ := h3 j id' k hk
          rw [hc] at hd'; simp only [Option.some.injEq] at hd'; subst hd'
          have : k ≠ n := by rintro rfl; exact hnew hk
          omega
        · have : sentBy m' j id' = sentBy m j id' := by
            have hn : ¬ (i = j ∧ id = id') := fun e => hj ⟨e.1.symm, e.2.symm⟩
            simp [sentBy, hd, hn]
          rw [this]; exact h6 j id'

theorem inv_reach {acts : List StartAct} {m : Starts} (h : StartsReach acts m) : Inv m :=
  runs_induct (P := fun _ m => Inv m) inv_init (fun _ _ _ _ _ ih hs => inv_step ih hs) h

end StartsInv
open StartsInv

theorem calls_count {acts : List StartAct} {m : Starts} (h : StartsReach acts m) : m.calls.length = startCount acts := by
  refine runs_induct (P := fun acts m => m.calls.length = startCount acts) rfl ?_ h
  intro acts a m m' _ ih hs
  unfold startCount at *
  rw [List.count_append, List.count_singleton]
  cases step_cases hs with
  | start e => subst e; simp [ih]
  | emit e => subst e; simp [ih]
  | refuse e => subst e; simp [ih]
  | known _ e => subst e; simp [ih]
  | new _ e => subst e; simp [ih]
  | moved _ _ hcalls _ _ _ hn _ => simp [hcalls, ih, hn]

/-- **C111** However often a client was started, each call of `start` sends each event at most once to each runner, and
in the order they were emitted. -/
theorem C111_each_call_once (acts : List StartAct) (m : Starts) (h : StartsReach acts m) (i : Nat) (id : Id) :
    Ascending (sentBy m i id) := (inv_reach h).up i id

/-- **C111** A call of `start` sends only events that were emitted after it was made. -/
theorem C111_since_start (pre post : List StartAct) (mp m : Starts) (hp : StartsReach pre mp)
    (h : StartsReach (pre ++ .start :: post) m) (id : Id) (n : Nat) (hn : n ∈ sentBy m (startCount pre) id) :
    mp.emitted ≤ n ∧ n < m.emitted := by
  have hlen := calls_count hp
  have hm := h
  unfold StartsReach at h
  rw [runs_append, hp] at h
  simp only [Option.bind_some, runs] at h
  cases hs : mp.step .start with
  | none => simp [hs] at h
  | some m1 =>
    simp only [hs] at h
    have e1 : m1 = { mp with calls := mp.calls ++ [{ next := mp.emitted }] } := by
      simpa [Starts.step] using hs.symm
    have h0 : (∃ c, m1.calls[startCount pre]? = some c ∧ mp.emitted ≤ c.next ∧
        ∀ k rest, c.pc = .sending k rest → mp.emitted ≤ k) ∧
        ∀ id k, (startCount pre, id, k) ∈ m1.delivered → mp.emitted ≤ k := by
      subst e1
      refine ⟨⟨{ next := mp.emitted }, by rw [← hlen]; simp, Nat.le_refl _, by simp⟩, ?_⟩
      intro id k hk
      obtain ⟨c, hc, _⟩ := (inv_reach hp).old _ _ _ hk
      rw [← hlen] at hc
      simp at hc
    have hfin := runs_induct (P := fun _ m => (∃ c, m.calls[startCount pre]? = some c ∧ mp.emitted ≤ c.next ∧
        ∀ k rest, c.pc = .sending k rest → mp.emitted ≤ k) ∧
        ∀ id k, (startCount pre, id, k) ∈ m.delivered → mp.emitted ≤ k) h0 (by
      rintro acts a m m' _ ⟨⟨c, hc, hle, hsend⟩, hd⟩ hs
      cases step_cases hs with
      | start e =>
        subst e
        refine ⟨⟨c, ?_, hle, hsend⟩, hd⟩
        rw [List.getElem?_append_left (List.getElem?_eq_some_iff.1 hc).1]; exact hc
      | emit e => subst e; exact ⟨⟨c, hc, hle, hsend⟩, hd⟩
      | refuse e => subst e; exact ⟨⟨c, hc, hle, hsend⟩, hd⟩
      | known _ e => subst e; exact ⟨⟨c, hc, hle, hsend⟩, hd⟩
      | new _ e => subst e; exact ⟨⟨c, hc, hle, hsend⟩, hd⟩
      | @moved _ i d d' hdi hm hcalls hcl hem _ _ _ =>
        have hi := (List.getElem?_eq_some_iff.1 hdi).1
        by_cases hj : i = startCount pre
        · subst hj
          rw [hdi] at hc; simp only [Option.some.injEq] at hc; subst hc
          have self : m'.calls[startCount pre]? = some d' := by rw [hcalls, List.getElem?_set]; simp [hi]
          refine ⟨⟨d', self, ?_⟩, ?_⟩
          · cases hm with
            | tried => exact ⟨hle, by simp⟩
            | lost => exact ⟨hle, by simp⟩
            | take => refine ⟨Nat.le_succ_of_le hle, ?_⟩; intro k rest e; simp at e; omega
            | ok hpc => refine ⟨hle, ?_⟩; intro k rest e; simp at e; exact hsend _ _ (e.1 ▸ hpc)
            | err hpc => refine ⟨hle, ?_⟩; intro k rest e; simp at e; exact hsend _ _ (e.1 ▸ hpc)
          · intro id k hk
            cases hm with
            | tried _ e => exact hd id k (e ▸ hk)
            | lost _ e => exact hd id k (e ▸ hk)
            | take _ _ _ _ e => exact hd id k (e ▸ hk)
            | err _ e => exact hd id k (e ▸ hk)
            | ok hpc e =>
              rw [e] at hk
              rcases List.mem_append.1 hk with hk | hk
              · exact hd id k hk
              · simp only [List.mem_singleton, Prod.mk.injEq] at hk
                obtain ⟨_, rfl, rfl⟩ := hk
                exact hsend _ _ hpc
        · refine ⟨⟨c, by rw [hcalls, List.getElem?_set, if_neg hj]; exact hc, hle, hsend⟩, ?_⟩
          intro id k hk
          have : (startCount pre, id, k) ∈ m.delivered := by
            cases hm with
            | tried _ e => exact e ▸ hk
            | lost _ e => exact e ▸ hk
            | take _ _ _ _ e => exact e ▸ hk
            | err _ e => exact e ▸ hk
            | ok hpc e =>
              rw [e] at hk
              rcases List.mem_append.1 hk with hk | hk
              · exact hk
              · simp only [List.mem_singleton, Prod.mk.injEq] at hk
                exact absurd hk.1.symm hj
          exact hd id k this) h
    rw [mem_sentBy] at hn
    have hi := inv_reach hm
    obtain ⟨c, hc, hlt⟩ := hi.old _ _ _ hn
    exact ⟨hfin.2 _ _ hn, Nat.lt_of_lt_of_le hlt (hi.pos _ _ hc)⟩

/-- **C111** A runner hears of an event at most as often as the client was started; all copies come from different
calls. -/
theorem C111_copies (acts : List StartAct) (m : Starts) (h : StartsReach acts m) (id : Id) (n : Nat) :
    (heardBy m id).count n ≤ startCount acts := by
  have hi := inv_reach h
  rw [← calls_count h]
  have key : ∀ (l : List (Nat × Id × Nat)) (k : Nat), l.Nodup → (∀ d ∈ l, d.1 < k) →
      (l.filterMap fun d => if d.2.1 = id then some d.2.2 else none).count n ≤ k := by
    intro l k
    induction k generalizing l with
    | zero => intro _ hl; cases l with
      | nil => simp
      | cons d l => exact absurd (hl d (by simp)) (by simp)
    | succ k ih =>
      intro hn hl
      have split : ∀ l : List (Nat × Id × Nat), l.Nodup →
          (l.filterMap fun d => if d.2.1 = id then some d.2.2 else none).count n ≤
            ((l.filter fun d => d.1 ≠ k).filterMap fun d => if d.2.1 = id then some d.2.2 else none).count n +
              (if (k, id, n) ∈ l then 1 else 0) := by
        intro l hn
        induction l with
        | nil => simp
        | cons d l ihl =>
          obtain ⟨a, b, c⟩ := d
          have hn' := List.nodup_cons.1 hn
          have ih' := ihl hn'.2
          have h1 := hn'.1
          clear hn' ihl hn hl ih
          grind
      have h1 := split l hn
      have h2 := ih (l.filter fun d => d.1 ≠ k) (hn.filter _) (by
        intro d hd
        simp only [ne_eq, decide_not, List.mem_filter, Bool.not_eq_eq_eq_not, Bool.not_true, decide_eq_false_iff_not] at hd
        have := hl d hd.1
        omega)
      have : (if (k, id, n) ∈ l then 1 else 0) ≤ 1 := by split <;> simp
      omega
  refine key m.delivered m.calls.length hi.once ?_
  rintro ⟨i, a, b⟩ hd
  obtain ⟨c, hc, _⟩ := hi.old i a b hd
  exact (List.getElem?_eq_some_iff.1 hc).1

/-- **C111** (partial) A client that was started once: every runner hears of every event at most once, in the order
they were emitted.  Missing for the full claim: clients that are started again, see `C111_refuted`. -/
theorem C111_once_partial (acts : List StartAct) (m : Starts) (h : StartsReach acts m) (h1 : startCount acts ≤ 1)
    (id : Id) : Ascending (heardBy m id) := by
  have hi := inv_reach h
  have : heardBy m id = sentBy m 0 id := by
    have all : ∀ d ∈ m.delivered, d.1 = 0 := by
      rintro ⟨i, a, b⟩ hd
      obtain ⟨c, hc, _⟩ := hi.old i a b hd
      have := (List.getElem?_eq_some_iff.1 hc).1
      rw [calls_count h] at this
      simp only; omega
    unfold heardBy sentBy
    generalize m.delivered = l at all
    induction l with
    | nil => rfl
    | cons d l ih =>
      have hd := all d (by simp)
      have ih := ih fun x hx => all x (by simp [hx])
      simp only [List.filterMap_cons, hd, true_and, ih]
  rw [this]; exact hi.up 0 id

/-- **C111** The runners in the map are those some call has reached, each once, and they stay. -/
theorem C111_registered (acts : List StartAct) (m : Starts) (h : StartsReach acts m) :
    m.clients.Nodup ∧ ∀ id, id ∈ m.clients ↔ ∃ i, StartAct.connected i id ∈ acts := by
  refine ⟨(inv_reach h).nodup, fun id => ?_⟩
  refine runs_induct (P := fun acts m => id ∈ m.clients ↔ ∃ i, StartAct.connected i id ∈ acts) (by simp) ?_ h
  intro acts a m m' _ ih hs
  simp only [List.mem_append, List.mem_singleton, exists_or]
  rw [← ih]
  cases step_cases hs with
  | start e => subst e; simp
  | emit e => subst e; simp
  | refuse e => subst e; simp
  | @known i id' hk e =>
    subst e
    constructor
    · exact .inl
    · rintro (h | ⟨j, h⟩)
      · exact h
      · simp only [StartAct.connected.injEq] at h; exact h.2 ▸ hk
  | @new i id' hk e =>
    subst e
    simp only [List.mem_append, List.mem_singleton, StartAct.connected.injEq, exists_and_right]
    constructor
    · rintro (h | rfl)
      · exact .inl h
      · exact .inr ⟨⟨i, rfl⟩, rfl⟩
    · rintro (h | ⟨_, rfl⟩)
      · exact .inl h
      · exact .inr rfl
  | moved _ _ _ hcl _ hn _ _ =>
    rw [hcl]
    constructor
    · exact .inl
    · rintro (h | ⟨j, h⟩)
      · exact h
      · exact absurd h.symm (hn j id)

/-- **C111** Whoever registered them: when a call that takes event `n` is done with it, every runner that was in the map
has been sent it, by that call, or the request failed. -/
theorem C111_everybody (pre post : List StartAct) (mp m : Starts) (i : Nat) (order : List Id) (c c' : StartCall)
    (hp : StartsReach pre mp) (hc : mp.calls[i]? = some c) (hlag : mp.emitted - c.next ≤ 32)
    (h : StartsReach (pre ++ .recv i order :: post) m) (hc' : m.calls[i]? = some c') (hdone : c'.pc.atRecv = true)
    (id : Id) (hid : id ∈ mp.clients) : (i, id, c.next) ∈ m.delivered ∨ (i, id, c.next) ∈ m.failed := by
  unfold StartsReach at h
  rw [runs_append, hp] at h
  simp only [Option.bind_some, runs] at h
  cases hs : mp.step (.recv i order) with
  | none => simp [hs] at h
  | some m1 =>
    simp only [hs] at h
    have e1 : m1 = mp.put i { next := c.next + 1, pc := .sending c.next order } ∧ order.Perm mp.clients := by
      simp only [Starts.step, hc] at hs
      split at hs
      · split at hs
        · rename_i hl; exact absurd hlag (Nat.not_le.2 hl)
        · split at hs
          · rename_i hn; simp only [Option.some.injEq] at hs; exact ⟨hs.symm, hn.2⟩
          · exact absurd hs (by simp)
      · exact absurd hs (by simp)
    obtain ⟨e1, hperm⟩ := e1
    have hi := (List.getElem?_eq_some_iff.1 hc).1
    have hfin := runs_induct (P := fun _ m => ((i, id, c.next) ∈ m.delivered ∨ (i, id, c.next) ∈ m.failed) ∨
        ∃ d, m.calls[i]? = some d ∧ (d.pc = .over ∨ ∃ rest, d.pc = .sending c.next rest ∧ id ∈ rest)) (by
      right
      refine ⟨{ next := c.next + 1, pc := .sending c.next order }, by rw [e1]; simp only [Starts.put, List.getElem?_set]; simp [hi], .inr ⟨order, rfl, hperm.mem_iff.2 hid⟩⟩) (by
      intro acts a m m' _ ih hs
      have mono : (∀ x ∈ m.delivered, x ∈ m'.delivered) ∧ ∀ x ∈ m.failed, x ∈ m'.failed := by
        cases step_cases hs with
        | start e => subst e; exact ⟨fun _ h => h, fun _ h => h⟩
        | emit e => subst e; exact ⟨fun _ h => h, fun _ h => h⟩
        | refuse e => subst e; exact ⟨fun _ h => h, fun _ h => h⟩
        | known _ e => subst e; exact ⟨fun _ h => h, fun _ h => h⟩
        | new _ e => subst e; exact ⟨fun _ h => h, fun _ h => h⟩
        | moved _ hm => cases hm <;> simp_all
      rcases ih with ih | ⟨d, hd, hpc⟩
      · exact .inl (ih.imp (mono.1 _) (mono.2 _))
      · cases step_cases hs with
        | start e =>
          subst e
          refine .inr ⟨d, ?_, hpc⟩
          rw [List.getElem?_append_left (List.getElem?_eq_some_iff.1 hd).1]; exact hd
        | emit e => subst e; exact .inr ⟨d, hd, hpc⟩
        | refuse e => subst e; exact .inr ⟨d, hd, hpc⟩
        | known _ e => subst e; exact .inr ⟨d, hd, hpc⟩
        | new _ e => subst e; exact .inr ⟨d, hd, hpc⟩
        | @moved _ j g g' hg hm hcalls _ _ _ _ _ =>
          have hj := (List.getElem?_eq_some_iff.1 hg).1
          by_cases hij : j = i
          · subst hij
            rw [hg] at hd; simp only [Option.some.injEq] at hd; subst hd
            have self : m'.calls[j]? = some g' := by rw [hcalls, List.getElem?_set]; simp [hj]
            cases hm with
            | tried hpc' => rcases hpc with hp' | ⟨r, hp', _⟩ <;> rw [hpc'] at hp' <;> simp at hp'
            | lost => exact .inr ⟨_, self, .inl rfl⟩
            | take hat =>
              exfalso
              rcases hpc with hp' | ⟨r, hp', hr⟩
              · rw [hp'] at hat; simp [StartPc.atRecv] at hat
              · cases r with
                | nil => simp at hr
                | cons => rw [hp'] at hat; simp [StartPc.atRecv] at hat
            | ok hpc' he =>
              rcases hpc with hp' | ⟨r, hp', hr⟩
              · rw [hpc'] at hp'; simp at hp'
              · rw [hpc'] at hp'
                simp only [StartPc.sending.injEq] at hp'
                obtain ⟨rfl, rfl⟩ := hp'
                rcases List.mem_cons.1 hr with rfl | hr
                · exact .inl (.inl (by rw [he]; simp))
                · exact .inr ⟨_, self, .inr ⟨_, rfl, hr⟩⟩
            | err hpc' _ he =>
              rcases hpc with hp' | ⟨r, hp', hr⟩
              · rw [hpc'] at hp'; simp at hp'
              · rw [hpc'] at hp'
                simp only [StartPc.sending.injEq] at hp'
                obtain ⟨rfl, rfl⟩ := hp'
                rcases List.mem_cons.1 hr with rfl | hr
                · exact .inl (.inr (by rw [he]; simp))
                · exact .inr ⟨_, self, .inr ⟨_, rfl, hr⟩⟩
          · exact .inr ⟨d, by rw [hcalls, List.getElem?_set, if_neg hij]; exact hd, hpc⟩) h
    rcases hfin with hfin | ⟨d, hd, hpc⟩
    · exact hfin
    · exfalso
      rw [hc'] at hd; simp only [Option.some.injEq] at hd; subst hd
      rcases hpc with hp' | ⟨r, hp', hr⟩
      · rw [hp'] at hdone; simp [StartPc.atRecv] at hdone
      · cases r with
        | nil => simp at hr
        | cons => rw [hp'] at hdone; simp [StartPc.atRecv] at hdone

namespace StartsInv

theorem emit_alive {m : Starts} {k : Nat} {c : StartCall} (hc : m.calls[k]? = some c) (hp : c.pc ≠ .over) :
    m.step .emit = some { m with emitted := m.emitted + 1 } := by
  have : (m.calls.any fun c => c.pc ≠ .over) = true := by
    rw [List.any_eq_true]
    exact ⟨c, List.mem_of_getElem? hc, by simpa using hp⟩
  simp only [Starts.step, this, if_true]

/-- A call that is not over was not over before, and only `emit` changes what the channel took. -/
theorem alive_back {m m' : Starts} {a : StartAct} {k : Nat} {c c' : StartCall} (h : m.step a = some m') (hc : m.calls[k]? = some c)
    (hc' : m'.calls[k]? = some c') (hp : c'.pc ≠ .over) :
    c.pc ≠ .over ∧ m'.emitted = m.emitted + [a].count .emit ∧ m'.refused = m.refused := by
  have hlt := (List.getElem?_eq_some_iff.1 hc).1
  by_cases he : a = .emit
  · subst he
    have hcalls : m'.calls = m.calls := by
      simp only [Starts.step] at h
      split at h <;> (simp only [Option.some.injEq] at h; subst h; rfl)
    rw [hcalls, hc] at hc'
    cases hc'
    rw [emit_alive hc hp, Option.some.injEq] at h
    subst h
    exact ⟨hp, by simp, rfl⟩
  · have hcnt : [a].count .emit = 0 := by simp [List.count_singleton, he]
    have hb : m'.refused = m.refused := by
      cases a <;> simp only [Starts.step] at h <;> (try exact absurd rfl he)
      all_goals repeat' split at h
      all_goals first
        | (simp only [Option.some.injEq] at h; subst h; rfl)
        | simp at h
    have hkeep : ∀ i d d', m.calls[i]? = some d → m'.calls = m.calls.set i d' → (d.pc = .over → d'.pc = .over) → c.pc ≠ .over := by
      intro i d d' hd hset hov hov'
      by_cases hik : i = k
      · subst hik
        rw [hc] at hd; cases hd
        rw [hset] at hc'
        simp [hlt] at hc'
        subst hc'
        exact hp (hov hov')
      · rw [hset, List.getElem?_set, if_neg hik, hc] at hc'
        cases hc'
        exact hp hov'
    have hcase := step_cases h
    cases hcase with
    | start e =>
      subst e
      simp only [List.getElem?_append_left hlt, hc, Option.some.injEq] at hc'
      subst hc'
      exact ⟨hp, by simp, rfl⟩
    | emit => exact absurd rfl he
    | refuse => exact absurd rfl he
    | known _ e => subst e; rw [hc] at hc'; cases hc'; exact ⟨hp, by simp, rfl⟩
    | new _ e => subst e; rw [hc] at hc'; cases hc'; exact ⟨hp, by simp, rfl⟩
    | moved hd hm hset _ hem =>
      refine ⟨hkeep _ _ _ hd hset ?_, by rw [hem, hcnt]; rfl, hb⟩
      intro hov
      cases hm with
      | tried h1 => rw [hov] at h1; cases h1
      | lost => rfl
      | take h1 => rw [hov] at h1; simp [StartPc.atRecv] at h1
      | ok h1 => rw [hov] at h1; cases h1
      | err h1 => rw [hov] at h1; cases h1

end StartsInv

open StartsInv in
/-- **C111** While a call of `start` is under way no event is lost: every event emitted since is in the channel, from where the
call takes them one by one (`C111_everybody`). -/
theorem C111_none_lost (pre post : List StartAct) (mp m : Starts) (hp : StartsReach pre mp)
    (h : StartsReach (pre ++ .start :: post) m) (c : StartCall) (hc : m.calls[startCount pre]? = some c) (ho : c.pc ≠ .over) :
    m.emitted = mp.emitted + post.count .emit ∧ m.refused = mp.refused := by
  have hlen : mp.calls.length = startCount pre := calls_count hp
  unfold StartsReach at h hp
  rw [runs_append, hp] at h
  simp only [Option.bind_some, runs, Starts.step] at h
  refine (runs_induct (P := fun acts m => ∃ c, m.calls[startCount pre]? = some c ∧ (c.pc ≠ .over →
    m.emitted = mp.emitted + acts.count .emit ∧ m.refused = mp.refused)) ?_ ?_ h).elim ?_
  · exact ⟨{ next := mp.emitted }, by simp [← hlen], fun _ => ⟨by simp, rfl⟩⟩
  · rintro acts a s s' _ ⟨d, hd, ih⟩ hs
    obtain ⟨d', hd'⟩ : ∃ d', s'.calls[startCount pre]? = some d' := by
      have hlt := (List.getElem?_eq_some_iff.1 hd).1
      have : startCount pre < s'.calls.length := by
        have hcase := step_cases hs
        cases hcase with
        | start e => subst e; simp; omega
        | emit e => subst e; exact hlt
        | refuse e => subst e; exact hlt
        | known _ e => subst e; exact hlt
        | new _ e => subst e; exact hlt
        | moved _ _ e => rw [e]; simpa using hlt
      exact ⟨_, List.getElem?_eq_getElem this⟩
    refine ⟨d', hd', fun hno => ?_⟩
    obtain ⟨h1, h2, h3⟩ := alive_back hs hd hd' hno
    obtain ⟨h4, h5⟩ := ih h1
    rw [List.count_append]
    exact ⟨by rw [h2, h4]; omega, h3.trans h5⟩
  · rintro d ⟨hd, hfin⟩
    rw [hc] at hd; cases hd
    exact hfin ho

namespace StartsEx
/-- A client is started for one runner, and once more, on a clone, for another. -/
def twice : List StartAct :=
  [.start, .connected 0 "a", .allTried 0, .start, .connected 1 "b", .allTried 1, .emit, .emit,
   .recv 0 ["a", "b"], .sendOk 0, .sendOk 0, .recv 0 ["b", "a"], .sendOk 0, .sendOk 0,
   .recv 1 ["a", "b"], .sendOk 1, .sendErr 1]

/-- The second call, of a clone, comes after the first event, so that its runner is sent the second event by both calls. -/
def later : List StartAct :=
  [.start, .connected 0 "a", .allTried 0, .emit, .start, .connected 1 "b", .connected 1 "a", .allTried 1, .emit,
   .recv 1 ["b", "a"], .sendOk 1, .sendOk 1, .recv 0 ["a", "b"], .sendOk 0, .sendErr 0]

/-- Hypotheses of the C111 theorems are met: two calls, two runners, a failed request; the second call sends only what came after it. -/
example : ∃ m, StartsReach later m ∧ startCount later = 2 ∧ m.clients = ["a", "b"] ∧ sentBy m 1 "a" = [1] ∧
    sentBy m 0 "a" = [0] ∧ heardBy m "b" = [1] ∧ m.failed = [(0, "b", 0)] ∧ m.emitted = 2 ∧
    (∀ c, m.calls[0]? = some c → c.pc ≠ .over) :=
  ⟨(runs Starts.step {} later).get (by decide), (Option.some_get _).symm, by decide, by decide, by decide, by decide, by decide,
    by decide, by decide, fun c hc => by
      have : c = (((runs Starts.step {} later).get (by decide)).calls[0]?).get (by decide) := by simp [hc]
      rw [this]; decide⟩
end StartsEx

/-- **C111 is false of the code** for a client that is started again, for more runners: every runner hears of an event
twice, and of an old one after a newer one. -/
theorem C111_refuted : ∃ acts m, StartsReach acts m ∧ m.clients = ["a", "b"] ∧ heardBy m "a" = [0, 1, 0] ∧
    ¬ Ascending (heardBy m "a") := by
  refine ⟨StartsEx.twice, (runs Starts.step {} StartsEx.twice).get (by decide), (Option.some_get _).symm, by decide, by decide, ?_⟩
  have : heardBy ((runs Starts.step {} StartsEx.twice).get (by decide)) "a" = [0, 1, 0] := by decide
  rw [this]
  simp [Ascending]

end AstroRun
