import Mathlib.Data.Nat.Pairing
import Mathlib.Data.Nat.Find
import Verif.Lemmas.Run
import Verif.Spec.Fair

/-! # Fair executions exist

A scheduler for countably many kinds of moves: of those possible it takes one of the kind `k` for which the number of times it
took the kind so far, plus `k`, is least. -/

namespace AstroRun
open Spec

namespace FairSched

variable {σ α : Type}

/-- How often kinds `0 .. m-1` were taken, each counted up to `b`. -/
def taken (b : Nat) (c : Nat → Nat) : Nat → Nat
  | 0 => 0
  | m + 1 => taken b c m + min (c m) b

theorem taken_le (b : Nat) (c : Nat → Nat) (m : Nat) : taken b c m ≤ m * b := by
  induction m with
  | zero => simp [taken]
  | succ m ih =>
    simp only [taken]
    have : min (c m) b ≤ b := Nat.min_le_right _ _
    rw [Nat.succ_mul]
    omega

theorem taken_mono {b : Nat} {c c' : Nat → Nat} (h : ∀ k, c k ≤ c' k) (m : Nat) : taken b c m ≤ taken b c' m := by
  induction m with
  | zero => simp [taken]
  | succ m ih => simp only [taken]; have := h m; omega

theorem taken_lt {b : Nat} {c c' : Nat → Nat} (h : ∀ k, c k ≤ c' k) {j m : Nat} (hj : j < m) (hc : c j < c' j) (hb : c j < b) :
    taken b c m < taken b c' m := by
  induction m with
  | zero => omega
  | succ m ih =>
    simp only [taken]
    rcases Nat.lt_succ_iff_lt_or_eq.1 hj with h1 | rfl
    · have := ih h1; have := h m; omega
    · have := taken_mono (b := b) h j; omega

/-- What the scheduler knows: the moves so far, the state, how often it took each kind. -/
structure St (P : List α → σ → Prop) where
  acts : List α
  s : σ
  cnt : Nat → Nat
  ok : P acts s

/-- A move of kind `k` is possible. -/
def can (step : σ → α → Option σ) (cls : Nat → α → Prop) (s : σ) (k : Nat) : Prop := ∃ x, cls k x ∧ step s x ≠ none

/-- What the scheduler does. -/
structure Next (step : σ → α → Option σ) (cls : Nat → α → Prop) (en : σ → Nat → Prop) (Q : σ → α → Prop) {P : List α → σ → Prop} (S : St P)
    (x : α) (S' : St P) : Prop where
  good : Q S.s x
  acts : S'.acts = S.acts ++ [x]
  move : step S.s x = some S'.s
  cnt : ∀ k, S.cnt k ≤ S'.cnt k
  own : ∀ k, S'.cnt k ≠ S.cnt k → cls k x
  least : ∀ k, en S.s k → ∃ j, S.cnt j + j ≤ S.cnt k + k ∧ S.cnt j < S'.cnt j

theorem next_exists {step : σ → α → Option σ} {cls : Nat → α → Prop} {en : σ → Nat → Prop} {Q : σ → α → Prop} {P : List α → σ → Prop}
    (hmove : ∀ acts s k, P acts s → en s k → ∃ x s', cls k x ∧ step s x = some s' ∧ P (acts ++ [x]) s' ∧ Q s x)
    (hidle : ∀ acts s, P acts s → ∃ x s', step s x = some s' ∧ P (acts ++ [x]) s' ∧ Q s x) (S : St P) :
    ∃ y : α × St P, Next step cls en Q S y.1 y.2 := by
  classical
  by_cases hc : ∃ k, en S.s k
  · obtain ⟨k, hk, hmin⟩ : ∃ k, en S.s k ∧ ∀ j, en S.s j → S.cnt k + k ≤ S.cnt j + j := by
      have hex : ∃ v, ∃ k, en S.s k ∧ S.cnt k + k = v := by
        obtain ⟨k, hk⟩ := hc; exact ⟨_, k, hk, rfl⟩
      obtain ⟨k, h1, h2⟩ := Nat.find_spec hex
      refine ⟨k, h1, fun j hj => ?_⟩
      rw [h2]
      exact Nat.find_min' hex ⟨j, hj, rfl⟩
    obtain ⟨x, s', h1, h2, h3, h4⟩ := hmove _ _ k S.ok hk
    refine ⟨(x, ⟨S.acts ++ [x], s', fun j => if j = k then S.cnt j + 1 else S.cnt j, h3⟩), h4, rfl, h2, ?_, ?_, ?_⟩
    · intro j; simp only; split <;> omega
    · intro j hj
      simp only at hj
      split at hj
      · rename_i e; rw [e]; exact h1
      · exact absurd rfl hj
    · intro j hj
      exact ⟨k, hmin j hj, by simp⟩
  · obtain ⟨x, s', h2, h3, h4⟩ := hidle _ _ S.ok
    exact ⟨(x, ⟨S.acts ++ [x], s', S.cnt, h3⟩), h4, rfl, h2, fun _ => Nat.le_refl _, fun k hk => absurd rfl hk,
      fun k hk => absurd ⟨k, hk⟩ hc⟩

/-- From every state there is an endless execution that treats every kind of moves fairly, and keeps `P`. -/
theorem fair_future_en {step : σ → α → Option σ} {cls : Nat → α → Prop} {en : σ → Nat → Prop} {Q : σ → α → Prop} {P : List α → σ → Prop}
    (hmove : ∀ acts s k, P acts s → en s k → ∃ x s', cls k x ∧ step s x = some s' ∧ P (acts ++ [x]) s' ∧ Q s x)
    (hidle : ∀ acts s, P acts s → ∃ x s', step s x = some s' ∧ P (acts ++ [x]) s' ∧ Q s x)
    {s00 s0 : σ} {acts0 : List α} (hreach : runs step s00 acts0 = some s0) (hP : P acts0 s0) :
    ∃ (f : Nat → σ) (a : Nat → α), f 0 = s00 ∧ (∀ n, step (f n) (a n) = some (f (n + 1))) ∧ firstMoves a acts0.length = acts0 ∧ f acts0.length = s0 ∧
      (∀ n, acts0.length ≤ n → P (firstMoves a n) (f n) ∧ Q (f n) (a n)) ∧
      ∀ k, (Often fun n => en (f n) k) → Often fun n => cls k (a n) := by
  classical
  have hnext := fun S : St P => next_exists (cls := cls) (en := en) (Q := Q) hmove hidle S
  let nx : St P → α × St P := fun S => Classical.choose (hnext S)
  have hnx : ∀ S, Next step cls en Q S (nx S).1 (nx S).2 := fun S => Classical.choose_spec (hnext S)
  let g : Nat → St P := fun n => Nat.rec ⟨acts0, s0, fun _ => 0, hP⟩ (fun _ S => (nx S).2) n
  have g0 : g 0 = ⟨acts0, s0, fun _ => 0, hP⟩ := rfl
  have gs : ∀ n, g (n + 1) = (nx (g n)).2 := fun _ => rfl
  let L := acts0.length
  let b : Nat → α := fun n => (nx (g n)).1
  let a : Nat → α := fun n => if h : n < L then acts0[n] else b (n - L)
  let f : Nat → σ := fun n => if n < L then (runs step s00 (acts0.take n)).getD s00 else (g (n - L)).s
  have hlen : ∀ n, (g n).acts.length = L + n := by
    intro n
    induction n with
    | zero => rw [g0]; rfl
    | succ n ih => rw [gs, (hnx (g n)).acts, List.length_append, ih]; simp; omega
  have hpre : ∀ n, n ≤ L → runs step s00 (acts0.take n) = some (f n) := by
    intro n hn
    rcases Nat.lt_or_eq_of_le hn with h | h
    · have : runs step s00 (acts0.take n ++ acts0.drop n) = some s0 := by rw [List.take_append_drop]; exact hreach
      obtain ⟨s1, h0, _⟩ := runs_split this
      simp only [f, if_pos h, h0, Option.getD_some]
    · have e : f n = s0 := by simp [f, h, g0]
      rw [e, h, List.take_length]; exact hreach
  have hfirst : ∀ n, n ≤ L → firstMoves a n = acts0.take n := by
    intro n hn
    refine List.ext_getElem (by simp only [firstMoves, List.length_map, List.length_range, List.length_take]; omega) ?_
    intro k h1 h2
    have hk : k < n := by simpa [firstMoves] using h1
    have hk' : k < L := by omega
    simp [firstMoves, a, hk']
  have hlate : ∀ n, firstMoves a (L + n) = (g n).acts := by
    intro n
    induction n with
    | zero => rw [Nat.add_zero, hfirst L (Nat.le_refl _), g0]; exact List.take_length
    | succ n ih =>
      have e : firstMoves a (L + n + 1) = firstMoves a (L + n) ++ [a (L + n)] := by simp [firstMoves, List.range_succ]
      rw [← Nat.add_assoc, e, ih, gs, (hnx (g n)).acts]
      have : a (L + n) = (nx (g n)).1 := by simp [a, b]
      rw [this]
  have hf0 : f 0 = s00 := by
    have := hpre 0 (Nat.zero_le _)
    simp only [List.take_zero, runs] at this
    exact (Option.some.inj this).symm
  have hfl : ∀ n, f (L + n) = (g n).s := by intro n; simp [f]
  have hal : ∀ n, a (L + n) = (nx (g n)).1 := by intro n; simp [a, b]
  refine ⟨f, a, hf0, ?_, ?_, ?_, ?_, ?_⟩
  · intro n
    rcases Nat.lt_or_ge n L with hn | hn
    · have h1 := hpre (n + 1) hn
      rw [List.take_succ_eq_append_getElem hn] at h1
      obtain ⟨s1, h2, h3⟩ := runs_snoc.1 h1
      rw [hpre n (by omega)] at h2
      cases h2
      have : a n = acts0[n] := by simp only [a, dif_pos hn]
      rw [this]; exact h3
    · obtain ⟨k, rfl⟩ := Nat.exists_eq_add_of_le hn
      rw [hal, hfl, Nat.add_assoc, hfl, gs]
      exact (hnx (g k)).move
  · rw [hfirst _ (Nat.le_refl _)]; exact List.take_length
  · have := hfl 0; rw [Nat.add_zero] at this; rw [show acts0.length = L from rfl, this, g0]
  · intro n hn
    obtain ⟨k, rfl⟩ := Nat.exists_eq_add_of_le hn
    rw [show acts0.length + k = L + k from rfl, hlate, hfl, hal]
    exact ⟨(g k).ok, (hnx (g k)).good⟩
  · intro k hoft
    refine Classical.byContradiction fun hno => ?_
    obtain ⟨N, hN⟩ : ∃ N, ∀ n, N ≤ n → ¬ cls k (a n) := by
      unfold Often at hno
      simp only [Classical.not_forall, not_exists, not_and] at hno
      exact hno
    have hconst : ∀ n, (g (N + n)).cnt k = (g N).cnt k := by
      intro n
      induction n with
      | zero => rfl
      | succ n ih =>
        rw [← ih, ← Nat.add_assoc, gs]
        refine Classical.byContradiction fun hne => ?_
        have := (hnx (g (N + n))).own k hne
        rw [← hal] at this
        exact hN _ (by omega) this
    have hmono : ∀ n, taken ((g N).cnt k + k + 1) (g n).cnt ((g N).cnt k + k + 1) ≤
        taken ((g N).cnt k + k + 1) (g (n + 1)).cnt ((g N).cnt k + k + 1) := by
      intro n
      rw [gs]
      exact taken_mono (hnx (g n)).cnt _
    have hmono' : ∀ n m, n ≤ m → taken ((g N).cnt k + k + 1) (g n).cnt ((g N).cnt k + k + 1) ≤
        taken ((g N).cnt k + k + 1) (g m).cnt ((g N).cnt k + k + 1) := by
      intro n m hnm
      induction hnm with
      | refl => exact Nat.le_refl _
      | step _ ih => exact Nat.le_trans ih (hmono _)
    have hgrow : ∀ v, ∃ n, v ≤ taken ((g N).cnt k + k + 1) (g n).cnt ((g N).cnt k + k + 1) := by
      intro v
      induction v with
      | zero => exact ⟨0, Nat.zero_le _⟩
      | succ v ih =>
        obtain ⟨n, hn⟩ := ih
        obtain ⟨m, hm, hx⟩ := hoft (L + (N + n))
        obtain ⟨q, rfl⟩ := Nat.exists_eq_add_of_le hm
        have hcan : en (g (N + (n + q))).s k := by
          rw [← hfl, show L + (N + (n + q)) = L + (N + n) + q by omega]
          exact hx
        obtain ⟨j, h1, h2⟩ := (hnx (g (N + (n + q)))).least k hcan
        rw [hconst] at h1
        refine ⟨N + (n + q) + 1, ?_⟩
        have h3 := taken_lt (b := (g N).cnt k + k + 1) (hnx (g (N + (n + q)))).cnt (j := j) (m := (g N).cnt k + k + 1)
          (by omega) h2 (by omega)
        rw [gs]
        have h4 := hmono' n (N + (n + q)) (by omega)
        omega
    obtain ⟨n, hn⟩ := hgrow (((g N).cnt k + k + 1) * ((g N).cnt k + k + 1) + 1)
    have := taken_le ((g N).cnt k + k + 1) (g n).cnt ((g N).cnt k + k + 1)
    omega

/-- The same, when a kind is due whenever one of its moves is possible. -/
theorem fair_future {step : σ → α → Option σ} {cls : Nat → α → Prop} {Q : σ → α → Prop} {P : List α → σ → Prop}
    (hmove : ∀ acts s k, P acts s → can step cls s k → ∃ x s', cls k x ∧ step s x = some s' ∧ P (acts ++ [x]) s' ∧ Q s x)
    (hidle : ∀ acts s, P acts s → ∃ x s', step s x = some s' ∧ P (acts ++ [x]) s' ∧ Q s x)
    {s00 s0 : σ} {acts0 : List α} (hreach : runs step s00 acts0 = some s0) (hP : P acts0 s0) :
    ∃ (f : Nat → σ) (a : Nat → α), f 0 = s00 ∧ (∀ n, step (f n) (a n) = some (f (n + 1))) ∧ firstMoves a acts0.length = acts0 ∧ f acts0.length = s0 ∧
      (∀ n, acts0.length ≤ n → P (firstMoves a n) (f n) ∧ Q (f n) (a n)) ∧ ∀ k, StronglyFair step f a (cls k) := by
  obtain ⟨f, a, h1, h2, h3, h4, h5, h6⟩ := fair_future_en (en := can step cls) hmove hidle hreach hP
  exact ⟨f, a, h1, h2, h3, h4, h5, h6⟩

/-- Strong fairness is weak fairness. -/
theorem weak_of_strong {step : σ → α → Option σ} {f : Nat → σ} {a : Nat → α} {c : α → Prop} (h : StronglyFair step f a c) :
    WeaklyFair step f a c := by
  rintro ⟨n, hn⟩
  exact h fun m => ⟨max n m, Nat.le_max_right _ _, hn _ (Nat.le_max_left _ _)⟩

end FairSched

end AstroRun
