import Verif.Lemmas.Wire
import Verif.Spec.UserDecode

/-! # Mappings with repeated keys -/

namespace AstroRun
open AstroRun.Wire AstroRun.Spec

theorem put_map {α : Type} {m : List (String × α)} (h : IsMap m) (k : String) (v : α) : IsMap (put m k v) := by
  unfold put IsMap
  split
  · have : (m.map fun e => if e.1 == k then (k, v) else e).map Prod.fst = m.map Prod.fst := by
      rw [List.map_map]
      apply List.map_congr_left
      intro e _
      simp only [Function.comp]
      split
      · rename_i he; exact (beq_iff_eq.1 he).symm
      · rfl
    rw [this]; exact h
  · rename_i hn
    rw [List.map_append, List.nodup_append]
    refine ⟨h, by simp, ?_⟩
    intro a ha b hb e
    simp only [List.map_cons, List.map_nil, List.mem_singleton] at hb
    subst hb; subst e
    obtain ⟨p, hp, rfl⟩ := List.mem_map.1 ha
    exact hn (List.any_eq_true.2 ⟨p, hp, by simp⟩)

theorem put_mem {α : Type} {m : List (String × α)} (k : String) (v : α) (k' : String) (a : α) :
    (k', a) ∈ put m k v ↔ if k' = k then a = v else (k', a) ∈ m := by
  unfold put
  split
  · rename_i hk
    obtain ⟨p, hp, hpk⟩ := List.any_eq_true.1 hk
    simp only [List.mem_map]
    split
    · rename_i e
      subst e
      constructor
      · rintro ⟨q, hq, hh⟩
        split at hh
        · exact (Prod.mk.inj hh).2.symm
        · rename_i hne
          rw [hh] at hne
          simp at hne
      · rintro rfl
        exact ⟨p, hp, by simp [beq_iff_eq.1 hpk]⟩
    · rename_i hne
      constructor
      · rintro ⟨q, hq, hh⟩
        split at hh
        · exact absurd (Prod.mk.inj hh).1.symm hne
        · rw [← hh]; exact hq
      · intro hm
        exact ⟨_, hm, by simp [hne]⟩
  · rename_i hk
    simp only [List.mem_append, List.mem_singleton, Prod.mk.injEq]
    split
    · rename_i e
      subst e
      constructor
      · rintro (hm | ⟨_, rfl⟩)
        · exact absurd (List.any_eq_true.2 ⟨_, hm, by simp⟩) hk
        · rfl
      · rintro rfl; exact .inr ⟨rfl, rfl⟩
    · rename_i hne; simp [hne]

theorem lastSays_nil {α : Type} (k : String) (v : α) : ¬ LastSays [] k v := by
  rintro ⟨pre, post, h, -⟩
  simp at h

theorem lastSays_cons {α : Type} (e : String × α) (o : List (String × α)) (k : String) (v : α) :
    LastSays (e :: o) k v ↔ LastSays o k v ∨ (k ∉ o.map Prod.fst ∧ e = (k, v)) := by
  constructor
  · rintro ⟨pre, post, h, hk⟩
    cases pre with
    | nil =>
      simp only [List.nil_append, List.cons.injEq] at h
      exact .inr ⟨by rw [h.2]; exact hk, h.1⟩
    | cons e' pre =>
      simp only [List.cons_append, List.cons.injEq] at h
      exact .inl ⟨pre, post, h.2, hk⟩
  · rintro (⟨pre, post, rfl, hk⟩ | ⟨hk, rfl⟩)
    · exact ⟨e :: pre, post, rfl, hk⟩
    · exact ⟨[], o, rfl, hk⟩

theorem decEntries_spec {α : Type} {dec : Json → Option α} : ∀ (o : List (String × Json)) (acc : List (String × α)),
    ((∃ m, decEntries dec acc o = some m) ↔ ∀ k j, (k, j) ∈ o → ∃ a, dec j = some a) ∧
    ∀ m, decEntries dec acc o = some m → (IsMap acc → IsMap m) ∧
      ∀ k a, (k, a) ∈ m ↔ (∃ j, LastSays o k j ∧ dec j = some a) ∨ (k ∉ o.map Prod.fst ∧ (k, a) ∈ acc)
  | [], acc => by
    refine ⟨by simp [decEntries], ?_⟩
    intro m hm
    simp only [decEntries, Option.some.injEq] at hm
    subst hm
    exact ⟨id, fun k a => by simp [lastSays_nil]⟩
  | (k0, j0) :: o, acc => by
    simp only [decEntries, Option.bind_eq_bind]
    cases hd : dec j0 with
    | none =>
      refine ⟨⟨by simp, fun h => ?_⟩, by simp⟩
      obtain ⟨a, ha⟩ := h k0 j0 (.head _)
      rw [hd] at ha; cases ha
    | some a0 =>
      simp only [Option.bind_some]
      obtain ⟨h1, h2⟩ := decEntries_spec (dec := dec) o (put acc k0 a0)
      refine ⟨?_, ?_⟩
      · rw [h1]
        constructor
        · intro h k j hm
          rcases List.mem_cons.1 hm with he | hm
          · cases he; exact ⟨a0, hd⟩
          · exact h k j hm
        · exact fun h k j hm => h k j (.tail _ hm)
      · intro m hm
        obtain ⟨g1, g2⟩ := h2 m hm
        refine ⟨fun h => g1 (put_map h k0 a0), fun k a => ?_⟩
        rw [g2, put_mem]
        constructor
        · rintro (⟨j, hl, hj⟩ | ⟨hk, hp⟩)
          · exact .inl ⟨j, (lastSays_cons _ _ _ _).2 (.inl hl), hj⟩
          · by_cases he : k = k0
            · subst he
              rw [if_pos rfl] at hp
              subst hp
              exact .inl ⟨j0, (lastSays_cons _ _ _ _).2 (.inr ⟨hk, rfl⟩), hd⟩
            · rw [if_neg he] at hp
              exact .inr ⟨by simp only [List.map_cons, List.mem_cons, not_or]; exact ⟨he, hk⟩, hp⟩
        · rintro (⟨j, hl, hj⟩ | ⟨hk, hp⟩)
          · rcases (lastSays_cons _ _ _ _).1 hl with hl | ⟨hk, he⟩
            · exact .inl ⟨j, hl, hj⟩
            · cases he
              rw [hd] at hj
              exact .inr ⟨hk, by rw [if_pos rfl]; exact (Option.some.inj hj).symm⟩
          · simp only [List.map_cons, List.mem_cons, not_or] at hk
            exact .inr ⟨hk.2, by rw [if_neg hk.1]; exact hp⟩


theorem filter_all {α : Type} (l : List α) : l.filter (fun _ => true) = l := List.filter_eq_self.2 fun _ _ => rfl

theorem map_unique {α : Type} {m : List (String × α)} (h : IsMap m) {k : String} {a b : α} (ha : (k, a) ∈ m) (hb : (k, b) ∈ m) :
    a = b := by
  induction m with
  | nil => simp at ha
  | cons e m ih =>
    simp only [IsMap, List.map_cons, List.nodup_cons] at h
    rcases List.mem_cons.1 ha with h1 | h1 <;> rcases List.mem_cons.1 hb with h2 | h2
    · exact (Prod.mk.inj (h1.trans h2.symm)).2
    · rw [← h1] at h; exact absurd (List.mem_map.2 ⟨_, h2, rfl⟩) h.1
    · rw [← h2] at h; exact absurd (List.mem_map.2 ⟨_, h1, rfl⟩) h.1
    · exact ih h.2 h1 h2

theorem put_keys {α : Type} (m : List (String × α)) (k : String) (v : α) :
    (put m k v).map Prod.fst = if k ∈ m.map Prod.fst then m.map Prod.fst else m.map Prod.fst ++ [k] := by
  unfold put
  by_cases h : k ∈ m.map Prod.fst
  · rw [if_pos h, if_pos]
    · rw [List.map_map]
      apply List.map_congr_left
      intro e _
      simp only [Function.comp]
      split
      · rename_i he; exact (beq_iff_eq.1 he).symm
      · rfl
    · obtain ⟨p, hp, rfl⟩ := List.mem_map.1 h
      exact List.any_eq_true.2 ⟨p, hp, by simp⟩
  · rw [if_neg h, if_neg]
    · simp
    · intro ha
      obtain ⟨p, hp, hk⟩ := List.any_eq_true.1 ha
      exact h (List.mem_map.2 ⟨p, hp, beq_iff_eq.1 hk⟩)

theorem decEntries_keys {α : Type} {dec : Json → Option α} : ∀ {o : List (String × Json)} {acc m : List (String × α)},
    decEntries dec acc o = some m →
      m.map Prod.fst = acc.map Prod.fst ++ ((o.map Prod.fst).filter fun k => decide (k ∉ acc.map Prod.fst)).eraseDups
  | [], acc, m, h => by
    simp only [decEntries, Option.some.injEq] at h
    subst h
    simp
  | (k, j) :: o, acc, m, h => by
    simp only [decEntries, Option.bind_eq_bind, Option.bind_eq_some_iff] at h
    obtain ⟨a, -, h⟩ := h
    rw [decEntries_keys h, put_keys]
    by_cases hk : k ∈ acc.map Prod.fst
    · simp only [if_pos hk, List.map_cons]
      rw [List.filter_cons_of_neg (by simpa using hk)]
    · simp only [if_neg hk, List.map_cons]
      rw [List.filter_cons_of_pos (by simpa using hk), List.eraseDups_cons, List.filter_filter]
      simp only [List.append_assoc, List.cons_append, List.nil_append, List.append_cancel_left_eq, List.cons.injEq, true_and]
      congr 1
      apply List.filter_congr
      intro k' _
      simp only [List.mem_append, List.mem_singleton, not_or, Bool.decide_and, decide_not]
      rw [Bool.and_comm]
      congr 1

theorem decMap_iff {α : Type} {dec : Json → Option α} {R : Json → α → Prop} (h : ∀ j a, dec j = some a ↔ R j a) (v : Json)
    (m : List (String × α)) : decMap dec v = some m ↔ Mapping R v m := by
  cases v with
  | obj o =>
    simp only [decMap, Mapping, Json.obj.injEq, exists_eq_left']
    obtain ⟨h1, h2⟩ := decEntries_spec (dec := dec) o []
    constructor
    · intro hm
      refine ⟨?_, ?_, ?_⟩
      · have := decEntries_keys hm
        simpa [filter_all] using this
      · intro k j hj
        obtain ⟨a, ha⟩ := h1.1 ⟨m, hm⟩ k j hj
        exact ⟨a, (h j a).1 ha⟩
      · intro k j a hl ha
        obtain ⟨g1, g2⟩ := h2 m hm
        have g1 := g1 (by simp [IsMap])
        obtain ⟨a', ha'⟩ := h1.1 ⟨m, hm⟩ k j (by obtain ⟨p, q, rfl, -⟩ := hl; simp)
        have hin := (g2 k a').2 (.inl ⟨j, hl, ha'⟩)
        have : a = a' := map_unique g1 ha hin
        subst this
        exact (h j a).1 ha'
    · rintro ⟨hk, hall, hlast⟩
      obtain ⟨m', hm'⟩ := h1.2 fun k j hj => (hall k j hj).imp fun a ha => (h j a).2 ha
      rw [hm', Option.some.injEq]
      have hk' : m'.map Prod.fst = m.map Prod.fst := by
        have := decEntries_keys hm'
        rw [hk]; simpa [filter_all] using this
      obtain ⟨g1, g2⟩ := h2 m' hm'
      apply List.ext_getElem
      · simpa using congrArg List.length hk'
      · intro i hi hi'
        have e : m'[i].1 = m[i].1 := by
          have := congrArg (fun l => l[i]?) hk'
          simp only [List.getElem?_map, List.getElem?_eq_getElem hi, List.getElem?_eq_getElem hi', Option.map_some,
            Option.some.injEq] at this
          exact this
        have hin := (g2 m'[i].1 m'[i].2).1 (List.getElem_mem hi)
        rcases hin with ⟨j, hl, hj⟩ | ⟨-, hf⟩
        · have := hlast m'[i].1 j m[i].2 hl (by rw [e]; exact List.getElem_mem hi')
          rw [← h, hj, Option.some.injEq] at this
          exact Prod.ext e this
        · simp at hf
  | _ => simp [decMap, Mapping]

end AstroRun
