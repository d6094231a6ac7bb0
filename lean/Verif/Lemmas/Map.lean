import Verif.Model.Map

/-! # Lemmas about finite maps -/

namespace AstroRun
namespace AMap
variable {K V : Type} [DecidableEq K]

@[simp] theorem get?_nil (k : K) : get? ([] : AMap K V) k = none := rfl

theorem get?_cons (k k' : K) (v : V) (m : AMap K V) :
    get? ((k', v) :: m) k = if k' = k then some v else get? m k := rfl

theorem get?_erase (m : AMap K V) (k k' : K) :
    get? (erase m k) k' = if k = k' then none else get? m k' := by
  induction m with
  | nil => simp [erase]
  | cons e m ih =>
    obtain ⟨a, v⟩ := e
    simp only [erase, List.filter_cons] at ih ⊢
    by_cases h : a = k
    · subst h
      simp only [decide_true, Bool.not_true, Bool.false_eq_true, if_false, ih, get?_cons]
      by_cases h' : a = k' <;> simp [h']
    · simp only [h, decide_false, Bool.not_false, if_true, get?_cons, ih]
      by_cases h' : a = k'
      · subst h'; simp [Ne.symm h]
      · simp [h']

theorem get?_insert (m : AMap K V) (k k' : K) (v : V) :
    get? (insert m k v) k' = if k = k' then some v else get? m k' := by
  simp only [insert, get?_cons, get?_erase]
  by_cases h : k = k' <;> simp [h]

@[simp] theorem get?_insert_self (m : AMap K V) (k : K) (v : V) :
    get? (insert m k v) k = some v := by simp [get?_insert]

@[simp] theorem get?_erase_self (m : AMap K V) (k : K) : get? (erase m k) k = none := by
  simp [get?_erase]

theorem get?_eq_none_iff (m : AMap K V) (k : K) : get? m k = none ↔ k ∉ keys m := by
  induction m with
  | nil => simp [keys]
  | cons e m ih =>
    obtain ⟨a, v⟩ := e
    simp only [get?_cons, keys, List.map_cons, List.mem_cons] at ih ⊢
    by_cases h : a = k
    · simp [h]
    · simp [h, ih, Ne.symm h]

theorem contains_iff (m : AMap K V) (k : K) : contains m k = true ↔ k ∈ keys m := by
  rw [contains, Option.isSome_iff_ne_none, ne_eq, get?_eq_none_iff, Classical.not_not]

theorem mem_of_get? {m : AMap K V} {k : K} {v : V} (h : get? m k = some v) : (k, v) ∈ m := by
  induction m with
  | nil => simp at h
  | cons e m ih =>
    obtain ⟨a, w⟩ := e
    simp only [get?_cons] at h
    by_cases hk : a = k
    · simp [hk] at h; simp [hk, h]
    · simp [hk] at h; exact List.mem_cons_of_mem _ (ih h)

theorem get?_of_mem {m : AMap K V} {k : K} {v : V} (hn : (keys m).Nodup) (h : (k, v) ∈ m) :
    get? m k = some v := by
  induction m with
  | nil => simp at h
  | cons e m ih =>
    obtain ⟨a, w⟩ := e
    simp only [keys, List.map_cons, List.nodup_cons] at hn
    rcases List.mem_cons.1 h with h | h
    · cases h; simp [get?_cons]
    · have : a ≠ k := by
        rintro rfl
        exact hn.1 (List.mem_map_of_mem (f := Prod.fst) h)
      simp [get?_cons, this, ih hn.2 h]

theorem keys_erase (m : AMap K V) (k : K) :
    keys (erase m k) = (keys m).filter fun a => !decide (a = k) := by
  simp [keys, erase, List.filter_map, Function.comp_def]

theorem mem_keys_erase (m : AMap K V) (k a : K) : a ∈ keys (erase m k) ↔ a ∈ keys m ∧ a ≠ k := by
  simp [keys_erase]

theorem mem_keys_insert (m : AMap K V) (k a : K) (v : V) :
    a ∈ keys (insert m k v) ↔ a = k ∨ a ∈ keys m := by
  have : keys (insert m k v) = k :: keys (erase m k) := rfl
  rw [this, List.mem_cons, mem_keys_erase]
  by_cases h : a = k <;> simp [h]

theorem nodup_keys_erase {m : AMap K V} (h : (keys m).Nodup) (k : K) : (keys (erase m k)).Nodup := by
  rw [keys_erase]; exact h.filter _

theorem nodup_keys_insert {m : AMap K V} (h : (keys m).Nodup) (k : K) (v : V) :
    (keys (insert m k v)).Nodup := by
  have : keys (insert m k v) = k :: keys (erase m k) := rfl
  rw [this, List.nodup_cons]
  exact ⟨by simp [mem_keys_erase], nodup_keys_erase h k⟩

theorem mem_insert {m : AMap K V} {k : K} {v : V} {e : K × V} :
    e ∈ insert m k v ↔ e = (k, v) ∨ (e ∈ m ∧ e.1 ≠ k) := by
  simp [insert, erase]

theorem mem_erase {m : AMap K V} {k : K} {e : K × V} : e ∈ erase m k ↔ e ∈ m ∧ e.1 ≠ k := by
  simp [erase]

end AMap
end AstroRun
