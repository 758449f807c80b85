import Verif.Base

/-! Lemmas about insertion-ordered dictionaries. -/

namespace PXml.Dict

variable {α β γ : Type} [DecidableEq α]

@[simp] theorem get?_nil (k : α) : get? ([] : Dict α β) k = none := rfl

theorem get?_cons (k' k : α) (v : β) (d : Dict α β) :
    get? ((k', v) :: d) k = if k' = k then some v else get? d k := rfl

theorem get?_set (d : Dict α β) (k k' : α) (v : β) :
    (d.set k v).get? k' = if k = k' then some v else d.get? k' := by
  induction d with
  | nil => simp [set, get?]
  | cons kv d ih =>
    obtain ⟨a, b⟩ := kv
    by_cases h : a = k
    · subst h; simp only [set, if_true, get?_cons]
      by_cases h2 : a = k' <;> simp [h2]
    · simp only [set, h, if_false, get?_cons, ih]
      by_cases h2 : a = k'
      · subst h2; simp [Ne.symm h]
      · simp [h2]

@[simp] theorem get?_set_self (d : Dict α β) (k : α) (v : β) : (d.set k v).get? k = some v := by simp [get?_set]

theorem get?_set_ne (d : Dict α β) {k k' : α} (v : β) (h : k ≠ k') : (d.set k v).get? k' = d.get? k' := by
  simp [get?_set, h]

theorem get?_eq_none_iff (d : Dict α β) (k : α) : d.get? k = none ↔ k ∉ d.keys := by
  induction d with
  | nil => simp [keys]
  | cons kv d ih =>
    obtain ⟨a, b⟩ := kv
    rw [get?_cons]
    by_cases h : a = k
    · simp [h, keys]
    · simp [h, keys, ih, Ne.symm h]

theorem get?_append (a b : Dict α β) (k : α) : get? (a ++ b) k = (get? a k).or (get? b k) := by
  induction a with
  | nil => simp
  | cons kv a ih =>
    obtain ⟨x, y⟩ := kv
    rw [List.cons_append, get?_cons, get?_cons, ih]
    by_cases h : x = k <;> simp [h]

theorem mem_of_get? {d : Dict α β} {k : α} {v : β} (h : d.get? k = some v) : (k, v) ∈ d := by
  induction d with
  | nil => simp at h
  | cons kv d ih =>
    obtain ⟨a, b⟩ := kv
    rw [get?_cons] at h
    by_cases h' : a = k
    · simp [h'] at h; simp [h', h]
    · simp [h'] at h; simp [ih h]

theorem get?_of_mem {d : Dict α β} (hd : d.WF) {k : α} {v : β} (h : (k, v) ∈ d) : d.get? k = some v := by
  induction d with
  | nil => simp at h
  | cons kv d ih =>
    obtain ⟨a, b⟩ := kv
    rw [get?_cons]
    simp only [WF, keys, List.map_cons, List.nodup_cons] at hd
    rcases List.mem_cons.1 h with h | h
    · simp [Prod.mk.inj h]
    · have : a ≠ k := by
        rintro rfl; exact hd.1 (List.mem_map.2 ⟨_, h, rfl⟩)
      simp [this, ih hd.2 h]

theorem keys_set (d : Dict α β) (k : α) (v : β) :
    (d.set k v).keys = if k ∈ d.keys then d.keys else d.keys ++ [k] := by
  induction d with
  | nil => simp [set, keys]
  | cons kv d ih =>
    obtain ⟨a, b⟩ := kv
    by_cases h : a = k
    · subst h; simp [set, keys]
    · simp only [set, h, if_false]
      simp only [keys, List.map_cons, List.mem_cons, Ne.symm h, false_or] at ih ⊢
      rw [ih]; split <;> simp [*]

theorem set_of_not_mem {d : Dict α β} {k : α} (h : k ∉ d.keys) (v : β) : d.set k v = d ++ [(k, v)] := by
  induction d with
  | nil => rfl
  | cons kv d ih =>
    obtain ⟨a, b⟩ := kv
    simp only [keys, List.map_cons, List.mem_cons, not_or] at h
    simp only [set, Ne.symm h.1, if_false, List.cons_append, List.cons.injEq, true_and]
    exact ih h.2

theorem erase_of_not_mem {d : Dict α β} {k : α} (h : k ∉ d.keys) : d.erase k = d := by
  induction d with
  | nil => rfl
  | cons kv d ih =>
    obtain ⟨a, b⟩ := kv
    simp only [keys, List.map_cons, List.mem_cons, not_or] at h
    simp only [erase, Ne.symm h.1, if_false, List.cons.injEq, true_and]
    exact ih h.2

omit [DecidableEq α] in
theorem wf_nil : WF ([] : Dict α β) := by simp [WF, keys]

theorem wf_set {d : Dict α β} (h : d.WF) (k : α) (v : β) : (d.set k v).WF := by
  unfold WF at *; rw [keys_set]; split
  · exact h
  · rename_i hk
    rw [List.nodup_append]
    refine ⟨h, by simp, ?_⟩
    intro a ha b hb
    simp only [List.mem_singleton] at hb
    subst hb; rintro rfl; exact hk ha

theorem keys_erase_sublist (d : Dict α β) (k : α) : (d.erase k).keys.Sublist d.keys := by
  induction d with
  | nil => exact List.Sublist.refl _
  | cons kv d ih =>
    obtain ⟨a, b⟩ := kv
    by_cases h : a = k
    · simp [erase, h, keys]
    · simp only [erase, h, if_false, keys, List.map_cons]
      exact ih.cons_cons a

theorem wf_erase {d : Dict α β} (h : d.WF) (k : α) : (d.erase k).WF := h.sublist (keys_erase_sublist d k)

theorem get?_erase_self {d : Dict α β} (h : d.WF) (k : α) : (d.erase k).get? k = none := by
  induction d with
  | nil => rfl
  | cons kv d ih =>
    obtain ⟨a, b⟩ := kv
    simp only [WF, keys, List.map_cons, List.nodup_cons] at h
    by_cases h' : a = k
    · subst h'; simp only [erase, if_true]; rw [get?_eq_none_iff]; exact h.1
    · simp only [erase, h', if_false, get?_cons]; exact ih h.2

theorem get?_erase_ne (d : Dict α β) {k k' : α} (h : k ≠ k') : (d.erase k).get? k' = d.get? k' := by
  induction d with
  | nil => rfl
  | cons kv d ih =>
    obtain ⟨a, b⟩ := kv
    by_cases h' : a = k
    · subst h'; simp [erase, get?_cons, h]
    · simp only [erase, h', if_false, get?_cons, ih]

/-- Removing a key takes exactly the entry `get?` finds out of the dictionary. -/
theorem perm_erase {d : Dict α β} {k : α} {v : β} (h : d.get? k = some v) : d.Perm ((k, v) :: d.erase k) := by
  induction d with
  | nil => simp at h
  | cons kv d ih =>
    obtain ⟨a, b⟩ := kv
    rw [get?_cons] at h
    by_cases h' : a = k
    · simp [h'] at h; subst h' h; simp [erase]
    · simp only [h', if_false] at h
      simp only [erase, h', if_false]
      exact ((ih h).cons _).trans (List.Perm.swap _ _ _)

theorem length_erase {d : Dict α β} {k : α} {v : β} (h : d.get? k = some v) : d.length = (d.erase k).length + 1 := by
  simpa using (perm_erase h).length_eq

theorem length_erase_le (d : Dict α β) (k : α) : (d.erase k).length ≤ d.length := by
  induction d with
  | nil => simp [erase]
  | cons kv d ih =>
    obtain ⟨a, b⟩ := kv
    by_cases h' : a = k
    · simp [erase, h']
    · simp [erase, h', ih]

theorem update_cons (a : Dict α β) (k : α) (v : β) (b : Dict α β) : update a ((k, v) :: b) = update (a.set k v) b := rfl

@[simp] theorem update_nil (a : Dict α β) : update a [] = a := rfl

theorem get?_update (a b : Dict α β) (hb : b.WF) (k : α) : (update a b).get? k = (b.get? k).or (a.get? k) := by
  induction b generalizing a with
  | nil => simp
  | cons kv b ih =>
    obtain ⟨x, y⟩ := kv
    simp only [WF, keys, List.map_cons, List.nodup_cons] at hb
    rw [update_cons, ih _ hb.2, get?_cons, get?_set]
    by_cases h : x = k
    · subst h
      have : get? b x = none := (get?_eq_none_iff b x).2 hb.1
      simp [this]
    · simp [h]

theorem wf_update {a : Dict α β} (ha : a.WF) (b : Dict α β) : (update a b).WF := by
  induction b generalizing a with
  | nil => exact ha
  | cons kv b ih => exact ih (wf_set ha _ _)

theorem wf_ofItems (l : List (α × β)) : (ofItems l).WF := wf_update wf_nil l

theorem update_of_disjoint (a b : Dict α β) (hb : b.WF) (h : ∀ k ∈ b.keys, k ∉ a.keys) : update a b = a ++ b := by
  induction b generalizing a with
  | nil => simp
  | cons kv b ih =>
    obtain ⟨x, y⟩ := kv
    simp only [WF, keys, List.map_cons, List.nodup_cons] at hb
    rw [update_cons, set_of_not_mem (h x (by simp [keys])), ih _ hb.2]
    · simp
    · intro k hk hk2
      simp only [keys, List.map_append, List.map_cons, List.map_nil, List.mem_append, List.mem_singleton] at hk2
      rcases hk2 with hk2 | rfl
      · exact h k (by simp only [keys, List.map_cons, List.mem_cons]; exact Or.inr hk) hk2
      · exact hb.1 hk

theorem ofItems_of_wf {l : Dict α β} (h : l.WF) : ofItems l = l := by
  have := update_of_disjoint ([] : Dict α β) l h (by simp [keys])
  simpa [ofItems] using this

end PXml.Dict
