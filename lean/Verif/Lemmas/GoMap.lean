import Verif.Model.GoMap
namespace Verif.GoMap
variable {β : Type}

theorem lookup_filter_ne {m : GoMap β} {k k' : Str} (h : k' ≠ k) :
    List.lookup k' (m.filter (fun e => e.1 ≠ k)) = List.lookup k' m := by
  induction m with
  | nil => rfl
  | cons e m ih =>
    obtain ⟨a, b⟩ := e
    by_cases ha : a = k
    · subst ha
      rw [List.filter_cons_of_neg (by simp), ih, List.lookup_cons]
      rw [show (k' == a) = false from by simpa using h]
    · rw [List.filter_cons_of_pos (by simpa using ha), List.lookup_cons, List.lookup_cons, ih]

theorem get_set {m : GoMap β} {k k' : Str} {v : β} : (m.set k v).get k' = if k' = k then some v else m.get k' := by
  unfold get set
  rw [List.lookup_cons]
  by_cases h : k' = k
  · subst h; simp
  · rw [show (k' == k) = false from by simpa using h, if_neg h]
    exact lookup_filter_ne h

theorem mem_keys {m : GoMap β} {k : Str} : k ∈ m.keys ↔ ∃ v, m.get k = some v := by
  unfold keys get
  induction m with
  | nil => simp
  | cons e m ih =>
    obtain ⟨a, b⟩ := e
    rw [List.lookup_cons]
    by_cases h : k = a
    · subst h; simp
    · rw [show (k == a) = false from by simpa using h]
      simp only [List.map_cons, List.mem_cons, h, false_or]
      exact ih

theorem keys_set {m : GoMap β} {k k' : Str} {v : β} : k' ∈ (m.set k v).keys ↔ k' = k ∨ k' ∈ m.keys := by
  rw [mem_keys, mem_keys, get_set]
  by_cases h : k' = k <;> simp [h]

theorem set_nodup {m : GoMap β} {k : Str} {v : β} (h : m.keys.Nodup) : (m.set k v).keys.Nodup := by
  unfold keys set
  rw [List.map_cons, List.nodup_cons]
  refine ⟨?_, ?_⟩
  · intro hm
    obtain ⟨e, he, hk⟩ := List.mem_map.1 hm
    simp [hk] at he
  · exact h.sublist (List.filter_sublist.map _)

theorem mem_of_get {m : GoMap β} {k : Str} {v : β} (h : m.get k = some v) : (k, v) ∈ m := by
  unfold get at h
  induction m with
  | nil => simp at h
  | cons e m ih =>
    obtain ⟨a, b⟩ := e
    rw [List.lookup_cons] at h
    by_cases hk : k = a
    · subst hk; simp at h; subst h; simp
    · rw [show (k == a) = false from by simpa using hk] at h
      exact List.mem_cons_of_mem _ (ih h)

theorem get_of_mem {m : GoMap β} (hn : m.keys.Nodup) {k : Str} {v : β} (h : (k, v) ∈ m) : m.get k = some v := by
  unfold get
  induction m with
  | nil => simp at h
  | cons e m ih =>
    obtain ⟨a, b⟩ := e
    simp only [keys, List.map_cons, List.nodup_cons] at hn
    rw [List.lookup_cons]
    rcases List.mem_cons.1 h with h | h'
    · simp only [Prod.mk.injEq] at h; obtain ⟨rfl, rfl⟩ := h; simp
    · have : k ≠ a := by rintro rfl; exact hn.1 (List.mem_map.2 ⟨(k, v), h', rfl⟩)
      rw [show (k == a) = false from by simpa using this]
      exact ih hn.2 h'

end Verif.GoMap
