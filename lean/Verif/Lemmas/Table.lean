import Verif.Model.Ast
/-! # Lemmas about the declaration table -/
namespace Verif
namespace Table

/-- A sequence of registrations. -/
def setAll (t : Table) (regs : List (Nat × SymInfo)) : Table := regs.foldl (fun t r => t.set r.1 r.2) t

@[simp] theorem setAll_nil (t : Table) : t.setAll [] = t := rfl
@[simp] theorem setAll_cons (t : Table) (r) (rs) : t.setAll (r :: rs) = (t.set r.1 r.2).setAll rs := rfl
theorem setAll_append (t : Table) (a b) : t.setAll (a ++ b) = (t.setAll a).setAll b := by
  simp [setAll, List.foldl_append]

/-- The warnings of a sequence of registrations. -/
def conflicts : Table → List (Nat × SymInfo) → List Conflict
  | _, [] => []
  | t, r :: rs => t.conflict r.1 r.2 ++ conflicts (t.set r.1 r.2) rs

@[simp] theorem conflicts_nil (t : Table) : t.conflicts [] = [] := rfl
@[simp] theorem conflicts_cons (t : Table) (r) (rs) : t.conflicts (r :: rs) = t.conflict r.1 r.2 ++ (t.set r.1 r.2).conflicts rs := rfl
theorem conflicts_append (t : Table) (a b) : t.conflicts (a ++ b) = t.conflicts a ++ (t.setAll a).conflicts b := by
  induction a generalizing t with
  | nil => rfl
  | cons r a ih => simp [ih]

theorem get_nil (p : Nat) : get [] p = none := rfl

theorem lookup_filter_ne (t : Table) (p q : Nat) (h : q ≠ p) :
    (t.filter (fun e => e.1 != p)).lookup q = t.lookup q := by
  induction t with
  | nil => rfl
  | cons e t ih =>
    obtain ⟨a, b⟩ := e
    by_cases ha : a = p
    · subst ha
      have hq : (q == a) = false := by simpa using h
      simp [List.lookup_cons, hq, ih]
    · simp [List.lookup_cons, ha, ih]

theorem get_put_self (t : Table) (p : Nat) (i : SymInfo) : (t.put p i).get p = some i := by
  simp [put, get]

theorem get_put_ne (t : Table) (p q : Nat) (i : SymInfo) (h : q ≠ p) : (t.put p i).get q = t.get q := by
  have : (q == p) = false := by simpa using h
  simp [put, get, List.lookup_cons, this, lookup_filter_ne t p q h]

theorem get_set_ne (t : Table) (p q : Nat) (i : SymInfo) (h : q ≠ p) : (t.set p i).get q = t.get q := by
  unfold set; split
  · split
    · rfl
    · exact get_put_ne t p q i h
  · exact get_put_ne t p q i h

theorem getSymbol_set_self (t : Table) (p : Nat) (i : SymInfo) : (t.set p i).getSymbol p = some i.symbol := by
  unfold set; split
  · rename_i o ho
    split
    · rename_i h; simp [getSymbol, ho, h]
    · simp [getSymbol, get_put_self]
  · simp [getSymbol, get_put_self]

/-- Keys are unique. -/
def Uniq (t : Table) : Prop := (t.map (·.1)).Nodup

theorem uniq_nil : Uniq [] := by simp [Uniq]

theorem uniq_put (t : Table) (p i) (h : Uniq t) : Uniq (t.put p i) := by
  unfold Uniq put at *
  simp only [List.map_cons, List.nodup_cons]
  constructor
  · simp
  · exact h.sublist (List.filter_sublist.map _)

theorem uniq_set (t : Table) (p i) (h : Uniq t) : Uniq (t.set p i) := by
  unfold set; split
  · split
    · exact h
    · exact uniq_put t p i h
  · exact uniq_put t p i h

theorem uniq_setAll (regs) (t : Table) (h : Uniq t) : Uniq (t.setAll regs) := by
  induction regs generalizing t with
  | nil => exact h
  | cons r rs ih => exact ih _ (uniq_set t _ _ h)

/-- Everything found at a position was there or was registered for it. -/
theorem get_setAll_mem (regs) (t : Table) (p : Nat) (i : SymInfo) (h : (t.setAll regs).get p = some i) :
    t.get p = some i ∨ (p, i) ∈ regs := by
  induction regs generalizing t with
  | nil => left; exact h
  | cons r rs ih =>
    obtain ⟨q, j⟩ := r
    rcases ih _ h with h' | h'
    · by_cases hq : p = q
      · subst hq
        dsimp only at h'
        unfold set at h'
        split at h'
        · split at h'
          · left; exact h'
          · rw [get_put_self] at h'; right; simp at h'; simp [h']
        · rw [get_put_self] at h'; right; simp at h'; simp [h']
      · rw [get_set_ne _ _ _ _ hq] at h'; left; exact h'
    · right; simp [h']

/-- If all registrations for a position carry the same symbol then that symbol is found (given at least one
registration, or the symbol already being there). -/
theorem getSymbol_setAll (regs) (t : Table) (p : Nat) (s : Str)
    (hall : ∀ i, (p, i) ∈ regs → i.symbol = s) (hsome : t.getSymbol p = some s ∨ ∃ i, (p, i) ∈ regs) :
    (t.setAll regs).getSymbol p = some s := by
  induction regs generalizing t with
  | nil =>
    rcases hsome with h | ⟨i, h⟩
    · exact h
    · simp at h
  | cons r rs ih =>
    obtain ⟨q, j⟩ := r
    rw [setAll_cons]
    apply ih _ (fun i hi => hall i (by simp [hi]))
    by_cases hq : p = q
    · subst hq
      left
      rw [getSymbol_set_self, hall j (by simp)]
    · rcases hsome with h | ⟨i, h⟩
      · left
        rw [getSymbol, get_set_ne _ _ _ _ hq]; exact h
      · right
        simp [hq] at h
        exact ⟨i, h⟩

theorem get_setAll_isSome (regs) (t : Table) (p : Nat) (h : (t.get p).isSome) :
    ((t.setAll regs).get p).isSome := by
  induction regs generalizing t with
  | nil => exact h
  | cons r rs ih =>
    rw [setAll_cons]
    apply ih
    by_cases hq : p = r.1
    · have := getSymbol_set_self t r.1 r.2
      rw [← hq] at this ⊢
      simp [getSymbol] at this
      obtain ⟨a, ha, _⟩ := this
      simp [ha]
    · rw [get_set_ne _ _ _ _ hq]; exact h

end Table
end Verif
