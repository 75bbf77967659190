import Verif.Lemmas.Table
import Mathlib.Data.List.Perm.Basic
import Mathlib.Data.List.Nodup
/-! # C18, C19: the declaration table -/
namespace Verif
namespace Table

theorem get_set_self_cases (t : Table) (p : Nat) (i : SymInfo) :
    (t.set p i).get p = match t.get p with
      | some o => if o.symbol = i.symbol then some o else some i
      | none => some i := by
  unfold set
  cases h : t.get p with
  | none => simp [get_put_self]
  | some o =>
    dsimp only
    split
    · simp [h]
    · simp [get_put_self]

end Table

/-- The registrations made for one position, in order. -/
def Spec.regsAt (regs : List (Nat × SymInfo)) (p : Nat) : List SymInfo :=
  (regs.filter (fun r => r.1 == p)).map (·.2)

/-- **C18**: after any sequence of registrations starting from the empty table,
* a position without registrations has no entry;
* otherwise the entry of a position is the *first* of the last block of registrations for this position that carry
  the same symbol: everything registered for it afterwards has the same symbol, and what was registered
  directly before had another one;
* keys are unique. -/
theorem C18_table_after_registrations (regs : List (Nat × SymInfo)) (p : Nat) :
    let t : Table := regs.foldl (fun t r => Table.set t r.1 r.2) []
    (t.get p = none ↔ Spec.regsAt regs p = []) ∧
    (∀ i, t.get p = some i → ∃ a b, Spec.regsAt regs p = a ++ i :: b ∧ (∀ x ∈ b, x.symbol = i.symbol) ∧
      (∀ y, a.getLast? = some y → y.symbol ≠ i.symbol)) ∧
    (t.map (·.1)).Nodup := by
  intro t
  refine ⟨?_, ?_, Table.uniq_setAll regs [] Table.uniq_nil⟩
  · -- presence
    have : ∀ (regs : List (Nat × SymInfo)) (t : Table), (regs.foldl (fun t r => Table.set t r.1 r.2) t).get p = none ↔
        t.get p = none ∧ Spec.regsAt regs p = [] := by
      intro regs
      induction regs with
      | nil => intro t; simp [Spec.regsAt]
      | cons r rs ih =>
        intro t
        rw [List.foldl_cons, ih]
        by_cases hr : r.1 = p
        · subst hr
          rw [Table.get_set_self_cases]
          constructor
          · rintro ⟨h, _⟩
            split at h
            · split at h <;> simp at h
            · simp at h
          · rintro ⟨_, h⟩
            simp [Spec.regsAt] at h
        · rw [Table.get_set_ne _ _ _ _ (fun h => hr h.symm)]
          simp [Spec.regsAt, hr]
    rw [this]; simp [Table.get_nil]
  · -- which entry: append one registration at the end
    suffices h : ∀ (rev : List (Nat × SymInfo)) i,
        (rev.reverse.foldl (fun t r => Table.set t r.1 r.2) []).get p = some i →
        ∃ a b, Spec.regsAt rev.reverse p = a ++ i :: b ∧ (∀ x ∈ b, x.symbol = i.symbol) ∧
          (∀ y, a.getLast? = some y → y.symbol ≠ i.symbol) by
      have := h regs.reverse
      simpa using this
    intro rev
    induction rev with
    | nil => intro i h; simp [Table.get] at h
    | cons r rs ih =>
      intro i h
      simp only [List.reverse_cons, List.foldl_append, List.foldl_cons, List.foldl_nil] at h ⊢
      by_cases hr : r.1 = p
      · subst hr
        have hreg : Spec.regsAt (rs.reverse ++ [r]) r.1 = Spec.regsAt rs.reverse r.1 ++ [r.2] := by
          simp [Spec.regsAt]
        rw [hreg]
        rw [Table.get_set_self_cases] at h
        cases ho : Table.get (rs.reverse.foldl (fun t r => Table.set t r.1 r.2) []) r.1 with
        | none =>
          rw [ho] at h
          simp only [Option.some.injEq] at h; subst h
          have hnil : Spec.regsAt rs.reverse r.1 = [] := by
            by_contra hne
            -- some registration exists, so the table has an entry
            have : ∀ (regs : List (Nat × SymInfo)) (t : Table), Spec.regsAt regs r.1 ≠ [] →
                (regs.foldl (fun t r => Table.set t r.1 r.2) t).get r.1 ≠ none := by
              intro regs
              induction regs with
              | nil => intro t h; simp [Spec.regsAt] at h
              | cons s ss ih' =>
                intro t h
                rw [List.foldl_cons]
                by_cases hs : Spec.regsAt ss r.1 = []
                · have hs1 : s.1 = r.1 := by
                    by_contra hne'
                    simp [Spec.regsAt, hne'] at h hs
                    obtain ⟨_, hm⟩ := h
                    exact absurd rfl (hs _ _ hm)
                  have : ((t.set s.1 s.2).get r.1).isSome := by
                    rw [hs1, Table.get_set_self_cases]
                    split
                    · split <;> rfl
                    · rfl
                  have := Table.get_setAll_isSome ss _ _ this
                  intro hn
                  unfold Table.setAll at this
                  rw [hn] at this; simp at this
                · exact ih' _ hs
            exact this _ _ hne ho
          rw [hnil]
          exact ⟨[], [], rfl, by simp, by simp⟩
        | some o =>
          rw [ho] at h
          obtain ⟨a, b, hab, hb, ha⟩ := ih o ho
          by_cases hs : o.symbol = r.2.symbol
          · simp only [hs, if_true, Option.some.injEq] at h; subst h
            refine ⟨a, b ++ [r.2], by rw [hab]; simp, ?_, ha⟩
            intro x hx
            rcases List.mem_append.1 hx with hx | hx
            · exact hb x hx
            · simp at hx; subst hx; exact hs.symm
          · simp only [hs, if_false, Option.some.injEq] at h; subst h
            refine ⟨a ++ o :: b, [], by rw [hab], by simp, ?_⟩
            intro y hy
            rw [List.getLast?_append] at hy
            cases hbl : b.getLast? with
            | none =>
              have : b = [] := by simpa using hbl
              subst this
              simp at hy; subst hy; exact hs
            | some z =>
              have hz : z ∈ b := List.mem_of_getLast? hbl
              rw [List.getLast?_cons, hbl] at hy
              simp at hy; subst hy
              rw [hb z hz]; exact hs
      · have hreg : Spec.regsAt (rs.reverse ++ [r]) p = Spec.regsAt rs.reverse p := by
          simp [Spec.regsAt, hr]
        rw [hreg]
        rw [Table.get_set_ne _ _ _ _ (fun h => hr h.symm)] at h
        exact ih i h

/-- **C18** (other positions are unaffected by a registration, and the registered symbol is found). -/
theorem C18_set_get (t : Table) (p q : Nat) (i : SymInfo) :
    (t.set p i).getSymbol p = some i.symbol ∧ (q ≠ p → (t.set p i).get q = t.get q) :=
  ⟨Table.getSymbol_set_self t p i, fun h => Table.get_set_ne t p q i h⟩

example : Spec.regsAt [(1, ⟨go!"a", .type, [], [], none⟩), (2, ⟨go!"b", .type, [], [], none⟩), (1, ⟨go!"c", .type, [], [], none⟩)] 1
    = [⟨go!"a", .type, [], [], none⟩, ⟨go!"c", .type, [], [], none⟩] := by decide

/-- **C19** (one document): whatever the iteration order of the table, an entry is listed for a file iff it is in the
table at a position of this file. -/
theorem C19_listed_iff (t order : Table) (hperm : order.Perm t) (fileOf : Nat → Option Nat) (f : Nat) (i : SymInfo) :
    i ∈ Table.symbolsForFile order fileOf f ↔ ∃ p, (p, i) ∈ t ∧ fileOf p = some f := by
  simp only [Table.symbolsForFile, List.mem_map, List.mem_filter, beq_iff_eq]
  constructor
  · rintro ⟨⟨p, j⟩, ⟨hm, hf⟩, rfl⟩
    exact ⟨p, hperm.mem_iff.1 hm, hf⟩
  · rintro ⟨p, hm, hf⟩
    exact ⟨(p, i), ⟨hperm.mem_iff.2 hm, hf⟩, rfl⟩

/-- **C19** (exactly once): if every position of the table lies in one of the files `fs` (pairwise different) then the
lists of all the documents together are, up to order, exactly the entries of the table — every entry
once, in the document of its file. -/
theorem C19_partition (t order : Table) (hperm : order.Perm t) (fileOf : Nat → Option Nat) (fs : List Nat) (hnd : fs.Nodup)
    (hcov : ∀ e ∈ t, ∃ f ∈ fs, fileOf e.1 = some f) :
    (fs.map (Table.symbolsForFile order fileOf)).flatten.Perm (t.map (·.2)) := by
  have key : ∀ (fs : List Nat) (order : Table), fs.Nodup → (∀ e ∈ order, ∃ f ∈ fs, fileOf e.1 = some f) →
      (fs.map (fun f => order.filter (fun e => fileOf e.1 == some f))).flatten.Perm order := by
    intro fs
    induction fs with
    | nil =>
      intro order _ h
      cases order with
      | nil => simp
      | cons e es => obtain ⟨f, hf, _⟩ := h e (by simp); simp at hf
    | cons f fs ih =>
      intro order hnd h
      rw [List.map_cons, List.flatten_cons]
      have hrest := ih (order.filter (fun e => !(fileOf e.1 == some f))) (List.nodup_cons.1 hnd).2 (by
        intro e he
        simp only [List.mem_filter, Bool.not_eq_true', beq_eq_false_iff_ne, ne_eq] at he
        obtain ⟨g, hg, hfg⟩ := h e he.1
        rcases List.mem_cons.1 hg with rfl | hg
        · exact absurd hfg he.2
        · exact ⟨g, hg, hfg⟩)
      have hsame : (fs.map (fun g => order.filter (fun e => fileOf e.1 == some g))) =
          (fs.map (fun g => (order.filter (fun e => !(fileOf e.1 == some f))).filter (fun e => fileOf e.1 == some g))) := by
        apply List.map_congr_left
        intro g hg
        rw [List.filter_filter]
        apply List.filter_congr
        intro e _
        have hgf : g ≠ f := by rintro rfl; exact (List.nodup_cons.1 hnd).1 hg
        by_cases he : fileOf e.1 = some g
        · simp [he, hgf]
        · simp [he]
      rw [hsame]
      exact (List.Perm.append_left _ hrest).trans (List.filter_append_perm _ _)
  have h1 := key fs order hnd (fun e he => hcov e (hperm.mem_iff.1 he))
  have h2 : (fs.map (Table.symbolsForFile order fileOf)).flatten =
      ((fs.map (fun f => order.filter (fun e => fileOf e.1 == some f))).flatten).map (·.2) := by
    rw [List.map_flatten, List.map_map]
    rfl
  rw [h2]
  exact (h1.map _).trans (hperm.map _)

example : ([(5, ⟨go!"a", .type, [], [], none⟩), (15, ⟨go!"b", .type, [], [], none⟩)] : Table).Perm
    [(15, ⟨go!"b", .type, [], [], none⟩), (5, ⟨go!"a", .type, [], [], none⟩)] := List.Perm.swap _ _ _

end Verif
