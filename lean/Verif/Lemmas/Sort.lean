import Verif.Model.Sort
/-! # Lemmas on string order and sorting -/
namespace Verif

theorem Str.lt_irrefl (s : Str) : Str.lt s s = false := by
  induction s with
  | nil => rfl
  | cons c s ih => simp [Str.lt, ih]

theorem Str.lt_cons (c d : Char) (s t : Str) : Str.lt (c :: s) (d :: t) = true ↔
    c.toNat < d.toNat ∨ (c = d ∧ Str.lt s t = true) := by
  have e : Str.lt (c :: s) (d :: t) =
    (if c.toNat < d.toNat then true else if d.toNat < c.toNat then false else Str.lt s t) := by rw [Str.lt]
  rw [e]
  by_cases h1 : c.toNat < d.toNat
  · simp [h1]
  · by_cases h2 : d.toNat < c.toNat
    · have : c ≠ d := by rintro rfl; omega
      simp [h1, h2, this]
    · have : c = d := by
        apply Char.ext
        apply UInt32.toNat_inj.1
        have : c.val.toNat = d.val.toNat := by
          have e1 : c.val.toNat = c.toNat := rfl
          have e2 : d.val.toNat = d.toNat := rfl
          omega
        exact this
      simp [this]

theorem Str.lt_asymm {s t : Str} (h : Str.lt s t = true) : Str.lt t s = false := by
  induction s generalizing t with
  | nil => cases t with
    | nil => simp [Str.lt] at h
    | cons d t => rfl
  | cons c s ih => cases t with
    | nil => simp [Str.lt] at h
    | cons d t =>
      apply Bool.eq_false_iff.2
      intro h2
      rcases (Str.lt_cons ..).1 h with a | ⟨rfl, a⟩ <;> rcases (Str.lt_cons ..).1 h2 with b | ⟨e, b⟩
      · omega
      · subst e; omega
      · omega
      · rw [ih a] at b; simp at b

theorem Str.lt_trans {s t u : Str} (h1 : Str.lt s t = true) (h2 : Str.lt t u = true) : Str.lt s u = true := by
  induction s generalizing t u with
  | nil => cases t with
    | nil => simp [Str.lt] at h1
    | cons d t => cases u with
      | nil => simp [Str.lt] at h2
      | cons e u => rfl
  | cons c s ih => cases t with
    | nil => simp [Str.lt] at h1
    | cons d t => cases u with
      | nil => simp [Str.lt] at h2
      | cons e u =>
        apply (Str.lt_cons ..).2
        rcases (Str.lt_cons ..).1 h1 with a | ⟨rfl, a⟩ <;> rcases (Str.lt_cons ..).1 h2 with b | ⟨rfl, b⟩
        · left; omega
        · left; omega
        · left; omega
        · right; exact ⟨rfl, ih a b⟩

theorem Str.lt_total {s t : Str} (h1 : Str.lt s t = false) (h2 : Str.lt t s = false) : s = t := by
  induction s generalizing t with
  | nil => cases t with
    | nil => rfl
    | cons d t => simp [Str.lt] at h1
  | cons c s ih => cases t with
    | nil => simp [Str.lt] at h2
    | cons d t =>
      have h1' : ¬ Str.lt (c :: s) (d :: t) = true := by simp [h1]
      have h2' : ¬ Str.lt (d :: t) (c :: s) = true := by simp [h2]
      rw [Str.lt_cons] at h1' h2'
      have : c = d := by
        apply Char.ext
        apply UInt32.toNat_inj.1
        have e1 : c.val.toNat = c.toNat := rfl
        have e2 : d.val.toNat = d.toNat := rfl
        have : ¬ c.toNat < d.toNat := fun h => h1' (.inl h)
        have : ¬ d.toNat < c.toNat := fun h => h2' (.inl h)
        omega
      subst this
      rw [ih (by simpa using h1') (by simpa using h2')]

/-- Strictly increasing. -/
abbrev StrictlySorted (l : List Str) : Prop := l.Pairwise (fun a b => Str.lt a b = true)

theorem mem_insertSym {x y : Str} {l : List Str} : y ∈ insertSym x l ↔ y = x ∨ y ∈ l := by
  induction l with
  | nil => simp [insertSym]
  | cons z l ih =>
    unfold insertSym
    split
    · simp
    · split
      · simp only [List.mem_cons, ih]
        constructor
        · rintro (h | h | h) <;> simp [h]
        · rintro (h | h | h) <;> simp [h]
      · rename_i h1 h2
        have : x = z := Str.lt_total (by simpa using h1) (by simpa using h2)
        subst this
        simp

theorem insertSym_sorted {x : Str} {l : List Str} (h : StrictlySorted l) : StrictlySorted (insertSym x l) := by
  induction l with
  | nil => simp [insertSym]
  | cons z l ih =>
    have h' := List.pairwise_cons.1 h
    unfold insertSym
    split
    · rename_i h1
      refine List.pairwise_cons.2 ⟨?_, h⟩
      intro y hy
      rcases List.mem_cons.1 hy with rfl | hy
      · exact h1
      · exact Str.lt_trans h1 (h'.1 y hy)
    · split
      · rename_i h2
        refine List.pairwise_cons.2 ⟨?_, ih h'.2⟩
        intro y hy
        rcases mem_insertSym.1 hy with rfl | hy
        · exact h2
        · exact h'.1 y hy
      · exact h

theorem mem_canonicalize {x : Str} {l : List Str} : x ∈ canonicalize l ↔ x ∈ l := by
  induction l with
  | nil => simp [canonicalize]
  | cons y l ih => simp [canonicalize, mem_insertSym, ih]

theorem canonicalize_sorted (l : List Str) : StrictlySorted (canonicalize l) := by
  induction l with
  | nil => simp [canonicalize]
  | cons y l ih => exact insertSym_sorted ih

/-- Strictly sorted lists with the same members are equal. -/
theorem sorted_ext {a b : List Str} (ha : StrictlySorted a) (hb : StrictlySorted b) (h : ∀ x, x ∈ a ↔ x ∈ b) : a = b := by
  induction a generalizing b with
  | nil => cases b with
    | nil => rfl
    | cons y b => exact absurd ((h y).2 (by simp)) (by simp)
  | cons x a ih => cases b with
    | nil => exact absurd ((h x).1 (by simp)) (by simp)
    | cons y b =>
      have ha' := List.pairwise_cons.1 ha
      have hb' := List.pairwise_cons.1 hb
      have hxy : x = y := by
        rcases List.mem_cons.1 ((h x).1 (by simp)) with e | hx
        · exact e
        · rcases List.mem_cons.1 ((h y).2 (by simp)) with e | hy
          · exact e.symm
          · have h1 := ha'.1 y hy
            have h2 := hb'.1 x hx
            rw [Str.lt_asymm h1] at h2; simp at h2
      subst hxy
      congr 1
      apply ih ha'.2 hb'.2
      intro z
      constructor
      · intro hz
        rcases List.mem_cons.1 ((h z).1 (by simp [hz])) with rfl | hz'
        · have := ha'.1 z hz; rw [Str.lt_irrefl] at this; simp at this
        · exact hz'
      · intro hz
        rcases List.mem_cons.1 ((h z).2 (by simp [hz])) with rfl | hz'
        · have := hb'.1 z hz; rw [Str.lt_irrefl] at this; simp at this
        · exact hz'

theorem canonicalize_idem (l : List Str) : canonicalize (canonicalize l) = canonicalize l :=
  sorted_ext (canonicalize_sorted _) (canonicalize_sorted _) (fun _ => mem_canonicalize)

theorem insertBy_perm {α : Type} (le : α → α → Bool) (x : α) (l : List α) : (insertBy le x l).Perm (x :: l) := by
  induction l with
  | nil => exact List.Perm.refl _
  | cons y l ih =>
    unfold insertBy
    split
    · exact List.Perm.refl _
    · exact (ih.cons y).trans (List.Perm.swap x y l)

theorem sortBy_perm {α : Type} (le : α → α → Bool) (l : List α) : (sortBy le l).Perm l := by
  induction l with
  | nil => exact List.Perm.refl _
  | cons x l ih => exact (insertBy_perm le x _).trans (ih.cons x)

theorem insertBy_sorted {α : Type} {le : α → α → Bool} (trans : ∀ a b c, le a b = true → le b c = true → le a c = true)
    (total : ∀ a b, le a b = true ∨ le b a = true) (x : α) (l : List α)
    (h : l.Pairwise (fun a b => le a b = true)) : (insertBy le x l).Pairwise (fun a b => le a b = true) := by
  induction l with
  | nil => simp [insertBy]
  | cons y l ih =>
    have h' := List.pairwise_cons.1 h
    unfold insertBy
    split
    · rename_i hxy
      refine List.pairwise_cons.2 ⟨?_, h⟩
      intro z hz
      rcases List.mem_cons.1 hz with rfl | hz
      · exact hxy
      · exact trans _ _ _ hxy (h'.1 z hz)
    · rename_i hxy
      refine List.pairwise_cons.2 ⟨?_, ih h'.2⟩
      intro z hz
      rcases List.mem_cons.1 ((insertBy_perm le x l).mem_iff.1 hz) with rfl | hz
      · rcases total z y with h | h
        · exact absurd h hxy
        · exact h
      · exact h'.1 z hz

theorem sortBy_sorted {α : Type} {le : α → α → Bool} (trans : ∀ a b c, le a b = true → le b c = true → le a c = true)
    (total : ∀ a b, le a b = true ∨ le b a = true) (l : List α) : (sortBy le l).Pairwise (fun a b => le a b = true) := by
  induction l with
  | nil => simp [sortBy]
  | cons x l ih => exact insertBy_sorted trans total x _ ih

theorem strLe_trans (a b c : Str) (h1 : (!Str.lt b a) = true) (h2 : (!Str.lt c b) = true) : (!Str.lt c a) = true := by
  simp only [Bool.not_eq_true'] at h1 h2 ⊢
  by_cases h3 : Str.lt c a = true
  · by_cases h4 : Str.lt a b = true
    · rw [Str.lt_trans h3 h4] at h2; simp at h2
    · have : a = b := Str.lt_total (by simpa using h4) h1
      subst this; rw [h3] at h2; simp at h2
  · simpa using h3

theorem strLe_total (a b : Str) : (!Str.lt b a) = true ∨ (!Str.lt a b) = true := by
  by_cases h : Str.lt a b = true
  · left; simp [Str.lt_asymm h]
  · right; simpa using h

theorem sortStrs_perm (l : List Str) : (sortStrs l).Perm l := sortBy_perm _ l

/-- Sorting a duplicate free list of strings gives a strictly sorted list. -/
theorem sortStrs_strict {l : List Str} (h : l.Nodup) : StrictlySorted (sortStrs l) := by
  have hs := sortBy_sorted strLe_trans strLe_total l
  have hn : (sortStrs l).Nodup := (sortStrs_perm l).nodup_iff.2 h
  unfold sortStrs at hn ⊢
  have hn' : List.Pairwise (fun a b => a ≠ b) (sortBy (fun a b => !Str.lt b a) l) := hn
  refine (hs.and hn').imp ?_
  rintro a b ⟨h1, h2⟩
  by_cases h3 : Str.lt a b = true
  · exact h3
  · exact absurd (Str.lt_total (by simpa using h3) (by simpa using h1)) h2

end Verif
