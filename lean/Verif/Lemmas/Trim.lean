import Verif.Spec.Unicode
/-! # Trimming white space -/
namespace Verif
open Spec

theorem blanks_eq : Str.blanks = whiteSpace.map utf8 := by decide +kernel

theorem blank_iff (w : Str) : Blank w ↔ w ∈ Str.blanks := by
  rw [blanks_eq, List.mem_map]
  exact ⟨fun ⟨r, h, e⟩ => ⟨r, h, e.symm⟩, fun ⟨r, h, e⟩ => ⟨r, h, e.symm⟩⟩

theorem blanks_ne : ∀ w ∈ Str.blanks, w ≠ [] := by decide +kernel

theorem strip_spec {ws : List Str} (hw : ∀ w ∈ ws, w ≠ []) : ∀ (n : Nat) (s : Str), s.length ≤ n →
    (∃ vs : List Str, (∀ w ∈ vs, w ∈ ws) ∧ s = vs.flatten ++ Str.strip ws n s) ∧ ∀ w ∈ ws, ¬ w <+: Str.strip ws n s := by
  intro n
  induction n with
  | zero =>
    intro s hs
    have : s = [] := by simpa using hs
    subst this
    exact ⟨⟨[], by simp, rfl⟩, fun w h e => hw w h (by simpa [Str.strip] using e)⟩
  | succ n ih =>
    intro s hs
    rw [Str.strip]
    split
    · rename_i w hf
      have hm := List.mem_of_find?_eq_some hf
      have hp := List.find?_some hf
      rw [List.isPrefixOf_iff_prefix] at hp
      obtain ⟨t, rfl⟩ := hp
      have hpos : 0 < w.length := List.length_pos_iff.2 (hw w hm)
      rw [List.drop_left]
      obtain ⟨⟨vs, h1, h2⟩, h3⟩ := ih t (by simp at hs; omega)
      refine ⟨⟨w :: vs, ?_, ?_⟩, h3⟩
      · intro x hx
        rcases List.mem_cons.1 hx with rfl | hx
        · exact hm
        · exact h1 x hx
      · rw [List.flatten_cons, List.append_assoc, ← h2]
    · rename_i hf
      refine ⟨⟨[], by simp, rfl⟩, fun w h e => ?_⟩
      have := List.find?_eq_none.1 hf w h
      exact this (List.isPrefixOf_iff_prefix.2 e)

theorem strip_id {ws : List Str} {n : Nat} {s : Str} (h : ∀ w ∈ ws, ¬ w <+: s) : Str.strip ws n s = s := by
  cases n with
  | zero => rfl
  | succ n =>
    rw [Str.strip]
    have : ws.find? (fun w => w.isPrefixOf s) = none :=
      List.find?_eq_none.2 (fun w hw hp => h w hw (List.isPrefixOf_iff_prefix.1 hp))
    rw [this]

/-- The program's trimming is trimming. -/
theorem trimSpace_trimmed (s : Str) : Trimmed s (Str.trimSpace s) := by
  obtain ⟨⟨vs, h1, h2⟩, h3⟩ := strip_spec blanks_ne s.length s (Nat.le_refl _)
  have hr : ∀ w ∈ Str.blanks.map List.reverse, w ≠ [] := by
    intro w hw
    obtain ⟨x, hx, rfl⟩ := List.mem_map.1 hw
    simpa using blanks_ne x hx
  obtain ⟨⟨us, g1, g2⟩, g3⟩ := strip_spec hr (Str.strip Str.blanks s.length s).length (Str.strip Str.blanks s.length s).reverse (by simp)
  show Trimmed s (Str.strip (Str.blanks.map List.reverse) (Str.strip Str.blanks s.length s).length (Str.strip Str.blanks s.length s).reverse).reverse
  generalize Str.strip (Str.blanks.map List.reverse) (Str.strip Str.blanks s.length s).length (Str.strip Str.blanks s.length s).reverse = t at *
  generalize Str.strip Str.blanks s.length s = m at *
  have g2' : m = t.reverse ++ us.flatten.reverse := by
    rw [← List.reverse_append, ← g2, List.reverse_reverse]
  refine ⟨vs.flatten, us.flatten.reverse, ?_, ⟨vs, fun w hw => (blank_iff w).2 (h1 w hw), rfl⟩, ⟨(us.map List.reverse).reverse, ?_, ?_⟩, ?_⟩
  · rw [List.append_assoc, ← g2', ← h2]
  · intro w hw
    rw [List.mem_reverse] at hw
    obtain ⟨u, hu, rfl⟩ := List.mem_map.1 hw
    obtain ⟨x, hx, rfl⟩ := List.mem_map.1 (g1 u hu)
    rw [List.reverse_reverse]
    exact (blank_iff x).2 hx
  · rw [List.reverse_flatten]
  · intro w hw
    rw [blank_iff] at hw
    refine ⟨fun hp => h3 w hw ?_, fun hp => ?_⟩
    · rw [g2']; exact hp.trans (List.prefix_append _ _)
    · refine g3 w.reverse (List.mem_map.2 ⟨w, hw, rfl⟩) ?_
      have := List.reverse_prefix.2 hp
      simpa using this

theorem prefix_free : ∀ v ∈ Str.blanks, ∀ w ∈ Str.blanks, v.isPrefixOf w = true → v = w := by decide +kernel
theorem suffix_free : ∀ v ∈ Str.blanks, ∀ w ∈ Str.blanks, v.isSuffixOf w = true → v = w := by decide +kernel

/-- The first byte of a white-space character never is a later byte of one. -/
theorem blank_tail : ∀ v ∈ Str.blanks, ∀ w ∈ Str.blanks, ∀ c ∈ w.tail, v.head? ≠ some c := by decide +kernel

/-- A string between white space is not the beginning of a white-space character that goes on behind it. -/
theorem blank_inside {w t : Str} {bs : List Str} (hw : w ∈ Str.blanks) (hb : ∀ b ∈ bs, b ∈ Str.blanks) (h : w <+: t ++ bs.flatten) :
    t = [] ∨ w <+: t := by
  by_cases hl : w.length ≤ t.length
  · right
    exact List.prefix_of_prefix_length_le h (List.prefix_append _ _) hl
  · left
    obtain ⟨x, rfl⟩ : t <+: w := List.prefix_of_prefix_length_le (List.prefix_append _ _) h (by omega)
    rw [List.prefix_append_right_inj] at h
    cases t with
    | nil => rfl
    | cons a t =>
      exfalso
      cases x with
      | nil => simp at hl
      | cons c x =>
        cases bs with
        | nil => simp at h
        | cons v bs =>
          have hv := hb v (by simp)
          have := blank_tail v hv _ hw c (by simp)
          cases v with
          | nil => exact blanks_ne _ hv rfl
          | cons d v =>
            simp only [List.flatten_cons, List.cons_append, List.cons_prefix_cons] at h
            exact this (by rw [h.1]; rfl)

theorem left_unique {t t' : Str} {bs bs' : List Str} (hb : ∀ b ∈ bs, b ∈ Str.blanks) (hb' : ∀ b ∈ bs', b ∈ Str.blanks)
    (ht : t ≠ []) (ht' : t' ≠ []) (hp : ∀ w ∈ Str.blanks, ¬ w <+: t) (hp' : ∀ w ∈ Str.blanks, ¬ w <+: t') :
    ∀ (as as' : List Str), (∀ a ∈ as, a ∈ Str.blanks) → (∀ a ∈ as', a ∈ Str.blanks) →
      as.flatten ++ (t ++ bs.flatten) = as'.flatten ++ (t' ++ bs'.flatten) → t ++ bs.flatten = t' ++ bs'.flatten := by
  intro as
  induction as with
  | nil =>
    intro as' _ ha' h
    cases as' with
    | nil => simpa using h
    | cons w as' =>
      exfalso
      have hw := ha' w (by simp)
      have : w <+: t ++ bs.flatten := ⟨as'.flatten ++ (t' ++ bs'.flatten), by rw [← List.append_assoc]; simpa using h.symm⟩
      rcases blank_inside hw hb this with e | e
      · exact ht e
      · exact hp w hw e
  | cons v as ih =>
    intro as' ha ha' h
    have hv := ha v (by simp)
    cases as' with
    | nil =>
      exfalso
      have : v <+: t' ++ bs'.flatten := ⟨as.flatten ++ (t ++ bs.flatten), by rw [← List.append_assoc]; simpa using h⟩
      rcases blank_inside hv hb' this with e | e
      · exact ht' e
      · exact hp' v hv e
    | cons w as' =>
      have hw := ha' w (by simp)
      simp only [List.flatten_cons, List.append_assoc] at h
      have e : v = w := by
        have h1 : v <+: v ++ (as.flatten ++ (t ++ bs.flatten)) := List.prefix_append _ _
        have h2 : w <+: v ++ (as.flatten ++ (t ++ bs.flatten)) := by rw [h]; exact List.prefix_append _ _
        rcases List.prefix_or_prefix_of_prefix h1 h2 with h | h
        · exact prefix_free v hv w hw (List.isPrefixOf_iff_prefix.2 h)
        · exact (prefix_free w hw v hv (List.isPrefixOf_iff_prefix.2 h)).symm
      subst e
      exact ih as' (fun a h => ha a (by simp [h])) (fun a h => ha' a (by simp [h])) (List.append_cancel_left h)

theorem right_unique {t t' : Str} (hp : ∀ w ∈ Str.blanks, ¬ w <:+ t) (hp' : ∀ w ∈ Str.blanks, ¬ w <:+ t') :
    ∀ (n : Nat) (bs bs' : List Str), bs.length = n → (∀ b ∈ bs, b ∈ Str.blanks) → (∀ b ∈ bs', b ∈ Str.blanks) → t ++ bs.flatten = t' ++ bs'.flatten → t = t' := by
  intro n
  induction n with
  | zero =>
    intro bs bs' hn _ hb' h
    have : bs = [] := List.length_eq_zero_iff.1 hn
    subst this
    rcases List.eq_nil_or_concat bs' with rfl | ⟨bs', w, rfl⟩
    · simpa using h
    · exfalso
      refine hp w (hb' w (by simp)) ⟨t' ++ bs'.flatten, ?_⟩
      simpa using h.symm
  | succ n ih =>
    intro bs bs' hn hb hb' h
    rcases List.eq_nil_or_concat bs with rfl | ⟨bs, v, rfl⟩
    · simp at hn
    · have hv := hb v (by simp)
      rcases List.eq_nil_or_concat bs' with rfl | ⟨bs', w, rfl⟩
      · exfalso
        refine hp' v hv ⟨t ++ bs.flatten, ?_⟩
        simpa using h
      · have hw := hb' w (by simp)
        have h' : (t ++ bs.flatten) ++ v = (t' ++ bs'.flatten) ++ w := by simpa using h
        have e : v = w := by
          have h1 : v <:+ (t ++ bs.flatten) ++ v := List.suffix_append _ _
          have h2 : w <:+ (t ++ bs.flatten) ++ v := by rw [h']; exact List.suffix_append _ _
          rcases List.suffix_or_suffix_of_suffix h1 h2 with h | h
          · exact suffix_free v hv w hw (List.isSuffixOf_iff_suffix.2 h)
          · exact (suffix_free w hw v hv (List.isSuffixOf_iff_suffix.2 h)).symm
        subst e
        exact ih bs bs' (by simpa using hn) (fun a h => hb a (by simp [h])) (fun a h => hb' a (by simp [h])) (List.append_cancel_right h')

theorem blanks_only {t : Str} {bs : List Str} (hb : ∀ b ∈ bs, b ∈ Str.blanks) (hp : ∀ w ∈ Str.blanks, ¬ w <+: t) :
    ∀ (as ws : List Str), (∀ a ∈ as, a ∈ Str.blanks) → (∀ w ∈ ws, w ∈ Str.blanks) → ws.flatten = as.flatten ++ (t ++ bs.flatten) → t = [] := by
  intro as
  induction as with
  | nil =>
    intro ws _ hws h
    cases ws with
    | nil =>
      have := congrArg List.length h
      simp at this
      exact List.length_eq_zero_iff.1 (by omega)
    | cons w ws =>
      have : w <+: t ++ bs.flatten := ⟨ws.flatten, by simpa using h⟩
      rcases blank_inside (hws w (by simp)) hb this with e | e
      · exact e
      · exact absurd e (hp w (hws w (by simp)))
  | cons v as ih =>
    intro ws ha hws h
    have hv := ha v (by simp)
    cases ws with
    | nil =>
      have := congrArg List.length h
      simp at this
      exact absurd (List.length_eq_zero_iff.1 (by omega)) (blanks_ne v hv)
    | cons w ws =>
      have hw := hws w (by simp)
      simp only [List.flatten_cons, List.append_assoc] at h
      have e : w = v := by
        have h1 : w <+: w ++ ws.flatten := List.prefix_append _ _
        have h2 : v <+: w ++ ws.flatten := by rw [h]; exact List.prefix_append _ _
        rcases List.prefix_or_prefix_of_prefix h1 h2 with h | h
        · exact prefix_free w hw v hv (List.isPrefixOf_iff_prefix.2 h)
        · exact (prefix_free v hv w hw (List.isPrefixOf_iff_prefix.2 h)).symm
      subst e
      exact ih ws (fun a h => ha a (by simp [h])) (fun a h => hws a (by simp [h])) (List.append_cancel_left h)

/-- There is only one way to trim a string. -/
theorem trimmed_unique {s t t' : Str} (h : Trimmed s t) (h' : Trimmed s t') : t = t' := by
  obtain ⟨a, b, e, ⟨as, ha, rfl⟩, ⟨bs, hb, rfl⟩, ht⟩ := h
  obtain ⟨a', b', e', ⟨as', ha', rfl⟩, ⟨bs', hb', rfl⟩, ht'⟩ := h'
  simp only [blank_iff] at ha hb ha' hb'
  have hp : ∀ w ∈ Str.blanks, ¬ w <+: t := fun w hw => (ht w ((blank_iff w).2 hw)).1
  have hp' : ∀ w ∈ Str.blanks, ¬ w <+: t' := fun w hw => (ht' w ((blank_iff w).2 hw)).1
  have hq : ∀ w ∈ Str.blanks, ¬ w <:+ t := fun w hw => (ht w ((blank_iff w).2 hw)).2
  have hq' : ∀ w ∈ Str.blanks, ¬ w <:+ t' := fun w hw => (ht' w ((blank_iff w).2 hw)).2
  rw [List.append_assoc] at e e'
  have all : ∀ (xs ys : List Str), (∀ x ∈ xs, x ∈ Str.blanks) → (∀ y ∈ ys, y ∈ Str.blanks) → ∀ x ∈ xs ++ ys, x ∈ Str.blanks := by
    intro xs ys h1 h2 x hx
    rcases List.mem_append.1 hx with h | h
    · exact h1 x h
    · exact h2 x h
  by_cases h0 : t = []
  · subst h0
    refine (blanks_only hb' hp' as' (as ++ bs) ha' (all _ _ ha hb) ?_).symm
    rw [← e', e]; simp
  · by_cases h0' : t' = []
    · subst h0'
      exact blanks_only hb hp as (as' ++ bs') ha (all _ _ ha' hb') (by rw [← e, e']; simp)
    · exact right_unique hq hq' bs.length bs bs' rfl hb hb' (left_unique hb hb' h0 h0' hp hp' as as' ha ha' (e.symm.trans e'))

/-- Trimming, described without reference to the program. -/
theorem trimSpace_iff (s t : Str) : Str.trimSpace s = t ↔ Trimmed s t :=
  ⟨fun h => h ▸ trimSpace_trimmed s, fun h => trimmed_unique (trimSpace_trimmed s) h⟩

instance (s : Str) : Decidable (NoBlankEnds s) :=
  decidable_of_iff (∀ w ∈ Str.blanks, ¬ w.isPrefixOf s ∧ ¬ w.isSuffixOf s) (by
    simp only [NoBlankEnds, blank_iff, List.isPrefixOf_iff_prefix, List.isSuffixOf_iff_suffix])

/-- Two texts without white space at their ends, on two lines, have none at their ends. -/
theorem noBlankEnds_lines {a b : Str} (ha : a ≠ []) (hb : b ≠ []) (h1 : NoBlankEnds a) (h2 : NoBlankEnds b) : NoBlankEnds (a ++ '\n' :: b) := by
  intro w hw
  have hn : ['\n'] ∈ Str.blanks := by decide
  have hm := (blank_iff w).1 hw
  constructor
  · intro h
    by_cases hl : w.length ≤ a.length
    · exact (h1 w hw).1 (List.prefix_of_prefix_length_le h (List.prefix_append _ _) hl)
    · obtain ⟨x, rfl⟩ : a <+: w := List.prefix_of_prefix_length_le (List.prefix_append _ _) h (by omega)
      rw [List.prefix_append_right_inj] at h
      cases x with
      | nil => simp at hl
      | cons c x =>
        rw [List.cons_prefix_cons] at h
        cases a with
        | nil => exact ha rfl
        | cons d a => exact blank_tail _ hn _ hm c (by simp) (by rw [h.1]; rfl)
  · intro h
    by_cases hl : w.length ≤ b.length
    · exact (h2 w hw).2 (List.suffix_of_suffix_length_le h ((List.suffix_cons _ _).trans (List.suffix_append _ _)) hl)
    · obtain ⟨x, rfl⟩ : '\n' :: b <:+ w := List.suffix_of_suffix_length_le (List.suffix_append _ _) h (by simp; omega)
      cases x with
      | nil =>
        have : ∀ w ∈ Str.blanks, w.head? = some '\n' → w.tail = [] := by decide +kernel
        exact hb (this _ hm rfl)
      | cons d x => exact blank_tail _ hn _ hm '\n' (by simp) rfl

end Verif
