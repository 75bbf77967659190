import Verif.Lemmas.Semver
/-! # Pseudo-versions -/
namespace Verif.Semver
open Spec Re

theorem identifier_iff {s : Str} : Lang (plus (.cls isIdentChar)) s ↔ Identifier s := by
  rw [plus_cls_iff]; simp only [isIdentChar_iff, Identifier]

theorem digits_iff {s : Str} : Lang (plus (.cls isDigit)) s ↔ Digits s := by
  rw [plus_cls_iff]; simp only [isDigit_iff, Digits]

theorem dotted_iff {s : Str} : Lang (.star (.cat (chr '.') (plus (.cls isIdentChar)))) s ↔
    ∃ l : List Str, (∀ x ∈ l, Identifier x) ∧ s = l.flatMap ('.' :: ·) := by
  rw [star_iff]
  constructor
  · rintro ⟨l, hl, rfl⟩
    induction l with
    | nil => exact ⟨[], by simp, rfl⟩
    | cons x l ih =>
      obtain ⟨l', hl', e⟩ := ih fun y hy => hl y (by simp [hy])
      obtain ⟨a, b, rfl, h1, h2⟩ := cat_iff.1 (hl x (by simp))
      rw [chr_iff.1 h1]
      refine ⟨b :: l', ?_, by simp [e]⟩
      intro y hy
      rcases List.mem_cons.1 hy with rfl | hy
      · exact identifier_iff.1 h2
      · exact hl' y hy
  · rintro ⟨l, hl, rfl⟩
    refine ⟨l.map ('.' :: ·), ?_, by rw [List.flatMap_def]⟩
    intro x hx
    obtain ⟨y, hy, rfl⟩ := List.mem_map.1 hx
    exact cat_iff.2 ⟨['.'], y, rfl, chr_iff.2 rfl, identifier_iff.2 (hl y hy)⟩

theorem buildRE_iff {s : Str} : Lang (opt (.cat (chr '+') (.cat (plus (.cls isIdentChar))
    (.star (.cat (chr '.') (plus (.cls isIdentChar))))))) s ↔ Suffix '+' Identifier s := by
  rw [opt_iff, cat_iff]
  unfold Suffix
  constructor
  · rintro (⟨x, y, rfl, h1, h2⟩ | rfl)
    · right
      obtain ⟨a, r, rfl, h3, h4⟩ := cat_iff.1 h2
      obtain ⟨l, hl, rfl⟩ := dotted_iff.1 h4
      rw [chr_iff.1 h1]
      exact ⟨a, l, identifier_iff.1 h3, hl, rfl⟩
    · exact .inl rfl
  · rintro (rfl | ⟨a, l, ha, hl, rfl⟩)
    · exact .inr rfl
    · exact .inl ⟨['+'], _, rfl, chr_iff.2 rfl, cat_iff.2 ⟨a, _, rfl, identifier_iff.2 ha, dotted_iff.2 ⟨l, hl, rfl⟩⟩⟩

theorem preRE_iff {s : Str} : Lang (opt (.cat (.star (.cls (· != '+'))) (chr '.'))) s ↔
    (s = [] ∨ ∃ q, '+' ∉ q ∧ s = q ++ go!".") := by
  rw [opt_iff, cat_iff]
  constructor
  · rintro (⟨x, y, rfl, h1, h2⟩ | rfl)
    · right
      rw [chr_iff.1 h2]
      refine ⟨x, ?_, rfl⟩
      intro h
      have := star_cls_iff.1 h1 _ h
      simp at this
    · exact .inl rfl
  · rintro (rfl | ⟨q, hq, rfl⟩)
    · exact .inr rfl
    · refine .inl ⟨q, _, rfl, star_cls_iff.2 ?_, chr_iff.2 rfl⟩
      intro c hc
      simp only [bne_iff_ne, ne_eq]
      rintro rfl
      exact hq hc

theorem pseudoRE_iff {s : Str} : pseudoRE.isMatch s = true ↔ ∃ rev, PseudoShape s rev := by
  rw [isMatch_iff]
  unfold pseudoRE
  constructor
  · intro h
    obtain ⟨v, s, rfl, hv, h⟩ := cat_iff.1 h
    obtain ⟨major, s, rfl, hM, h⟩ := cat_iff.1 h
    obtain ⟨d1, s, rfl, hd1, h⟩ := cat_iff.1 h
    obtain ⟨mid, s, rfl, hmid, h⟩ := cat_iff.1 h
    obtain ⟨time, s, rfl, ht, h⟩ := cat_iff.1 h
    obtain ⟨d2, s, rfl, hd2, h⟩ := cat_iff.1 h
    obtain ⟨rev, b, rfl, hr, hb⟩ := cat_iff.1 h
    rw [chr_iff.1 hv, chr_iff.1 hd1, chr_iff.1 hd2]
    obtain ⟨hr1, hr2⟩ := plus_cls_iff.1 hr
    obtain ⟨ht1, ht2⟩ := times_cls_iff.1 ht
    refine ⟨rev, major, mid, time, b, digits_iff.1 hM, ?_, ⟨?_, fun c hc => isDigit_iff.1 (ht2 c hc)⟩, ht1, hr1, ?_, buildRE_iff.1 hb, ?_⟩
    · rcases alt_iff.1 hmid with hm | hm
      · exact .inl (lit_iff.1 hm)
      · right
        obtain ⟨minor, s, rfl, h1, h⟩ := cat_iff.1 hm
        obtain ⟨d3, s, rfl, hd3, h⟩ := cat_iff.1 h
        obtain ⟨patch, s, rfl, h2, h⟩ := cat_iff.1 h
        obtain ⟨d4, s, rfl, hd4, h⟩ := cat_iff.1 h
        obtain ⟨pre, s, rfl, h3, h⟩ := cat_iff.1 h
        rw [chr_iff.1 hd3, chr_iff.1 hd4, lit_iff.1 h]
        exact ⟨minor, patch, pre, digits_iff.1 h1, digits_iff.1 h2, preRE_iff.1 h3, by simp⟩
    · rintro rfl; simp at ht1
    · intro c hc; have := hr2 c hc; simpa [isLetter_iff, isDigit_iff] using this
    · simp
  · rintro ⟨rev, major, mid, time, b, hM, hmid, ht, ht1, hr, hr2, hb, rfl⟩
    have e : go!"v" ++ major ++ go!"." ++ mid ++ time ++ go!"-" ++ rev ++ b =
      go!"v" ++ (major ++ (go!"." ++ (mid ++ (time ++ (go!"-" ++ (rev ++ b)))))) := by simp
    rw [e]
    refine .cat (chr_iff.2 rfl) (.cat (digits_iff.2 hM) (.cat (chr_iff.2 rfl) (.cat ?_ (.cat (times_cls_iff.2 ⟨ht1, fun c hc => isDigit_iff.2 (ht.2 c hc)⟩)
      (.cat (chr_iff.2 rfl) (.cat (plus_cls_iff.2 ⟨hr, fun c hc => ?_⟩) (buildRE_iff.2 hb)))))))
    · rcases hmid with rfl | ⟨minor, patch, pre, h1, h2, h3, rfl⟩
      · exact .altL (lit_iff.2 rfl)
      · have e : minor ++ go!"." ++ patch ++ go!"-" ++ pre ++ go!"0." = minor ++ (go!"." ++ (patch ++ (go!"-" ++ (pre ++ go!"0.")))) := by simp
        rw [e]
        exact .altR (.cat (digits_iff.2 h1) (.cat (chr_iff.2 rfl) (.cat (digits_iff.2 h2) (.cat (chr_iff.2 rfl) (.cat (preRE_iff.2 h3) (lit_iff.2 rfl))))))
    · simpa [isLetter_iff, isDigit_iff] using hr2 c hc

theorem two_dashes {s rev : Str} (h : PseudoShape s rev) : 2 ≤ s.count '-' := by
  obtain ⟨major, mid, time, b, -, hmid, -, -, -, -, -, rfl⟩ := h
  have : 1 ≤ mid.count '-' := by
    rcases hmid with rfl | ⟨minor, patch, pre, -, -, -, rfl⟩
    · decide
    · simp only [List.count_append]
      have : go!"-".count '-' = 1 := by decide
      omega
  simp only [List.count_append]
  have : go!"-".count '-' = 1 := by decide
  omega

theorem isPseudo_iff {s : Str} : isPseudoVersion s = true ↔ ∃ rev, PseudoVersion s rev := by
  unfold isPseudoVersion PseudoVersion
  simp only [Bool.and_eq_true, decide_eq_true_eq, isValid_iff, pseudoRE_iff]
  constructor
  · rintro ⟨⟨_, h1⟩, rev, h2⟩; exact ⟨rev, h1, h2⟩
  · rintro ⟨rev, h1, h2⟩; exact ⟨⟨two_dashes h2, h1⟩, rev, h2⟩

theorem digit_ne {c : Char} (h : Digit c) : c ≠ '+' ∧ c ≠ '-' := by
  constructor <;> · rintro rfl; revert h; simp [Digit]

theorem alnum_ne {c : Char} (h : Letter c ∨ Digit c) : c ≠ '+' ∧ c ≠ '-' := by
  constructor <;> · rintro rfl; revert h; simp [Digit, Letter]

/-- The version without its build metadata has no `+`. -/
theorem version_split {s b : Str} (h : Version s b) : ∃ x, s = x ++ b ∧ '+' ∉ x ∧ x ≠ [] := by
  have hn : ∀ {t}, Number t → '+' ∉ t := fun h hm => (digit_ne (h.1.2 _ hm)).1 rfl
  cases h with
  | major h1 => exact ⟨_, (List.append_nil _).symm, by simpa using hn h1, by simp⟩
  | minor h1 h2 => exact ⟨_, (List.append_nil _).symm, by simpa using ⟨hn h1, hn h2⟩, by simp⟩
  | full h1 h2 h3 hp hb =>
    rename_i M m p pre
    refine ⟨'v' :: (M ++ '.' :: (m ++ '.' :: (p ++ pre))), by simp, ?_, by simp⟩
    have hpre : '+' ∉ pre := by
      rcases hp with rfl | ⟨a, l, ha, hl, rfl⟩
      · simp
      · have hc : ∀ {t}, PreIdentifier t → '+' ∉ t := fun h hm => (identChar_ne (pre_chars h _ hm)).1 rfl
        simp only [List.mem_cons, List.mem_append, List.mem_flatMap]
        rintro (h | h | ⟨x, hx, h | h⟩)
        · revert h; decide
        · exact hc ha h
        · revert h; decide
        · exact hc (hl x hx) h
    simpa using ⟨hn h1, hn h2, hn h3, hpre⟩

/-- Splitting at the first `+` is unique. -/
theorem split_unique {x y b c : Str} (hx : '+' ∉ x) (hy : '+' ∉ y) (hb : ∀ k, b.head? = some k → k = '+')
    (hc : ∀ k, c.head? = some k → k = '+') (e : x ++ b = y ++ c) : x = y ∧ b = c := by
  induction x generalizing y with
  | nil =>
    cases y with
    | nil => exact ⟨rfl, e⟩
    | cons k y =>
      simp only [List.nil_append, List.cons_append] at e
      have := hb k (by rw [e]; rfl)
      subst this
      simp at hy
  | cons k x ih =>
    cases y with
    | nil =>
      simp only [List.nil_append, List.cons_append] at e
      have := hc k (by rw [← e]; rfl)
      subst this
      simp at hx
    | cons j y =>
      simp only [List.cons_append, List.cons.injEq] at e
      obtain ⟨h1, h2⟩ := ih (y := y) (fun h => hx (by simp [h])) (fun h => hy (by simp [h])) e.2
      exact ⟨by rw [e.1, h1], h2⟩

theorem trimSuffix_append (x b : Str) : Str.trimSuffix (x ++ b) b = x := by
  unfold Str.trimSuffix Str.hasSuffix
  rw [if_pos (by simp)]
  simp

/-- The revision of a pseudo-version is read off correctly. -/
theorem rev_of {s rev : Str} (h : PseudoVersion s rev) : pseudoVersionRev s = some rev := by
  unfold pseudoVersionRev
  rw [if_pos (isPseudo_iff.2 ⟨rev, h⟩)]
  obtain ⟨⟨b', hv⟩, major, mid, time, b, hM, hmid, ht, -, hr, hr2, hb, hs⟩ := h
  obtain ⟨x, e, hx, -⟩ := version_split hv
  have hb' : ∀ k, b'.head? = some k → k = '+' := by
    cases hv with
    | major => simp
    | minor => simp
    | full _ _ _ _ hb => exact suffix_head hb
  have hno : '+' ∉ go!"v" ++ major ++ go!"." ++ mid ++ time ++ go!"-" ++ rev := by
    have h1 : '+' ∉ major := fun h => (digit_ne (hM.2 _ h)).1 rfl
    have h2 : '+' ∉ time := fun h => (digit_ne (ht.2 _ h)).1 rfl
    have h3 : '+' ∉ rev := fun h => (alnum_ne (hr2 _ h)).1 rfl
    have h4 : '+' ∉ mid := by
      rcases hmid with rfl | ⟨minor, patch, pre, h5, h6, h7, rfl⟩
      · decide
      · have h5 : '+' ∉ minor := fun h => (digit_ne (h5.2 _ h)).1 rfl
        have h6 : '+' ∉ patch := fun h => (digit_ne (h6.2 _ h)).1 rfl
        have h7 : '+' ∉ pre := by
          rcases h7 with rfl | ⟨q, hq, rfl⟩
          · simp
          · simp [hq]
        simp [h5, h6, h7]
    simp [h1, h2, h3, h4]
  rw [hs] at e
  obtain ⟨e1, e2⟩ := split_unique hno hx (suffix_head hb) hb' e
  subst e2
  rw [build_of hv, hs, trimSuffix_append]
  congr 1
  unfold afterLast
  have : (go!"v" ++ major ++ go!"." ++ mid ++ time ++ go!"-" ++ rev).reverse =
      rev.reverse ++ '-' :: (go!"v" ++ major ++ go!"." ++ mid ++ time).reverse := by simp
  rw [this, (takeWhile_append_left (p := (· != '-')) (t := rev.reverse) ?_ ?_).1, List.reverse_reverse]
  · intro c hc
    have := (alnum_ne (hr2 c (by simpa using hc))).2
    simpa using this
  · intro c hc
    simp only [List.head?_cons, Option.some.injEq] at hc
    subst hc; simp

theorem rev_ne_nil {s rev : Str} (h : PseudoVersion s rev) : rev ≠ [] := by
  obtain ⟨-, major, mid, time, b, -, -, -, -, hr, -⟩ := h
  exact hr

/-- A revision is not itself a pseudo-version, and has no build metadata. -/
theorem rev_stable {s rev : Str} (h : PseudoVersion s rev) : isPseudoVersion rev = false ∧ build rev = [] := by
  obtain ⟨-, major, mid, time, b, -, -, -, -, hr, hr2, -⟩ := h
  constructor
  · cases hp : isPseudoVersion rev with
    | false => rfl
    | true =>
      exfalso
      obtain ⟨r', hr'⟩ := isPseudo_iff.1 hp
      have h2 := two_dashes hr'.2
      have : rev.count '-' = 0 := List.count_eq_zero.2 fun h => (alnum_ne (hr2 _ h)).2 rfl
      omega
  · cases hp : parse rev with
    | none => simp [build, hp]
    | some b' =>
      have hv := parse_iff.1 hp
      rw [build_of hv]
      obtain ⟨x, e, -, -⟩ := version_split hv
      cases hv with
      | major => rfl
      | minor => rfl
      | full h1 h2 h3 hp hb =>
        rcases hb with rfl | ⟨a, l, _, _, rfl⟩
        · rfl
        · exfalso
          exact (alnum_ne (hr2 '+' (by rw [e]; simp))).1 rfl

/-- Dropping build metadata yields a version without build metadata that is not a pseudo-version unless the original was. -/
theorem drop_build {s x b : Str} (hv : Version s b) (e : s = x ++ b) : Version x [] ∧ (isPseudoVersion x = true → isPseudoVersion s = true) := by
  have hx : Version x [] := by
    cases hv with
    | major h1 => rw [List.append_nil] at e; subst e; exact .major h1
    | minor h1 h2 => rw [List.append_nil] at e; subst e; exact .minor h1 h2
    | full h1 h2 h3 hp hb =>
      rename_i M m p pre
      have : 'v' :: (M ++ '.' :: (m ++ '.' :: (p ++ pre ++ b))) = 'v' :: (M ++ '.' :: (m ++ '.' :: (p ++ pre ++ []))) ++ b := by simp
      rw [this] at e
      have := List.append_cancel_right e
      subst this
      exact .full h1 h2 h3 hp (.inl rfl)
  have hsuf : Suffix '+' Identifier b := by
    cases hv with
    | major => exact .inl rfl
    | minor => exact .inl rfl
    | full _ _ _ _ hb => exact hb
  refine ⟨hx, fun h => ?_⟩
  obtain ⟨rev, -, major, mid, time, b', h1, h2, h3, h4, h5, h6, h7, h8⟩ := isPseudo_iff.1 h
  obtain ⟨y, ey, hy, -⟩ := version_split hx
  rw [List.append_nil] at ey
  subst ey
  have hb' : b' = [] := by
    rcases h7 with rfl | ⟨a, l, _, _, rfl⟩
    · rfl
    · exact absurd (by rw [h8]; simp) hy
  subst hb'
  rw [List.append_nil] at h8
  exact isPseudo_iff.2 ⟨rev, ⟨b, hv⟩, major, mid, time, b, h1, h2, h3, h4, h5, h6, hsuf, by rw [e, h8]⟩

end Verif.Semver
