import Verif.Model.Semver
import Verif.Spec.Semver
/-! # Regular expressions and version parsing agree with their specifications -/
namespace Verif

namespace Re
/-- The language of an expression. -/
inductive Lang : Re → Str → Prop
  | eps : Lang .eps []
  | cls {p c} : p c = true → Lang (.cls p) [c]
  | cat {a b s t} : Lang a s → Lang b t → Lang (.cat a b) (s ++ t)
  | altL {a b s} : Lang a s → Lang (.alt a b) s
  | altR {a b s} : Lang b s → Lang (.alt a b) s
  | starNil {a} : Lang (.star a) []
  | starCons {a s t} : Lang a s → Lang (.star a) t → Lang (.star a) (s ++ t)

theorem nullable_iff (r : Re) : nullable r = true ↔ Lang r [] := by
  induction r with
  | none => simp only [nullable, Bool.false_eq_true, false_iff]; rintro ⟨⟩
  | eps => simp only [nullable, true_iff]; exact .eps
  | cls p =>
    simp only [nullable, Bool.false_eq_true, false_iff]
    generalize hs : ([] : Str) = s
    rintro ⟨⟩
    simp at hs
  | cat a b iha ihb =>
    simp only [nullable, Bool.and_eq_true, iha, ihb]
    constructor
    · rintro ⟨h, h'⟩; exact .cat (s := []) (t := []) h h'
    · generalize hs : ([] : Str) = s
      intro h
      cases h with
      | cat h h' =>
        rename_i s t
        obtain ⟨rfl, rfl⟩ := List.append_eq_nil_iff.1 hs.symm
        exact ⟨h, h'⟩
  | alt a b iha ihb =>
    simp only [nullable, Bool.or_eq_true, iha, ihb]
    constructor
    · rintro (h | h); exact .altL h; exact .altR h
    · intro h; cases h with
      | altL h => exact .inl h
      | altR h => exact .inr h
  | star a _ => simp only [nullable, true_iff]; exact .starNil

theorem star_cons {a : Re} {c : Char} {w : Str} (h : Lang (.star a) (c :: w)) :
    ∃ s t, w = s ++ t ∧ Lang a (c :: s) ∧ Lang (.star a) t := by
  generalize hr : Re.star a = r at h
  generalize hv : c :: w = v at h
  induction h with
  | starNil => simp at hv
  | starCons h1 h2 ih1 ih2 =>
    rename_i a' s t
    cases hr
    cases s with
    | nil => exact ih2 rfl (by simpa using hv)
    | cons d s =>
      simp only [List.cons_append, List.cons.injEq] at hv
      obtain ⟨rfl, rfl⟩ := hv
      exact ⟨s, t, rfl, h1, h2⟩
  | _ => cases hr

theorem deriv_iff (c : Char) (r : Re) : ∀ s, Lang (deriv c r) s ↔ Lang r (c :: s) := by
  induction r with
  | none => intro s; simp only [deriv]; constructor <;> rintro ⟨⟩
  | eps =>
    intro s; simp only [deriv]
    constructor
    · rintro ⟨⟩
    · generalize hv : c :: s = v; rintro ⟨⟩; simp at hv
  | cls p =>
    intro s; simp only [deriv]
    constructor
    · intro h
      split at h
      · rename_i hp; cases h; exact .cls hp
      · cases h
    · generalize hv : c :: s = v
      intro h
      cases h with
      | cls hp =>
        simp only [List.cons.injEq] at hv
        obtain ⟨rfl, rfl⟩ := hv
        rw [if_pos hp]; exact .eps
  | cat a b iha ihb =>
    intro s
    have key : Lang (.cat (deriv c a) b) s ↔ ∃ x y, s = x ++ y ∧ Lang a (c :: x) ∧ Lang b y := by
      constructor
      · intro h
        cases h with
        | cat h1 h2 => exact ⟨_, _, rfl, (iha _).1 h1, h2⟩
      · rintro ⟨x, y, rfl, h1, h2⟩; exact .cat ((iha _).2 h1) h2
    have key' : Lang (.cat a b) (c :: s) ↔ (∃ x y, s = x ++ y ∧ Lang a (c :: x) ∧ Lang b y) ∨ (Lang a [] ∧ Lang b (c :: s)) := by
      constructor
      · generalize hv : c :: s = v
        intro h
        cases h with
        | cat h1 h2 =>
          rename_i x y
          cases x with
          | nil => right; exact ⟨h1, by simpa using h2⟩
          | cons d x =>
            simp only [List.cons_append, List.cons.injEq] at hv
            obtain ⟨rfl, rfl⟩ := hv
            exact .inl ⟨x, y, rfl, h1, h2⟩
      · rintro (⟨x, y, rfl, h1, h2⟩ | ⟨h1, h2⟩)
        · exact .cat (s := c :: x) h1 h2
        · exact .cat (s := []) h1 h2
    simp only [deriv]
    rw [key']
    split
    · rename_i hn
      constructor
      · intro h
        cases h with
        | altL h => exact .inl (key.1 h)
        | altR h => exact .inr ⟨(nullable_iff a).1 hn, (ihb _).1 h⟩
      · rintro (h | ⟨_, h⟩)
        · exact .altL (key.2 h)
        · exact .altR ((ihb _).2 h)
    · rename_i hn
      rw [key]
      constructor
      · exact .inl
      · rintro (h | ⟨h, _⟩)
        · exact h
        · exact absurd ((nullable_iff a).2 h) hn
  | alt a b iha ihb =>
    intro s; simp only [deriv]
    constructor
    · intro h; cases h with
      | altL h => exact .altL ((iha _).1 h)
      | altR h => exact .altR ((ihb _).1 h)
    · intro h; cases h with
      | altL h => exact .altL ((iha _).2 h)
      | altR h => exact .altR ((ihb _).2 h)
  | star a iha =>
    intro s; simp only [deriv]
    constructor
    · intro h
      cases h with
      | cat h1 h2 => exact .starCons (s := c :: _) ((iha _).1 h1) h2
    · intro h
      obtain ⟨x, y, rfl, h1, h2⟩ := star_cons h
      exact .cat ((iha _).2 h1) h2

/-- The matcher decides the language. -/
theorem isMatch_iff (r : Re) (s : Str) : isMatch r s = true ↔ Lang r s := by
  induction s generalizing r with
  | nil => exact nullable_iff r
  | cons c s ih => rw [isMatch, ih, deriv_iff]

theorem cat_iff {a b s} : Lang (.cat a b) s ↔ ∃ x y, s = x ++ y ∧ Lang a x ∧ Lang b y := by
  constructor
  · intro h; cases h with | cat h1 h2 => exact ⟨_, _, rfl, h1, h2⟩
  · rintro ⟨x, y, rfl, h1, h2⟩; exact .cat h1 h2

theorem alt_iff {a b s} : Lang (.alt a b) s ↔ Lang a s ∨ Lang b s := by
  constructor
  · intro h; cases h with
    | altL h => exact .inl h
    | altR h => exact .inr h
  · rintro (h | h); exact .altL h; exact .altR h

theorem eps_iff {s} : Lang .eps s ↔ s = [] := by
  constructor
  · rintro ⟨⟩; rfl
  · rintro rfl; exact .eps

theorem cls_iff {p s} : Lang (.cls p) s ↔ ∃ c, p c = true ∧ s = [c] := by
  constructor
  · intro h; cases h with | cls h => exact ⟨_, h, rfl⟩
  · rintro ⟨c, h, rfl⟩; exact .cls h

theorem chr_iff {c s} : Lang (chr c) s ↔ s = [c] := by
  unfold chr
  rw [cls_iff]
  constructor
  · rintro ⟨d, h, rfl⟩; rw [beq_iff_eq] at h; rw [h]
  · rintro rfl; exact ⟨c, by simp, rfl⟩

theorem lit_iff {w s} : Lang (lit w) s ↔ s = w := by
  induction w generalizing s with
  | nil => exact eps_iff
  | cons c w ih =>
    unfold lit
    rw [cat_iff]
    constructor
    · rintro ⟨x, y, rfl, h1, h2⟩; rw [chr_iff.1 h1, ih.1 h2]; rfl
    · rintro rfl; exact ⟨[c], w, rfl, chr_iff.2 rfl, ih.2 rfl⟩

theorem star_iff {a s} : Lang (.star a) s ↔ ∃ l : List Str, (∀ x ∈ l, Lang a x) ∧ s = l.flatten := by
  constructor
  · intro h
    generalize hr : Re.star a = r at h
    induction h with
    | starNil => exact ⟨[], by simp, rfl⟩
    | starCons h1 h2 _ ih =>
      cases hr
      obtain ⟨l, hl, rfl⟩ := ih rfl
      exact ⟨_ :: l, by simpa using ⟨h1, hl⟩, rfl⟩
    | _ => cases hr
  · rintro ⟨l, hl, rfl⟩
    induction l with
    | nil => exact .starNil
    | cons x l ih => exact .starCons (hl x (by simp)) (ih fun y hy => hl y (by simp [hy]))

theorem star_cls_iff {p s} : Lang (.star (.cls p)) s ↔ ∀ c ∈ s, p c = true := by
  constructor
  · intro h
    obtain ⟨l, hl, rfl⟩ := star_iff.1 h
    intro c hc
    obtain ⟨x, hx, hcx⟩ := List.mem_flatten.1 hc
    obtain ⟨d, hd, rfl⟩ := cls_iff.1 (hl x hx)
    simp at hcx; rw [hcx]; exact hd
  · intro h
    induction s with
    | nil => exact .starNil
    | cons c s ih => exact .starCons (s := [c]) (.cls (h c (by simp))) (ih fun d hd => h d (by simp [hd]))

theorem plus_cls_iff {p s} : Lang (plus (.cls p)) s ↔ s ≠ [] ∧ ∀ c ∈ s, p c = true := by
  unfold plus
  rw [cat_iff]
  constructor
  · rintro ⟨x, y, rfl, h1, h2⟩
    obtain ⟨c, hc, rfl⟩ := cls_iff.1 h1
    refine ⟨by simp, ?_⟩
    intro d hd
    simp only [List.cons_append, List.nil_append, List.mem_cons] at hd
    rcases hd with rfl | hd
    · exact hc
    · exact star_cls_iff.1 h2 d hd
  · rintro ⟨h1, h2⟩
    cases s with
    | nil => exact absurd rfl h1
    | cons c s => exact ⟨[c], s, rfl, .cls (h2 c (by simp)), star_cls_iff.2 fun d hd => h2 d (by simp [hd])⟩

theorem times_cls_iff {p n s} : Lang (times n (.cls p)) s ↔ s.length = n ∧ ∀ c ∈ s, p c = true := by
  induction n generalizing s with
  | zero =>
    unfold times; rw [eps_iff]
    constructor
    · rintro rfl; simp
    · rintro ⟨h, _⟩; exact List.length_eq_zero_iff.1 h
  | succ n ih =>
    unfold times; rw [cat_iff]
    constructor
    · rintro ⟨x, y, rfl, h1, h2⟩
      obtain ⟨c, hc, rfl⟩ := cls_iff.1 h1
      obtain ⟨h3, h4⟩ := ih.1 h2
      refine ⟨by simp [h3], ?_⟩
      intro d hd
      simp only [List.cons_append, List.nil_append, List.mem_cons] at hd
      rcases hd with rfl | hd
      · exact hc
      · exact h4 d hd
    · rintro ⟨h1, h2⟩
      cases s with
      | nil => simp at h1
      | cons c s => exact ⟨[c], s, rfl, .cls (h2 c (by simp)), ih.2 ⟨by simpa using h1, fun d hd => h2 d (by simp [hd])⟩⟩

theorem opt_iff {a s} : Lang (opt a) s ↔ Lang a s ∨ s = [] := by
  unfold opt; rw [alt_iff, eps_iff]
end Re

namespace Semver
open Spec

theorem isDigit_iff {c} : isDigit c = true ↔ Digit c := by simp [isDigit, Digit]
theorem isLetter_iff {c} : isLetter c = true ↔ Letter c := by simp [isLetter, Letter]
theorem isIdentChar_iff {c} : isIdentChar c = true ↔ Letter c ∨ Digit c ∨ c = '-' := by
  simp [isIdentChar, isDigit_iff, isLetter_iff, or_assoc]

theorem takeWhile_append_left {α} {p : α → Bool} {t r : List α} (ht : ∀ c ∈ t, p c = true)
    (hr : ∀ c, r.head? = some c → p c = false) : (t ++ r).takeWhile p = t ∧ (t ++ r).dropWhile p = r := by
  induction t with
  | nil =>
    cases r with
    | nil => simp
    | cons c r => simp [hr c rfl]
  | cons c t ih =>
    have := ih fun d hd => ht d (by simp [hd])
    simp [ht c (by simp), this.1, this.2]

theorem parseInt_number {t r : Str} (ht : Number t) (hr : ∀ c, r.head? = some c → ¬ Digit c) :
    parseInt (t ++ r) = some (t, r) := by
  obtain ⟨⟨h1, h2⟩, h3⟩ := ht
  cases t with
  | nil => exact absurd rfl h1
  | cons c t =>
    have hw := takeWhile_append_left (p := isDigit) (t := c :: t) (r := r) (fun d hd => isDigit_iff.2 (h2 d hd))
      (fun d hd => by have := hr d hd; rw [← isDigit_iff] at this; simpa using this)
    unfold parseInt
    simp only [List.cons_append] at hw ⊢
    rw [if_neg (by simp [isDigit_iff.2 (h2 c (by simp))]), hw.1, hw.2]
    rw [if_neg]
    rintro ⟨rfl, hl⟩
    rcases h3 with h3 | h3
    · simp only [List.cons.injEq, true_and] at h3; subst h3; simp at hl
    · simp at h3

theorem parseInt_some {v t r : Str} (h : parseInt v = some (t, r)) :
    Number t ∧ v = t ++ r ∧ ∀ c, r.head? = some c → ¬ Digit c := by
  cases v with
  | nil => simp [parseInt] at h
  | cons c v =>
    rw [parseInt] at h
    split at h
    · simp at h
    · rename_i hd
      simp only at h
      split at h
      · simp at h
      · rename_i hz
        simp only [Option.some.injEq, Prod.mk.injEq] at h
        obtain ⟨rfl, rfl⟩ := h
        have hd : isDigit c = true := by simpa using hd
        refine ⟨⟨⟨by simp [hd], ?_⟩, ?_⟩, (List.takeWhile_append_dropWhile).symm, ?_⟩
        · intro d h
          have : ∀ (l : Str), d ∈ l.takeWhile isDigit → isDigit d = true := by
            intro l; induction l with
            | nil => simp
            | cons x l ih =>
              simp only [List.takeWhile_cons]
              split
              · rename_i hx; intro h; rcases List.mem_cons.1 h with rfl | h
                · exact hx
                · exact ih h
              · simp
          exact isDigit_iff.1 (this _ h)
        · by_cases hc : c = '0'
          · left
            subst hc
            have hl : ((('0' :: v).takeWhile isDigit).length = 1) := Classical.byContradiction fun h => hz ⟨rfl, h⟩
            simp only [List.takeWhile_cons, hd, if_true] at hl ⊢
            simp only [List.length_cons, Nat.add_eq_right, List.length_eq_zero_iff] at hl
            rw [hl]
          · right; simp [hd, hc]
        · intro d h
          have : ∀ (l : Str), (l.dropWhile isDigit).head? = some d → isDigit d = false := by
            intro l; induction l with
            | nil => simp
            | cons x l ih =>
              simp only [List.dropWhile_cons]
              split
              · exact ih
              · rename_i hx; intro h; simp only [List.head?_cons, Option.some.injEq] at h; subst h; simpa using hx
          rw [← isDigit_iff, this _ h]; simp

theorem dot_not_digit : ¬ Digit '.' := by simp [Digit]
theorem plus_not_digit : ¬ Digit '+' := by simp [Digit]
theorem dash_not_digit : ¬ Digit '-' := by simp [Digit]

theorem isBadNum_iff {s : Str} (h : s ≠ []) : isBadNum s = true ↔ Digits s ∧ ¬ Number s := by
  unfold isBadNum Number Digits
  simp only [Bool.and_eq_true, List.all_eq_true, decide_eq_true_eq, beq_iff_eq, isDigit_iff, h, ne_eq, not_false_eq_true, true_and,
    not_and, not_or]
  constructor
  · rintro ⟨⟨h1, h2⟩, h3⟩
    refine ⟨h1, fun _ => ⟨?_, ?_⟩⟩
    · rintro rfl; simp at h2
    · simpa using h3
  · rintro ⟨h1, h2⟩
    obtain ⟨h3, h4⟩ := h2 h1
    have h4 : s.head? = some '0' := Classical.byContradiction h4
    refine ⟨⟨h1, ?_⟩, h4⟩
    cases s with
    | nil => simp at h4
    | cons c s =>
      simp only [List.head?_cons, Option.some.injEq] at h4
      subst h4
      cases s with
      | nil => simp at h3
      | cons d s => simp

theorem preIdentifier_iff {s : Str} (hc : ∀ c ∈ s, isIdentChar c = true) :
    PreIdentifier s ↔ ¬ (s = [] ∨ isBadNum s = true) := by
  unfold PreIdentifier Identifier
  by_cases hs : s = []
  · simp [hs]
  · simp only [hs, ne_eq, not_false_eq_true, true_and, false_or, isBadNum_iff hs, not_and, Classical.not_not]
    constructor
    · exact fun h => h.2
    · exact fun h => ⟨fun c h => isIdentChar_iff.1 (hc c h), h⟩

theorem pre_chars {s : Str} (h : PreIdentifier s) : ∀ c ∈ s, isIdentChar c = true :=
  fun c hc => isIdentChar_iff.2 (h.1.2 c hc)

theorem identChar_ne {c : Char} (h : isIdentChar c = true) : c ≠ '+' ∧ c ≠ '.' := by
  constructor <;> · rintro rfl; revert h; decide

theorem preLoop_ident {cur a s : Str} (h : ∀ c ∈ a, isIdentChar c = true) :
    preLoop cur (a ++ s) = (preLoop (cur ++ a) s).map fun x => (a ++ x.1, x.2) := by
  induction a generalizing cur with
  | nil => simp
  | cons c a ih =>
    have hc := h c (by simp)
    obtain ⟨h1, h2⟩ := identChar_ne hc
    simp only [List.cons_append]
    rw [preLoop, if_neg h1, if_neg (by simp [hc]), if_neg h2, ih fun d hd => h d (by simp [hd])]
    simp [Option.map_map, Function.comp_def]

/-- The text read by the prerelease loop. -/
theorem preLoop_some {cur s x r : Str} (hc : ∀ c ∈ cur, isIdentChar c = true) (h : preLoop cur s = some (x, r)) :
    s = x ++ r ∧ (∀ c, r.head? = some c → c = '+') ∧
    ∃ (a : Str) (l : List Str), PreIdentifier a ∧ (∀ y ∈ l, PreIdentifier y) ∧ cur ++ x = a ++ l.flatMap ('.' :: ·) := by
  induction s generalizing cur x r with
  | nil =>
    unfold preLoop at h
    split at h
    · simp at h
    · rename_i hb
      simp only [Option.some.injEq, Prod.mk.injEq] at h
      obtain ⟨rfl, rfl⟩ := h
      exact ⟨rfl, by simp, cur, [], (preIdentifier_iff hc).2 hb, by simp, by simp⟩
  | cons c s ih =>
    unfold preLoop at h
    split at h
    · rename_i hp
      split at h
      · simp at h
      · rename_i hb
        simp only [Option.some.injEq, Prod.mk.injEq] at h
        obtain ⟨rfl, rfl⟩ := h
        exact ⟨rfl, by simpa using hp, cur, [], (preIdentifier_iff hc).2 hb, by simp, by simp⟩
    · split at h
      · simp at h
      · rename_i hi
        split at h
        · rename_i hd
          split at h
          · simp at h
          · rename_i hb
            obtain ⟨⟨x', r'⟩, he, hm⟩ := Option.map_eq_some_iff.1 h
            simp only [Prod.mk.injEq] at hm
            obtain ⟨rfl, rfl⟩ := hm
            obtain ⟨h1, h2, a, l, ha, hl, e⟩ := ih (cur := []) (by simp) he
            refine ⟨by simp [h1], h2, cur, a :: l, (preIdentifier_iff hc).2 hb, ?_, ?_⟩
            · intro y hy
              rcases List.mem_cons.1 hy with rfl | hy
              · exact ha
              · exact hl y hy
            · simp only [List.nil_append] at e
              simp [e, hd]
        · rename_i hd
          obtain ⟨⟨x', r'⟩, he, hm⟩ := Option.map_eq_some_iff.1 h
          simp only [Prod.mk.injEq] at hm
          obtain ⟨rfl, rfl⟩ := hm
          have hic : isIdentChar c = true := by
            cases hh : isIdentChar c with
            | true => rfl
            | false => exact absurd ⟨hh, hd⟩ hi
          obtain ⟨h1, h2, a, l, ha, hl, e⟩ := ih (cur := cur ++ [c])
            (by intro d hdm; rcases List.mem_append.1 hdm with h | h
                · exact hc d h
                · simp at h; rw [h]; exact hic) he
          exact ⟨by simp [h1], h2, a, l, ha, hl, by simpa using e⟩

theorem preLoop_of {a : Str} {l : List Str} {r : Str} (ha : PreIdentifier a) (hl : ∀ y ∈ l, PreIdentifier y)
    (hr : ∀ c, r.head? = some c → c = '+') :
    preLoop [] (a ++ l.flatMap ('.' :: ·) ++ r) = some (a ++ l.flatMap ('.' :: ·), r) := by
  induction l generalizing a with
  | nil =>
    simp only [List.flatMap_nil, List.append_nil]
    rw [preLoop_ident (pre_chars ha)]
    have hb := (preIdentifier_iff (pre_chars ha)).1 ha
    cases r with
    | nil => simp only [List.nil_append, preLoop, if_neg hb]; simp
    | cons c r =>
      have : c = '+' := hr c rfl
      simp only [List.nil_append, preLoop, if_pos this, if_neg hb]; simp
  | cons b l ih =>
    have hb := (preIdentifier_iff (pre_chars ha)).1 ha
    have := ih (a := b) (hl b (by simp)) (fun y hy => hl y (by simp [hy]))
    simp only [List.flatMap_cons, List.append_assoc, List.cons_append] at this ⊢
    rw [preLoop_ident (pre_chars ha), List.nil_append, preLoop, if_neg (by decide), if_neg (by simp), if_pos rfl, if_neg hb, this]
    simp

theorem buildLoop_ident {a s : Str} {e : Bool} (h : ∀ c ∈ a, isIdentChar c = true) (hne : a ≠ []) :
    buildLoop e (a ++ s) = buildLoop false s := by
  induction a generalizing e with
  | nil => exact absurd rfl hne
  | cons c a ih =>
    have hc := h c (by simp)
    obtain ⟨h1, h2⟩ := identChar_ne hc
    simp only [List.cons_append]
    rw [buildLoop, if_neg (by simp [hc]), if_neg h2]
    cases a with
    | nil => rfl
    | cons d a => exact ih (fun d hd => h d (by simp [hd])) (by simp)

theorem buildLoop_of {a : Str} {l : List Str} (ha : Identifier a) (hl : ∀ y ∈ l, Identifier y) :
    buildLoop true (a ++ l.flatMap ('.' :: ·)) = true := by
  induction l generalizing a with
  | nil =>
    rw [buildLoop_ident (fun c hc => isIdentChar_iff.2 (ha.2 c hc)) ha.1]; rfl
  | cons b l ih =>
    rw [buildLoop_ident (fun c hc => isIdentChar_iff.2 (ha.2 c hc)) ha.1]
    simp only [List.flatMap_cons, List.cons_append]
    rw [buildLoop, if_neg (by simp), if_pos rfl]
    exact ih (hl b (by simp)) (fun y hy => hl y (by simp [hy]))

theorem buildLoop_true {e : Bool} {s cur : Str} (he : e = true ↔ cur = []) (hc : ∀ c ∈ cur, isIdentChar c = true)
    (h : buildLoop e s = true) :
    ∃ (a : Str) (l : List Str), Identifier a ∧ (∀ y ∈ l, Identifier y) ∧ cur ++ s = a ++ l.flatMap ('.' :: ·) := by
  induction s generalizing e cur with
  | nil =>
    simp only [buildLoop, Bool.not_eq_eq_eq_not, Bool.not_true] at h
    subst h
    refine ⟨cur, [], ⟨?_, fun c h => isIdentChar_iff.1 (hc c h)⟩, by simp, by simp⟩
    rintro rfl; simp at he
  | cons c s ih =>
    rw [buildLoop] at h
    split at h
    · simp at h
    · rename_i hi
      split at h
      · rename_i hd
        split at h
        · simp at h
        · rename_i he'
          obtain ⟨a, l, ha, hl, e'⟩ := ih (cur := []) (by simp) (by simp) h
          refine ⟨cur, a :: l, ⟨fun hh => he' (he.2 hh), fun c h => isIdentChar_iff.1 (hc c h)⟩, ?_, ?_⟩
          · intro y hy
            rcases List.mem_cons.1 hy with rfl | hy
            · exact ha
            · exact hl y hy
          · simp only [List.nil_append] at e'; simp [hd, e']
      · rename_i hd
        have hic : isIdentChar c = true := by
          cases hh : isIdentChar c with
          | true => rfl
          | false => exact absurd ⟨hh, hd⟩ hi
        obtain ⟨a, l, ha, hl, e'⟩ := ih (cur := cur ++ [c]) (by simp)
          (by intro d hdm; rcases List.mem_append.1 hdm with h | h
              · exact hc d h
              · simp at h; rw [h]; exact hic) h
        exact ⟨a, l, ha, hl, by simpa using e'⟩

theorem parseBuild_iff {v b : Str} : parseBuild v = some b ↔ v = b ∧ Suffix '+' Identifier b := by
  constructor
  · intro h
    cases v with
    | nil => simp only [parseBuild, Option.some.injEq] at h; subst h; exact ⟨rfl, .inl rfl⟩
    | cons c v =>
      rw [parseBuild] at h
      split at h
      · rename_i hc
        split at h
        · rename_i hb
          simp only [Option.some.injEq] at h
          subst h
          obtain ⟨a, l, ha, hl, e⟩ := buildLoop_true (cur := []) (by simp) (by simp) hb
          exact ⟨rfl, .inr ⟨a, l, ha, hl, by simpa [hc] using e⟩⟩
        · simp at h
      · simp at h
  · rintro ⟨rfl, rfl | ⟨a, l, ha, hl, rfl⟩⟩
    · rfl
    · simp [parseBuild, buildLoop_of ha hl]

theorem suffix_head {mark : Char} {P : Str → Prop} {s : Str} (h : Suffix mark P s) : ∀ c, s.head? = some c → c = mark := by
  rcases h with rfl | ⟨a, r, _, _, rfl⟩
  · simp
  · intro c h; simpa using h.symm

theorem parseTail_iff {v b : Str} : parseTail v = some b ↔
    ∃ pre, Suffix '-' PreIdentifier pre ∧ Suffix '+' Identifier b ∧ v = pre ++ b := by
  constructor
  · intro h
    cases v with
    | nil => simp only [parseTail, Option.some.injEq] at h; subst h; exact ⟨[], .inl rfl, .inl rfl, rfl⟩
    | cons c v =>
      rw [parseTail] at h
      split at h
      · rename_i hc
        cases hp : preLoop [] v with
        | none => simp [hp] at h
        | some x =>
          obtain ⟨x, r⟩ := x
          simp only [hp] at h
          obtain ⟨h1, h2, a, l, ha, hl, e⟩ := preLoop_some (by simp) hp
          obtain ⟨rfl, hb⟩ := parseBuild_iff.1 h
          refine ⟨'-' :: x, .inr ⟨a, l, ha, hl, by simpa using e⟩, hb, by simp [hc, h1]⟩
      · obtain ⟨e, hb⟩ := parseBuild_iff.1 h
        exact ⟨[], .inl rfl, hb, by simpa using e⟩
  · rintro ⟨pre, hp, hb, rfl⟩
    rcases hp with rfl | ⟨a, l, ha, hl, rfl⟩
    · simp only [List.nil_append]
      have hh := suffix_head hb
      cases b with
      | nil => rfl
      | cons c b =>
        have : c = '+' := hh c rfl
        subst this
        rw [parseTail, if_neg (by decide)]
        exact parseBuild_iff.2 ⟨rfl, hb⟩
    · simp only [List.cons_append, parseTail, if_true, preLoop_of ha hl (suffix_head hb)]
      exact parseBuild_iff.2 ⟨rfl, hb⟩

/-- The parser accepts exactly the semantic versions and finds their build metadata. -/
theorem parse_iff {v b : Str} : parse v = some b ↔ Version v b := by
  constructor
  · intro h
    cases v with
    | nil => simp [parse] at h
    | cons c v =>
      rw [parse] at h
      split at h
      · rename_i hc; subst hc
        unfold parseMajor at h
        split at h
        · simp at h
        · rename_i M hM
          simp only [Option.some.injEq] at h; subst h
          obtain ⟨h1, rfl, _⟩ := parseInt_some hM
          simpa using Version.major h1
        · rename_i M c v' hM
          obtain ⟨h1, rfl, _⟩ := parseInt_some hM
          split at h
          · rename_i hc; subst hc
            unfold parseMinor at h
            split at h
            · simp at h
            · rename_i m hm
              simp only [Option.some.injEq] at h; subst h
              obtain ⟨h2, rfl, _⟩ := parseInt_some hm
              simpa using Version.minor h1 h2
            · rename_i m c v' hm
              obtain ⟨h2, rfl, _⟩ := parseInt_some hm
              split at h
              · rename_i hc; subst hc
                unfold parsePatch at h
                split at h
                · simp at h
                · rename_i p v' hp
                  obtain ⟨h3, rfl, _⟩ := parseInt_some hp
                  obtain ⟨pre, hpre, hb, rfl⟩ := parseTail_iff.1 h
                  simpa using Version.full h1 h2 h3 hpre hb
              · simp at h
          · simp at h
      · simp at h
  · intro h
    cases h with
    | major h1 =>
      have := parseInt_number (r := []) h1 (by simp)
      rw [List.append_nil] at this
      simp [parse, parseMajor, this]
    | minor h1 h2 =>
      rename_i M m
      have e1 := parseInt_number (r := '.' :: m) h1 (by simp [dot_not_digit])
      have e2 := parseInt_number (r := []) h2 (by simp)
      rw [List.append_nil] at e2
      simp [parse, parseMajor, parseMinor, e1, e2]
    | full h1 h2 h3 hp hb =>
      rename_i M m p pre
      have e1 := parseInt_number (r := '.' :: (m ++ '.' :: (p ++ pre ++ b))) h1 (by simp [dot_not_digit])
      have e2 := parseInt_number (r := '.' :: (p ++ pre ++ b)) h2 (by simp [dot_not_digit])
      have e3 := parseInt_number (r := pre ++ b) h3 (by
        intro c hc
        cases pre with
        | nil =>
          have := suffix_head hb c (by simpa using hc); subst this; exact plus_not_digit
        | cons d pre =>
          have := suffix_head hp c (by simpa using hc); subst this; exact dash_not_digit)
      rw [List.append_assoc] at e1 e2
      simp only [parse, if_true, parseMajor, List.append_assoc, e1, parseMinor, e2, parsePatch, e3]
      exact parseTail_iff.2 ⟨pre, hp, hb, rfl⟩

theorem isValid_iff {v : Str} : isValid v = true ↔ ∃ b, Version v b := by
  unfold isValid
  rw [Option.isSome_iff_exists]
  simp only [parse_iff]

theorem build_of {v b : Str} (h : Version v b) : build v = b := by
  unfold build; rw [parse_iff.2 h]; rfl

end Semver
end Verif
