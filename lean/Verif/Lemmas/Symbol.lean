import Verif.Model.Symbol
import Verif.Spec.SymbolGrammar
/-! Helper lemmas for C01/C02 (symbol strings). -/
namespace Verif
open Spec

theorem readField_double (f rest : Str) (h : rest.head? ≠ some ' ') :
    readField (doubleChar ' ' f ++ ' ' :: rest) = some (f, rest) := by
  induction f with
  | nil =>
    cases rest with
    | nil => simp [doubleChar, readField]
    | cons c r =>
      have hc : c ≠ ' ' := by simpa using h
      simp only [doubleChar, List.nil_append]
      unfold readField
      split <;> simp_all <;> grind
  | cons c f ih =>
    by_cases hc : c = ' '
    · subst hc
      simp [doubleChar, readField, ih]
    · simp only [doubleChar, hc, if_false, List.cons_append]
      rw [readField]
      · simp [ih]
      · intro r; simp [hc]
      · simp [hc]

theorem readQuoted_double (f rest : Str) (h : rest.head? ≠ some '`') :
    readQuoted (doubleChar '`' f ++ '`' :: rest) = some (f, rest) := by
  induction f with
  | nil =>
    cases rest with
    | nil => simp [doubleChar, readQuoted]
    | cons c r =>
      have hc : c ≠ '`' := by simpa using h
      simp only [doubleChar, List.nil_append]
      unfold readQuoted
      split <;> simp_all <;> grind
  | cons c f ih =>
    by_cases hc : c = '`'
    · subst hc
      simp [doubleChar, readQuoted, ih]
    · simp only [doubleChar, hc, if_false, List.cons_append]
      rw [readQuoted]
      · simp [ih]
      · intro r; simp [hc]
      · simp [hc]

theorem suffix_head (x : Suffix) :
    ∃ c r, x.chars = c :: r ∧ isSimpleChar c = false ∧ c ≠ '`' ∧ c ≠ ' ' := by
  cases x <;> simp [Suffix.chars] <;> decide

theorem takeWhile_append_stop {p : Char → Bool} (s t : Str) (c : Char) (hs : s.all p = true)
    (hc : p c = false) : (s ++ c :: t).takeWhile p = s ∧ (s ++ c :: t).dropWhile p = c :: t := by
  induction s with
  | nil => simp [hc]
  | cons a s ih =>
    simp only [List.all_cons, Bool.and_eq_true] at hs
    have := ih hs.2
    simp [hs.1, this]

theorem simple_ne_tick {c : Char} (h : isSimpleChar c = true) : c ≠ '`' ∧ c ≠ ' ' := by
  constructor <;> (intro e; subst e; revert h; decide)

theorem isSimpleChar_eq (c : Char) : isSimpleChar c = decide (c ∈ simpleChars) := by
  by_cases h : c.toNat < 128
  · have key : ∀ n : Fin 128, isSimpleChar (Char.ofNat n.val) = decide (Char.ofNat n.val ∈ simpleChars) := by decide +kernel
    have := key ⟨c.toNat, h⟩
    simpa using this
  · have h1 : c ∉ simpleChars := by
      intro hm
      have : ∀ d ∈ simpleChars, d.toNat < 128 := by decide +kernel
      exact h (this c hm)
    have h2 : isSimpleChar c = false := by
      have hle : ∀ d : Char, d.toNat < 128 → ¬ c ≤ d := by
        intro d hd hcd
        have : c.toNat ≤ d.toNat := hcd
        omega
      have hne : ∀ d : Char, d.toNat < 128 → c ≠ d := by
        intro d hd e; subst e; exact h hd
      simp [isSimpleChar, hle 'z' (by decide), hle 'Z' (by decide), hle '9' (by decide), hne '_' (by decide), hne '+' (by decide),
        hne '-' (by decide), hne '$' (by decide)]
    simp [h1, h2]

theorem isSimpleChar_fun : (fun c => decide (c ∈ simpleChars)) = isSimpleChar := funext fun c => (isSimpleChar_eq c).symm

theorem doubleChar_flatMap (x : Char) (s : Str) : doubleChar x s = s.flatMap (fun c => if c = x then [x, x] else [c]) := by
  induction s with
  | nil => rfl
  | cons c s ih => by_cases h : c = x <;> simp [doubleChar, h, ih]

theorem writeIdent_canonical (s : Str) : writeIdent s = canonicalName s := by
  unfold writeIdent canonicalName
  have : s.all isSimpleChar = true ↔ ∀ c ∈ s, c ∈ simpleChars := by simp [isSimpleChar_eq]
  by_cases h : ∀ c ∈ s, c ∈ simpleChars
  · rw [if_pos (this.2 h), if_pos h]
  · rw [if_neg (fun e => h (this.1 e)), if_neg h, doubleChar_flatMap]; simp

theorem readName_write (s : Str) (x : Suffix) (rest : Str) :
    readName (writeIdent s ++ (x.chars ++ rest)) = some (s, x.chars ++ rest) := by
  obtain ⟨c, r, hx, hns, hnt, _⟩ := suffix_head x
  rw [hx]
  unfold writeIdent
  by_cases hs : s.all isSimpleChar = true
  · rw [if_pos hs]
    have htw := takeWhile_append_stop s (r ++ rest) c hs hns
    have hne : ∀ r', s ++ (c :: r ++ rest) ≠ '`' :: r' := by
      intro r' h
      cases s with
      | nil => simp at h; exact hnt h.1
      | cons a s =>
        simp at h hs
        exact (simple_ne_tick hs.1).1 h.1
    unfold readName
    rw [isSimpleChar_fun]
    split
    · rename_i r' h; exact absurd h (hne r')
    · simp only [List.cons_append] at htw ⊢
      rw [htw.1, htw.2]
  · rw [if_neg hs]
    have := readQuoted_double s (c :: r ++ rest) (by simpa using hnt)
    simp [readName]
    simpa using this

theorem readSuffix_write (x : Suffix) (rest : Str) :
    readSuffix (x.chars ++ rest) = some (x, rest) := by
  cases x <;> simp [Suffix.chars, readSuffix]

theorem writeDescriptor_pos (d : Descriptor) : 0 < (writeDescriptor d).length := by
  unfold writeDescriptor
  obtain ⟨c, r, hx, _⟩ := suffix_head d.suffix
  simp [hx]; omega

theorem readDescriptors_write (ds : List Descriptor) :
    ∀ fuel, (writeDescriptors ds).length ≤ fuel →
      readDescriptors fuel (writeDescriptors ds) = some ds := by
  induction ds with
  | nil => intro fuel _; cases fuel <;> simp [writeDescriptors, readDescriptors]
  | cons d ds ih =>
    intro fuel hf
    have hpos := writeDescriptor_pos d
    simp only [writeDescriptors, List.length_append] at hf
    obtain ⟨fuel, rfl⟩ : ∃ k, fuel = k + 1 := ⟨fuel - 1, by omega⟩
    have hne : writeDescriptors (d :: ds) ≠ [] := by
      intro h
      have := congrArg List.length h
      simp [writeDescriptors] at this
      rw [this.1] at hpos
      simp at hpos
    rw [readDescriptors]
    · have e1 : writeDescriptors (d :: ds)
          = writeIdent d.name ++ (d.suffix.chars ++ writeDescriptors ds) := by
        simp [writeDescriptors, writeDescriptor]
      rw [e1, readName_write]
      simp only [Option.bind_eq_bind, Option.bind_some]
      rw [readSuffix_write]
      simp only [Option.bind_some]
      rw [ih fuel (by omega)]
      simp
    · exact hne

theorem doubleChar_head (x : Char) (s : Str) : (doubleChar x s).head? = s.head? := by
  cases s with
  | nil => rfl
  | cons c s => by_cases h : c = x <;> simp [doubleChar, h]

theorem writeDescriptors_head (ds : List Descriptor) : (writeDescriptors ds).head? ≠ some ' ' := by
  cases ds with
  | nil => simp [writeDescriptors]
  | cons d ds =>
    obtain ⟨c, r, hx, _, _, hsp⟩ := suffix_head d.suffix
    simp only [writeDescriptors, writeDescriptor, writeIdent]
    split
    · rename_i hs
      cases hn : d.name with
      | nil => simpa [hx] using hsp
      | cons a s =>
        rw [hn] at hs
        simp at hs
        simpa using (simple_ne_tick hs.1).2
    · simp

theorem writePackageField_ok (s : Str) (h : fieldOk s) : writePackageField s = doubleChar ' ' s := by
  simp [writePackageField, h.1]

theorem writePackageField_head (s rest : Str) (h : fieldOk s) :
    (writePackageField s ++ rest).head? ≠ some ' ' := by
  rw [writePackageField_ok s h]
  obtain ⟨h1, h2⟩ := h
  cases s with
  | nil => exact absurd rfl h1
  | cons c s =>
    have hc : c ≠ ' ' := by simpa using h2
    simp [doubleChar, hc]

theorem readField_write (s rest : Str) (h : fieldOk s) (hr : rest.head? ≠ some ' ') :
    readField (writePackageField s ++ ' ' :: rest) = some (s, rest) := by
  rw [writePackageField_ok s h]; exact readField_double s rest hr

end Verif
