import Verif.Spec.Fingerprint
import Verif.Lemmas.Digits
/-!
# Lemmas about fingerprints: printing respects identity, parsing inverts printing
-/
namespace Verif.Fp
open Verif Spec

/-! ### Identity -/

theorem printHdr_same (L : Lex) {h k : FieldHdr} (e : sameField h k) : printHdr L h = printHdr L k := by
  obtain ⟨h1, h2, h3, h4⟩ := e
  unfold printHdr
  rw [h1, h3, h4]
  rcases h2 with h2 | h2
  · rw [h1, ← isExported_iff] at h2; simp [h2]
  · rw [h2]

mutual
theorem print_identical (L : Lex) : ∀ {t u}, Identical t u → print L t = print L u ∧ tricky t = tricky u
  | _, _, .aliasL h => by simpa [print, tricky] using print_identical L h
  | _, _, .aliasR h => by simpa [print, tricky] using print_identical L h
  | _, _, .named (as := as) (bs := bs) h => by
    have ih := printEach_identical L h
    cases h with
    | nil => exact ⟨rfl, rfl⟩
    | cons _ _ => simp only [print, tricky]; rw [ih.1, ih.2]; exact ⟨rfl, rfl⟩
  | _, _, .array h => by have ih := print_identical L h; simp only [print, tricky, ih, and_self]
  | _, _, .slice h => by have ih := print_identical L h; simp only [print, tricky, ih, and_self]
  | _, _, .ptr h => by have ih := print_identical L h; simp only [print, tricky, ih, and_self]
  | _, _, .map h h' => by
    have ih := print_identical L h; have ih' := print_identical L h'; simp only [print, tricky, ih, ih', and_self]
  | _, _, .chan h => by have ih := print_identical L h; simp only [print, tricky, ih, and_self]
  | _, _, .basic => ⟨rfl, rfl⟩
  | _, _, .sig h h' => by
    have ih := printEach_identical L h; have ih' := printEach_identical L h'; simp only [print, tricky, ih, ih', and_self]
  | _, _, .struct h => by have ih := printFields_identical L h; simp only [print, tricky, ih, and_self]
  | _, _, .iface h => by cases h <;> exact ⟨rfl, rfl⟩
  | _, _, .typeParam => ⟨rfl, rfl⟩
theorem printEach_identical (L : Lex) : ∀ {t u}, IdenticalEach t u → printEach L t = printEach L u ∧ trickyEach t = trickyEach u
  | _, _, .nil => ⟨rfl, rfl⟩
  | _, _, .cons h h' => by
    have ih := print_identical L h; have ih' := printEach_identical L h'
    simp only [printEach, trickyEach, ih, ih', and_self]
theorem printFields_identical (L : Lex) :
    ∀ {t u}, IdenticalFields t u → printFields L t = printFields L u ∧ trickyFields t = trickyFields u
  | _, _, .nil => ⟨rfl, rfl⟩
  | _, _, .cons e h h' => by
    have ih := print_identical L h; have ih' := printFields_identical L h'
    simp only [printFields, trickyFields, ih, ih', printHdr_same L e, and_self]
end

/-! ### Parsing -/

/-- What may follow a token. -/
def Delim : Str → Prop
  | [] => True
  | c :: _ => c = ' ' ∨ c = ')'

/-- `s` is read as the expression `x`. -/
def Parses (L : Lex) (s : Str) (x : Sexpr) : Prop :=
  ∀ rest, Delim rest → ∃ tok r, scan L (s ++ rest) = some (tok, r) ∧ tok ≠ .rparen ∧
    ∀ fuel, 2 * s.length ≤ fuel → parseExpr L fuel (tok, r) = (scan L rest).map fun st => (x, st)

/-- `s` is read as the remaining elements `xs` of a list. -/
def ParsesSeq (L : Lex) (s : Str) (xs : List Sexpr) : Prop :=
  ∀ rest, ∀ fuel, 2 * s.length + 1 ≤ fuel →
    (scan L (s ++ ')' :: rest)).bind (parseList L fuel) = (scan L rest).map fun st => (lst xs, st)

theorem scan_space (L : Lex) (r : Str) : scan L (' ' :: r) = scan L r := by
  rw [scan]; simp

theorem scan_rparen (L : Lex) (h : LexOk L) (r : Str) : scan L (')' :: r) = some (.rparen, r) := by
  rw [scan]
  have := h.not_letter ')' (by decide)
  simp [this]

theorem scan_lparen (L : Lex) (h : LexOk L) (r : Str) : scan L ('(' :: r) = some (.lparen, r) := by
  rw [scan]
  have := h.not_letter '(' (by decide)
  simp [this]

theorem seq_nil (L : Lex) (h : LexOk L) : ParsesSeq L [] [] := by
  intro rest fuel hf
  obtain ⟨n, rfl⟩ : ∃ n, fuel = n + 1 := ⟨fuel - 1, by simp at hf; omega⟩
  simp [scan_rparen L h, parseList, lst]

/-- A sequence that may follow an element. -/
def SeqStart : Str → Prop
  | [] => True
  | c :: _ => c = ' '

theorem SeqStart.delim {s : Str} (h : SeqStart s) (rest : Str) : Delim (s ++ ')' :: rest) := by
  cases s with
  | nil => exact .inr rfl
  | cons c r => exact .inl h

theorem seq_first {L : Lex} {e s : Str} {x : Sexpr} {xs : List Sexpr} (he : Parses L e x) (hs : ParsesSeq L s xs)
    (hst : SeqStart s) : ParsesSeq L (e ++ s) (x :: xs) := by
  intro rest fuel hf
  obtain ⟨n, rfl⟩ : ∃ n, fuel = n + 1 := ⟨fuel - 1, by omega⟩
  rw [List.length_append] at hf
  obtain ⟨tok, r, hscan, hne, hp⟩ := he (s ++ ')' :: rest) (hst.delim rest)
  rw [List.append_assoc, hscan]
  simp only [Option.bind_some]
  have hpl : parseList L (n + 1) (tok, r) =
      (parseExpr L n (tok, r)).bind fun (x, st) => (parseList L n st).map fun (xs, st) => (.cons x xs, st) := by
    cases tok with
    | rparen => exact absurd rfl hne
    | _ => rw [parseList] <;> simp
  rw [hpl, hp n (by omega)]
  by_cases hlen : e.length = 0
  · -- an empty element cannot be read
    exfalso
    have he0 : e = [] := List.length_eq_zero_iff.1 hlen
    subst he0
    have h2 := hp 0 (by simp)
    obtain ⟨tok', r', hscan', _, hp'⟩ := he [] trivial
    have h3 := hp' 0 (by simp)
    simp [parseExpr, scan] at h3
  have := hs rest n (by omega)
  cases hsc : scan L (s ++ ')' :: rest) with
  | none =>
    rw [hsc] at this
    cases hr : scan L rest with
    | none => rfl
    | some _ => rw [hr] at this; simp at this
  | some st =>
    rw [hsc] at this
    simp only [Option.bind_some] at this
    simp only [Option.map_some, Option.bind_some, this, Option.map_map]
    rfl

theorem seq_cons {L : Lex} {e s : Str} {x : Sexpr} {xs : List Sexpr} (he : Parses L e x) (hs : ParsesSeq L s xs)
    (hst : SeqStart s) : ParsesSeq L (' ' :: (e ++ s)) (x :: xs) := by
  intro rest fuel hf
  rw [List.cons_append, scan_space]
  exact seq_first he hs hst rest fuel (by simp at hf ⊢; omega)

theorem parses_list {L : Lex} (h : LexOk L) {s : Str} {xs : List Sexpr} (hs : ParsesSeq L s xs) :
    Parses L ('(' :: (s ++ [')'])) (lst xs) := by
  intro rest _
  refine ⟨.lparen, s ++ ')' :: rest, ?_, by simp, ?_⟩
  · simp [scan_lparen L h]
  · intro fuel hf
    obtain ⟨n, rfl⟩ : ∃ n, fuel = n + 1 := ⟨fuel - 1, by simp at hf; omega⟩
    rw [parseExpr]
    exact hs rest n (by simp at hf; omega)

/-! #### Atoms -/

theorem takeWhile'_app (p : Char → Bool) (a rest : Str) (ha : ∀ c ∈ a, p c = true)
    (hr : ∀ c r, rest = c :: r → p c = false) : takeWhile' p (a ++ rest) = (a, rest) := by
  induction a with
  | nil =>
    cases rest with
    | nil => rfl
    | cons c r => simp [takeWhile', hr c r rfl]
  | cons c a ih =>
    simp only [List.cons_append, takeWhile', ha c (by simp), if_true]
    rw [ih (fun c hc => ha c (by simp [hc]))]

theorem letter_not_blank {L : Lex} (h : LexOk L) {c : Char} (hc : L.letter c = true) : c ∉ go!" \t\n\r\"()0123456789" := by
  intro hm
  rw [h.not_letter c hm] at hc
  exact Bool.noConfusion hc

theorem parses_ident {L : Lex} (h : LexOk L) {s : Str} (hs : IsIdent L s) : Parses L s (.sym s) := by
  intro rest hd
  cases s with
  | nil => exact absurd hs (by simp [IsIdent])
  | cons c a =>
    obtain ⟨hc, ha⟩ := hs
    have hnb := letter_not_blank h hc
    refine ⟨.ident (c :: a), rest, ?_, by simp, ?_⟩
    · have htw := takeWhile'_app (fun c => L.letter c || L.digit c) a rest
        (fun d hd => by simpa using ha d hd)
        (by
          intro d r hr
          subst hr
          rcases hd with rfl | rfl
          · simp [h.not_letter ' ' (by decide), h.not_digit.1]
          · simp [h.not_letter ')' (by decide), h.not_digit.2])
      have h1 : ¬ (c = ' ' ∨ c = '\t' ∨ c = '\n' ∨ c = '\r') := by
        intro hh; apply hnb; rcases hh with rfl | rfl | rfl | rfl <;> decide
      rw [List.cons_append, scan, if_neg h1, hc, if_pos rfl, htw]
    · intro fuel hf
      obtain ⟨n, rfl⟩ : ∃ n, fuel = n + 1 := ⟨fuel - 1, by simp at hf; omega⟩
      rw [parseExpr]

theorem parses_word {L : Lex} (h : LexOk L) {s : Str} (h0 : s ≠ [])
    (hs : ∀ c ∈ s, ('a' ≤ c ∧ c ≤ 'z') ∨ c = 'P') : Parses L s (.sym s) := by
  refine parses_ident h ?_
  cases s with
  | nil => exact absurd rfl h0
  | cons c a => exact ⟨h.ascii_letter c (hs c (by simp)), fun d hd => .inl (h.ascii_letter d (hs d (by simp [hd])))⟩

theorem parses_quote {L : Lex} (h : LexOk L) (s : Str) : Parses L (L.quote s) (.str s) := by
  intro rest _
  obtain ⟨body, hq, hscan⟩ := h.quoted s
  refine ⟨.str (L.quote s), rest, ?_, by simp, ?_⟩
  · rw [hq, List.cons_append, scan]
    have h1 := h.not_letter '"' (by decide)
    rw [if_neg (by decide), h1, if_neg (by simp), if_neg (by decide), if_pos rfl, hscan rest]
    rfl
  · intro fuel hf
    rw [hq] at hf
    obtain ⟨n, rfl⟩ : ∃ n, fuel = n + 1 := ⟨fuel - 1, by simp at hf; omega⟩
    rw [parseExpr, h.unquote_quote s]
    cases scan L rest <;> rfl

theorem digitChar_isDigit (n : Nat) (h : n < 10) : (Str.digitChar n).isDigit = true := by
  have : ∀ m : Fin 10, (Str.digitChar m.val).isDigit = true := by decide
  exact this ⟨n, h⟩

theorem digitChar_val (n : Nat) (h : n < 10) : (Str.digitChar n).toNat - '0'.toNat = n := by
  have : ∀ m : Fin 10, (Str.digitChar m.val).toNat - '0'.toNat = m.val := by decide
  exact this ⟨n, h⟩

theorem natDigits_isDigit (n : Nat) : ∀ c ∈ Str.natDigits n, c.isDigit = true := by
  induction n using Nat.strongRecOn with
  | _ n ih =>
    unfold Str.natDigits
    split
    · intro c hc; simp at hc; subst hc; exact digitChar_isDigit n (by assumption)
    · intro c hc
      rw [List.mem_append] at hc
      rcases hc with hc | hc
      · exact ih (n / 10) (by omega) c hc
      · simp at hc; subst hc; exact digitChar_isDigit _ (by omega)

theorem natDigits_ne_nil (n : Nat) : Str.natDigits n ≠ [] := by
  unfold Str.natDigits; split <;> simp

theorem atoi_natDigits (n : Nat) : atoi (Str.natDigits n) = n := by
  induction n using Nat.strongRecOn with
  | _ n ih =>
    unfold Str.natDigits
    split
    · simp only [atoi, List.foldl]; rw [digitChar_val n (by assumption)]; omega
    · have := ih (n / 10) (by omega)
      unfold atoi at this ⊢
      rw [List.foldl_append, this]
      simp only [List.foldl]
      rw [digitChar_val _ (by omega)]
      omega

theorem isDigit_mem {c : Char} (h : c.isDigit = true) : c ∈ go!"0123456789" := by
  have h1 : c.val ≥ 48 ∧ c.val ≤ 57 := by
    unfold Char.isDigit at h; simpa using h
  have : c.toNat ≥ 48 ∧ c.toNat ≤ 57 := by
    constructor
    · exact UInt32.le_iff_toNat_le.1 h1.1
    · exact UInt32.le_iff_toNat_le.1 h1.2
  have hc : c = Char.ofNat c.toNat := (Char.ofNat_toNat c).symm
  have : ∀ m : Fin 58, m.val ≥ 48 → Char.ofNat m.val ∈ go!"0123456789" := by decide
  rw [hc]
  exact this ⟨c.toNat, by omega⟩ (by simp; omega)

theorem parses_int {L : Lex} (h : LexOk L) (n : Nat) : Parses L (Str.natDigits n) (.int n) := by
  intro rest hd
  have hall := natDigits_isDigit n
  have hat := atoi_natDigits n
  cases hn : Str.natDigits n with
  | nil => exact absurd hn (natDigits_ne_nil n)
  | cons c a =>
    rw [hn] at hall hat
    have hc := hall c (by simp)
    have hm := isDigit_mem hc
    refine ⟨.int (c :: a), rest, ?_, by simp, ?_⟩
    · have htw := takeWhile'_app Char.isDigit a rest (fun d hd => hall d (by simp [hd]))
        (by intro d r hr; subst hr; rcases hd with rfl | rfl <;> decide)
      have h1 : ¬ (c = ' ' ∨ c = '\t' ∨ c = '\n' ∨ c = '\r') := by
        intro hh; rcases hh with rfl | rfl | rfl | rfl <;> exact absurd hc (by decide)
      have h2 : L.letter c = false := h.not_letter c (by
        simp only [List.mem_cons, List.not_mem_nil, or_false] at hm ⊢
        rcases hm with h | h | h | h | h | h | h | h | h | h <;> simp [h])
      rw [List.cons_append, scan, if_neg h1, h2, if_neg (by simp), if_pos hc, htw]
    · intro fuel hf
      obtain ⟨m, rfl⟩ : ∃ m, fuel = m + 1 := ⟨fuel - 1, by simp at hf; omega⟩
      rw [parseExpr]
      simp only [hat]

end Verif.Fp

namespace Verif.Fp
open Verif Spec

/-- A list of a key word and more elements. -/
theorem parses_form {L : Lex} (h : LexOk L) {w s p : Str} {xs : List Sexpr} (h0 : w ≠ [])
    (hw : ∀ c ∈ w, ('a' ≤ c ∧ c ≤ 'z') ∨ c = 'P') (hs : ParsesSeq L s xs) (hst : SeqStart s)
    (hp : p = '(' :: (w ++ (s ++ [')']))) : Parses L p (lst (.sym w :: xs)) := by
  subst hp
  have := parses_list h (seq_first (parses_word h h0 hw) hs hst)
  simpa using this

theorem parses_qual {L : Lex} (h : LexOk L) (p : Str) {n : Str} (hn : Parses L n (.sym n)) :
    Parses L (go!"(qual " ++ (L.quote p ++ ' ' :: (n ++ [')']))) (nameTree (some p) n) := by
  have h2 := seq_cons (parses_quote h p) (seq_cons hn (seq_nil L h) trivial) rfl
  refine parses_form h (w := go!"qual") (by simp) (by decide) h2 rfl ?_
  simp

theorem parses_name {L : Lex} (h : LexOk L) (pkg : Option Str) (n : Str)
    (hv : match pkg with
      | none => n = go!"error" ∨ n = go!"comparable"
      | some p => p ≠ go!"unsafe" ∧ IsIdent L n) :
    ∃ s, printName L pkg n = some s ∧ Parses L s (nameTree pkg n) := by
  cases pkg with
  | none =>
    refine ⟨n, by simp [printName, hv], ?_⟩
    rcases hv with rfl | rfl
    · exact parses_word h (by simp) (by decide)
    · exact parses_word h (by simp) (by decide)
  | some p => exact ⟨_, rfl, parses_qual h p (parses_ident h hv.2)⟩

theorem parses_basic {L : Lex} (h : LexOk L) (b : Basic)
    (hb : b ≠ .invalid ∧ b ≠ .untyped) : ∃ s, b.text = some s ∧ Parses L s (basicTree b) := by
  have hid : ∀ (w d : Str), w ≠ [] → (∀ c ∈ w, ('a' ≤ c ∧ c ≤ 'z') ∨ c = 'P') → (∀ c ∈ d, c.isDigit = true) →
      Parses L (w ++ d) (.sym (w ++ d)) := by
    intro w d h0 hw hd
    refine parses_ident h ?_
    cases w with
    | nil => exact absurd rfl h0
    | cons c a =>
      refine ⟨h.ascii_letter c (hw c (by simp)), fun x hx => ?_⟩
      rcases List.mem_append.1 hx with hx | hx
      · exact .inl (h.ascii_letter x (hw x (by simp [hx])))
      · exact .inr (h.ascii_digit x (hd x hx))
  cases b with
  | invalid => exact absurd rfl hb.1
  | untyped => exact absurd rfl hb.2
  | unsafePointer =>
    refine ⟨_, rfl, ?_⟩
    have := parses_qual h go!"unsafe" (parses_word h (s := go!"Pointer") (by simp) (by decide))
    rw [h.quote_plain _ (by decide)] at this
    exact this
  | bool => exact ⟨_, rfl, hid go!"bool" [] (by simp) (by decide) (by simp)⟩
  | int => exact ⟨_, rfl, hid go!"int" [] (by simp) (by decide) (by simp)⟩
  | int8 => exact ⟨_, rfl, hid go!"int" go!"8" (by simp) (by decide) (by decide)⟩
  | int16 => exact ⟨_, rfl, hid go!"int" go!"16" (by simp) (by decide) (by decide)⟩
  | int32 => exact ⟨_, rfl, hid go!"rune" [] (by simp) (by decide) (by decide)⟩
  | int64 => exact ⟨_, rfl, hid go!"int" go!"64" (by simp) (by decide) (by decide)⟩
  | uint => exact ⟨_, rfl, hid go!"uint" [] (by simp) (by decide) (by decide)⟩
  | uint8 => exact ⟨_, rfl, hid go!"byte" [] (by simp) (by decide) (by decide)⟩
  | uint16 => exact ⟨_, rfl, hid go!"uint" go!"16" (by simp) (by decide) (by decide)⟩
  | uint32 => exact ⟨_, rfl, hid go!"uint" go!"32" (by simp) (by decide) (by decide)⟩
  | uint64 => exact ⟨_, rfl, hid go!"uint" go!"64" (by simp) (by decide) (by decide)⟩
  | uintptr => exact ⟨_, rfl, hid go!"uintptr" [] (by simp) (by decide) (by decide)⟩
  | float32 => exact ⟨_, rfl, hid go!"float" go!"32" (by simp) (by decide) (by decide)⟩
  | float64 => exact ⟨_, rfl, hid go!"float" go!"64" (by simp) (by decide) (by decide)⟩
  | complex64 => exact ⟨_, rfl, hid go!"complex" go!"64" (by simp) (by decide) (by decide)⟩
  | complex128 => exact ⟨_, rfl, hid go!"complex" go!"128" (by simp) (by decide) (by decide)⟩
  | string => exact ⟨_, rfl, hid go!"string" [] (by simp) (by decide) (by decide)⟩

mutual
theorem parses_print {L : Lex} (h : LexOk L) :
    ∀ t, Valid L t → ∃ s, print L t = some s ∧ Parses L s (tree t)
  | .alias t, hv => by simpa [print, tree] using parses_print h t (by simpa [Valid] using hv)
  | .named d pkg name .nil, hv => by
    simp only [Valid] at hv
    obtain ⟨s, hs, hp⟩ := parses_name h pkg name hv.1
    exact ⟨s, by simp [print, hs], by simpa [tree] using hp⟩
  | .named d pkg name (.cons t ts), hv => by
    simp only [Valid] at hv
    obtain ⟨n, hn, hpn⟩ := parses_name h pkg name hv.1
    obtain ⟨as, ha, hst, hpa⟩ := parses_each h (.cons t ts) hv.2
    refine ⟨_, by rw [print, hn, Option.bind_some, ha, Option.map_some], ?_⟩
    rw [tree]
    exact parses_form h (w := go!"inst") (by simp) (by decide) (seq_cons hpn hpa hst) rfl (by simp)
  | .array l t, hv => by
    obtain ⟨e, he, hp⟩ := parses_print h t (by simpa [Valid] using hv)
    refine ⟨_, by rw [print, he, Option.map_some], ?_⟩
    rw [tree]
    exact parses_form h (w := go!"array") (by simp) (by decide)
      (seq_cons (parses_int h l) (seq_cons hp (seq_nil L h) trivial) rfl) rfl (by simp)
  | .slice t, hv => by
    obtain ⟨e, he, hp⟩ := parses_print h t (by simpa [Valid] using hv)
    refine ⟨_, by rw [print, he, Option.map_some], ?_⟩
    rw [tree]
    exact parses_form h (w := go!"slice") (by simp) (by decide) (seq_cons hp (seq_nil L h) trivial) rfl (by simp)
  | .ptr t, hv => by
    obtain ⟨e, he, hp⟩ := parses_print h t (by simpa [Valid] using hv)
    refine ⟨_, by rw [print, he, Option.map_some], ?_⟩
    rw [tree]
    exact parses_form h (w := go!"ptr") (by simp) (by decide) (seq_cons hp (seq_nil L h) trivial) rfl (by simp)
  | .map k t, hv => by
    simp only [Valid] at hv
    obtain ⟨k', hk, hpk⟩ := parses_print h k hv.1
    obtain ⟨e, he, hp⟩ := parses_print h t hv.2
    refine ⟨_, by rw [print, hk, Option.bind_some, he, Option.map_some], ?_⟩
    rw [tree]
    exact parses_form h (w := go!"map") (by simp) (by decide)
      (seq_cons hpk (seq_cons hp (seq_nil L h) trivial) rfl) rfl (by simp)
  | .chan d t, hv => by
    obtain ⟨e, he, hp⟩ := parses_print h t (by simpa [Valid] using hv)
    refine ⟨_, by rw [print, he, Option.map_some], ?_⟩
    rw [tree]
    exact parses_form h (w := go!"chan") (by simp) (by decide)
      (seq_cons (parses_int h d) (seq_cons hp (seq_nil L h) trivial) rfl) rfl (by simp)
  | .basic b, hv => by
    obtain ⟨s, hs, hp⟩ := parses_basic h b (by simpa [Valid] using hv)
    exact ⟨s, by rw [print, hs], by rw [tree]; exact hp⟩
  | .sig ps v rs, hv => by
    simp only [Valid] at hv
    obtain ⟨p, hp, hst, hpp⟩ := parses_each h ps hv.1
    obtain ⟨r, hr, hst', hpr⟩ := parses_each h rs hv.2
    refine ⟨_, by rw [print, hp, Option.bind_some, hr, Option.map_some], ?_⟩
    have h1 : Parses L (go!"(tuple" ++ (p ++ [')'])) (lst (.sym go!"tuple" :: trees ps)) :=
      parses_form h (w := go!"tuple") (by simp) (by decide) hpp hst (by simp)
    have h2 : Parses L (go!"(tuple" ++ (r ++ [')'])) (lst (.sym go!"tuple" :: trees rs)) :=
      parses_form h (w := go!"tuple") (by simp) (by decide) hpr hst' (by simp)
    cases v with
    | false =>
      rw [tree]
      exact parses_form h (w := go!"func") (by simp) (by decide)
        (seq_cons h1 (seq_cons h2 (seq_nil L h) trivial) rfl) rfl (by simp)
    | true =>
      rw [tree]
      exact parses_form h (w := go!"func") (by simp) (by decide)
        (seq_cons h1 (seq_cons (parses_word h (s := go!"v") (by simp) (by decide))
          (seq_cons h2 (seq_nil L h) trivial) rfl) rfl) rfl (by simp)
  | .struct fs, hv => by
    obtain ⟨s, hs, hst, hp⟩ := parses_fields h fs (by simpa [Valid] using hv)
    refine ⟨_, by rw [print, hs, Option.map_some], ?_⟩
    rw [tree]
    exact parses_form h (w := go!"struct") (by simp) (by decide) hp hst (by simp)
  | .iface .nil, _ => ⟨_, rfl, parses_word h (by simp) (by decide)⟩
  | .iface (.cons _ _ _), _ =>
    ⟨_, rfl, parses_form h (w := go!"interface") (by simp) (by decide) (seq_nil L h) trivial (by simp)⟩
  | .typeParam _ i, _ => ⟨_, rfl, parses_form h (w := go!"typeparam") (by simp) (by decide)
      (seq_cons (parses_int h i) (seq_nil L h) trivial) rfl (by simp)⟩
  | .union, hv => by simp [Valid] at hv
theorem parses_each {L : Lex} (h : LexOk L) :
    ∀ ts, ValidEach L ts → ∃ s, printEach L ts = some s ∧ SeqStart s ∧ ParsesSeq L s (trees ts)
  | .nil, _ => ⟨[], rfl, trivial, seq_nil L h⟩
  | .cons t ts, hv => by
    simp only [ValidEach] at hv
    obtain ⟨e, he, hp⟩ := parses_print h t hv.1
    obtain ⟨s, hs, hst, hps⟩ := parses_each h ts hv.2
    refine ⟨_, by rw [printEach, he, Option.bind_some, hs, Option.map_some], by exact rfl, ?_⟩
    rw [trees]
    exact seq_cons hp hps hst
theorem parses_fields {L : Lex} (h : LexOk L) :
    ∀ fs, ValidFields L fs → ∃ s, printFields L fs = some s ∧ SeqStart s ∧ ParsesSeq L s (fieldTrees fs)
  | .nil, _ => ⟨[], rfl, trivial, seq_nil L h⟩
  | .cons hd t fs, hv => by
    simp only [ValidFields] at hv
    obtain ⟨e, he, hp⟩ := parses_print h t hv.2.1
    obtain ⟨s, hs, hst, hps⟩ := parses_fields h fs hv.2.2
    refine ⟨_, by rw [printFields, he, Option.bind_some, hs, Option.map_some], by exact rfl, ?_⟩
    rw [fieldTrees]
    have hrest := seq_cons (parses_quote h hd.tag) (seq_cons hp hps hst) rfl
    have hemb : Parses L (if hd.embedded then go!"true" else go!"false")
        (.sym (if hd.embedded then go!"true" else go!"false")) := by
      cases hd.embedded
      · exact parses_word h (s := go!"false") (by simp) (by decide)
      · exact parses_word h (s := go!"true") (by simp) (by decide)
    have hname : Parses L (if isExported hd.name then hd.name else go!"(qual " ++ (L.quote hd.pkg ++ ' ' :: (hd.name ++ [')'])))
        (if isExported hd.name then .sym hd.name else nameTree (some hd.pkg) hd.name) := by
      split
      · exact parses_ident h hv.1
      · exact parses_qual h hd.pkg (parses_ident h hv.1)
    have := seq_cons hname (seq_cons hemb hrest rfl) rfl
    simpa [printHdr] using this
end

theorem parse_print {L : Lex} (h : LexOk L) (t : Ty) (hv : Valid L t) :
    ∃ s, print L t = some s ∧ parse L s = some (tree t) := by
  obtain ⟨s, hs, hp⟩ := parses_print h t hv
  refine ⟨s, hs, ?_⟩
  obtain ⟨tok, r, hscan, _, hpe⟩ := hp [] trivial
  rw [List.append_nil] at hscan
  unfold parse
  rw [hscan, Option.bind_some, hpe _ (by omega)]
  rfl

end Verif.Fp
