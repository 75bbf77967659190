import Verif.Model.FingerprintText
import Verif.Props.Fingerprint
/-! # C107: the text of a fingerprint tree -/
namespace Verif.Fp
open Verif Spec

/-- A tree of lists, identifiers, strings and numbers (`tail`: the rest of a list). -/
def Spec.Readable (L : Lex) (tail : Bool) : Sexpr → Prop
  | .nil => True
  | .str _ => tail = false
  | .int _ => tail = false
  | .sym s => tail = false ∧ IsIdent L s
  | .cons a b => Readable L false a ∧ Readable L true b

theorem readable_parses {L : Lex} (h : LexOk L) : ∀ x : Sexpr, (Readable L false x → Parses L (writeSexpr L x) x) ∧
    (Readable L true x → ∃ xs s, x = lst xs ∧ writeRest L x = s ++ [')'] ∧ SeqStart s ∧ ParsesSeq L s xs) := by
  intro x
  induction x with
  | nil => exact ⟨fun _ => parses_list h (seq_nil L h), fun _ => ⟨[], [], rfl, rfl, trivial, seq_nil L h⟩⟩
  | str s => exact ⟨fun _ => parses_quote h s, fun hr => by simp [Readable] at hr⟩
  | int n => exact ⟨fun _ => parses_int h n, fun hr => by simp [Readable] at hr⟩
  | sym s => exact ⟨fun hr => parses_ident h hr.2, fun hr => by simp [Readable] at hr⟩
  | cons a b iha ihb =>
    constructor
    · intro hr
      obtain ⟨xs, s, rfl, h2, h3, h4⟩ := ihb.2 hr.2
      have := parses_list h (seq_first (iha.1 hr.1) h4 h3)
      unfold writeSexpr
      rw [h2, ← List.append_assoc]
      exact this
    · intro hr
      obtain ⟨xs, s, rfl, h2, h3, h4⟩ := ihb.2 hr.2
      refine ⟨a :: xs, ' ' :: (writeSexpr L a ++ s), rfl, ?_, rfl, seq_cons (iha.1 hr.1) h4 h3⟩
      unfold writeRest
      rw [h2]
      simp

theorem parse_of_parses {L : Lex} {s : Str} {x : Sexpr} (hp : Parses L s x) : parse L s = some x := by
  obtain ⟨tok, r, hscan, _, hpe⟩ := hp [] trivial
  rw [List.append_nil] at hscan
  unfold parse
  rw [hscan, Option.bind_some, hpe _ (by omega)]
  rfl

/-! ## The text of the tree of a type -/

theorem writeRest_lst (L : Lex) (xs : List Sexpr) : writeRest L (lst xs) = xs.flatMap (fun x => ' ' :: writeSexpr L x) ++ [')'] := by
  induction xs with
  | nil => rfl
  | cons x xs ih => simp only [lst, writeRest, ih, List.flatMap_cons, List.cons_append, List.append_assoc]

theorem writeSexpr_form (L : Lex) (w : Str) (xs : List Sexpr) :
    writeSexpr L (lst (.sym w :: xs)) = '(' :: (w ++ (xs.flatMap (fun x => ' ' :: writeSexpr L x) ++ [')'])) := by
  simp only [lst, writeSexpr, writeRest_lst]

theorem writeName (L : Lex) (pkg : Option Str) (name s : Str) (h : printName L pkg name = some s) : writeSexpr L (nameTree pkg name) = s := by
  unfold printName at h
  unfold nameTree
  cases pkg with
  | none =>
    simp only at h
    split at h
    · simp only [Option.some.injEq] at h; rw [← h]; rfl
    · simp at h
  | some p =>
    simp only [Option.some.injEq] at h
    rw [← h]
    simp [writeSexpr_form, writeSexpr]

mutual
theorem write_tree {L : Lex} (hL : LexOk L) : ∀ (t : Ty), Valid L t → ∀ s, print L t = some s → writeSexpr L (tree t) = s
  | .alias t, hv, s, h => by
    rw [tree]
    exact write_tree hL t (by simpa [Valid] using hv) s (by simpa [print] using h)
  | .named d pkg name .nil, hv, s, h => by
    rw [tree]
    exact writeName L pkg name s (by simpa [print] using h)
  | .named d pkg name (.cons t ts), hv, s, h => by
    simp only [Valid] at hv
    rw [print] at h
    simp only [Option.bind_eq_some_iff, Option.map_eq_some_iff] at h
    obtain ⟨n, hn, as, ha, rfl⟩ := h
    rw [tree, writeSexpr_form, List.flatMap_cons, writeName L pkg name n hn, write_each hL (.cons t ts) hv.2 as ha]
    simp
  | .array l t, hv, s, h => by
    rw [print, Option.map_eq_some_iff] at h
    obtain ⟨e, he, rfl⟩ := h
    rw [tree, writeSexpr_form]
    simp [write_tree hL t (by simpa [Valid] using hv) e he, writeSexpr]
  | .slice t, hv, s, h => by
    rw [print, Option.map_eq_some_iff] at h
    obtain ⟨e, he, rfl⟩ := h
    rw [tree, writeSexpr_form]
    simp [write_tree hL t (by simpa [Valid] using hv) e he]
  | .ptr t, hv, s, h => by
    rw [print, Option.map_eq_some_iff] at h
    obtain ⟨e, he, rfl⟩ := h
    rw [tree, writeSexpr_form]
    simp [write_tree hL t (by simpa [Valid] using hv) e he]
  | .map k t, hv, s, h => by
    simp only [Valid] at hv
    rw [print] at h
    simp only [Option.bind_eq_some_iff, Option.map_eq_some_iff] at h
    obtain ⟨k', hk, e, he, rfl⟩ := h
    rw [tree, writeSexpr_form]
    simp [write_tree hL k hv.1 k' hk, write_tree hL t hv.2 e he]
  | .chan d t, hv, s, h => by
    rw [print, Option.map_eq_some_iff] at h
    obtain ⟨e, he, rfl⟩ := h
    rw [tree, writeSexpr_form]
    simp [write_tree hL t (by simpa [Valid] using hv) e he, writeSexpr]
  | .basic b, hv, s, h => by
    rw [print] at h
    rw [tree]
    by_cases hu : b = .unsafePointer
    · subst hu
      simp only [Basic.text, Option.some.injEq] at h
      subst h
      rw [basicTree, writeSexpr_form]
      simp [writeSexpr, hL.quote_plain go!"unsafe" (by decide)]
    · have hi : b ≠ .invalid ∧ b ≠ .untyped := by simpa [Valid] using hv
      cases b <;> first | exact absurd rfl hu | exact absurd rfl hi.1 | exact absurd rfl hi.2 | (simp only [Basic.text, Option.some.injEq] at h; subst h; rfl)
  | .sig ps v rs, hv, s, h => by
    simp only [Valid] at hv
    rw [print] at h
    simp only [Option.bind_eq_some_iff, Option.map_eq_some_iff] at h
    obtain ⟨p, hp, r, hr, rfl⟩ := h
    have h1 := write_each hL ps hv.1 p hp
    have h2 := write_each hL rs hv.2 r hr
    cases v with
    | false => rw [tree, writeSexpr_form]; simp [writeSexpr_form, h1, h2]
    | true => rw [tree, writeSexpr_form]; simp [writeSexpr_form, h1, h2, writeSexpr]
  | .struct fs, hv, s, h => by
    rw [print, Option.map_eq_some_iff] at h
    obtain ⟨e, he, rfl⟩ := h
    rw [tree, writeSexpr_form, write_fields hL fs (by simpa [Valid] using hv) e he]
    rfl
  | .iface .nil, _, s, h => by
    simp only [print, Option.some.injEq] at h
    subst h
    rfl
  | .iface (.cons _ _ _), _, s, h => by
    simp only [print, Option.some.injEq] at h
    subst h
    rfl
  | .typeParam _ i, _, s, h => by
    simp only [print, Option.some.injEq] at h
    subst h
    rw [tree, writeSexpr_form]
    simp [writeSexpr]
  | .union, hv, s, h => by simp [Valid] at hv
theorem write_each {L : Lex} (hL : LexOk L) : ∀ (ts : Tys), ValidEach L ts → ∀ s, printEach L ts = some s →
    (trees ts).flatMap (fun x => ' ' :: writeSexpr L x) = s
  | .nil, _, s, h => by
    simp only [printEach, Option.some.injEq] at h
    subst h
    rfl
  | .cons t ts, hv, s, h => by
    simp only [ValidEach] at hv
    rw [printEach] at h
    simp only [Option.bind_eq_some_iff, Option.map_eq_some_iff] at h
    obtain ⟨e, he, r, hr, rfl⟩ := h
    rw [trees, List.flatMap_cons, write_tree hL t hv.1 e he, write_each hL ts hv.2 r hr]
    rfl
theorem write_fields {L : Lex} (hL : LexOk L) : ∀ (fs : Fields), ValidFields L fs → ∀ s, printFields L fs = some s →
    (fieldTrees fs).flatMap (fun x => ' ' :: writeSexpr L x) = s
  | .nil, _, s, h => by
    simp only [printFields, Option.some.injEq] at h
    subst h
    rfl
  | .cons hd t fs, hv, s, h => by
    simp only [ValidFields] at hv
    rw [printFields] at h
    simp only [Option.bind_eq_some_iff, Option.map_eq_some_iff] at h
    obtain ⟨e, he, r, hr, rfl⟩ := h
    have hn : writeSexpr L (if isExported hd.name then .sym hd.name else nameTree (some hd.pkg) hd.name) =
        if isExported hd.name then hd.name else go!"(qual " ++ (L.quote hd.pkg ++ ' ' :: (hd.name ++ [')'])) := by
      split
      · rfl
      · exact writeName L _ _ _ rfl
    rw [fieldTrees]
    simp only [List.flatMap_cons, hn, write_tree hL t hv.2.1 e he, write_fields hL fs hv.2.2 r hr]
    simp [printHdr, writeSexpr]
end

end Verif.Fp

namespace Verif
open Fp Fp.Spec

/-- **C107**: the text of the tree that is parsed from the fingerprint of a type is this fingerprint. -/
theorem C107_text_of_fingerprint (L : Lex) (hL : LexOk L) (t : Ty) (ht : Valid L t) (s : Str) (b : Bool) (h : encode L t = some (s, b)) :
    ∃ x, parse L s = some x ∧ x.text L = s := by
  obtain ⟨s', b', h1, h2⟩ := C28_parse_infallible L hL t ht
  rw [h] at h1
  simp only [Option.some.injEq, Prod.mk.injEq] at h1
  obtain ⟨rfl, rfl⟩ := h1
  refine ⟨_, h2, write_tree hL t ht s ?_⟩
  unfold encode at h
  obtain ⟨s', h3, h4⟩ := Option.map_eq_some_iff.1 h
  simp only [Prod.mk.injEq] at h4
  rw [h3, h4.1]

/-- **C107**: parsing the text of a tree gives the tree, so different trees have different texts. -/
theorem C107_text_parses (L : Lex) (hL : LexOk L) (x : Sexpr) (hx : Readable L false x) : parse L (x.text L) = some x :=
  parse_of_parses ((readable_parses hL x).1 hx)

theorem C107_text_injective (L : Lex) (hL : LexOk L) (x y : Sexpr) (hx : Readable L false x) (hy : Readable L false y) (h : x.text L = y.text L) : x = y := by
  have := C107_text_parses L hL x hx
  rw [h, C107_text_parses L hL y hy] at this
  exact (Option.some.inj this).symm

/-- The sample of C28 meets the hypotheses. -/
example : ∃ s b x, encode sampleLex sampleTy = some (s, b) ∧ parse sampleLex s = some x ∧ x.text sampleLex = s := by
  obtain ⟨s, b, h, _⟩ := C28_parse_infallible sampleLex sampleLex_ok sampleTy sampleTy_valid
  obtain ⟨x, h1, h2⟩ := C107_text_of_fingerprint sampleLex sampleLex_ok sampleTy sampleTy_valid s b h
  exact ⟨s, b, x, h, h1, h2⟩

/-- `(a () ("x" 12))` -/
example : Readable sampleLex false (.cons (.sym go!"a") (.cons .nil (.cons (.cons (.str go!"x") (.cons (.int 12) .nil)) .nil))) ∧
    Sexpr.text sampleLex (.cons (.sym go!"a") (.cons .nil (.cons (.cons (.str go!"x") (.cons (.int 12) .nil)) .nil))) = go!"(a () (\"x\" 12))" := by
  refine ⟨?_, by decide +kernel⟩
  simp [Readable, IsIdent, sampleLex]

/-- A dotted list, which parsing never yields, has no text that can be read. -/
example : Sexpr.text sampleLex (.cons (.sym go!"a") (.int 1)) = go!"(a . )" := by decide +kernel

end Verif
