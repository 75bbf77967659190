import Verif.Model.Document
import Verif.Spec.Documentation
/-! # C66-C68: documentation texts and signature re-quoting -/
namespace Verif
open Spec

/-! ## Deprecation -/

theorem splitOn_cons (c : Char) (s : Str) : ∃ h t, Str.splitOn c s = h :: t := by
  cases s with
  | nil => exact ⟨[], [], rfl⟩
  | cons d r =>
    simp only [Str.splitOn]
    split
    · exact ⟨_, _, rfl⟩
    · split <;> exact ⟨_, _, rfl⟩

/-- First line of a text and the other lines, in terms of prefixes. -/
theorem splitOn_lines (w : Str) (hw : '\n' ∉ w) (s : Str) :
    ((∃ h t, Str.splitOn '\n' s = h :: t ∧ w <+: h) ↔ w <+: s) ∧
    ((∃ h t, Str.splitOn '\n' s = h :: t ∧ ∃ l ∈ t, w <+: l) ↔
      ∃ a b, s = a ++ '\n' :: (w ++ b)) := by
  induction s with
  | nil =>
    constructor
    · simp [Str.splitOn]
    · simp [Str.splitOn]
  | cons d r ih =>
    obtain ⟨h, t, hs⟩ := splitOn_cons '\n' r
    rw [hs] at ih
    by_cases hd : d = '\n'
    · subst hd
      have e : Str.splitOn '\n' ('\n' :: r) = [] :: h :: t := by simp [Str.splitOn, hs]
      rw [e]
      constructor
      · constructor
        · rintro ⟨h', t', he, hp⟩
          simp only [List.cons.injEq] at he
          obtain ⟨rfl, _⟩ := he
          rw [List.prefix_nil.1 hp]; exact List.nil_prefix
        · intro hp
          cases w with
          | nil => exact ⟨_, _, rfl, List.nil_prefix⟩
          | cons x w =>
            rw [List.cons_prefix_cons] at hp
            exact absurd (by simp [hp.1]) hw
      · constructor
        · rintro ⟨h', t', he, l, hl, hp⟩
          simp only [List.cons.injEq] at he
          obtain ⟨_, rfl⟩ := he
          rcases List.mem_cons.1 hl with rfl | hl
          · obtain ⟨b, hb⟩ := ih.1.1 ⟨_, _, rfl, hp⟩
            exact ⟨[], b, by rw [hb]; rfl⟩
          · obtain ⟨a, b, hab⟩ := ih.2.1 ⟨_, _, rfl, l, hl, hp⟩
            exact ⟨'\n' :: a, b, by rw [hab]; rfl⟩
        · rintro ⟨a, b, hab⟩
          cases a with
          | nil =>
            simp only [List.nil_append, List.cons.injEq, true_and] at hab
            obtain ⟨h', t', he, hp⟩ := ih.1.2 ⟨b, hab.symm⟩
            simp only [List.cons.injEq] at he
            obtain ⟨rfl, rfl⟩ := he
            exact ⟨_, _, rfl, h, by simp, hp⟩
          | cons x a =>
            simp only [List.cons_append, List.cons.injEq] at hab
            obtain ⟨h', t', he, l, hl, hp⟩ := ih.2.2 ⟨a, b, hab.2⟩
            simp only [List.cons.injEq] at he
            obtain ⟨rfl, rfl⟩ := he
            exact ⟨_, _, rfl, l, by simp [hl], hp⟩
    · have e : Str.splitOn '\n' (d :: r) = (d :: h) :: t := by simp [Str.splitOn, hs, hd]
      rw [e]
      constructor
      · constructor
        · rintro ⟨h', t', he, hp⟩
          simp only [List.cons.injEq] at he
          obtain ⟨rfl, _⟩ := he
          cases w with
          | nil => exact List.nil_prefix
          | cons x w =>
            rw [List.cons_prefix_cons] at hp ⊢
            refine ⟨hp.1, ?_⟩
            have hw' : '\n' ∉ w := fun h => hw (by simp [h])
            -- a prefix of the first line is a prefix of the text
            have : ∀ (s h : Str) t, Str.splitOn '\n' s = h :: t → h <+: s := by
              intro s
              induction s with
              | nil => intro h t hh; simp [Str.splitOn] at hh; simp [hh]
              | cons d s ih =>
                intro h t hh
                simp only [Str.splitOn] at hh
                split at hh
                · simp only [List.cons.injEq] at hh; rw [← hh.1]; exact List.nil_prefix
                · obtain ⟨h', t', hs⟩ := splitOn_cons '\n' s
                  rw [hs] at hh
                  simp only [List.cons.injEq] at hh
                  rw [← hh.1, List.cons_prefix_cons]
                  exact ⟨rfl, ih h' t' hs⟩
            exact hp.2.trans (this r h t hs)
        · intro hp
          cases w with
          | nil => exact ⟨_, _, rfl, List.nil_prefix⟩
          | cons x w =>
            rw [List.cons_prefix_cons] at hp
            refine ⟨_, _, rfl, ?_⟩
            rw [List.cons_prefix_cons]
            refine ⟨hp.1, ?_⟩
            have hw' : '\n' ∉ w := fun h => hw (by simp [h])
            have : ∀ (s w h : Str) t, '\n' ∉ w → Str.splitOn '\n' s = h :: t → w <+: s → w <+: h := by
              intro s
              induction s with
              | nil => intro w h t _ hh hp; simp [Str.splitOn] at hh; simp [← hh.1] at hp ⊢; exact hp
              | cons d s ih =>
                intro w h t hw hh hp
                cases w with
                | nil => exact List.nil_prefix
                | cons y w =>
                  rw [List.cons_prefix_cons] at hp
                  simp only [Str.splitOn] at hh
                  split at hh
                  · rename_i hd; exact absurd (by simp [hp.1, hd]) hw
                  · obtain ⟨h', t', hs⟩ := splitOn_cons '\n' s
                    rw [hs] at hh
                    simp only [List.cons.injEq] at hh
                    rw [← hh.1, List.cons_prefix_cons]
                    exact ⟨hp.1, ih w h' t' (fun h => hw (by simp [h])) hs hp.2⟩
            exact this r w h t hw' hs hp.2
      · constructor
        · rintro ⟨h', t', he, l, hl, hp⟩
          simp only [List.cons.injEq] at he
          obtain ⟨_, rfl⟩ := he
          obtain ⟨a, b, hab⟩ := ih.2.1 ⟨_, _, rfl, l, hl, hp⟩
          exact ⟨d :: a, b, by rw [hab]; rfl⟩
        · rintro ⟨a, b, hab⟩
          cases a with
          | nil =>
            simp only [List.nil_append, List.cons.injEq] at hab
            exact absurd hab.1 hd
          | cons x a =>
            simp only [List.cons_append, List.cons.injEq] at hab
            obtain ⟨h', t', he, l, hl, hp⟩ := ih.2.2 ⟨a, b, hab.2⟩
            simp only [List.cons.injEq] at he
            obtain ⟨rfl, rfl⟩ := he
            exact ⟨_, _, rfl, l, hl, hp⟩

/-- **C66**: a documentation list counts as deprecated iff one of its texts has a line that starts with
`Deprecated:`. -/
theorem C66_deprecated_iff (docs : List Str) :
    isDocDeprecated docs = true ↔ ∃ d ∈ docs, HasLineStarting go!"Deprecated:" d := by
  have one : ∀ d : Str, ((Str.splitOn '\n' d).any (fun line => line.hasPrefix go!"Deprecated:")) = true ↔
      HasLineStarting go!"Deprecated:" d := by
    intro d
    obtain ⟨h, t, hs⟩ := splitOn_cons '\n' d
    have hl := splitOn_lines go!"Deprecated:" (by decide) d
    rw [hs] at hl ⊢
    simp only [List.any_cons, Str.hasPrefix, Bool.or_eq_true, List.isPrefixOf_iff_prefix, List.any_eq_true]
    constructor
    · rintro (hp | ⟨l, hm, hp⟩)
      · obtain ⟨b, hb⟩ := hl.1.1 ⟨_, _, rfl, hp⟩
        exact ⟨[], b, by simp [← hb], .inl rfl⟩
      · obtain ⟨a, b, hab⟩ := hl.2.1 ⟨_, _, rfl, l, hm, hp⟩
        exact ⟨a ++ ['\n'], b, by rw [hab]; simp, .inr ⟨a, rfl⟩⟩
    · rintro ⟨a, b, rfl, rfl | ⟨a', rfl⟩⟩
      · obtain ⟨h', t', he, hp⟩ := hl.1.2 ⟨b, by simp⟩
        simp only [List.cons.injEq] at he
        obtain ⟨rfl, rfl⟩ := he
        exact .inl hp
      · obtain ⟨h', t', he, l, hm, hp⟩ := hl.2.2 ⟨a', b, by simp⟩
        simp only [List.cons.injEq] at he
        obtain ⟨rfl, rfl⟩ := he
        exact .inr ⟨l, hm, hp⟩
  induction docs with
  | nil => simp [isDocDeprecated]
  | cons d ds ih =>
    simp only [isDocDeprecated, List.mem_cons, exists_eq_or_imp]
    rw [← one d]
    refine Iff.trans ?_ (or_congr_right ih)
    split <;> simp_all

example : HasLineStarting go!"Deprecated:" go!"Old.\nDeprecated: use New" :=
  ⟨go!"Old.\n", go!" use New", rfl, .inr ⟨go!"Old.", rfl⟩⟩

/-- The Go convention asks for a *paragraph* that starts with `Deprecated:`; the code accepts any line. -/
theorem C66_any_line_not_paragraph : isDocDeprecated [go!"Removed the note\nDeprecated: was wrong"] = true := by
  decide +kernel

/-! ## Re-quoting -/

theorem scanQuote_body (b rest : Str) (h : QuotedBody b) : scanQuote (b ++ '"' :: rest) = some (b ++ ['"'], rest) := by
  induction h with
  | nil => rfl
  | @plain c r h1 h2 _ ih =>
    show scanQuote (c :: (r ++ '"' :: rest)) = _
    rw [scanQuote.eq_5 _ _ (fun h => absurd h h2) (fun _ _ h => absurd h h2) (fun h => h1 h), ih]
    rfl
  | @escape c r _ ih =>
    show scanQuote ('\\' :: c :: (r ++ '"' :: rest)) = _
    rw [scanQuote, ih]; rfl

theorem requote_text (unquote : Str → Option Str) (s rest : Str) (h : '"' ∉ s) :
    quotedTagsToBacktick unquote (s ++ rest) = s ++ quotedTagsToBacktick unquote rest := by
  induction s with
  | nil => rfl
  | cons c s ih =>
    have hc : c ≠ '"' := by rintro rfl; simp at h
    rw [List.cons_append, quotedTagsToBacktick, if_pos hc, ih (fun h' => h (by simp [h']))]; rfl

/-- **C67**: for every text that is a sequence of quote-free texts and well-formed double-quoted literals (which is what
`types.ObjectString` produces), the quote-free texts are preserved verbatim and in order and every
literal is replaced by its value in back-ticks (or kept, if it has no value). -/
theorem C67_requote (unquote : Str → Option Str) (ps : List Piece) (h : ∀ p ∈ ps, p.Ok) :
    quotedTagsToBacktick unquote (ps.map Piece.source).flatten = (ps.map (Piece.target unquote)).flatten := by
  induction ps with
  | nil => simp [quotedTagsToBacktick]
  | cons p ps ih =>
    have ih := ih (fun q hq => h q (by simp [hq]))
    have hp := h p (by simp)
    rw [List.map_cons, List.flatten_cons, List.map_cons, List.flatten_cons]
    cases p with
    | text s => simp only [Piece.source, Piece.target]; rw [requote_text unquote s _ hp, ih]
    | lit b =>
      simp only [Piece.source, Piece.target]
      have hs := scanQuote_body b ((ps.map Piece.source).flatten) hp
      rw [List.cons_append, quotedTagsToBacktick, if_neg (by simp)]
      have e : b ++ ['"'] ++ (ps.map Piece.source).flatten = b ++ '"' :: (ps.map Piece.source).flatten := by simp
      rw [e]
      split
      · rename_i hn; rw [hs] at hn; simp at hn
      · rename_i q t hn
        rw [hs] at hn
        simp only [Option.some.injEq, Prod.mk.injEq] at hn
        obtain ⟨rfl, rfl⟩ := hn
        rw [ih]
        cases unquote ('"' :: (b ++ ['"'])) <;> rfl

/-- **C67** (no quotes, no change). -/
theorem C67_no_quotes_unchanged (unquote : Str → Option Str) (s : Str) (h : '"' ∉ s) :
    quotedTagsToBacktick unquote s = s := by
  have := requote_text unquote s [] h
  simpa [quotedTagsToBacktick] using this

example : ∀ p ∈ [Piece.text go!"struct field X int ", .lit go!"json:\\\"x\\\""], p.Ok := by
  intro p hp
  simp at hp
  rcases hp with rfl | rfl
  · exact fun h => by simp at h
  · repeat' first
      | exact QuotedBody.nil
      | exact QuotedBody.escape (by repeat' first | exact QuotedBody.nil | exact QuotedBody.escape (by repeat' first | exact .nil | refine .plain (by decide) (by decide) ?_) | refine QuotedBody.plain (by decide) (by decide) ?_)
      | refine QuotedBody.plain (by decide) (by decide) ?_

/-- Outside the domain of C67 (an unterminated quote, which `types.ObjectString` never produces) the quote is lost. -/
theorem C67_unterminated_quote_dropped (unquote : Str → Option Str) :
    quotedTagsToBacktick unquote go!"a \"b" = go!"a b" := by
  have := requote_text unquote go!"a " go!"\"b" (by decide)
  show quotedTagsToBacktick unquote (go!"a " ++ go!"\"b") = _
  rw [this, quotedTagsToBacktick, if_neg (by simp)]
  split
  · rw [C67_no_quotes_unchanged unquote _ (by decide)]; rfl
  · rename_i h; simp [scanQuote] at h

/-! ## Documentation lists -/

theorem hoverInSpecs_none (doc : Str) (n : Ident) (pre : List Node)
    (h : ∀ s ∈ pre, ∀ m ∈ specNames s, m.uid ≠ n.uid) : hoverInSpecs doc n pre = none := by
  induction pre with
  | nil => rfl
  | cons s ss ih =>
    have ih := ih (fun s' hs => h s' (by simp [hs]))
    have hs := h s (by simp)
    cases s with
    | typeSpec a b c d =>
      simp only [specNames, List.mem_singleton, forall_eq] at hs
      simp [hoverInSpecs, hs, ih]
    | valueSpec a b c d e f =>
      simp only [specNames] at hs
      have : b.any (fun m => m.uid == n.uid) = false := by
        rw [List.any_eq_false]; intro m hm; simpa using hs m hm
      simp [hoverInSpecs, this, ih]
    | _ => simpa [hoverInSpecs] using ih

/-- **C68** (general): the documentation of a symbol is never longer than two texts, has no empty text and no text
twice. -/
theorem C68_no_empty_no_duplicate (parent : Parent) (ident : Ident) :
    [] ∉ documentationOf parent ident ∧ (documentationOf parent ident).Nodup ∧
      (documentationOf parent ident).length ≤ 2 := by
  unfold documentationOf
  generalize extractHoverText parent ident = h
  cases parent with
  | genDecl specs doc =>
    dsimp only
    generalize Str.trimSpace doc = b
    by_cases hh : h = []
    · by_cases hb : b = [] <;> simp [hh, hb, eq_comm]
    · by_cases hb : b = []
      · simp [hh, hb, eq_comm]
      · by_cases hbh : b = h
        · simp [hbh, hh, eq_comm]
        · have : h ≠ b := fun e => hbh e.symm
          simp [hh, hb, this, eq_comm]
  | field d c => dsimp only; by_cases hh : h = [] <;> simp [hh, eq_comm]
  | funcDecl d => dsimp only; by_cases hh : h = [] <;> simp [hh, eq_comm]

/-- **C68** (type declared in a group): own comment, else the group comment, followed by the group comment if
different. -/
theorem C68_type_spec_documentation (pre post : List Node) (doc sdoc : Str) (n : Ident) (tps : List Node) (typ : Node)
    (hfirst : ∀ s ∈ pre, ∀ m ∈ specNames s, m.uid ≠ n.uid) :
    documentationOf (.genDecl (pre ++ .typeSpec n tps typ sdoc :: post) doc) n =
      docList (if sdoc.trimSpace = [] then doc.trimSpace else sdoc.trimSpace) doc.trimSpace := by
  have hpre := hoverInSpecs_none doc n pre hfirst
  have hspecs : ∀ (pre : List Node), hoverInSpecs doc n pre = none →
      hoverInSpecs doc n (pre ++ .typeSpec n tps typ sdoc :: post) =
        some (if sdoc.trimSpace = [] then doc.trimSpace else sdoc.trimSpace) := by
    intro pre
    induction pre with
    | nil => intro _; simp [hoverInSpecs]
    | cons s ss ih =>
      intro h
      cases s with
      | typeSpec a b c d =>
        simp only [hoverInSpecs, List.cons_append] at h ⊢
        split at h
        · simp at h
        · rename_i hne; rw [if_neg hne]; exact ih h
      | valueSpec a b c d e f =>
        simp only [hoverInSpecs, List.cons_append] at h ⊢
        split at h
        · simp at h
        · rename_i hne; rw [if_neg hne]; exact ih h
      | _ => simp only [hoverInSpecs, List.cons_append] at h ⊢; exact ih h
  unfold documentationOf extractHoverText docList
  dsimp only
  rw [hspecs pre hpre]
  dsimp only [Option.getD_some]
  generalize Str.trimSpace doc = b
  generalize Str.trimSpace sdoc = s
  by_cases hs : s = []
  · by_cases hb : b = [] <;> simp [hs, hb]
  · by_cases hb : b = []
    · simp [hs, hb]
    · by_cases hbs : b = s
      · simp [hbs, hs]
      · have : s ≠ b := fun e => hbs e.symm
        simp [hs, hb, hbs, this]

/-- **C68** (variables and constants declared in a group): likewise, the own comment being the text above and the text
at the end of the line. -/
theorem C68_value_spec_documentation (pre post : List Node) (doc sdoc comment : Str) (n : Ident) (pos : Nat)
    (names : List Ident) (typ vs : List Node) (hn : n ∈ names)
    (hfirst : ∀ s ∈ pre, ∀ m ∈ specNames s, m.uid ≠ n.uid) :
    documentationOf (.genDecl (pre ++ .valueSpec pos names typ vs sdoc comment :: post) doc) n =
      docList (if Str.trimSpace (sdoc ++ '\n' :: comment) = [] then doc.trimSpace
        else Str.trimSpace (sdoc ++ '\n' :: comment)) doc.trimSpace := by
  have hpre := hoverInSpecs_none doc n pre hfirst
  have hspecs : ∀ (pre : List Node), hoverInSpecs doc n pre = none →
      hoverInSpecs doc n (pre ++ .valueSpec pos names typ vs sdoc comment :: post) =
        some (if Str.trimSpace (sdoc ++ '\n' :: comment) = [] then doc.trimSpace
          else Str.trimSpace (sdoc ++ '\n' :: comment)) := by
    intro pre
    induction pre with
    | nil =>
      intro _
      have : names.any (fun x => x.uid == n.uid) = true := by
        rw [List.any_eq_true]; exact ⟨n, hn, by simp⟩
      simp [hoverInSpecs, this]
    | cons s ss ih =>
      intro h
      cases s with
      | typeSpec a b c d =>
        simp only [hoverInSpecs, List.cons_append] at h ⊢
        split at h
        · simp at h
        · rename_i hne; rw [if_neg hne]; exact ih h
      | valueSpec a b c d e f =>
        simp only [hoverInSpecs, List.cons_append] at h ⊢
        split at h
        · simp at h
        · rename_i hne; rw [if_neg hne]; exact ih h
      | _ => simp only [hoverInSpecs, List.cons_append] at h ⊢; exact ih h
  unfold documentationOf extractHoverText docList
  dsimp only
  rw [hspecs pre hpre]
  dsimp only [Option.getD_some]
  generalize Str.trimSpace doc = b
  generalize Str.trimSpace (sdoc ++ '\n' :: comment) = s
  by_cases hs : s = []
  · by_cases hb : b = [] <;> simp [hs, hb]
  · by_cases hb : b = []
    · simp [hs, hb]
    · by_cases hbs : b = s
      · simp [hbs, hs]
      · have : s ≠ b := fun e => hbs e.symm
        simp [hs, hb, hbs, this]

/-- **C68** (fields and functions): the documentation is the own comment if there is one. -/
theorem C68_field_func_documentation (ident : Ident) (doc comment : Str) :
    documentationOf (.field doc comment) ident = docList (Str.trimSpace (doc ++ '\n' :: comment)) [] ∧
    documentationOf (.funcDecl doc) ident = docList doc.trimSpace [] := by
  constructor <;> simp [documentationOf, extractHoverText, Parent.ownText, docList] <;> split <;> simp_all

example : (∀ s ∈ [Node.typeSpec ⟨1, go!"A", 10⟩ [] (.structT []) go!"a"], ∀ m ∈ specNames s, m.uid ≠ (⟨2, go!"B", 20⟩ : Ident).uid) ∧
    docList go!"own" go!"group" = [go!"own", go!"group"] ∧ docList go!"group" go!"group" = [go!"group"] := by
  refine ⟨by simp [specNames], by decide, by decide⟩

end Verif
