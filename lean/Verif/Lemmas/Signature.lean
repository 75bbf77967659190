import Verif.Spec.Signature
import Verif.Lemmas.TypeTextReads
/-! # Signatures: package words, tags in back-ticks -/
namespace Verif.Sign
open Ts Ts.Spec Sign.Spec
set_option autoImplicit false

/-- The type of the last parameter as it is written. -/
def lastText {P : Type} (quote : Str → Str) (qf : P → Str) (v : Bool) (t : TExpr P) : Str :=
  if v then (match t with | .slice e => go!"..." ++ render quote qf e | t => render quote qf t) else render quote qf t

theorem renderParams_one {P : Type} (q : Str → Str) (qf : P → Str) (first v : Bool) (n : Str) (t : TExpr P) : renderParams q qf first v (.cons n t .nil) =
    (if first then [] else go!", ") ++ ((if n = [] then [] else n ++ go!" ") ++ lastText q qf v t) := by
  cases t <;> rfl

section
variable (quote : Str → Str) (qf : Pkg → Str) (f : Pkg → Option Str)

theorem typeName_relabel (h : ∀ p, qf p = (f p).getD []) (hne : ∀ p, f p ≠ some []) (pkg : Option Pkg) (n : Str) :
    typeName qf pkg n = typeName id (pkg.bind f) n := by
  cases pkg with
  | none => rfl
  | some p =>
    have h1 := h p
    have h2 := hne p
    cases hf : f p with
    | none => simp [typeName, h1, hf]
    | some w =>
      rw [hf] at h1 h2
      simp only [Option.getD_some] at h1
      simp only [typeName, Option.bind_some, hf, h1, id]

mutual
/-- Printing with a qualifier is printing with the packages replaced by their words. -/
theorem render_relabel (h : ∀ p, qf p = (f p).getD []) (hne : ∀ p, f p ≠ some []) :
    ∀ t : TExpr Pkg, render quote qf t = render quote id (relabel f t)
  | .ref pkg n .nil => by
    simp only [relabel, relabelL, render]
    exact typeName_relabel qf f h hne pkg n
  | .ref pkg n (.cons t ts) => by
    simp only [relabel, relabelL, render]
    rw [typeName_relabel qf f h hne pkg n, render_relabel h hne t, renderRest_relabel h hne ts]
  | .tparam n => rfl
  | .array l e => by simp only [relabel, render]; rw [render_relabel h hne e]
  | .slice e => by simp only [relabel, render]; rw [render_relabel h hne e]
  | .ptr e => by simp only [relabel, render]; rw [render_relabel h hne e]
  | .map k e => by simp only [relabel, render]; rw [render_relabel h hne k, render_relabel h hne e]
  | .chan d e => by
    have : chanParens d (relabel f e) = chanParens d e := by
      cases d <;> cases e <;> simp only [relabel] <;> first | rfl | (rename_i d _; cases d <;> rfl)
    simp only [relabel, render]
    rw [render_relabel h hne e, this]
  | .func g => by simp only [relabel, render]; rw [renderSig_relabel h hne g]
  | .struct fs => by simp only [relabel, render]; rw [renderFields_relabel h hne fs true]
  | .iface ms es => by
    have : noMethods (relabelM f ms) = noMethods ms := by cases ms <;> simp only [relabelM] <;> rfl
    simp only [relabel, render]
    rw [renderMethods_relabel h hne ms true, renderEmbedded_relabel h hne es _, this]
  | .union ts => by simp only [relabel, render]; rw [renderTerms_relabel h hne ts true]
theorem renderSig_relabel (h : ∀ p, qf p = (f p).getD []) (hne : ∀ p, f p ≠ some []) :
    ∀ g : Sig Pkg, renderSig quote qf g = renderSig quote id (relabelS f g)
  | .mk ps v rs => by
    simp only [relabelS, renderSig]
    rw [renderParams_relabel h hne ps true v, renderResults_relabel h hne rs]
theorem renderResults_relabel (h : ∀ p, qf p = (f p).getD []) (hne : ∀ p, f p ≠ some []) :
    ∀ rs : Params Pkg, renderResults quote qf rs = renderResults quote id (relabelP f rs)
  | .nil => rfl
  | .cons n t .nil => by
    simp only [relabelP, renderResults]
    rw [render_relabel h hne t]
  | .cons n t (.cons n' t' rs) => by
    have := renderParams_relabel h hne (.cons n' t' rs) false false
    simp only [relabelP] at this ⊢
    simp only [renderResults]
    rw [render_relabel h hne t, this]
theorem renderRest_relabel (h : ∀ p, qf p = (f p).getD []) (hne : ∀ p, f p ≠ some []) :
    ∀ ts : TList Pkg, renderRest quote qf ts = renderRest quote id (relabelL f ts)
  | .nil => rfl
  | .cons t ts => by
    simp only [relabelL, renderRest]
    rw [render_relabel h hne t, renderRest_relabel h hne ts]
theorem renderParams_relabel (h : ∀ p, qf p = (f p).getD []) (hne : ∀ p, f p ≠ some []) :
    ∀ (ps : Params Pkg) (first v : Bool), renderParams quote qf first v ps = renderParams quote id first v (relabelP f ps)
  | .nil, _, _ => rfl
  | .cons n t .nil, first, v => by
    have ht := render_relabel h hne t
    have hlast : lastText quote qf v t = lastText quote id v (relabel f t) := by
      cases v with
      | false => exact ht
      | true =>
        cases t with
        | slice e =>
          simp only [relabel, render, List.cons.injEq, true_and] at ht
          simp only [relabel]
          exact congrArg (go!"..." ++ ·) ht
        | _ => exact ht
    have e : relabelP f (.cons n t .nil) = .cons n (relabel f t) .nil := by simp only [relabelP]
    rw [e, renderParams_one, renderParams_one, hlast]
  | .cons n t (.cons n' t' ps), first, v => by
    have := renderParams_relabel h hne (.cons n' t' ps) false v
    simp only [relabelP] at this ⊢
    simp only [renderParams] at this ⊢
    rw [render_relabel h hne t, this]
theorem renderFields_relabel (h : ∀ p, qf p = (f p).getD []) (hne : ∀ p, f p ≠ some []) :
    ∀ (fs : Fields Pkg) (first : Bool), renderFields quote qf first fs = renderFields quote id first (relabelF f fs)
  | .nil, _ => rfl
  | .cons n t tag fs, first => by
    simp only [relabelF, renderFields]
    rw [render_relabel h hne t, renderFields_relabel h hne fs false]
theorem renderMethods_relabel (h : ∀ p, qf p = (f p).getD []) (hne : ∀ p, f p ≠ some []) :
    ∀ (ms : Methods Pkg) (first : Bool), renderMethods quote qf first ms = renderMethods quote id first (relabelM f ms)
  | .nil, _ => rfl
  | .cons n g ms, first => by
    simp only [relabelM, renderMethods]
    rw [renderSig_relabel h hne g, renderMethods_relabel h hne ms false]
theorem renderEmbedded_relabel (h : ∀ p, qf p = (f p).getD []) (hne : ∀ p, f p ≠ some []) :
    ∀ (ts : TList Pkg) (first : Bool), renderEmbedded quote qf first ts = renderEmbedded quote id first (relabelL f ts)
  | .nil, _ => rfl
  | .cons t ts, first => by
    simp only [relabelL, renderEmbedded]
    rw [render_relabel h hne t, renderEmbedded_relabel h hne ts false]
theorem renderTerms_relabel (h : ∀ p, qf p = (f p).getD []) (hne : ∀ p, f p ≠ some []) :
    ∀ (ts : Terms Pkg) (first : Bool), renderTerms quote qf first ts = renderTerms quote id first (relabelT f ts)
  | .nil, _ => rfl
  | .cons tilde t ts, first => by
    simp only [relabelT, renderTerms]
    rw [render_relabel h hne t, renderTerms_relabel h hne ts false]
end

end

/-! ## Tags in back-ticks -/

/-- In front of any text, `a` becomes `b`. -/
def Requoted (unquote : Str → Option Str) (a b : Str) : Prop := ∀ r, quotedTagsToBacktick unquote (a ++ r) = b ++ quotedTagsToBacktick unquote r

section
variable {unquote : Str → Option Str}

theorem Requoted.append {a b a' b' : Str} (h : Requoted unquote a b) (h' : Requoted unquote a' b') : Requoted unquote (a ++ a') (b ++ b') := by
  intro r
  rw [List.append_assoc, h, h', List.append_assoc]

theorem requoted_text {s : Str} (h : '"' ∉ s) : Requoted unquote s s := fun r => requote_text unquote s r h

theorem requoted_cons {c : Char} {a b : Str} (hc : c ≠ '"') (h : Requoted unquote a b) : Requoted unquote (c :: a) (c :: b) :=
  (requoted_text (s := [c]) (by simpa using fun h => hc h.symm)).append h

theorem requoted_quote {quote : Str → Str} (hq : Quotes quote unquote) (s : Str) : Requoted unquote (quote s) ('`' :: (s ++ ['`'])) := by
  obtain ⟨body, e, hb, hu⟩ := hq s
  intro r
  have e' : quote s ++ r = '"' :: (body ++ '"' :: r) := by rw [e]; simp
  rw [e', quotedTagsToBacktick, if_neg (by simp)]
  have hs := scanQuote_body body r hb
  split
  · rename_i hn; rw [hs] at hn; simp at hn
  · rename_i q t hn
    rw [hs] at hn
    simp only [Option.some.injEq, Prod.mk.injEq] at hn
    obtain ⟨rfl, rfl⟩ := hn
    have : '"' :: (body ++ ['"']) = quote s := e.symm
    rw [this, hu]

end

/-- A tag in back-ticks. -/
def backtick (s : Str) : Str := '`' :: (s ++ ['`'])

theorem noQuote_path {s : Str} (h : ∀ c ∈ s, pathChar c = true) : '"' ∉ s := fun hc => absurd (h _ hc) (by decide)

theorem Requoted.nil {unquote : Str → Option Str} : Requoted unquote [] [] := fun _ => rfl

section
variable {own : List Str} {quote : Str → Str} {unquote : Str → Option Str}

theorem typeName_noQuote {pkg : Option Str} {n : Str} {args : TList Str} (h : WellFormed own (.ref pkg n args)) : '"' ∉ typeName id pkg n :=
  noQuote_path (typeName_word h).2.1

theorem tparamText_noQuote {n : Str} (h : Identifier n) : '"' ∉ tparamText n := by
  unfold tparamText
  split
  · rw [List.mem_append, not_or]
    exact ⟨noQuote_path h.2.1, by decide⟩
  · exact noQuote_path h.2.1

theorem ident_requoted {n : Str} (h : n = [] ∨ Identifier n) : Requoted unquote n n := by
  rcases h with rfl | h
  · exact .nil
  · exact requoted_text (noQuote_path h.2.1)

mutual
theorem requoted_type (hq : Quotes quote unquote) : ∀ t : TExpr Str, WellFormed own t → Requoted unquote (render quote id t) (render backtick id t)
  | .ref pkg n .nil, h => requoted_text (typeName_noQuote h)
  | .ref pkg n (.cons t ts), h => by
    have hl : WellFormed own t ∧ WellFormedL own ts := by
      cases pkg with
      | none => exact (by simpa [WellFormed, WellFormedL] using h : (n ∈ predeclared ∨ n ∈ own ∧ Identifier n) ∧ WellFormed own t ∧ WellFormedL own ts).2
      | some p => exact (by simpa [WellFormed, WellFormedL] using h : ImportPath p ∧ Identifier n ∧ WellFormed own t ∧ WellFormedL own ts).2.2
    simp only [render]
    exact (requoted_text (typeName_noQuote h)).append (requoted_cons (by decide)
      (((requoted_type hq t hl.1).append (requoted_rest hq ts hl.2)).append (requoted_text (by decide))))
  | .tparam n, h => by
    have h' : Identifier n ∧ n ∉ own := by simpa [WellFormed] using h
    exact requoted_text (tparamText_noQuote h'.1)
  | .array l e, h => by
    have he := requoted_type hq e (by simpa [WellFormed] using h)
    simp only [render]
    exact requoted_cons (by decide) ((requoted_text (noQuote_path (natDigits_chars l).2)).append (requoted_cons (by decide) he))
  | .slice e, h => by
    have he := requoted_type hq e (by simpa [WellFormed] using h)
    simp only [render]
    exact requoted_cons (by decide) (requoted_cons (by decide) he)
  | .ptr e, h => by
    have he := requoted_type hq e (by simpa [WellFormed] using h)
    simp only [render]
    exact requoted_cons (by decide) he
  | .map k e, h => by
    have h' : WellFormed own k ∧ WellFormed own e := by simpa [WellFormed] using h
    simp only [render]
    exact (requoted_text (by decide)).append ((requoted_type hq k h'.1).append (requoted_cons (by decide) (requoted_type hq e h'.2)))
  | .chan d e, h => by
    have he := requoted_type hq e (by simpa [WellFormed] using h)
    simp only [render]
    refine (requoted_text (by cases d <;> decide)).append ?_
    split
    · exact requoted_cons (by decide) (he.append (requoted_text (by decide)))
    · exact he
  | .func g, h => by
    simp only [render]
    exact (requoted_text (by decide)).append (requoted_sig hq g (by simpa [WellFormed] using h))
  | .struct fs, h => by
    simp only [render]
    exact (requoted_text (by decide)).append ((requoted_fields hq fs true (by simpa [WellFormed] using h)).append (requoted_text (by decide)))
  | .iface ms es, h => by
    have h' : WellFormedM own ms ∧ WellFormedE own es := by simpa [WellFormed] using h
    simp only [render]
    exact (requoted_text (by decide)).append ((requoted_methods hq ms true h'.1).append
      ((requoted_embedded hq es _ h'.2).append (requoted_text (by decide))))
  | .union ts, h => by simp [WellFormed] at h
theorem requoted_sig (hq : Quotes quote unquote) : ∀ g : Sig Str, WellFormedS own g → Requoted unquote (renderSig quote id g) (renderSig backtick id g)
  | .mk ps v rs, h => by
    have h' : WellFormedP own ps ∧ WellFormedP own rs ∧ (v = true → LastIsSlice ps) := by simpa [WellFormedS] using h
    simp only [renderSig]
    exact requoted_cons (by decide) ((requoted_params hq ps true v h'.1).append (requoted_cons (by decide) (requoted_results hq rs h'.2.1)))
theorem requoted_results (hq : Quotes quote unquote) : ∀ rs : Params Str, WellFormedP own rs →
    Requoted unquote (renderResults quote id rs) (renderResults backtick id rs)
  | .nil, _ => .nil
  | .cons n t .nil, h => by
    have h' : (n = [] ∨ Identifier n) ∧ WellFormed own t ∧ WellFormedP own .nil := by simpa [WellFormedP] using h
    have ht := requoted_type hq t h'.2.1
    simp only [renderResults]
    split
    · exact requoted_cons (by decide) ht
    · exact requoted_cons (by decide) (requoted_cons (by decide) ((ident_requoted h'.1).append (requoted_cons (by decide) (ht.append (requoted_text (by decide))))))
  | .cons n t (.cons n' t' rs), h => by
    have h' : (n = [] ∨ Identifier n) ∧ WellFormed own t ∧ WellFormedP own (.cons n' t' rs) := by simpa [WellFormedP] using h
    have ht := requoted_type hq t h'.2.1
    simp only [renderResults]
    refine requoted_cons (by decide) (requoted_cons (by decide) (Requoted.append ?_ (ht.append ((requoted_params hq _ false false h'.2.2).append (requoted_text (by decide))))))
    split
    · exact .nil
    · exact (ident_requoted h'.1).append (requoted_text (by decide))
theorem requoted_rest (hq : Quotes quote unquote) : ∀ ts : TList Str, WellFormedL own ts →
    Requoted unquote (renderRest quote id ts) (renderRest backtick id ts)
  | .nil, _ => .nil
  | .cons t ts, h => by
    have h' : WellFormed own t ∧ WellFormedL own ts := by simpa [WellFormedL] using h
    simp only [renderRest]
    exact (requoted_text (by decide)).append ((requoted_type hq t h'.1).append (requoted_rest hq ts h'.2))
theorem requoted_params (hq : Quotes quote unquote) : ∀ (ps : Params Str) (first v : Bool), WellFormedP own ps →
    Requoted unquote (renderParams quote id first v ps) (renderParams backtick id first v ps)
  | .nil, _, _, _ => .nil
  | .cons n t .nil, first, v, h => by
    have h' : (n = [] ∨ Identifier n) ∧ WellFormed own t ∧ WellFormedP own .nil := by simpa [WellFormedP] using h
    have ht := requoted_type hq t h'.2.1
    have hlast : Requoted unquote (lastText quote id v t) (lastText backtick id v t) := by
      cases v with
      | false => exact ht
      | true =>
        cases t with
        | slice e => exact (requoted_text (by decide)).append (requoted_type hq e (by simpa [WellFormed] using h'.2.1))
        | _ => exact ht
    rw [renderParams_one, renderParams_one]
    refine Requoted.append (by split <;> exact requoted_text (by decide)) (Requoted.append ?_ hlast)
    split
    · exact .nil
    · exact (ident_requoted h'.1).append (requoted_text (by decide))
  | .cons n t (.cons n' t' ps), first, v, h => by
    have h' : (n = [] ∨ Identifier n) ∧ WellFormed own t ∧ WellFormedP own (.cons n' t' ps) := by simpa [WellFormedP] using h
    have ht := requoted_type hq t h'.2.1
    have hps := requoted_params hq (.cons n' t' ps) false v h'.2.2
    rw [renderParams, renderParams]
    refine Requoted.append (by split <;> exact requoted_text (by decide)) (Requoted.append ?_ (ht.append hps))
    split
    · exact .nil
    · exact (ident_requoted h'.1).append (requoted_text (by decide))
theorem requoted_fields (hq : Quotes quote unquote) : ∀ (fs : Fields Str) (first : Bool), WellFormedF own fs →
    Requoted unquote (renderFields quote id first fs) (renderFields backtick id first fs)
  | .nil, _, _ => .nil
  | .cons n t tag fs, first, h => by
    have h' : (∀ m, n = some m → Identifier m) ∧ WellFormed own t ∧ WellFormedF own fs := by
      cases n with
      | none => have : Embeddable t ∧ WellFormed own t ∧ WellFormedF own fs := by simpa [WellFormedF] using h
                exact ⟨by simp, this.2⟩
      | some m => have : Identifier m ∧ WellFormed own t ∧ WellFormedF own fs := by simpa [WellFormedF] using h
                  exact ⟨by rintro _ ⟨⟩; exact this.1, this.2⟩
    have ht := requoted_type hq t h'.2.1
    have hfs := requoted_fields hq fs false h'.2.2
    have e : ∀ q : Str → Str, renderFields q id first (.cons n t tag fs) =
        (if first then [] else go!"; ") ++ (fieldPrefix n ++ (render q id t ++ (tagText q tag ++ renderFields q id false fs))) := by
      intro q
      cases n <;> rfl
    rw [e, e]
    refine Requoted.append (by split <;> exact requoted_text (by decide)) (Requoted.append ?_ (ht.append (Requoted.append ?_ hfs)))
    · cases n with
      | none => exact .nil
      | some m => exact (ident_requoted (.inr (h'.1 m rfl))).append (requoted_text (by decide))
    · unfold tagText
      split
      · exact .nil
      · exact requoted_cons (by decide) (requoted_quote hq tag)
theorem requoted_methods (hq : Quotes quote unquote) : ∀ (ms : Methods Str) (first : Bool), WellFormedM own ms →
    Requoted unquote (renderMethods quote id first ms) (renderMethods backtick id first ms)
  | .nil, _, _ => .nil
  | .cons n g ms, first, h => by
    have h' : Identifier n ∧ WellFormedS own g ∧ WellFormedM own ms := by simpa [WellFormedM] using h
    rw [renderMethods, renderMethods]
    exact Requoted.append (by split <;> exact requoted_text (by decide)) ((ident_requoted (.inr h'.1)).append
      ((requoted_sig hq g h'.2.1).append (requoted_methods hq ms false h'.2.2)))
theorem requoted_embedded (hq : Quotes quote unquote) : ∀ (ts : TList Str) (first : Bool), WellFormedE own ts →
    Requoted unquote (renderEmbedded quote id first ts) (renderEmbedded backtick id first ts)
  | .nil, _, _ => .nil
  | .cons t ts, first, h => by
    have h' : (WellFormed own t ∨ WellFormedU own t) ∧ WellFormedE own ts := by simpa [WellFormedE] using h
    rw [renderEmbedded, renderEmbedded]
    exact Requoted.append (by split <;> exact requoted_text (by decide))
      ((h'.1.elim (requoted_type hq t) (requoted_union hq t)).append (requoted_embedded hq ts false h'.2))
theorem requoted_union (hq : Quotes quote unquote) : ∀ t : TExpr Str, WellFormedU own t → Requoted unquote (render quote id t) (render backtick id t)
  | .union ts, h => by
    have h' : Proper ts ∧ WellFormedT own ts := by simpa [WellFormedU] using h
    simp only [render]
    exact requoted_terms hq ts true h'.2
  | .ref _ _ _, h | .tparam _, h | .array _ _, h | .slice _, h | .ptr _, h | .map _ _, h | .chan _ _, h | .func _, h | .struct _, h | .iface _ _, h => by
    simp [WellFormedU] at h
theorem requoted_terms (hq : Quotes quote unquote) : ∀ (ts : Terms Str) (first : Bool), WellFormedT own ts →
    Requoted unquote (renderTerms quote id first ts) (renderTerms backtick id first ts)
  | .nil, _, _ => .nil
  | .cons tilde t ts, first, h => by
    have h' : WellFormed own t ∧ WellFormedT own ts := by simpa [WellFormedT] using h
    rw [renderTerms, renderTerms]
    exact Requoted.append (by split <;> exact requoted_text (by decide)) (Requoted.append (by split <;> exact requoted_text (by decide))
      ((requoted_type hq t h'.1).append (requoted_terms hq ts false h'.2)))
end

end
/-! ## Only the literals of the tags matter -/

section
variable {q q' : Str → Str}
mutual
theorem render_congr : ∀ t : TExpr Str, (∀ s ∈ tags t, q s = q' s) → render q id t = render q' id t
  | .ref pkg n .nil, _ => by simp only [render]
  | .ref pkg n (.cons t ts), h => by
    simp only [tags, tagsL, List.mem_append] at h
    simp only [render]
    rw [render_congr t (fun s hs => h s (.inl hs)), renderRest_congr ts (fun s hs => h s (.inr hs))]
  | .tparam n, _ => by simp only [render]
  | .array l e, h => by simp only [render]; rw [render_congr e (by simpa only [tags] using h)]
  | .slice e, h => by simp only [render]; rw [render_congr e (by simpa only [tags] using h)]
  | .ptr e, h => by simp only [render]; rw [render_congr e (by simpa only [tags] using h)]
  | .map k e, h => by
    simp only [tags, List.mem_append] at h
    simp only [render]
    rw [render_congr k (fun s hs => h s (.inl hs)), render_congr e (fun s hs => h s (.inr hs))]
  | .chan d e, h => by simp only [render]; rw [render_congr e (by simpa only [tags] using h)]
  | .func g, h => by simp only [render]; rw [renderSig_congr g (by simpa only [tags] using h)]
  | .struct fs, h => by simp only [render]; rw [renderFields_congr fs true (by simpa only [tags] using h)]
  | .iface ms es, h => by
    simp only [tags, List.mem_append] at h
    simp only [render]
    rw [renderMethods_congr ms true (fun s hs => h s (.inl hs)), renderEmbedded_congr es _ (fun s hs => h s (.inr hs))]
  | .union ts, h => by simp only [render]; rw [renderTerms_congr ts true (by simpa only [tags] using h)]
theorem renderSig_congr : ∀ g : Sig Str, (∀ s ∈ tagsS g, q s = q' s) → renderSig q id g = renderSig q' id g
  | .mk ps v rs, h => by
    simp only [tagsS, List.mem_append] at h
    simp only [renderSig]
    rw [renderParams_congr ps true v (fun s hs => h s (.inl hs)), renderResults_congr rs (fun s hs => h s (.inr hs))]
theorem renderResults_congr : ∀ rs : Params Str, (∀ s ∈ tagsP rs, q s = q' s) → renderResults q id rs = renderResults q' id rs
  | .nil, _ => rfl
  | .cons n t .nil, h => by
    simp only [tagsP, List.mem_append] at h
    simp only [renderResults]
    rw [render_congr t (fun s hs => h s (.inl hs))]
  | .cons n t (.cons n' t' rs), h => by
    rw [tagsP] at h
    simp only [renderResults]
    rw [render_congr t (fun s hs => h s (List.mem_append.2 (.inl hs))),
      renderParams_congr (.cons n' t' rs) false false (fun s hs => h s (List.mem_append.2 (.inr hs)))]
theorem renderRest_congr : ∀ ts : TList Str, (∀ s ∈ tagsL ts, q s = q' s) → renderRest q id ts = renderRest q' id ts
  | .nil, _ => rfl
  | .cons t ts, h => by
    simp only [tagsL, List.mem_append] at h
    simp only [renderRest]
    rw [render_congr t (fun s hs => h s (.inl hs)), renderRest_congr ts (fun s hs => h s (.inr hs))]
theorem renderParams_congr : ∀ (ps : Params Str) (first v : Bool), (∀ s ∈ tagsP ps, q s = q' s) →
    renderParams q id first v ps = renderParams q' id first v ps
  | .nil, _, _, _ => rfl
  | .cons n t .nil, first, v, h => by
    simp only [tagsP, List.mem_append] at h
    have ht := render_congr t (fun s hs => h s (.inl hs))
    have hl : lastText q id v t = lastText q' id v t := by
      cases v with
      | false => exact ht
      | true =>
        cases t with
        | slice e =>
          simp only [render, List.cons.injEq, true_and] at ht
          exact congrArg (go!"..." ++ ·) ht
        | _ => exact ht
    rw [renderParams_one, renderParams_one, hl]
  | .cons n t (.cons n' t' ps), first, v, h => by
    rw [tagsP] at h
    simp only [renderParams]
    rw [render_congr t (fun s hs => h s (List.mem_append.2 (.inl hs))),
      renderParams_congr (.cons n' t' ps) false v (fun s hs => h s (List.mem_append.2 (.inr hs)))]
theorem renderFields_congr : ∀ (fs : Fields Str) (first : Bool), (∀ s ∈ tagsF fs, q s = q' s) →
    renderFields q id first fs = renderFields q' id first fs
  | .nil, _, _ => rfl
  | .cons n t tag fs, first, h => by
    simp only [tagsF, List.mem_cons, List.mem_append] at h
    simp only [renderFields]
    rw [render_congr t (fun s hs => h s (.inr (.inl hs))), renderFields_congr fs false (fun s hs => h s (.inr (.inr hs))), h tag (.inl rfl)]
theorem renderMethods_congr : ∀ (ms : Methods Str) (first : Bool), (∀ s ∈ tagsM ms, q s = q' s) →
    renderMethods q id first ms = renderMethods q' id first ms
  | .nil, _, _ => rfl
  | .cons n g ms, first, h => by
    simp only [tagsM, List.mem_append] at h
    simp only [renderMethods]
    rw [renderSig_congr g (fun s hs => h s (.inl hs)), renderMethods_congr ms false (fun s hs => h s (.inr hs))]
theorem renderEmbedded_congr : ∀ (ts : TList Str) (first : Bool), (∀ s ∈ tagsL ts, q s = q' s) →
    renderEmbedded q id first ts = renderEmbedded q' id first ts
  | .nil, _, _ => rfl
  | .cons t ts, first, h => by
    simp only [tagsL, List.mem_append] at h
    simp only [renderEmbedded]
    rw [render_congr t (fun s hs => h s (.inl hs)), renderEmbedded_congr ts false (fun s hs => h s (.inr hs))]
theorem renderTerms_congr : ∀ (ts : Terms Str) (first : Bool), (∀ s ∈ tagsT ts, q s = q' s) →
    renderTerms q id first ts = renderTerms q' id first ts
  | .nil, _, _ => rfl
  | .cons tilde t ts, first, h => by
    simp only [tagsT, List.mem_append] at h
    simp only [renderTerms]
    rw [render_congr t (fun s hs => h s (.inl hs)), renderTerms_congr ts false (fun s hs => h s (.inr hs))]
end
end

/-- Back-ticks where they are possible. -/
def backtickIf (quote : Str → Str) (s : Str) : Str := if '`' ∈ s then quote s else backtick s

theorem backtickIf_literals {quote : Str → Str} {unquote : Str → Option Str} (hq : Quotes quote unquote) : Literals (backtickIf quote) unquote := by
  intro s
  unfold backtickIf
  split
  · exact .inl (hq s)
  · rename_i h
    exact .inr ⟨h, rfl⟩

theorem render_backtickIf (quote : Str → Str) {t : TExpr Str} (h : PlainTags t) : render backtick id t = render (backtickIf quote) id t :=
  render_congr t fun s hs => by simp [backtickIf, h s hs]

end Verif.Sign
