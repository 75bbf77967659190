import Verif.Spec.SignatureText
import Verif.Lemmas.Text
import Verif.Props.Signatures
/-! # Signatures of objects in UTF-8 -/
namespace Verif
open Spec Ts Sign

section
variable {P : Type} {tag : Str → Prop} {pkg : P → Prop} {quote : Str → Str} {qf : P → Str}

theorem text_typeName (hq : ∀ p, pkg p → Text (qf p)) {p : Option P} {n : Str} (hp : ∀ q, p = some q → pkg q) (hn : Text n) :
    Text (typeName qf p n) := by
  unfold typeName
  split
  · exact hn
  · rename_i q
    split
    · exact hn
    · exact text_append (hq _ (hp _ rfl)) (text_cons (by decide) hn)

theorem text_tparamText {n : Str} (hn : Text n) : Text (tparamText n) := by
  unfold tparamText
  split
  · exact text_append hn (text_ascii' rfl)
  · exact hn

theorem text_ite {c : Prop} [Decidable c] {a b : Str} (ha : Text a) (hb : Text b) : Text (if c then a else b) := by split <;> assumption

variable (ht : ∀ g, tag g → Text (quote g)) (hq : ∀ p, pkg p → Text (qf p))
include ht hq

mutual
theorem text_render : ∀ t : TExpr P, TypeText tag pkg t → Text (render quote qf t)
  | .ref p n .nil, h => by
    simp only [TypeText] at h
    simp only [render]
    exact text_typeName hq h.1 h.2.1
  | .ref p n (.cons t ts), h => by
    simp only [TypeText, TypesText] at h
    simp only [render]
    exact text_append (text_typeName hq h.1 h.2.1) (text_cons (by decide)
      (text_append (text_append (text_render t h.2.2.1) (text_renderRest ts h.2.2.2)) (text_ascii' rfl)))
  | .tparam n, h => by
    simp only [TypeText] at h
    simp only [render]
    exact text_tparamText h
  | .array n e, h => by
    simp only [TypeText] at h
    simp only [render]
    exact text_cons (by decide) (text_append (text_natDigits n) (text_cons (by decide) (text_render e h)))
  | .slice e, h => by
    simp only [TypeText] at h
    simp only [render]
    exact text_cons (by decide) (text_cons (by decide) (text_render e h))
  | .ptr e, h => by
    simp only [TypeText] at h
    simp only [render]
    exact text_cons (by decide) (text_render e h)
  | .map k e, h => by
    simp only [TypeText] at h
    simp only [render]
    exact text_append (text_ascii' rfl) (text_append (text_render k h.1) (text_cons (by decide) (text_render e h.2)))
  | .chan d e, h => by
    simp only [TypeText] at h
    simp only [render]
    refine text_append (by cases d <;> exact text_ascii' rfl) ?_
    exact text_ite (text_cons (by decide) (text_append (text_render e h) (text_ascii' rfl))) (text_render e h)
  | .func g, h => by
    simp only [TypeText] at h
    simp only [render]
    exact text_append (text_ascii' rfl) (text_renderSig g h)
  | .struct fs, h => by
    simp only [TypeText] at h
    simp only [render]
    exact text_append (text_ascii' rfl) (text_append (text_renderFields true fs h) (text_ascii' rfl))
  | .iface ms es, h => by
    simp only [TypeText] at h
    simp only [render]
    exact text_append (text_ascii' rfl) (text_append (text_renderMethods true ms h.1) (text_append (text_renderEmbedded _ es h.2) (text_ascii' rfl)))
  | .union ts, h => by
    simp only [TypeText] at h
    simp only [render]
    exact text_renderTerms true ts h
theorem text_renderSig : ∀ g : Sig P, SigText tag pkg g → Text (renderSig quote qf g)
  | .mk ps v rs, h => by
    simp only [SigText] at h
    simp only [renderSig]
    exact text_cons (by decide) (text_append (text_renderParams true v ps h.1) (text_cons (by decide) (text_renderResults rs h.2)))
theorem text_renderResults : ∀ ps : Params P, ParamsText tag pkg ps → Text (renderResults quote qf ps)
  | .nil, _ => by simp only [renderResults]; exact text_nil
  | .cons n t .nil, h => by
    simp only [ParamsText] at h
    simp only [renderResults]
    exact text_ite (text_cons (by decide) (text_render t h.2.1))
      (text_cons (by decide) (text_cons (by decide) (text_append h.1 (text_cons (by decide) (text_append (text_render t h.2.1) (text_ascii' rfl))))))
  | .cons n t (.cons n' t' rs), h => by
    have h' : ParamsText tag pkg (.cons n' t' rs) := by simp only [ParamsText] at h ⊢; exact h.2.2
    simp only [ParamsText] at h
    simp only [renderResults]
    exact text_cons (by decide) (text_cons (by decide) (text_append (text_ite text_nil (text_append h.1 (text_ascii' rfl)))
      (text_append (text_render t h.2.1) (text_append (text_renderParams false false _ h') (text_ascii' rfl)))))
theorem text_renderRest : ∀ ts : TList P, TypesText tag pkg ts → Text (renderRest quote qf ts)
  | .nil, _ => by simp only [renderRest]; exact text_nil
  | .cons t ts, h => by
    simp only [TypesText] at h
    simp only [renderRest]
    exact text_append (text_ascii' rfl) (text_append (text_render t h.1) (text_renderRest ts h.2))
theorem text_renderParams (first v : Bool) : ∀ ps : Params P, ParamsText tag pkg ps → Text (renderParams quote qf first v ps)
  | .nil, _ => by simp only [renderParams]; exact text_nil
  | .cons n t .nil, h => by
    simp only [ParamsText] at h
    have hr := text_render t h.2.1
    cases t with
    | slice e =>
      simp only [renderParams]
      refine text_append (text_ite text_nil (text_ascii' rfl)) (text_append (text_ite text_nil (text_append h.1 (text_ascii' rfl))) (text_ite ?_ hr))
      have he : Text (render quote qf e) := by
        simp only [render] at hr
        exact text_of_cons (text_of_cons hr (by decide)) (by decide)
      exact text_append (text_ascii' rfl) he
    | _ =>
      simp only [renderParams]
      exact text_append (text_ite text_nil (text_ascii' rfl)) (text_append (text_ite text_nil (text_append h.1 (text_ascii' rfl))) (text_ite hr hr))
  | .cons n t (.cons n' t' rs), h => by
    have h' : ParamsText tag pkg (.cons n' t' rs) := by simp only [ParamsText] at h ⊢; exact h.2.2
    simp only [ParamsText] at h
    simp only [renderParams]
    exact text_append (text_ite text_nil (text_ascii' rfl)) (text_append (text_ite text_nil (text_append h.1 (text_ascii' rfl)))
      (text_append (text_render t h.2.1) (text_renderParams false v _ h')))
theorem text_renderFields (first : Bool) : ∀ fs : Fields P, FieldsText tag pkg fs → Text (renderFields quote qf first fs)
  | .nil, _ => by simp only [renderFields]; exact text_nil
  | .cons n t g fs, h => by
    simp only [FieldsText] at h
    simp only [renderFields]
    refine text_append (text_ite text_nil (text_ascii' rfl)) (text_append ?_ (text_append (text_render t h.2.1)
      (text_append (text_ite text_nil (text_cons (by decide) (ht _ h.2.2.1))) (text_renderFields false fs h.2.2.2))))
    cases n with
    | none => exact text_nil
    | some m => exact text_append (h.1 m rfl) (text_ascii' rfl)
theorem text_renderMethods (first : Bool) : ∀ ms : Methods P, MethodsText tag pkg ms → Text (renderMethods quote qf first ms)
  | .nil, _ => by simp only [renderMethods]; exact text_nil
  | .cons n g ms, h => by
    simp only [MethodsText] at h
    simp only [renderMethods]
    exact text_append (text_ite text_nil (text_ascii' rfl)) (text_append h.1 (text_append (text_renderSig g h.2.1) (text_renderMethods false ms h.2.2)))
theorem text_renderEmbedded (first : Bool) : ∀ ts : TList P, TypesText tag pkg ts → Text (renderEmbedded quote qf first ts)
  | .nil, _ => by simp only [renderEmbedded]; exact text_nil
  | .cons t ts, h => by
    simp only [TypesText] at h
    simp only [renderEmbedded]
    exact text_append (text_ite text_nil (text_ascii' rfl)) (text_append (text_render t h.1) (text_renderEmbedded false ts h.2))
theorem text_renderTerms (first : Bool) : ∀ ts : Terms P, TermsText tag pkg ts → Text (renderTerms quote qf first ts)
  | .nil, _ => by simp only [renderTerms]; exact text_nil
  | .cons tilde t ts, h => by
    simp only [TermsText] at h
    simp only [renderTerms]
    exact text_append (text_ite text_nil (text_ascii' rfl)) (text_append (text_ite (text_ascii' rfl) text_nil)
      (text_append (text_render t h.1) (text_renderTerms false ts h.2)))
end
end

theorem text_expandTabs {s : Str} (h : Text s) : Text (expandTabs s) := by
  have app : ∀ a b : Str, expandTabs (a ++ b) = expandTabs a ++ expandTabs b := by
    intro a b
    induction a with
    | nil => rfl
    | cons c a ih => simp only [List.cons_append, expandTabs, ih]; split <;> simp
  have same : ∀ a : Str, '\t' ∉ a → expandTabs a = a := by
    intro a
    induction a with
    | nil => simp [expandTabs]
    | cons c a ih =>
      intro hc
      simp only [List.mem_cons, not_or] at hc
      rw [expandTabs, if_neg (Ne.symm hc.1), ih hc.2]
  refine text_induction (P := fun s => Text (expandTabs s)) text_nil ?_ h
  intro r s hr _ ih
  rw [app]
  refine text_append ?_ ih
  by_cases e : r = ('\t' : Char).toNat
  · rw [e, utf8_ascii (by decide)]
    exact text_ascii' rfl
  · rw [same _ (not_mem_utf8 (by decide) hr e)]
    exact text_utf8 hr

variable {gofmt : Str → Option Str} {quote : Str → Str} {unquote : Str → Option Str}

theorem text_formatGoDecl (hg : ∀ s t, Text s → gofmt s = some t → Text t) {s t : Str} (h : Text s) (hf : formatGoDecl gofmt s = some t) : Text t := by
  unfold formatGoDecl at hf
  split at hf
  · simp at hf
  · rename_i f hf'
    simp only [Option.some.injEq] at hf
    subst hf
    exact text_expandTabs (text_trimSpace (text_trimPrefix (hg _ _ (text_append (text_append (text_ascii' rfl) h) (text_ascii' rfl)) hf') (text_ascii' rfl)))

section
variable (hquote : ∀ s, Text (quote s))

theorem text_qual {own : Option Pkg} : ∀ p, PkgText p → Text (relativeQualifier own p) := by
  intro p hp
  unfold relativeQualifier
  exact text_ite text_nil hp.2

include hquote

theorem text_tparamList {qf : Pkg → Str} (hq : ∀ p, PkgText p → Text (qf p)) {tps : TParams} (h : TParamsText tps) : Text (tparamList quote qf tps) := by
  unfold tparamList
  refine text_cons (by decide) (text_append (text_join (text_ascii' rfl) fun x hx => ?_) (text_ascii' rfl))
  obtain ⟨g, hg, rfl⟩ := List.mem_map.1 hx
  refine text_append (text_join (text_ascii' rfl) fun y hy => ?_) (text_cons (by decide) (text_render (fun _ _ => hquote _) hq _ (h g hg).2))
  obtain ⟨n, hn, rfl⟩ := List.mem_map.1 hy
  exact text_tparamText ((h g hg).1 n hn)

theorem text_optTParams {qf : Pkg → Str} (hq : ∀ p, PkgText p → Text (qf p)) {tps : TParams} (h : TParamsText tps) : Text (optTParams quote qf tps) :=
  text_ite text_nil (text_tparamList hquote hq h)

theorem text_objectString {qf : Pkg → Str} (hq : ∀ p, PkgText p → Text (qf p)) {v : View} (h : ViewText v) : Text (objectString quote qf v) := by
  have hn : Text (objName qf v) := by
    unfold objName
    refine text_typeName hq (fun q hq' => ?_) h.name
    split at hq'
    · exact h.pkg q hq'
    · simp at hq'
  have hr : ∀ t, AnyTagText t → Text (render quote qf t) := text_render (fun _ _ => hquote _) hq
  have hc := h.cls
  unfold objectString
  split <;> rename_i e <;> rw [e] at hc <;> simp only [ClsText] at hc
  · rename_i imported
    refine text_append (text_append (text_ascii' rfl) h.name) ?_
    split
    · exact text_nil
    · exact text_ite (text_append (text_append (text_ascii' rfl) (hquote _)) (text_ascii' rfl)) text_nil
  · rename_i d
    refine text_append (text_append (by split <;> exact text_ascii' rfl) hn) ?_
    unfold declText
    split <;> simp only [DeclText] at hc
    · exact text_nil
    · exact text_cons (by decide) (hr _ hc.1)
    · exact text_append (text_optTParams hquote hq hc.1) (text_cons (by decide) (hr _ hc.2))
    · exact text_append (text_append (text_optTParams hquote hq hc.1) (text_ascii' rfl)) (hr _ hc.2)
    · exact text_append (text_ascii' rfl) (hr _ hc.1)
  · exact text_append (text_append (text_ascii' rfl) hn) (text_cons (by decide) (hr _ hc.1))
  · exact text_append (text_append (text_ite (text_ascii' rfl) (text_ascii' rfl)) hn) (text_cons (by decide) (hr _ hc))
  · rename_i recv tps sig
    refine text_append (text_append (text_ascii' rfl) ?_) (text_append (text_optTParams hquote hq hc.2.1) (text_renderSig (fun _ _ => hquote _) hq _ hc.2.2))
    unfold funcName
    split
    · rename_i r
      have hrc := hc.1 r rfl
      refine text_append (text_cons (by decide) (text_append ?_ (text_ascii' rfl))) h.name
      unfold recvText
      split <;> simp only [ReceiverText] at hrc
      · exact text_ascii' rfl
      · exact text_append (text_ite (text_ascii' rfl) text_nil) (text_append (text_typeName hq hrc.1 hrc.2.1) (text_optTParams hquote hq hrc.2.2))
      · exact hr _ hrc
    · exact text_typeName hq h.pkg h.name
  · exact text_append (text_ascii' rfl) hn
  · exact text_append (text_ascii' rfl) hn
  · exact text_ascii' rfl

theorem text_expandTypeExpr (hg : ∀ s t, Text s → gofmt s = some t → Text t) {own : Option Pkg} {t : TExpr Pkg} (h : AnyTagText t) :
    Text (expandTypeExpr gofmt quote own t) := by
  have hr : Text (render quote (relativeQualifier own) t) := text_render (fun _ _ => hquote _) text_qual _ h
  unfold expandTypeExpr
  dsimp only
  split
  · split
    · rename_i f hf
      exact text_trimPrefix (text_formatGoDecl hg (text_append (text_ascii' rfl) hr) hf) (text_ascii' rfl)
    · exact hr
  · exact hr

theorem text_formatTypeParamList {tps : TParams} (h : TParamsText tps) : Text (formatTypeParamList quote tps) := by
  unfold formatTypeParamList
  dsimp only
  refine text_ite text_nil (text_cons (by decide) (text_append (text_join (text_ascii' rfl) fun x hx => ?_) (text_ascii' rfl)))
  obtain ⟨p, hp, rfl⟩ := List.mem_map.1 hx
  obtain ⟨g, hg, hp⟩ := List.mem_flatMap.1 hp
  obtain ⟨n, hn, rfl⟩ := List.mem_map.1 hp
  exact text_append ((h g hg).1 n hn) (text_cons (by decide) (text_render (fun _ _ => hquote _) (fun _ h => h.1) _ (h g hg).2))

theorem text_formatTypeDeclaration (hg : ∀ s t, Text s → gofmt s = some t → Text t) {v : View} (h : ViewText v) {d : TDecl} (hd : DeclText d) :
    Text (formatTypeDeclaration gofmt quote v d) := by
  have plain : ∀ t, AnyTagText t → Text (go!"type " ++ v.name ++ ' ' :: expandTypeExpr gofmt quote v.pkg t) := fun t ht =>
    text_append (text_append (text_ascii' rfl) h.name) (text_cons (by decide) (text_expandTypeExpr hquote hg ht))
  unfold formatTypeDeclaration
  split <;> simp only [DeclText] at hd
  · rename_i tps rhs
    have hl : Text (go!"type " ++ (v.name ++ formatTypeParamList quote tps) ++ go!" = ") :=
      text_append (text_append (text_ascii' rfl) (text_append h.name (text_formatTypeParamList hquote hd.1))) (text_ascii' rfl)
    unfold formatAliasDeclaration
    dsimp only
    split
    · exact text_append hl (text_render (fun _ _ => hquote _) text_qual _ hd.2)
    · exact text_append hl (text_expandTypeExpr hquote hg hd.2)
  · exact plain _ hd.2
  · refine plain _ ?_
    unfold AnyTagText
    simp only [TypeText, TypesText]
    exact ⟨by simp, h.name, trivial⟩
  · exact plain _ hd.2
  · exact plain _ hd.2

/-- The signature of a declared object. -/
theorem text_typeString (hg : ∀ s t, Text s → gofmt s = some t → Text t) (hqu : Ts.Spec.Quotes quote unquote) {own : List Str} {v : View} (h : ViewText v) (hf : FieldTagsText own v) :
    Text (typeStringForObject gofmt quote unquote v) := by
  have ho : Text (objectString quote (relativeQualifier v.pkg) v) := text_objectString hquote text_qual h
  have hc := h.cls
  unfold typeStringForObject
  dsimp only
  split
  · exact text_append (text_ascii' rfl) h.name
  · rename_i e; rw [e] at hc; exact text_formatTypeDeclaration hquote hg h hc
  · rename_i t e
    obtain ⟨hid, hw, htt⟩ := hf t e
    refine text_append (text_ascii' rfl) ?_
    have hobj := objectString_entity (quote := quote) (inPackage_word v.pkg) (inPackage_ne v.pkg) (fun p hp => inPackage_own hp)
      (Sign.Spec.Describes.field e)
    rw [hobj]
    have h1 := requoted_text (unquote := unquote) (s := go!"field ") (by decide)
    have h2 := ident_requoted (unquote := unquote) (.inr hid)
    have h3 := requoted_cons (unquote := unquote) (c := ' ') (by decide) (requoted_type hqu _ hw)
    have h4 := (h1.append (h2.append h3)) []
    simp only [List.append_nil] at h4
    have hnil : quotedTagsToBacktick unquote [] = [] := by rw [quotedTagsToBacktick]
    rw [hnil, List.append_nil] at h4
    have hb : Text (render backtick id (Sign.Spec.relabel (Sign.Spec.inPackage v.pkg) t)) := by
      rw [← render_relabel backtick _ _ (inPackage_word v.pkg) (inPackage_ne v.pkg)]
      exact text_render (fun g hg => text_cons (by decide) (text_append hg (text_ascii' rfl))) text_qual _ htt
    have : quotedTagsToBacktick unquote (go!"field " ++ (v.name ++ ' ' :: render quote id (Sign.Spec.relabel (Sign.Spec.inPackage v.pkg) t))) =
        go!"field " ++ (v.name ++ ' ' :: render backtick id (Sign.Spec.relabel (Sign.Spec.inPackage v.pkg) t)) := h4
    rw [show entityText quote (.field v.name (Sign.Spec.relabel (Sign.Spec.inPackage v.pkg) t)) =
      go!"field " ++ (v.name ++ ' ' :: render quote id (Sign.Spec.relabel (Sign.Spec.inPackage v.pkg) t)) from rfl, this]
    exact text_append (text_ascii' rfl) (text_append h.name (text_cons (by decide) hb))
  · rename_i t val e
    rw [e] at hc
    exact text_append (text_append ho (text_ascii' rfl)) hc.2
  · exact ho

/-- The description of a local. -/
theorem text_localSignature {v : View} (h : ViewText v) : Text (localSignature quote (some v)) := by
  have hc := h.cls
  unfold localSignature
  dsimp only
  split <;> rename_i e
  · rw [e] at hc; exact text_append (text_append (text_ascii' rfl) h.name) (text_cons (by decide) (hc _ rfl))
  · exact text_append (text_ascii' rfl) h.name
  · exact text_objectString hquote (fun _ _ => text_nil) h
end

theorem text_hexEncode (bs : List UInt8) : Text (hexEncode bs) := by
  have hd : ∀ n, n < 16 → (hexDigit n).toNat < 128 := by
    intro n hn
    have : n ∈ List.range 16 := List.mem_range.2 hn
    revert n
    decide
  induction bs with
  | nil => exact text_nil
  | cons b bs ih =>
    have := b.toNat_lt
    exact text_cons (hd _ (by omega)) (text_cons (hd _ (by omega)) ih)

theorem text_anonTypeKey {sum : Str → List UInt8} {typeOf : Node → Option (TExpr Str)} (n : Node) : Text (anonTypeKey quote sum typeOf n) := by
  unfold anonTypeKey
  split
  · exact text_nil
  · exact text_append (text_ascii' rfl) (text_hexEncode _)

end Verif
