import Verif.Lemmas.Trim
import Verif.Lemmas.SignatureReads
import Verif.Model.FileVisitor
import Verif.Props.Git
/-! # C79 and C80: the signatures of symbols -/
namespace Verif
open Ts Ts.Spec Sign Sign.Spec
set_option autoImplicit false

theorem inPackage_word (own : Option Pkg) (p : Pkg) : relativeQualifier own p = (inPackage own p).getD [] := by
  unfold relativeQualifier inPackage
  by_cases h : own = some p
  · simp [h]
  · by_cases hn : p.name = [] <;> simp [h, hn]

theorem inPackage_ne (own : Option Pkg) (p : Pkg) : inPackage own p ≠ some [] := by
  unfold inPackage
  split
  · simp
  · rename_i h
    simp only [not_or] at h
    simpa using h.2

theorem inPackage_own {v : View} {p : Pkg} (h : v.pkg = some p) : relativeQualifier v.pkg p = [] := by simp [relativeQualifier, h]

theorem literal_relabel (f : Pkg → Option Str) (t : TExpr Pkg) : expands t = literal (relabel f t) := by
  cases t <;> simp only [relabel] <;> rfl

theorem expandTypeExpr_plain (gofmt : Str → Option Str) (quote : Str → Str) (pkg : Option Pkg) {t : TExpr Pkg} (h : expands t = false) :
    expandTypeExpr gofmt quote pkg t = render quote id (relabel (inPackage pkg) t) := by
  simp [expandTypeExpr, h, render_relabel quote _ _ (inPackage_word pkg) (inPackage_ne pkg)]

/-- What a signature says. -/
def signatureOf (quote : Str → Str) : Entity → Str
  | .field n t => go!"struct " ++ entityText (backtickIf quote) (.field n t)
  | .constant n t val => entityText quote (.constant n t val) ++ go!" = " ++ val
  | e => entityText quote e.shown

theorem typeString_entity (gofmt : Str → Option Str) {quote : Str → Str} {unquote : Str → Option Str} (hq : Quotes quote unquote) {own : List Str}
    {v : View} {e : Entity} (hd : Describes (inPackage v.pkg) v e) (hw : WellFormedEntity own e) (ho : OneLine e) :
    typeStringForObject gofmt quote unquote v = signatureOf quote e := by
  have hobj := objectString_entity (quote := quote) (inPackage_word v.pkg) (inPackage_ne v.pkg) (fun p hp => inPackage_own hp) hd
  have hexp := fun {t : TExpr Pkg} (h : expands t = false) => expandTypeExpr_plain gofmt quote v.pkg h
  cases hd with
  | «variable» hc => simp only [typeStringForObject, hc, hobj]; rfl
  | @field t hc =>
    simp only [typeStringForObject, hc, hobj, signatureOf]
    have h1 := requoted_text (unquote := unquote) (s := go!"field ") (by decide)
    have h2 := ident_requoted (unquote := unquote) (.inr hw.1)
    have h3 := requoted_cons (unquote := unquote) (c := ' ') (by decide) (requoted_type hq _ hw.2)
    have h4 := (h1.append (h2.append h3)) []
    simp only [List.append_nil] at h4
    rw [render_backtickIf quote ho] at h4
    have : quotedTagsToBacktick unquote [] = [] := by rw [quotedTagsToBacktick]
    rw [this, List.append_nil] at h4
    exact congrArg (go!"struct " ++ ·) h4
  | constant hc => simp only [typeStringForObject, hc, hobj, signatureOf]
  | function hc => simp only [typeStringForObject, hc, hobj]; rfl
  | method hc _ => simp only [typeStringForObject, hc, hobj]; rfl
  | label hc => simp only [typeStringForObject, hc, hobj]; rfl
  | typeParameter hc => exact absurd ho id
  | definition hc =>
    have ho' := (literal_relabel _ _).trans ho
    simp only [typeStringForObject, hc, formatTypeDeclaration, hexp ho']
    simp [signatureOf, Entity.shown, entityText, kindWord, bodyText, declared, optText]
  | @«alias» tps rhs hc =>
    obtain ⟨ho1, ho2⟩ := ho
    have ho' := (literal_relabel _ _).trans ho2
    have htps : tps = [] := by simpa [writtenTParams] using ho1
    subst htps
    have hr : formatAliasDeclaration gofmt quote v (.alias [] rhs) = go!"type " ++ v.name ++ go!" = " ++ expandTypeExpr gofmt quote v.pkg rhs := by
      cases rhs with
      | ref p n args => simp [formatAliasDeclaration, formatTypeParamList, expandTypeExpr, expands]
      | _ => simp [formatAliasDeclaration, formatTypeParamList]
    simp only [typeStringForObject, hc, formatTypeDeclaration, hr, hexp ho']
    simp [signatureOf, Entity.shown, entityText, kindWord, bodyText, declared, optText, writtenTParams]

theorem wellFormed_shown {own : List Str} {e : Entity} (h : WellFormedEntity own e) : WellFormedEntity own e.shown := by
  cases e with
  | definition n tps t => exact ⟨h.1, fun g hg => by simp at hg, h.2.2⟩
  | _ => exact h

theorem shown_withoutValue {e e' : Entity} (h : e.shown.withoutValue = e'.shown.withoutValue) (hc : ∀ n t v, e ≠ .constant n t v)
    (hc' : ∀ n t v, e' ≠ .constant n t v) : e.shown = e'.shown := by
  have all : ∀ e : Entity, (∀ n t v, e ≠ .constant n t v) → e.shown.withoutValue = e.shown := by
    intro e he
    cases e with
    | constant n t v => exact absurd rfl (he n t v)
    | _ => rfl
  rw [all e hc, all e' hc'] at h
  exact h

/-- The first word of a signature. -/
def firstWord : Entity → Str
  | .field _ _ => go!"struct"
  | e => kindWord e

theorem signatureOf_word (quote : Str → Str) (e : Entity) : word (signatureOf quote e) = firstWord e := by
  have w : ∀ (k : Str), (∀ c ∈ k, pathChar c = true) → ∀ x, word (k ++ ' ' :: x) = k := fun k hk x =>
    (word_append (s := ' ' :: x) hk (by intro c hc; simp at hc; subst hc; decide)).1
  cases e <;> simp only [signatureOf, entityText, Entity.shown, kindWord, firstWord, List.append_assoc] <;>
    first
    | exact w go!"var" (by decide) _
    | exact w go!"struct" (by decide) _
    | exact w go!"const" (by decide) _
    | exact w go!"func" (by decide) _
    | exact w go!"label" (by decide) _
    | exact w go!"type" (by decide) _

/-- The signature determines what it shows. -/
theorem signatureOf_injective {quote : Str → Str} {unquote : Str → Option Str} (hq : Quotes quote unquote) {own : List Str}
    {e e' : Entity} (he : WellFormedEntity own e) (he' : WellFormedEntity own e') (h : signatureOf quote e = signatureOf quote e') : e.shown = e'.shown := by
  have hl : Literals quote unquote := fun s => .inl (hq s)
  have hk := congrArg word h
  rw [signatureOf_word, signatureOf_word] at hk
  by_cases hf : ∃ n t, e = .field n t
  · obtain ⟨n, t, rfl⟩ := hf
    cases e' with
    | field n' t' =>
      simp only [signatureOf, List.append_cancel_left_eq] at h
      exact entityText_injective (backtickIf_literals hq) he he' h
    | _ => simp only [firstWord, kindWord] at hk; exact absurd hk (by decide)
  by_cases hf' : ∃ n t, e' = .field n t
  · obtain ⟨n, t, rfl⟩ := hf'
    cases e with
    | field n' t' => exact absurd ⟨_, _, rfl⟩ hf
    | _ => simp only [firstWord, kindWord] at hk; exact absurd hk (by decide)
  by_cases hc : ∃ n t v, e = .constant n t v
  · obtain ⟨n, t, v, rfl⟩ := hc
    cases e' with
    | constant n' t' v' =>
      simp only [signatureOf, entityText, kindWord, bodyText, List.append_assoc, List.append_cancel_left_eq, List.cons_append, List.cons.injEq, true_and] at h
      obtain ⟨rfl, rfl, hv⟩ := named_injective hl he.1 he'.1 he.2 he'.2 (.inr (.inr ⟨_, _, rfl, by decide⟩)) (.inr (.inr ⟨_, _, rfl, by decide⟩)) h
      simp at hv
      subst hv
      rfl
    | _ => simp only [firstWord, kindWord] at hk; exact absurd hk (by decide)
  by_cases hc' : ∃ n t v, e' = .constant n t v
  · obtain ⟨n, t, v, rfl⟩ := hc'
    cases e with
    | constant n' t' v' => exact absurd ⟨_, _, _, rfl⟩ hc
    | _ => simp only [firstWord, kindWord] at hk; exact absurd hk (by decide)
  have plain : ∀ e : Entity, (¬ ∃ n t, e = .field n t) → (¬ ∃ n t v, e = .constant n t v) → signatureOf quote e = entityText quote e.shown := by
    intro e h1 h2
    cases e with
    | field n t => exact absurd ⟨_, _, rfl⟩ h1
    | constant n t v => exact absurd ⟨_, _, _, rfl⟩ h2
    | _ => rfl
  rw [plain e hf hc, plain e' hf' hc'] at h
  exact shown_withoutValue (entityText_injective hl (wellFormed_shown he) (wellFormed_shown he') h)
    (fun n t v hv => hc ⟨n, t, v, hv⟩) (fun n t v hv => hc' ⟨n, t, v, hv⟩)

theorem signatureOf_shown (quote : Str → Str) {e e' : Entity} (h : e.shown = e'.shown) : signatureOf quote e = signatureOf quote e' := by
  have all : ∀ e : Entity, signatureOf quote e = signatureOf quote e.shown := by intro e; cases e <;> rfl
  rw [all e, all e', h]

/-! ## C79: signatures of global symbols -/

/-- **C79**, the signature of a variable, constant, function, method, field, defined type or alias (that is written on one line) shows the kind,
the name and the whole type — of a constant also the value, of a method also the receiver — and nothing else: two signatures are the same text iff they
describe the same thing, where `Describes` writes types of the same package without package and others with the name of theirs. -/
theorem C79_determines_partial (gofmt : Str → Option Str) (quote : Str → Str) (unquote : Str → Option Str) (hq : Quotes quote unquote) (own : List Str)
    (v₁ v₂ : View) (e₁ e₂ : Entity) (d₁ : Describes (inPackage v₁.pkg) v₁ e₁) (d₂ : Describes (inPackage v₂.pkg) v₂ e₂)
    (w₁ : WellFormedEntity own e₁) (w₂ : WellFormedEntity own e₂) (o₁ : OneLine e₁) (o₂ : OneLine e₂) :
    typeStringForObject gofmt quote unquote v₁ = typeStringForObject gofmt quote unquote v₂ ↔ e₁.shown = e₂.shown := by
  rw [typeString_entity gofmt hq d₁ w₁ o₁, typeString_entity gofmt hq d₂ w₂ o₂]
  exact ⟨signatureOf_injective hq w₁ w₂, signatureOf_shown quote⟩

/-- **C79**, every object has a signature. -/
theorem C79_never_empty (gofmt : Str → Option Str) (quote : Str → Str) (unquote : Str → Option Str) (v : View) :
    typeStringForObject gofmt quote unquote v ≠ [] := by
  unfold typeStringForObject
  cases hc : v.cls with
  | typeName d =>
    cases d with
    | «alias» tps rhs => cases rhs <;> simp [formatTypeDeclaration, formatAliasDeclaration]
    | _ => simp [formatTypeDeclaration, formatAliasDeclaration]
  | var isField t => cases isField <;> simp [objectString, hc]
  | const t val => simp
  | _ => simp [objectString, hc]

/-- **C79**, the description of a symbol that is defined by an object carries the signature of the object. -/
theorem C79_recorded (gofmt : Str → Option Str) (quote : Str → Str) (unquote : Str → Option Str) (view : Obj → View) (env : PkgEnv)
    (hs : env.signature = fun o => typeStringForObject gofmt quote unquote (view o)) (symbol : Str) (parent : Parent) (ident : Ident) (o : Obj)
    (hd : env.defs ident.uid = some o) :
    (newSymInfo env symbol parent ident).signature = some (typeStringForObject gofmt quote unquote (view o)) := by
  simp [newSymInfo, hd, hs, C79_never_empty]

/-- **C79**, the signature of a type begins with `type` and the name of the type. -/
theorem C79_type_name (gofmt : Str → Option Str) (quote : Str → Str) (unquote : Str → Option Str) (v : View) (d : TDecl) (hc : v.cls = .typeName d) :
    ∃ c r, typeStringForObject gofmt quote unquote v = go!"type " ++ (v.name ++ c :: r) ∧ (c = ' ' ∨ c = '[') := by
  have hlist : ∀ tps (x : Str), ∃ c r, formatTypeParamList quote tps ++ ' ' :: x = c :: r ∧ (c = ' ' ∨ c = '[') := by
    intro tps x
    unfold formatTypeParamList
    simp only
    split
    · exact ⟨_, _, rfl, .inl rfl⟩
    · exact ⟨_, _, rfl, .inr rfl⟩
  unfold typeStringForObject
  simp only [hc]
  cases d with
  | «alias» tps rhs =>
    have hr : ∃ x, formatAliasDeclaration gofmt quote v (.alias tps rhs) = go!"type " ++ (v.name ++ (formatTypeParamList quote tps ++ ' ' :: x)) := by
      cases rhs <;> simp [formatAliasDeclaration]
    obtain ⟨x, hx⟩ := hr
    obtain ⟨c, r, h1, h2⟩ := hlist tps x
    exact ⟨c, r, by rw [formatTypeDeclaration, hx, h1], h2⟩
  | _ => exact ⟨' ', _, by simp only [formatTypeDeclaration, formatAliasDeclaration, List.append_assoc]; rfl, .inl rfl⟩

/-- **C79**, the signature of the name of a package shows this name and not what it stands for. -/
theorem C79_package_name (gofmt : Str → Option Str) (quote : Str → Str) (unquote : Str → Option Str) (v : View) (imported : Option Str)
    (h : v.cls = .pkgName imported) : typeStringForObject gofmt quote unquote v = go!"package " ++ v.name := by
  unfold typeStringForObject
  simp only [h]

/-- **C79**, so types with different names have different signatures. -/
theorem C79_type_name_determined (gofmt : Str → Option Str) (quote : Str → Str) (unquote : Str → Option Str) (v₁ v₂ : View) (d₁ d₂ : TDecl)
    (h₁ : v₁.cls = .typeName d₁) (h₂ : v₂.cls = .typeName d₂) (n₁ : Identifier v₁.name) (n₂ : Identifier v₂.name)
    (h : typeStringForObject gofmt quote unquote v₁ = typeStringForObject gofmt quote unquote v₂) : v₁.name = v₂.name := by
  obtain ⟨c₁, r₁, e₁, k₁⟩ := C79_type_name gofmt quote unquote v₁ d₁ h₁
  obtain ⟨c₂, r₂, e₂, k₂⟩ := C79_type_name gofmt quote unquote v₂ d₂ h₂
  rw [e₁, e₂] at h
  simp only [List.append_cancel_left_eq] at h
  have w : ∀ (n : Str) (c : Char) (r : Str), Identifier n → (c = ' ' ∨ c = '[') → word (n ++ c :: r) = n := fun n c r hn hc =>
    (word_append (s := c :: r) hn.2.1 (by intro d hd; simp at hd; subst hd; rcases hc with rfl | rfl <;> decide)).1
  have := congrArg word h
  rwa [w _ _ _ n₁ k₁, w _ _ _ n₂ k₂] at this

/-- The layout that `gofmt` gives to the text of a type. -/
def LaidOut (gofmt : Str → Option Str) (raw body : Str) : Prop :=
  gofmt (go!"package p\n\ntype _ " ++ raw ++ go!"\n") = some (go!"package p\n\ntype _ " ++ body ++ go!"\n") ∧
    body ≠ [] ∧ ∀ w, Verif.Spec.Blank w → ¬ w <:+ body

theorem trimSpace_body {s b : Str} (hs : s = 't' :: b) (hb : ∀ w, Verif.Spec.Blank w → ¬ w <:+ s) :
    Str.trimSpace (s ++ go!"\n") = s := by
  rw [trimSpace_iff]
  refine ⟨[], go!"\n", rfl, ⟨[], by simp, rfl⟩, ⟨[go!"\n"], ?_, rfl⟩, fun w hw => ⟨?_, hb w hw⟩⟩
  · intro w hw
    rw [List.mem_singleton] at hw
    subst hw
    exact ⟨0x0A, by decide, by decide +kernel⟩
  · have : ∀ w ∈ Str.blanks, ∀ c, w.head? = some c → c ≠ 't' := by decide +kernel
    rw [blank_iff] at hw
    intro hp
    subst hs
    cases w with
    | nil => exact blanks_ne _ hw rfl
    | cons c w => exact this _ hw c rfl (List.cons_prefix_cons.1 hp).1

theorem expandTabs_append (a b : Str) : expandTabs (a ++ b) = expandTabs a ++ expandTabs b := by
  induction a with
  | nil => rfl
  | cons c a ih => by_cases h : c = '\t' <;> simp [expandTabs, h, ih]

theorem expandTabs_spaces (s : Str) : expandTabs s = spaces s := by
  induction s with
  | nil => rfl
  | cons c s ih => by_cases h : c = '\t' <;> simp [expandTabs, spaces, h, ih]

/-- **C79**, a struct or interface type is shown in the layout of gofmt, tabs replaced by four spaces each; if gofmt does not accept it, as
go/types prints it. -/
theorem C79_layout (gofmt : Str → Option Str) (quote : Str → Str) (unquote : Str → Option Str) (v : View) (tps : TParams) (under : TExpr Pkg)
    (hc : v.cls = .typeName (.defined tps under)) (he : literal (relabel (inPackage v.pkg) under) = true) :
    (∀ body, LaidOut gofmt (render quote id (relabel (inPackage v.pkg) under)) body →
      typeStringForObject gofmt quote unquote v = go!"type " ++ v.name ++ ' ' :: spaces body) ∧
    (gofmt (go!"package p\n\ntype _ " ++ render quote id (relabel (inPackage v.pkg) under) ++ go!"\n") = none →
      typeStringForObject gofmt quote unquote v = go!"type " ++ v.name ++ ' ' :: render quote id (relabel (inPackage v.pkg) under)) := by
  have he' : expands under = true := (literal_relabel _ _).trans he
  have hr := render_relabel quote _ _ (inPackage_word v.pkg) (inPackage_ne v.pkg) under
  have hsrc : ∀ raw : Str, go!"package p\n\n" ++ (go!"type _ " ++ raw) ++ go!"\n" = go!"package p\n\ntype _ " ++ raw ++ go!"\n" := fun raw => rfl
  refine ⟨fun body hb => ?_, fun hb => ?_⟩
  · obtain ⟨h1, h2, h3⟩ := hb
    simp only [typeStringForObject, hc, formatTypeDeclaration, expandTypeExpr, he', if_true, formatGoDecl, hsrc, hr, h1]
    have e1 : Str.trimPrefix (go!"package p\n\ntype _ " ++ body ++ go!"\n") go!"package p\n\n" = go!"type _ " ++ body ++ go!"\n" :=
      trimPrefix_append go!"package p\n\n" (go!"type _ " ++ body ++ go!"\n")
    have e2 : Str.trimSpace (go!"type _ " ++ body ++ go!"\n") = go!"type _ " ++ body :=
      trimSpace_body (b := go!"ype _ " ++ body) rfl (fun w hw hs => by
        by_cases hl : w.length ≤ body.length
        · exact h3 w hw (List.suffix_of_suffix_length_le hs (List.suffix_append _ _) hl)
        · have : ' ' :: body <:+ w := List.suffix_of_suffix_length_le (l₃ := go!"type _ " ++ body) ⟨go!"type _", by simp⟩ hs (by simp; omega)
          obtain ⟨x, rfl⟩ := this
          have hm := (blank_iff _).1 hw
          have k1 : ∀ w ∈ Str.blanks, ∀ c ∈ w.tail, c ≠ ' ' := by decide +kernel
          have k2 : ∀ w ∈ Str.blanks, w.head? = some ' ' → w.tail = [] := by decide +kernel
          cases x with
          | nil => exact h2 (k2 _ hm rfl)
          | cons d x => exact k1 _ hm ' ' (by simp) rfl)
    rw [e1, e2, expandTabs_append, show expandTabs go!"type _ " = go!"type _ " from rfl, trimPrefix_append, expandTabs_spaces]
  · simp only [typeStringForObject, hc, formatTypeDeclaration, expandTypeExpr, he', if_true, formatGoDecl, hsrc, hr, hb]

/-- **C79**, no tabs are left in a type that gofmt has laid out. -/
theorem C79_no_tabs (gofmt : Str → Option Str) (decl text : Str) (h : formatGoDecl gofmt decl = some text) : '\t' ∉ text := by
  unfold formatGoDecl at h
  split at h
  · simp at h
  · rename_i out _
    simp only [Option.some.injEq] at h
    subst h
    rw [expandTabs_spaces]
    intro hc
    simp only [spaces, List.mem_flatMap] at hc
    obtain ⟨c, _, hc⟩ := hc
    split at hc
    · simp at hc
    · rename_i hne
      simp only [List.mem_singleton] at hc
      exact hne hc.symm

/-- **C79** is false for the type parameters of a defined type: they are not in the signature (they are in the signatures of functions, methods
and aliases). -/
theorem C79_generic_definition (gofmt : Str → Option Str) (quote : Str → Str) (unquote : Str → Option Str) (v : View) (tps tps' : TParams)
    (under : TExpr Pkg) (hc : v.cls = .typeName (.defined tps under)) :
    typeStringForObject gofmt quote unquote { v with cls := .typeName (.defined tps' under) } = typeStringForObject gofmt quote unquote v := by
  simp only [typeStringForObject, hc]
  rfl

/-- **C79**, the constraints of a generic alias are written with import paths, also those of the same package, unlike every other type. -/
theorem C79_alias_constraint (gofmt : Str → Option Str) (quote : Str → Str) (unquote : Str → Option Str) (v : View) (p : Pkg) (n c : Str)
    (rhs : TExpr Pkg) (hp : p.path ≠ []) (hc : v.cls = .typeName (.alias [([n], .ref (some p) c .nil)] rhs)) (hr : expands rhs = false) :
    typeStringForObject gofmt quote unquote v =
      go!"type " ++ v.name ++ go!"[" ++ n ++ go!" " ++ p.path ++ go!"." ++ c ++ go!"] = " ++ render quote id (relabel (inPackage v.pkg) rhs) := by
  have e := expandTypeExpr_plain gofmt quote v.pkg hr
  have hrel := render_relabel quote _ _ (inPackage_word v.pkg) (inPackage_ne v.pkg) rhs
  simp only [typeStringForObject, hc, formatTypeDeclaration]
  cases rhs with
  | ref p' n' a => simp [formatAliasDeclaration, formatTypeParamList, Str.join, render, typeName, hp, hrel]
  | _ => simp [formatAliasDeclaration, formatTypeParamList, Str.join, render, typeName, hp, e]

/-- **C79** is false for struct tags that contain a back-tick: one field whose tag contains back-ticks and two fields have the same signature. -/
theorem C79_backtick (gofmt : Str → Option Str) (quote : Str → Str) (unquote : Str → Option Str) (hq : Quotes quote unquote) :
    ∃ (v₁ v₂ : View) (e₁ e₂ : Entity), Describes (inPackage v₁.pkg) v₁ e₁ ∧ Describes (inPackage v₂.pkg) v₂ e₂ ∧
      WellFormedEntity [] e₁ ∧ WellFormedEntity [] e₂ ∧ e₁ ≠ e₂ ∧
      typeStringForObject gofmt quote unquote v₁ = typeStringForObject gofmt quote unquote v₂ := by
  let int {P : Type} : TExpr P := .ref none go!"int" .nil
  let one {P : Type} : TExpr P := .struct (.cons (some go!"A") (.ref none go!"int" .nil) go!"a`; B int `b" .nil)
  let two {P : Type} : TExpr P := .struct (.cons (some go!"A") (.ref none go!"int" .nil) go!"a" (.cons (some go!"B") (.ref none go!"int" .nil) go!"b" .nil))
  have id1 : ∀ n ∈ [go!"A", go!"B", go!"F"], Identifier n := by unfold Identifier; decide +kernel
  have w : ∀ t : TExpr Str, WellFormed [] t → ∀ t' : TExpr Pkg, relabel (inPackage none) t' = t →
      typeStringForObject gofmt quote unquote ⟨none, false, go!"F", .var true t'⟩ = go!"struct field F " ++ render backtick id t := by
    intro t ht t' he
    have hobj := objectString_entity (quote := quote) (inPackage_word none) (inPackage_ne none) (v := ⟨none, false, go!"F", .var true t'⟩) (fun p hp => by simp at hp) (.field rfl)
    have h := ((requoted_text (unquote := unquote) (s := go!"field F ") (by decide)).append (requoted_type hq t ht)) []
    have h0 : quotedTagsToBacktick unquote [] = [] := by rw [quotedTagsToBacktick]
    rw [h0, List.append_nil, List.append_nil] at h
    subst he
    simp only [typeStringForObject, hobj]
    exact congrArg (go!"struct " ++ ·) h
  have hp : go!"int" ∈ predeclared := by decide
  have w1 : WellFormed [] (one : TExpr Str) := by
    simp only [one, WellFormed, WellFormedF, WellFormedL, and_true]
    exact ⟨id1 _ (by decide), .inl hp⟩
  have w2 : WellFormed [] (two : TExpr Str) := by
    simp only [two, WellFormed, WellFormedF, WellFormedL, and_true]
    exact ⟨id1 _ (by decide), .inl hp, id1 _ (by decide), .inl hp⟩
  refine ⟨⟨none, false, go!"F", .var true one⟩, ⟨none, false, go!"F", .var true two⟩, .field go!"F" one, .field go!"F" two, ?_, ?_,
    ⟨id1 _ (by decide), w1⟩, ⟨id1 _ (by decide), w2⟩, ?_, ?_⟩
  · exact Describes.field (v := ⟨none, false, go!"F", .var true one⟩) (t := one) rfl
  · exact Describes.field (v := ⟨none, false, go!"F", .var true two⟩) (t := two) rfl
  · simp [one, two]
  · rw [w one w1 one rfl, w two w2 two rfl]
    decide +kernel

/-! ## C80: signatures of local symbols -/

theorem localSignature_plain (quote : Str → Str) {v : View} (h : ∀ i, v.cls ≠ .pkgName i) :
    localSignature quote (some v) = objectString quote (fun _ => []) v := by
  simp only [localSignature]
  split
  · rename_i hc; exact absurd hc (h _)
  · rename_i hc; exact absurd hc (h _)
  · rfl

theorem describes_plain {f : Pkg → Option Str} {v : View} {e : Entity} (hd : Describes f v e) (i : Option Str) : v.cls ≠ .pkgName i := by
  intro h
  cases hd <;> simp_all

/-- **C80**, the signature of a local variable, constant, label, type parameter or type shows the kind, the name and the type, packages left out:
two signatures are the same text iff they describe the same thing (up to the values of constants). -/
theorem C80_determines (quote : Str → Str) (unquote : Str → Option Str) (hq : Quotes quote unquote) (own : List Str) (v₁ v₂ : View) (e₁ e₂ : Entity)
    (d₁ : Describes bare v₁ e₁) (d₂ : Describes bare v₂ e₂) (w₁ : WellFormedEntity own e₁) (w₂ : WellFormedEntity own e₂) :
    localSignature quote (some v₁) = localSignature quote (some v₂) ↔ e₁.withoutValue = e₂.withoutValue := by
  have all : ∀ v e, Describes bare v e → localSignature quote (some v) = entityText quote e := by
    intro v e hd
    have hobj := objectString_entity (quote := quote) (qf := fun _ => []) (f := bare) (fun _ => rfl) (fun _ h => by simp [bare] at h) (fun _ _ => rfl) hd
    rw [← hobj, localSignature_plain quote (describes_plain hd)]
  rw [all v₁ e₁ d₁, all v₂ e₂ d₂]
  have ht : ∀ e : Entity, entityText quote e = entityText quote e.withoutValue := by intro e; cases e <;> rfl
  refine ⟨entityText_injective (fun s => .inl (hq s)) w₁ w₂, fun h => ?_⟩
  rw [ht e₁, ht e₂, h]

/-- **C80**, an import is described by the name it has in the file and the path. -/
theorem C80_import (quote : Str → Str) (v : View) (path : Str) (h : v.cls = .pkgName (some path)) :
    localSignature quote (some v) = go!"import " ++ v.name ++ go!" " ++ path := by
  simp [localSignature, h]

/-- **C80**, every object has a signature, and only objects have. -/
theorem C80_never_empty (quote : Str → Str) (o : Option View) : localSignature quote o = [] ↔ o = none := by
  cases o with
  | none => simp [localSignature]
  | some v =>
    simp only [localSignature, reduceCtorEq, iff_false]
    cases hc : v.cls with
    | pkgName i => cases i <;> simp
    | typeName d => cases d <;> simp [objectString, hc]
    | var f t => cases f <;> simp [objectString, hc]
    | _ => simp [objectString, hc]

/-- `view` gives for every object of the model of the indexer what go/types knows about it. -/
def Views (view : Obj → View) : Prop :=
  ∀ o, (view o).name = o.self.name ∧
    ((∃ path, o.self.cls = .pkgName path ∧ (view o).cls = .pkgName (some path)) ∨
      ((∀ path, o.self.cls ≠ .pkgName path) ∧ ∀ i, (view o).cls ≠ .pkgName i))

/-- **C80**, the description of every local symbol that is not the variable of a type switch carries the signature. -/
theorem C80_recorded (quote : Str → Str) (view : Obj → View) (hv : Views view) (env : FileEnv) (l : Local)
    (hc : env.caseClauses l.obj.self.pos = none) :
    (localInfo env (fun o => objectString quote (fun _ => []) (view o)) l).signature = some (localSignature quote (some (view l.obj))) := by
  have h : signatureText (fun o => objectString quote (fun _ => []) (view o)) l = localSignature quote (some (view l.obj)) := by
    obtain ⟨hn, ⟨path, h1, h2⟩ | ⟨h1, h2⟩⟩ := hv l.obj
    · simp [signatureText, h1, localSignature, h2, hn]
    · rw [localSignature_plain quote h2]
      unfold signatureText
      split
      · rename_i hs; exact absurd hs (h1 _)
      · rfl
  have hne : localSignature quote (some (view l.obj)) ≠ [] := fun he => by simpa using (C80_never_empty quote _).1 he
  simp [localInfo, hc, h, hne]

end Verif
