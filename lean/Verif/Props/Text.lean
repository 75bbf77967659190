import Verif.Lemmas.FileText
import Verif.Lemmas.SignatureText
import Verif.Props.EndToEndCommand
/-! # C91: UTF-8 in, UTF-8 out -/
namespace Verif
open Spec Index Program Loader Loader.Spec Cmd Commands

/-- **C91** (partial: see `C91_raw_tag`, and for comments and arguments `C91_needs_utf8`).  If all texts of the program are UTF-8 — and so are the
signatures of what is declared, see `C91_signature_partial` — then all strings in all messages are, whatever the writer does. -/
theorem C91_utf8_partial (D : Deps) (o : Index.Opts) (ord : MapOrders) (w : Writer) (loaded : Except Str (GoMap Package × GoMap Package))
    (hv : ValidMapOrders ord) (hD : SurroundingText D o)
    (hp : ∀ project all, loaded = .ok (project, all) → (∀ p ∈ project.map (·.2), PackageText D p) ∧ ∀ p ∈ all.map (·.2), PackageText D p) :
    Utf8 (index D o ord w loaded).messages := by
  intro m hm
  refine message_valid ?_
  cases loaded with
  | ok x =>
    obtain ⟨project, all⟩ := x
    obtain ⟨h1, h2⟩ := hp project all rfl
    exact index_text hD hv h1 h2 m hm
  | error e =>
    have hmeta : m = .metadata (metadata D o) := by
      unfold index at hm
      dsimp only at hm
      split at hm <;> simpa using hm
    rw [hmeta]
    exact metadata_text hD

/-- With such a program marshalling never fails: on a disk on which every write succeeds, the run is the one of a writer that never fails. -/
theorem C91_marshal (D : Deps) (o : Index.Opts) (ord : MapOrders) (disk : Disk) (loaded : Except Str (GoMap Package × GoMap Package))
    (hdisk : ∀ c b, disk c b = none) (hv : ValidMapOrders ord) (hD : SurroundingText D o)
    (hp : ∀ project all, loaded = .ok (project, all) → (∀ p ∈ project.map (·.2), PackageText D p) ∧ ∀ p ∈ all.map (·.2), PackageText D p) :
    index D o ord (writer disk) loaded = index D o ord (fun _ _ => none) loaded := by
  refine (C50_cut_off D o ord (writer disk) loaded).2 fun a m b hm => writer_ok hdisk ?_
  exact C91_utf8_partial D o ord (writer disk) loaded hv hD hp m
    (by rw [show (index D o ord (writer disk) loaded).messages = a ++ m :: b from hm]; simp)

/-- **C91**, signatures (partial: field types with struct tags): what the type checker says about an object is printed in UTF-8, if its names, paths
and values are; `strconv.Quote` escapes what is not UTF-8, gofmt changes blanks.  The tags within the type of a field have to be UTF-8. -/
theorem C91_signature_partial (gofmt : Str → Option Str) (quote : Str → Str) (unquote : Str → Option Str) (own : List Str) (v : Sign.View)
    (hg : ∀ s t, Text s → gofmt s = some t → Text t) (hquote : ∀ s, Text (quote s)) (hqu : Ts.Spec.Quotes quote unquote)
    (h : ViewText v) (hf : FieldTagsText own v) :
    Text (Sign.typeStringForObject gofmt quote unquote v) ∧ Text (Sign.objectString quote (fun _ => []) v) ∧ Text (Sign.localSignature quote (some v)) :=
  ⟨text_typeString hquote hg hqu h hf, text_objectString hquote (fun _ _ => text_nil) h, text_localSignature hquote h⟩

/-- The names of anonymous types are UTF-8, whatever the type. -/
theorem C91_anonymous (quote : Str → Str) (sum : Str → List UInt8) (typeOf : Node → Option (Ts.TExpr Str)) (n : Node) :
    Text (Ts.anonTypeKey quote sum typeOf n) := text_anonTypeKey n

/-! ## The whole program -/

theorem text_reported {v r : Str} (h : Text v) (hr : ReportedAs v r) : Text r := by
  cases hr with
  | plain _ _ => exact h
  | @build _ b hv hb _ =>
    refine (text_cut h ?_).1
    have : b = [] ∨ b.head? = some '+' := by
      generalize r ++ b = y at hv
      cases hv with
      | major _ => exact .inl rfl
      | minor _ _ => exact .inl rfl
      | full _ _ _ _ hs =>
        rcases hs with h | ⟨a, l, _, _, rfl⟩
        · exact .inl h
        · exact .inr rfl
    rcases this with h | h
    · exact absurd h hb
    · intro c hc
      rw [h] at hc
      simp only [Option.some.injEq] at hc
      subst hc
      decide
  | pseudo hp =>
    obtain ⟨_, _, _, _, _, _, _, _, _, _, hrev, _⟩ := hp
    refine text_ascii fun c hc => ?_
    rcases hrev c hc with ((h | h) | h)
    · have := h.2
      have h2 : c.toNat ≤ 'Z'.toNat := this
      exact Nat.lt_of_le_of_lt h2 (by decide)
    · have h2 : c.toNat ≤ 'z'.toNat := h.2
      exact Nat.lt_of_le_of_lt h2 (by decide)
    · have h2 : c.toNat ≤ '9'.toNat := h.2
      exact Nat.lt_of_le_of_lt h2 (by decide)

theorem text_orDot {s : Str} (h : Text s) : Text (orDot s) := text_ite (text_ascii' rfl) h

section
variable {d : Delivered} {D : Deps} {env : Loader.Env} {o : IndexOpts}

theorem text_projectVersion (h : ProgramText d D env o) : Text (projectVersion (identityOpts o)) := text_ite (text_ascii' rfl) h.surroundings.version

theorem text_indexedVersion (h : ProgramText d D env o) {dir path v r : Str} (hv : Text v) (hr : IndexedVersion env (identityOpts o) dir path v r) :
    Text r := by
  cases hr with
  | versioned _ h => exact text_reported hv h
  | ofProject _ => exact text_projectVersion h
  | foreign _ => exact text_ascii' rfl

theorem text_identity (h : ProgramText d D env o) {i : Nat} (hi : Reachable d.graph i) {path version : Str}
    (hid : Identity env (identityOpts o) (d.info i) path version) : Text path ∧ Text version := by
  cases hid with
  | driver _ => exact ⟨text_orDot h.modulePath, text_projectVersion h⟩
  | standard _ _ hv => exact ⟨text_ascii' rfl, text_indexedVersion h h.goVersion hv⟩
  | @module m path w v _ _ hm hp hw hv =>
    have hs : Text (standsFor (identityOpts o) m).path ∧ Text (standsFor (identityOpts o) m).version := by
      unfold standsFor
      split
      · have h1 := (h.packages i hi).modulePath
        have h2 := (h.packages i hi).moduleVersion
        simp only [asDelivered, hm] at h1 h2
        exact ⟨h1, h2⟩
      · rename_i r hr
        have := h.replaced i hi m r hm hr
        split
        · exact ⟨this.1, text_projectVersion h⟩
        · exact this
    refine ⟨text_orDot ?_, text_indexedVersion h ?_ hv⟩
    · cases hp with
      | delivered _ => exact hs.1
      | goMod _ hr => exact (h.goMod _ _ _ hr).1
    · cases hw with
      | delivered _ => exact hs.2
      | goMod _ hr _ => exact (h.goMod _ _ _ hr).2

theorem text_builtin (h : ProgramText d D env o) : PackageText D (builtinPackage o) where
  path := text_ascii' rfl
  modulePath := text_ascii' rfl
  moduleVersion := h.goVersion
  name := text_ascii' rfl
  fileName := by simp [builtinPackage]
  syntaxTree := by simp [builtinPackage]
  fileDoc := by simp [builtinPackage]
  defs := by simp [builtinPackage]
  uses := by simp [builtinPackage]
  implicits := by simp [builtinPackage]
  signature := by simp [builtinPackage]
  anonKey := fun _ => text_nil
  types := by simp [builtinPackage]

theorem text_all (h : ProgramText d D env o) {project all : GoMap Package} (hm : ProgramMaps d env o project all) :
    ∀ p ∈ all.map (·.2), PackageText D p := by
  intro p hp
  obtain ⟨⟨k, q⟩, hq, rfl⟩ := List.mem_map.1 hp
  rcases hm.chosen k q hq with ⟨i, hi, _, path, version, hid, rfl⟩ | ⟨_, _, rfl⟩
  · have hp := h.packages i hi.1
    obtain ⟨h1, h2⟩ := text_identity h hi.1 hid
    exact ⟨hp.path, h1, h2, hp.name, hp.fileName, hp.syntaxTree, hp.fileDoc, hp.defs, hp.uses, hp.implicits, hp.signature, hp.anonKey, hp.types⟩
  · exact text_builtin h

theorem text_project (h : ProgramText d D env o) {project all : GoMap Package} (hm : ProgramMaps d env o project all) :
    ∀ p ∈ project.map (·.2), PackageText D p := by
  intro p hp
  obtain ⟨⟨k, q⟩, hq, rfl⟩ := List.mem_map.1 hp
  exact text_all h hm q (List.mem_map.2 ⟨(k, q), ((hm.project k q).1 hq).1, rfl⟩)
end

/-- **C91**, the whole program from what the go command delivers. -/
theorem C91_program (D : Deps) (answer : Query → Except Str Delivered) (env : Loader.Env) (order : Nat → Nat → List Nat)
    (fuel : Nat) (ord : MapOrders) (o : IndexOpts) (w : Writer) (d : Delivered) (hg : GoProgram d answer order o) (hv : ValidMapOrders ord)
    (hroot : o.moduleRoot = [] ∨ Absolute o.moduleRoot) (hdir : ∀ i, Reachable d.graph i → DirOk (identityOpts o) (d.info i))
    (htext : ProgramText d D env o) (r : Run) (hr : indexing D answer env order fuel ord o w = some r) : Utf8 r.messages := by
  rcases indexing_cases hg hr with ⟨rfl, _⟩ | ⟨l, hl, rfl⟩
  · exact C91_utf8_partial D (indexOpts o) ord w _ hv htext.surroundings (by simp)
  · have hm := hl.maps hroot hdir
    refine C91_utf8_partial D (indexOpts o) ord w _ hv htext.surroundings ?_
    rintro project all h
    simp only [Except.ok.injEq, Prod.mk.injEq] at h
    rw [← h.1, ← h.2]
    exact ⟨text_project htext hm, text_all htext hm⟩

/-- **C91**, the command: on a program written in UTF-8 it ends with status 0 if nothing outside of it fails. -/
theorem C91_command (D : Deps) (answer : Query → Except Str Delivered) (env : Loader.Env) (order : Nat → Nat → List Nat)
    (fuel : Nat) (ord : MapOrders) (S : Surroundings) (sh : SharedFlags) (W : World) (profile : Int) (output : Str) (before : Target)
    (o : IndexOpts) (level : Level) (d : Delivered) (objs : List Obj) (hS : makeOptions S sh = .ok (o, level))
    (habs : ∀ p q, S.abs p = .ok q → Absolute q)
    (hg : GoProgram d answer order o) (ht : TypedProgram d D objs) (hsig : SignedProgram d D)
    (hv : ValidMapOrders ord) (hdir : ∀ i, Reachable d.graph i → DirOk (identityOpts o) (d.info i))
    (htext : ProgramText d D env o) (hnothing : NothingFails W profile output env)
    (r : Result) (hr : command D answer env order fuel ord S sh W profile output before = some r) :
    (mainEnding (.ok ()) r.exit).status = 0 := by
  have hroot : o.moduleRoot = [] ∨ Absolute o.moduleRoot := .inr (habs _ _ (C41_options_taken_over S sh o level hS).1)
  unfold command at hr
  rw [hS] at hr
  simp only [Option.map_eq_some_iff] at hr
  obtain ⟨loaded, hload, rfl⟩ := hr
  have hrun : ∀ w, indexing D answer env order fuel ord o w = some (index D (indexOpts o) ord w loaded) := by
    intro w
    unfold indexing
    rw [hload]
    rfl
  have hok' := (C82_never_crashes D answer env order fuel ord o (fun _ _ => none) d objs hg ht hsig hv _ (hrun _)).2 (fun _ _ => rfl) hnothing.goMod
  have hutf := C91_program D answer env order fuel ord o (writer W.disk) d hg hv hroot hdir htext _ (hrun _)
  have hok : (index D (indexOpts o) ord (writer W.disk) loaded).outcome = .ok := by
    rw [(C50_cut_off D (indexOpts o) ord (writer W.disk) loaded).2 fun a m b hm => writer_ok hnothing.write (hutf m
      (by rw [show (index D (indexOpts o) ord (writer W.disk) loaded).messages = a ++ m :: b from hm]; simp))]
    exact hok'
  have hp : (if profile > 0 then W.createProfile else none) = none := by
    split
    · rename_i h; exact hnothing.profile h
    · rfl
  unfold Cmd.run
  simp only [hp, hok]
  by_cases ho : output = go!"-"
  · rw [if_pos ho]; rfl
  · rw [if_neg ho]
    simp only [hnothing.create ho]
    rfl

/-! ## What is not so -/

/-- One string in one message that is not UTF-8, and the whole run fails, however much of it has been written. -/
theorem C91_needs_utf8 (D : Deps) (o : Index.Opts) (ord : MapOrders) (disk : Disk) (loaded : Except Str (GoMap Package × GoMap Package))
    (h : ¬ Utf8 (index D o ord (fun _ _ => none) loaded).messages) : (index D o ord (writer disk) loaded).outcome ≠ .ok := by
  intro hok
  refine h fun m hm => ?_
  have hw := (C50_write_failure D o ord (writer disk) loaded).2.2.2 hok
  rw [← (C50_cut_off D o ord (writer disk) loaded).2 hw] at hm
  obtain ⟨a, b, hab⟩ := List.append_of_mem hm
  have := hw a m b hab
  unfold writer at this
  split at this
  · simp at this
  · rename_i b hb
    unfold Pb.marshal at hb
    split at hb
    · rename_i hv
      exact List.all_eq_true.1 hv
    · simp at hb

/-- The field `F` of `struct { F struct { G int "\xff" } }`. -/
def rawTagField (pkg : Option Sign.Pkg) : Sign.View :=
  ⟨pkg, false, go!"F", .var true (.struct (.cons (some go!"G") (.ref none go!"int" .nil) [Char.ofNat 255] .nil))⟩

theorem rawTag_signature (gofmt : Str → Option Str) {quote : Str → Str} {unquote : Str → Option Str} (hqu : Ts.Spec.Quotes quote unquote)
    (pkg : Option Sign.Pkg) : Sign.typeStringForObject gofmt quote unquote (rawTagField pkg) =
      go!"struct field F struct{G int `" ++ Char.ofNat 255 :: go!"`}" := by
  have hd : Sign.Spec.Describes (Sign.Spec.inPackage pkg) (rawTagField pkg) _ := Sign.Spec.Describes.field rfl
  rw [typeString_entity (own := []) gofmt hqu hd]
  · simp only [rawTagField, signatureOf, Sign.entityText, Sign.kindWord, Sign.bodyText, Sign.Spec.relabel, Sign.Spec.relabelF, Sign.Spec.relabelL,
      Option.bind_none, Ts.render, Ts.renderFields, Sign.backtickIf]
    rw [if_pos trivial, if_neg (show ¬ [Char.ofNat 255] = [] by decide), if_neg (show ¬ '`' ∈ [Char.ofNat 255] by decide)]
    rfl
  · simp only [rawTagField, Sign.Spec.WellFormedEntity, Sign.Spec.relabel, Sign.Spec.relabelF, Sign.Spec.relabelL, Option.bind_none, Ts.Spec.WellFormed,
      Ts.Spec.WellFormedF, Ts.Spec.WellFormedL, Ts.Spec.Identifier]
    decide +kernel
  · simp only [rawTagField, Sign.Spec.OneLine, Sign.Spec.PlainTags, Sign.Spec.relabel, Sign.Spec.relabelF, Sign.Spec.relabelL, Sign.Spec.tags,
      Sign.Spec.tagsF, Sign.Spec.tagsL]
    decide +kernel

/-- All texts of the field are UTF-8, and so is its description by the type checker; but its signature is not: the tag, in the source an
escape sequence, is unquoted (document.go:346-352). -/
theorem C91_raw_tag (gofmt : Str → Option Str) (quote : Str → Str) (unquote : Str → Option Str) (hquote : ∀ s, Text (quote s))
    (hqu : Ts.Spec.Quotes quote unquote) (pkg : Sign.Pkg) (hpkg : PkgText pkg) (path : Str) (occs : List Occurrence) (info : SymInfo)
    (rels : List Str) (hsig : info.signature = some (Sign.typeStringForObject gofmt quote unquote (rawTagField (some pkg)))) :
    ViewText (rawTagField (some pkg)) ∧ Text (Sign.objectString quote (Sign.relativeQualifier (some pkg)) (rawTagField (some pkg))) ∧
    ¬ Text (Sign.typeStringForObject gofmt quote unquote (rawTagField (some pkg))) ∧
    Pb.marshal (Pb.indexOf (.document path occs [(info, rels)])) = none := by
  have hview : ViewText (rawTagField (some pkg)) := by
    refine ⟨?_, text_ascii' rfl, ?_⟩
    · intro p h
      simp only [rawTagField, Option.some.injEq] at h
      rwa [← h]
    · simp only [rawTagField, ClsText, AnyTagText, TypeText, FieldsText, TypesText, and_true, reduceCtorEq, false_implies, implies_true,
        Option.some.injEq, forall_eq', true_and]
      exact ⟨text_ascii' rfl, text_ascii' rfl⟩
  have hbad : Pb.validUtf8 (Pb.bytes (go!"struct field F struct{G int `" ++ Char.ofNat 255 :: go!"`}")) = false := by decide +kernel
  refine ⟨hview, text_objectString hquote text_qual hview, ?_, ?_⟩
  · rw [rawTag_signature gofmt hqu]
    intro h
    rw [valid_of_text h] at hbad
    simp at hbad
  · unfold Pb.marshal
    rw [if_neg]
    intro hall
    have := List.all_eq_true.1 hall (Pb.bytes (go!"struct field F struct{G int `" ++ Char.ofNat 255 :: go!"`}")) (by
      simp [Pb.indexOf, Pb.document, Pb.symbolInformation, Pb.Index.strings, Pb.Document.strings, Pb.SymbolInformation.strings, hsig,
        Pb.Signature.strings, rawTag_signature gofmt hqu])
    rw [hbad] at this
    simp at this

end Verif
