import Verif.Props.Text
import Verif.Props.EndToEndCommandSample
/-! # Concrete programs for C91 -/
namespace Verif.TextSample
open Verif Spec Index IndexSample Program Loader.Spec Cmd Commands Ts

/-! ## A way to quote that keeps to ASCII -/

/-- A stand-in for `strconv.Quote` that escapes everything: every character as its number in strokes. -/
def quoteBody : Str → Str
  | [] => []
  | c :: r => List.replicate c.toNat '|' ++ ';' :: quoteBody r
def quote (s : Str) : Str := '"' :: (quoteBody s ++ ['"'])
def unquoteBody (n : Nat) : Str → Str
  | '|' :: r => unquoteBody (n + 1) r
  | ';' :: r => Char.ofNat n :: unquoteBody 0 r
  | _ => []
def unquote : Str → Option Str
  | '"' :: r => some (unquoteBody 0 r)
  | _ => none

theorem unquote_body (s : Str) : unquoteBody 0 (quoteBody s ++ ['"']) = s := by
  have strokes : ∀ k n t, unquoteBody n (List.replicate k '|' ++ t) = unquoteBody (n + k) t := by
    intro k
    induction k with
    | zero => intro n t; simp
    | succ k ih => intro n t; rw [List.replicate_succ, List.cons_append, unquoteBody, ih]; congr 1; omega
  induction s with
  | nil => rfl
  | cons c s ih => rw [quoteBody, List.append_assoc, strokes, List.cons_append, unquoteBody, ih]; simp

theorem quotes : Ts.Spec.Quotes quote unquote := by
  intro s
  refine ⟨quoteBody s, rfl, ?_, by simp [quote, unquote, unquote_body]⟩
  induction s with
  | nil => exact .nil
  | cons c s ih =>
    rw [quoteBody]
    induction c.toNat with
    | zero => exact .plain (by decide) (by decide) ih
    | succ k ihk => rw [List.replicate_succ]; exact .plain (by decide) (by decide) ihk

theorem quote_text (s : Str) : Text (quote s) := by
  refine text_cons (by decide) (text_append ?_ (text_ascii' rfl))
  induction s with
  | nil => exact text_nil
  | cons c s ih =>
    refine text_append (text_ascii fun x hx => ?_) (text_cons (by decide) ih)
    rw [(List.mem_replicate.1 hx).2]
    decide

/-! ## Signatures -/

def own : Sign.Pkg := ⟨1, go!"m/p", go!"p"⟩
/-- `Größe struct { G int "π" }`, a field. -/
def field : Sign.View :=
  ⟨some own, false, go!"Gr" ++ utf8 246 ++ utf8 223 ++ go!"e", .var true (.struct (.cons (some go!"G") (.ref none go!"int" .nil) (utf8 960) .nil))⟩

theorem own_text : PkgText own := ⟨text_ascii' rfl, text_ascii' rfl⟩

theorem letter (n : Nat) (h : n < 0xD800) : Text (utf8 n) := text_utf8 (.inl h)

theorem field_text : ViewText field := by
  refine ⟨?_, text_append (text_append (text_append (text_ascii' rfl) (letter _ (by decide))) (letter _ (by decide))) (text_ascii' rfl), ?_⟩
  · intro p h
    simp only [field, Option.some.injEq] at h
    rw [← h]
    exact own_text
  · simp only [field, ClsText, AnyTagText, TypeText, FieldsText, TypesText, and_true, reduceCtorEq, false_implies, implies_true,
      Option.some.injEq, forall_eq', true_and]
    exact ⟨text_ascii' rfl, text_ascii' rfl⟩

theorem field_tags : FieldTagsText [] field := by
  intro t ht
  simp only [field, Sign.Cls.var.injEq, true_and] at ht
  subst ht
  refine ⟨by unfold Ts.Spec.Identifier; decide +kernel, ?_, ?_⟩
  · simp only [Sign.Spec.relabel, Sign.Spec.relabelF, Sign.Spec.relabelL, Option.bind_none, Ts.Spec.WellFormed,
      Ts.Spec.WellFormedF, Ts.Spec.WellFormedL, Ts.Spec.Identifier]
    decide +kernel
  · simp only [TypeText, FieldsText, TypesText, and_true, reduceCtorEq, false_implies, implies_true, Option.some.injEq, forall_eq', true_and]
    exact ⟨text_ascii' rfl, text_ascii' rfl, letter _ (by decide)⟩

example : Text (Sign.typeStringForObject (fun _ => none) quote unquote field) :=
  (C91_signature_partial (fun _ => none) quote unquote [] field (by simp) quote_text quotes field_text field_tags).1
example : Sign.typeStringForObject (fun _ => none) quote unquote field =
    go!"struct field Gr" ++ utf8 246 ++ utf8 223 ++ go!"e struct{G int `" ++ utf8 960 ++ go!"`}" := by decide +kernel

/-- C91_raw_tag. -/
example := C91_raw_tag (fun _ => none) quote unquote quote_text quotes own own_text go!"a.go" []
  ⟨go!"s", .field, go!"F", [], some (Sign.typeStringForObject (fun _ => none) quote unquote (rawTagField (some own)))⟩ [] rfl

/-! ## A package -/

/-- The package of `IndexSample` with a comment that is not ASCII. -/
def fileU : SourceFile := { fileB with doc := some (go!"Package p is f" ++ utf8 252 ++ go!"r Tests.") }
def pkgU : Package := { pkgP with files := [fileA, fileU] }

def asciiB (s : Str) : Bool := s.all (fun c => c.toNat < 128)

macro "node_text" : tactic => `(tactic|
  repeat' first
    | trivial
    | exact text_ascii' rfl
    | apply And.intro
    | (refine NodeText.mk _ ?_ ?_ <;> simp only [children, ownTexts, FileSample.body, FileSample.decls, declsB, List.map_cons, List.map_nil, List.nil_append,
        List.append_nil, List.forall_mem_cons, List.cons_append, List.not_mem_nil, false_implies, implies_true, and_true, Option.toList_none,
        Option.toList_some]))

theorem tree : ∀ f ∈ pkgU.files, NodeText (.file f.name f.decls) := by
  simp only [pkgU, fileU, fileA, fileB, List.forall_mem_cons, List.not_mem_nil, false_implies, implies_true, and_true]
  node_text

/-! Checks that all texts of an object are ASCII. -/

def recvB : RecvTy → Bool
  | .alias t => recvB t
  | .pointer t => recvB t
  | .named n _ => asciiB n
  | .ifaceLit => true
  | .other => true

theorem recvB_text {t : RecvTy} (h : recvB t = true) : RecvText t := by
  induction t with
  | «alias» t ih => exact ih h
  | pointer t ih => exact ih h
  | named n _ => exact text_ascii' h
  | ifaceLit => trivial
  | other => trivial

def dataB (o : ObjData) : Bool := asciiB o.name && o.pkg.toList.all asciiB && match o.cls with
  | .pkgName q => asciiB q
  | .func (some (some t)) => recvB t
  | _ => true

theorem dataB_text {o : ObjData} (h : dataB o = true) : ObjDataText o := by
  unfold dataB at h
  simp only [Bool.and_eq_true] at h
  obtain ⟨⟨h1, h2⟩, h3⟩ := h
  refine ⟨text_ascii' h1, fun q hq => ?_, fun q hq => ?_, fun t ht => ?_⟩
  · rw [hq] at h2
    exact text_ascii' (by simpa [asciiB] using h2)
  · rw [hq] at h3; exact text_ascii' h3
  · rw [ht] at h3; exact recvB_text h3

def objB (o : Obj) : Bool := dataB o.self && dataB o.origin

theorem objB_text {o : Obj} (h : objB o = true) : ObjText o := by
  unfold objB at h
  simp only [Bool.and_eq_true] at h
  exact ⟨dataB_text h.1, dataB_text h.2⟩

def typesB (ds : List (Option Impl.TypeDef)) : Bool := ds.all fun t => match t with
  | none => true
  | some t => dataB t.obj && match t.named with
    | none => true
    | some n => n.methods.all fun m => objB m.obj

theorem typesB_text {ds : List (Option Impl.TypeDef)} (h : typesB ds = true) :
    ∀ t, some t ∈ ds → ObjDataText t.obj ∧ ∀ n, t.named = some n → ∀ m ∈ n.methods, ObjText m.obj := by
  intro t ht
  have := List.all_eq_true.1 h _ ht
  simp only [Bool.and_eq_true] at this
  refine ⟨dataB_text this.1, fun n hn m hm => ?_⟩
  have h2 := this.2
  rw [hn] at h2
  exact objB_text (List.all_eq_true.1 h2 m hm)

theorem textP (files : List SourceFile) (h1 : ∀ f ∈ files, Text f.fileName) (h2 : ∀ f ∈ files, NodeText (.file f.name f.decls))
    (h3 : ∀ f ∈ files, ∀ t, f.doc = some t → Text t) : PackageText deps { pkgP with files := files } where
  path := text_ascii' rfl
  modulePath := text_ascii' rfl
  moduleVersion := text_ascii' rfl
  name := text_ascii' rfl
  fileName := h1
  syntaxTree := h2
  fileDoc := h3
  defs := fun u o h => by
    have : defList.all (fun e => objB e.2) = true := by decide +kernel
    exact objB_text (List.all_eq_true.1 this _ (IndexSample.mem_of_lookup h))
  uses := fun u o h => by
    have : useList.all (fun e => objB e.2) = true := by decide +kernel
    exact objB_text (List.all_eq_true.1 this _ (IndexSample.mem_of_lookup h))
  implicits := by
    have : pkgP.implicits.all objB = true := by decide +kernel
    exact fun o h => objB_text (List.all_eq_true.1 this _ h)
  signature := fun u o h => by
    have : defList.all (fun e => asciiB (pkgP.env.signature e.2) && asciiB (deps.objectString e.2)) = true := by decide +kernel
    have := List.all_eq_true.1 this _ (IndexSample.mem_of_lookup h)
    simp only [Bool.and_eq_true] at this
    exact ⟨text_ascii' this.1, text_ascii' this.2⟩
  anonKey := fun _ => text_nil
  types := by
    rintro ds h
    refine typesB_text ?_
    rcases h with h | h <;> simp only [pkgP, Option.some.injEq] at h <;> subst h <;> decide +kernel

theorem textU : PackageText deps pkgU := by
  refine textP _ ?_ tree ?_
  · simp only [fileU, fileA, fileB, List.forall_mem_cons, List.not_mem_nil, false_implies, implies_true, and_true]
    exact ⟨text_ascii' rfl, text_ascii' rfl⟩
  · simp only [fileU, fileA, fileB, List.forall_mem_cons, List.not_mem_nil, false_implies, implies_true, and_true, reduceCtorEq, Option.some.injEq,
      forall_eq', true_and]
    exact text_append (text_append (text_ascii' rfl) (letter _ (by decide))) (text_ascii' rfl)

theorem textP' : PackageText deps pkgP := by
  refine textP _ ?_ ?_ ?_
  · simp only [fileA, fileB, List.forall_mem_cons, List.not_mem_nil, false_implies, implies_true, and_true]
    exact ⟨text_ascii' rfl, text_ascii' rfl⟩
  · simp only [fileA, fileB, List.forall_mem_cons, List.not_mem_nil, false_implies, implies_true, and_true]
    node_text
  · simp only [fileA, fileB, List.forall_mem_cons, List.not_mem_nil, false_implies, implies_true, and_true, reduceCtorEq, Option.some.injEq,
      forall_eq', true_and]
    exact text_ascii' rfl

/-- A package that is not loaded from source. -/
theorem textBare {p : Package} (h0 : Text p.env.pkgPath ∧ Text p.env.module.path ∧ Text p.env.module.version ∧ Text p.name) (h1 : p.files = [])
    (h2 : p.env.defs = fun _ => none) (h3 : p.env.uses = fun _ => none) (h4 : p.implicits = []) (h5 : p.env.anonKey = fun _ => [])
    (h6 : p.defs = none) (h7 : ∀ ds, p.scope = some ds → typesB ds = true) : PackageText deps p where
  path := h0.1
  modulePath := h0.2.1
  moduleVersion := h0.2.2.1
  name := h0.2.2.2
  fileName := by simp [h1]
  syntaxTree := by simp [h1]
  fileDoc := by simp [h1]
  defs := by simp [h2]
  uses := by simp [h3]
  implicits := by simp [h4]
  signature := by simp [h2]
  anonKey := fun _ => by rw [h5]; exact text_nil
  types := by
    rintro ds (h | h)
    · rw [h6] at h; simp at h
    · exact typesB_text (h7 ds h)

theorem textFmt : PackageText deps pkgFmt :=
  textBare ⟨text_ascii' rfl, text_ascii' rfl, text_ascii' rfl, text_ascii' rfl⟩ rfl rfl rfl rfl rfl rfl (fun ds h => by
    simp only [pkgFmt, Option.some.injEq] at h; subst h; decide +kernel)

theorem surrounding : SurroundingText deps opts :=
  ⟨fun _ _ h => by simp [deps] at h, text_ascii' rfl, fun _ h => h, text_ascii' rfl, text_ascii' rfl, by simp [opts]⟩

def projectU : GoMap Package := [(go!"m/p", pkgU)]
def allU : GoMap Package := [(go!"fmt", pkgFmt), (go!"m/p", pkgU)]

theorem loadU (project all : GoMap Package) (h : (.ok (projectU, allU) : Except Str _) = .ok (project, all)) :
    (∀ p ∈ project.map (·.2), PackageText deps p) ∧ ∀ p ∈ all.map (·.2), PackageText deps p := by
  simp only [Except.ok.injEq, Prod.mk.injEq] at h
  obtain ⟨rfl, rfl⟩ := h
  simp only [projectU, allU, List.map_cons, List.map_nil, List.forall_mem_cons, List.not_mem_nil, false_implies, implies_true, and_true]
  exact ⟨textU, textFmt, textU⟩

/-- C91_utf8_partial and C91_marshal. -/
example : Utf8 (index deps opts ord writer (.ok (projectU, allU))).messages := C91_utf8_partial _ _ _ _ _ ord_ok surrounding loadU
example := C91_marshal deps opts ord CmdSample.good _ (fun _ _ => rfl) ord_ok surrounding loadU
/-- The comment is in the index. -/
example : ((index deps opts ord writer (.ok (projectU, allU))).messages.any fun m => match m with
    | .document _ _ syms => syms.any fun s => s.1.documentation.any fun t => go!"Package p is f" ++ utf8 252 ++ go!"r Tests." == t
    | _ => false) = true := by decide +kernel

/-! ## A program -/

theorem program_text : ProgramText ProgramSample.delivered deps ProgramSample.env options where
  surroundings := surrounding
  modulePath := text_ascii' rfl
  goVersion := text_ascii' rfl
  packages := fun i hi => by
    match i, ProgramSample.reach hi with
    | 0, _ => rw [ProgramSample.package0]; exact textP'
    | 1, _ => exact textBare ⟨text_ascii' rfl, text_nil, text_nil, text_ascii' rfl⟩ rfl rfl rfl rfl rfl rfl (fun ds h => by
        simp only [asDelivered, ProgramSample.delivered, ProgramSample.package, pkgFmt, Option.some.injEq] at h; subst h; decide +kernel)
    | 2, _ | 3, _ | 4, _ => exact textBare ⟨text_ascii' rfl, text_nil, text_nil, text_ascii' rfl⟩ rfl rfl rfl rfl rfl rfl (fun ds h => by
        simp only [asDelivered, ProgramSample.delivered, ProgramSample.package, ProgramSample.pkgStd, Option.some.injEq] at h; subst h; rfl)
  replaced := fun i hi m r hm hr => by
    match i, ProgramSample.reach hi with
    | 0, _ =>
      simp only [ProgramSample.delivered, ProgramSample.info, Option.some.injEq] at hm
      subst hm
      simp at hr
    | 1, _ | 2, _ | 3, _ | 4, _ => simp [ProgramSample.delivered, ProgramSample.info] at hm
  goMod := by simp [ProgramSample.env]

example (r : Result) (hr : ProgramSample.result = some r) : (mainEnding (.ok ()) r.exit).status = 0 :=
  C91_command deps ProgramSample.answer ProgramSample.env ProgramSample.order 20 ord ProgramSample.surroundings ProgramSample.flags
    (CmdSample.world CmdSample.good) 0 go!"index.scip" .absent options levelWarn ProgramSample.delivered objs ProgramSample.options_made
    ProgramSample.abs_absolute ProgramSample.go_program ProgramSample.typed ProgramSample.signed ord_ok ProgramSample.dirs program_text
    ⟨fun h => absurd h (by decide), fun _ => rfl, fun _ _ => rfl, fun _ h => by simp [ProgramSample.env] at h⟩ r hr

/-! ## A program whose index fails -/

/-- `type S struct { F struct { G int "\xff" } }` -/
def declsT : List Node :=
  [.genDecl .typ [.typeSpec ⟨1, go!"S", 15⟩ [] (.structT [.field 20 [⟨2, go!"F", 20⟩]
    (.structT [.field 30 [⟨3, go!"G", 30⟩] (.ident ⟨4, go!"int", 32⟩) [] []]) [] []]) []] []]

def objST : Obj := .plain ⟨1, .typeName (.named (.struct [2])), go!"S", some go!"m/t", 15⟩
def objFT : Obj := .plain ⟨2, .var true, go!"F", some go!"m/t", 20⟩
def objGT : Obj := .plain ⟨3, .var true, go!"G", some go!"m/t", 30⟩

def viewT (o : Obj) : Sign.View := match o.self.name with
  | ['S'] => ⟨some ⟨1, go!"m/t", go!"t"⟩, true, go!"S", .typeName (.defined [] (.ref none go!"int" .nil))⟩
  | ['F'] => rawTagField (some ⟨1, go!"m/t", go!"t"⟩)
  | n => ⟨some ⟨1, go!"m/t", go!"t"⟩, false, n, .var true (.ref none go!"int" .nil)⟩

def pkgT : Package :=
  { env := { pkgPath := go!"m/t", module := ⟨go!"m", go!"v1"⟩, defs := fun u => [(1, objST), (2, objFT), (3, objGT)].lookup u
             uses := fun u => [(4, .plain ⟨4, .typeName .basic, go!"int", none, 0⟩)].lookup u, anonKey := fun _ => go!"$anon"
             signature := fun o => Sign.typeStringForObject (fun _ => none) quote unquote (viewT o), position := fun p => ⟨1, p + 1⟩ }
    name := go!"t", files := [⟨go!"/w/m/t/a.go", go!"/w/m/t/a.go", 0, ⟨0, go!"t", 8⟩, declsT, none⟩], implicits := []
    pkgNameOf := fun _ => none, imports := fun _ => none, defs := some [], scope := some [] }

def depsT : Deps := { deps with fileOf := fun _ => some 0 }

/-- Everything in the source is ASCII, yet the whole index fails: after the metadata nothing can be written. -/
theorem tag_fails : (index depsT opts ord (Cmd.writer CmdSample.good) (.ok ([(go!"m/t", pkgT)], [(go!"m/t", pkgT), (go!"builtin", pkgBuiltin)]))).outcome =
    .failed go!"failed to marshal SCIP index to Protobuf" := by decide +kernel

def pkgT' : Package :=
  let sig := fun o : Obj => Sign.typeStringForObject (fun _ => none) quote unquote (if o = objFT then field else viewT o)
  { pkgT with env := { pkgT.env with signature := sig } }

/-- With a tag in UTF-8 it does not. -/
theorem tag_fine : (index depsT opts ord (Cmd.writer CmdSample.good)
    (.ok ([(go!"m/t", pkgT')], [(go!"m/t", pkgT'), (go!"builtin", pkgBuiltin)]))).outcome = .ok := by decide +kernel

/-- C91_needs_utf8 with an argument that is not UTF-8. -/
example : ¬ Utf8 (index deps { opts with arguments := [[Char.ofNat 255]] } ord (fun _ _ => none) (.error [])).messages := by
  intro h
  have := h (.metadata (metadata deps { opts with arguments := [[Char.ofNat 255]] })) (by simp [index]) [255] (by decide +kernel)
  exact absurd this (by decide +kernel)

end Verif.TextSample
