import Verif.Lemmas.Wire
/-! # Lemmas: every message type survives encoding and decoding -/
namespace Verif.Pb
open Spec

theorem getInt_of {n : Nat} {fs : Fields} {i : Int32} (h : varints n fs = if i ≠ 0 then [int32Bits i] else []) : getInt n fs = i := by
  unfold getInt
  rw [h]
  split
  · exact int32_bits i
  · rename_i h; simp only [ne_eq, Decidable.not_not] at h; subst h; rfl

theorem getBool_of {n : Nat} {fs : Fields} {b : Bool} (h : varints n fs = if b = true then [1] else []) : getBool n fs = b := by
  unfold getBool
  rw [h]
  cases b <;> rfl

theorem getStr_of {n : Nat} {fs : Fields} {s : Bytes} (h : lens n fs = if s ≠ [] then [s] else []) (hv : validUtf8 s = true) :
    getStr n fs = some s := by
  unfold getStr
  rw [h]
  by_cases hs : s = [] <;> simp [hs, hv]

theorem getStrs_of {n : Nat} {fs : Fields} {ss : List Bytes} (h : lens n fs = ss) (hv : ∀ s ∈ ss, validUtf8 s = true) :
    getStrs n fs = some ss := by
  unfold getStrs
  rw [h, if_pos (List.all_eq_true.2 hv)]

theorem each_of {α β : Type} {f : α → Option β} {g : β → α} {xs : List β} (h : ∀ x ∈ xs, f (g x) = some x) :
    each f (xs.map g) = some xs := by
  induction xs with
  | nil => rfl
  | cons x xs ih => simp only [List.map_cons, each]; rw [h x (by simp), ih (fun y hy => h y (by simp [hy]))]; rfl

/-- What it takes for a message type to survive. -/
def Survives {α : Type} (flds : α → Fields) (dec : Fields → Option α) (x : α) : Prop :=
  (fields (encodeFields (flds x))).bind dec = some x

theorem getMsgs_of {α : Type} {n : Nat} {fs : Fields} {flds : α → Fields} {dec : Fields → Option α} {xs : List α}
    (h : lens n fs = xs.map (fun x => encodeFields (flds x))) (hx : ∀ x ∈ xs, Survives flds dec x) : getMsgs n dec fs = some xs := by
  unfold getMsgs
  rw [h]
  exact each_of hx

theorem getMsg_of {α : Type} {n : Nat} {fs : Fields} {flds : α → Fields} {dec : Fields → Option α} {x : Option α}
    (h : lens n fs = x.toList.map (fun x => encodeFields (flds x))) (hx : ∀ y, x = some y → Survives flds dec y) : getMsg n dec fs = some x := by
  unfold getMsg
  rw [h]
  cases x with
  | none => rfl
  | some y =>
    simp only [Option.toList_some, List.map_cons, List.map_nil, List.flatten_cons, List.flatten_nil, List.append_nil]
    have := hx y rfl
    unfold Survives at this
    rw [this]; rfl

theorem ite_decide {α : Type} (n k : Nat) (a b : α) : (if n = k then a else b) = if decide (n = k) = true then a else b := by simp

macro "wire" "[" ls:Lean.Parser.Tactic.simpLemma,* "]" : tactic => `(tactic|
  simp [fMsg, lens_append, varints_append, lens_fInt, lens_fBool, lens_fStr, lens_fStrs, lens_fInts, lens_fMsgs, varints_fInt, varints_fBool,
    varints_fStr, varints_fStrs, varints_fInts, varints_fMsgs, $ls,*])

macro "wireInts" "[" ls:Lean.Parser.Tactic.simpLemma,* "]" : tactic => `(tactic|
  simp [fMsg, getInts_append, getInts_fInts, getInts_fInt, getInts_fStr, getInts_fStrs, getInts_fMsgs, $ls,*])

/-! The values in the fields of a builder. -/
def PlainVal : Val → Prop
  | .varint n => n < 2 ^ 64
  | .len _ => True
  | _ => False

theorem plain_fInt {k : Nat} {i : Int32} {f : Nat × Val} (h : f ∈ fInt k i) : PlainVal f.2 := by
  unfold fInt at h; split at h <;> simp at h; subst h; exact int32Bits_lt i
theorem plain_fBool {k : Nat} {i : Bool} {f : Nat × Val} (h : f ∈ fBool k i) : PlainVal f.2 := by
  unfold fBool at h; split at h <;> simp at h; subst h; simp [PlainVal]
theorem plain_fStr {k : Nat} {i : Bytes} {f : Nat × Val} (h : f ∈ fStr k i) : PlainVal f.2 := by
  unfold fStr at h; split at h <;> simp at h; subst h; trivial
theorem plain_fStrs {k : Nat} {i : List Bytes} {f : Nat × Val} (h : f ∈ fStrs k i) : PlainVal f.2 := by
  unfold fStrs at h; obtain ⟨_, _, rfl⟩ := List.mem_map.1 h; trivial
theorem plain_fInts {k : Nat} {i : List Int32} {f : Nat × Val} (h : f ∈ fInts k i) : PlainVal f.2 := by
  unfold fInts at h; split at h <;> simp at h; subst h; trivial
theorem plain_fMsgs {α : Type} {k : Nat} {fields : α → Fields} {i : List α} {f : Nat × Val} (h : f ∈ fMsgs k fields i) : PlainVal f.2 := by
  unfold fMsgs at h; obtain ⟨_, _, rfl⟩ := List.mem_map.1 h; trivial

/-- All fields have a small number and a plain value. -/
def PlainFields (fs : Fields) : Prop := ∀ f ∈ fs, (0 < f.1 ∧ f.1 < 2 ^ 29) ∧ PlainVal f.2

theorem PlainFields.append {a b : Fields} (ha : PlainFields a) (hb : PlainFields b) : PlainFields (a ++ b) := by
  intro f hf; rcases List.mem_append.1 hf with h | h
  · exact ha f h
  · exact hb f h
theorem PlainFields.int {k : Nat} (i : Int32) (h : 0 < k ∧ k < 2 ^ 29) : PlainFields (fInt k i) :=
  fun _ hf => ⟨by rw [num_fInt hf]; exact h, plain_fInt hf⟩
theorem PlainFields.bool {k : Nat} (i : Bool) (h : 0 < k ∧ k < 2 ^ 29) : PlainFields (fBool k i) :=
  fun _ hf => ⟨by rw [num_fBool hf]; exact h, plain_fBool hf⟩
theorem PlainFields.str {k : Nat} (i : Bytes) (h : 0 < k ∧ k < 2 ^ 29) : PlainFields (fStr k i) :=
  fun _ hf => ⟨by rw [num_fStr hf]; exact h, plain_fStr hf⟩
theorem PlainFields.strs {k : Nat} (i : List Bytes) (h : 0 < k ∧ k < 2 ^ 29) : PlainFields (fStrs k i) :=
  fun _ hf => ⟨by rw [num_fStrs hf]; exact h, plain_fStrs hf⟩
theorem PlainFields.ints {k : Nat} (i : List Int32) (h : 0 < k ∧ k < 2 ^ 29) : PlainFields (fInts k i) :=
  fun _ hf => ⟨by rw [num_fInts hf]; exact h, plain_fInts hf⟩
theorem PlainFields.msgs {α : Type} {k : Nat} (flds : α → Fields) (i : List α) (h : 0 < k ∧ k < 2 ^ 29) : PlainFields (fMsgs k flds i) :=
  fun _ hf => ⟨by rw [num_fMsgs hf]; exact h, plain_fMsgs hf⟩

macro "plain" : tactic => `(tactic|
  repeat' first
    | apply PlainFields.append
    | exact PlainFields.int _ (by decide)
    | exact PlainFields.bool _ (by decide)
    | exact PlainFields.str _ (by decide)
    | exact PlainFields.strs _ (by decide)
    | exact PlainFields.ints _ (by decide)
    | exact PlainFields.msgs _ _ (by decide))

/-- The bytes of a message are few enough for the wire format. -/
def Short (fs : Fields) : Prop := (encodeFields fs).length < 2 ^ 64

theorem PlainFields.parse {fs : Fields} (h : PlainFields fs) (hs : Short fs) : fields (encodeFields fs) = some fs := by
  refine fields_encode fs (ok_of_short hs (fun f hf => (h f hf).1) ?_)
  intro f hf
  have := (h f hf).2
  obtain ⟨n, v⟩ := f
  cases v <;> exact this

theorem PlainFields.ok {fs : Fields} (h : PlainFields fs) (hs : Short fs) : ∀ f ∈ fs, OkField f := by
  refine ok_of_short hs (fun f hf => (h f hf).1) ?_
  intro f hf
  have := (h f hf).2
  obtain ⟨n, v⟩ := f
  cases v <;> exact this

theorem Short.msgs {α : Type} {n : Nat} {flds : α → Fields} {xs : List α} {fs : Fields} (hs : Short fs) (hsub : ∀ f ∈ fMsgs n flds xs, f ∈ fs)
    {x : α} (hx : x ∈ xs) : Short (flds x) := by
  unfold Short at *
  have h := hsub (n, .len (encodeFields (flds x))) (List.mem_map.2 ⟨x, hx, rfl⟩)
  exact Nat.lt_of_le_of_lt (Nat.le_trans (length_encodeField_len _ _) (length_le_encodeFields h)) hs

theorem relationship_plain (r : Relationship) : PlainFields r.fields := by unfold Relationship.fields; plain
theorem diagnostic_plain (r : Diagnostic) : PlainFields r.fields := by unfold Diagnostic.fields; plain
theorem occurrence_plain (r : Occurrence) : PlainFields r.fields := by unfold Occurrence.fields; plain
theorem signature_plain (r : Signature) : PlainFields r.fields := by unfold Signature.fields; plain
theorem symbolInformation_plain (r : SymbolInformation) : PlainFields r.fields := by unfold SymbolInformation.fields fMsg; plain
theorem document_plain (r : Document) : PlainFields r.fields := by unfold Document.fields; plain
theorem toolInfo_plain (r : ToolInfo) : PlainFields r.fields := by unfold ToolInfo.fields; plain
theorem metadata_plain (r : Metadata) : PlainFields r.fields := by unfold Metadata.fields fMsg; plain
theorem index_plain (r : Index) : PlainFields r.fields := by unfold Index.fields fMsg; plain

theorem relationship_survives (r : Relationship) (hs : Short r.fields) (hv : validUtf8 r.symbol = true) :
    Survives Relationship.fields readRelationship r := by
  unfold Survives
  rw [(relationship_plain r).parse hs]
  simp only [Option.bind_some, readRelationship]
  rw [getStr_of (s := r.symbol) (by wire [Relationship.fields]) hv, getBool_of (b := r.isReference) (by wire [Relationship.fields]),
    getBool_of (b := r.isImplementation) (by wire [Relationship.fields]), getBool_of (b := r.isTypeDefinition) (by wire [Relationship.fields]),
    getBool_of (b := r.isDefinition) (by wire [Relationship.fields])]
  rfl

theorem diagnostic_survives (d : Diagnostic) (hs : Short d.fields) (hv : ∀ s ∈ d.strings, validUtf8 s = true) :
    Survives Diagnostic.fields readDiagnostic d := by
  unfold Survives
  rw [(diagnostic_plain d).parse hs]
  simp only [Option.bind_some, readDiagnostic]
  rw [getInt_of (i := d.severity) (by wire [Diagnostic.fields]),
    getStr_of (s := d.code) (by wire [Diagnostic.fields]) (hv _ (by simp [Diagnostic.strings])),
    getStr_of (s := d.message) (by wire [Diagnostic.fields]) (hv _ (by simp [Diagnostic.strings])),
    getStr_of (s := d.source) (by wire [Diagnostic.fields]) (hv _ (by simp [Diagnostic.strings])),
    show getInts 5 d.fields = some d.tags by wireInts [Diagnostic.fields]]
  rfl

theorem occurrence_survives (o : Occurrence) (hs : Short o.fields) (hv : ∀ s ∈ o.strings, validUtf8 s = true) :
    Survives Occurrence.fields readOccurrence o := by
  unfold Survives
  rw [(occurrence_plain o).parse hs]
  simp only [Option.bind_some, readOccurrence]
  rw [show getInts 1 o.fields = some o.range by wireInts [Occurrence.fields],
    getStr_of (s := o.symbol) (by wire [Occurrence.fields]) (hv _ (by simp [Occurrence.strings])),
    getInt_of (i := o.symbolRoles) (by wire [Occurrence.fields]),
    getStrs_of (ss := o.overrideDocumentation) (by wire [Occurrence.fields]) (fun s h => hv s (by simp [Occurrence.strings, h])),
    getInt_of (i := o.syntaxKind) (by wire [Occurrence.fields]),
    getMsgs_of (xs := o.diagnostics) (flds := Diagnostic.fields) (by wire [Occurrence.fields]) (fun d hd => diagnostic_survives d
      (hs.msgs (n := 6) (flds := Diagnostic.fields) (xs := o.diagnostics) (fun f hf => by simp [Occurrence.fields, hf]) hd)
      (fun s h => hv s (by simp only [Occurrence.strings, List.mem_cons, List.mem_append, List.mem_flatMap]; exact .inr (.inr ⟨d, hd, h⟩)))),
    show getInts 7 o.fields = some o.enclosingRange by wireInts [Occurrence.fields]]
  rfl

theorem signature_survives (s : Signature) (hs : Short s.fields) (hv : ∀ t ∈ s.strings, validUtf8 t = true) :
    Survives Signature.fields readSignature s := by
  unfold Survives
  rw [(signature_plain s).parse hs]
  simp only [Option.bind_some, readSignature]
  rw [getStr_of (s := s.language) (by wire [Signature.fields]) (hv _ (by simp [Signature.strings])),
    getStr_of (s := s.text) (by wire [Signature.fields]) (hv _ (by simp [Signature.strings]))]
  rfl

theorem symbolInformation_survives (s : SymbolInformation) (hs : Short s.fields) (hv : ∀ t ∈ s.strings, validUtf8 t = true) :
    Survives SymbolInformation.fields readSymbolInformation s := by
  unfold Survives
  rw [(symbolInformation_plain s).parse hs]
  simp only [Option.bind_some, readSymbolInformation]
  rw [getStr_of (s := s.symbol) (by wire [SymbolInformation.fields]) (hv _ (by simp [SymbolInformation.strings])),
    getStrs_of (ss := s.documentation) (by wire [SymbolInformation.fields]) (fun t h => hv t (by simp [SymbolInformation.strings, h])),
    getMsgs_of (xs := s.relationships) (flds := Relationship.fields) (by wire [SymbolInformation.fields]) (fun d hd => relationship_survives d
      (hs.msgs (n := 4) (flds := Relationship.fields) (xs := s.relationships) (fun f hf => by simp [SymbolInformation.fields, hf]) hd)
      (hv _ (by
        simp only [SymbolInformation.strings, List.mem_append, List.mem_map]; exact .inl (.inr ⟨d, hd, rfl⟩)))),
    getInt_of (i := s.kind) (by wire [SymbolInformation.fields]),
    getStr_of (s := s.displayName) (by wire [SymbolInformation.fields]) (hv _ (by simp [SymbolInformation.strings])),
    getMsg_of (x := s.signatureDocumentation) (flds := Signature.fields) (by wire [SymbolInformation.fields]) (fun d hd => signature_survives d
      (hs.msgs (n := 7) (flds := Signature.fields) (xs := s.signatureDocumentation.toList)
        (fun f hf => by simp [SymbolInformation.fields, fMsg, hf]) (by simp [hd]))
      (fun t h => hv t (by
        simp only [SymbolInformation.strings, List.mem_append, List.mem_flatMap]; exact .inr ⟨d, by simp [hd], h⟩))),
    getStr_of (s := s.enclosingSymbol) (by wire [SymbolInformation.fields]) (hv _ (by simp [SymbolInformation.strings]))]
  rfl

theorem document_survives (d : Document) (hs : Short d.fields) (hv : ∀ t ∈ d.strings, validUtf8 t = true) :
    Survives Document.fields readDocument d := by
  unfold Survives
  rw [(document_plain d).parse hs]
  simp only [Option.bind_some, readDocument]
  rw [getStr_of (s := d.relativePath) (by wire [Document.fields]) (hv _ (by simp [Document.strings])),
    getMsgs_of (xs := d.occurrences) (flds := Occurrence.fields) (by wire [Document.fields]) (fun o ho => occurrence_survives o
      (hs.msgs (n := 2) (flds := Occurrence.fields) (xs := d.occurrences) (fun f hf => by simp [Document.fields, hf]) ho)
      (fun t h => hv t (by simp only [Document.strings, List.mem_append, List.mem_flatMap]; exact .inl (.inr ⟨o, ho, h⟩)))),
    getMsgs_of (xs := d.symbols) (flds := SymbolInformation.fields) (by wire [Document.fields]) (fun o ho => symbolInformation_survives o
      (hs.msgs (n := 3) (flds := SymbolInformation.fields) (xs := d.symbols) (fun f hf => by simp [Document.fields, hf]) ho)
      (fun t h => hv t (by simp only [Document.strings, List.mem_append, List.mem_flatMap]; exact .inr ⟨o, ho, h⟩))),
    getStr_of (s := d.language) (by wire [Document.fields]) (hv _ (by simp [Document.strings])),
    getStr_of (s := d.text) (by wire [Document.fields]) (hv _ (by simp [Document.strings])),
    getInt_of (i := d.positionEncoding) (by wire [Document.fields])]
  rfl

theorem toolInfo_survives (t : ToolInfo) (hs : Short t.fields) (hv : ∀ s ∈ t.strings, validUtf8 s = true) :
    Survives ToolInfo.fields readToolInfo t := by
  unfold Survives
  rw [(toolInfo_plain t).parse hs]
  simp only [Option.bind_some, readToolInfo]
  rw [getStr_of (s := t.name) (by wire [ToolInfo.fields]) (hv _ (by simp [ToolInfo.strings])),
    getStr_of (s := t.version) (by wire [ToolInfo.fields]) (hv _ (by simp [ToolInfo.strings])),
    getStrs_of (ss := t.arguments) (by wire [ToolInfo.fields]) (fun s h => hv s (by simp [ToolInfo.strings, h]))]
  rfl

theorem metadata_survives (m : Metadata) (hs : Short m.fields) (hv : ∀ t ∈ m.strings, validUtf8 t = true) :
    Survives Metadata.fields readMetadata m := by
  unfold Survives
  rw [(metadata_plain m).parse hs]
  simp only [Option.bind_some, readMetadata]
  rw [getInt_of (i := m.version) (by wire [Metadata.fields]),
    getMsg_of (x := m.toolInfo) (flds := ToolInfo.fields) (by wire [Metadata.fields]) (fun d hd => toolInfo_survives d
      (hs.msgs (n := 2) (flds := ToolInfo.fields) (xs := m.toolInfo.toList)
        (fun f hf => by simp [Metadata.fields, fMsg, hf]) (by simp [hd]))
      (fun t h => hv t (by
        simp only [Metadata.strings, List.mem_cons, List.mem_flatMap]; exact .inr ⟨d, by simp [hd], h⟩))),
    getStr_of (s := m.projectRoot) (by wire [Metadata.fields]) (hv _ (by simp [Metadata.strings])),
    getInt_of (i := m.textDocumentEncoding) (by wire [Metadata.fields])]
  rfl

/-- An index with any fields survives. -/
theorem index_survives (x : Index) (hs : Short x.fields) (hv : ∀ t ∈ x.strings, validUtf8 t = true) : Survives Index.fields readIndex x := by
  unfold Survives
  rw [(index_plain x).parse hs]
  simp only [Option.bind_some, readIndex]
  rw [getMsg_of (x := x.metadata) (flds := Metadata.fields) (by wire [Index.fields]) (fun d hd => metadata_survives d
      (hs.msgs (n := 1) (flds := Metadata.fields) (xs := x.metadata.toList)
        (fun f hf => by simp [Index.fields, fMsg, hf]) (by simp [hd]))
      (fun t h => hv t (by simp only [Index.strings, List.mem_append, List.mem_flatMap]; exact .inl (.inl ⟨d, by simp [hd], h⟩)))),
    getMsgs_of (xs := x.documents) (flds := Document.fields) (by wire [Index.fields]) (fun o ho => document_survives o
      (hs.msgs (n := 2) (flds := Document.fields) (xs := x.documents) (fun f hf => by simp [Index.fields, hf]) ho)
      (fun t h => hv t (by simp only [Index.strings, List.mem_append, List.mem_flatMap]; exact .inl (.inr ⟨o, ho, h⟩)))),
    getMsgs_of (xs := x.externalSymbols) (flds := SymbolInformation.fields) (by wire [Index.fields]) (fun o ho => symbolInformation_survives o
      (hs.msgs (n := 3) (flds := SymbolInformation.fields) (xs := x.externalSymbols) (fun f hf => by simp [Index.fields, hf]) ho)
      (fun t h => hv t (by simp only [Index.strings, List.mem_append, List.mem_flatMap]; exact .inr ⟨o, ho, h⟩)))]
  rfl

end Verif.Pb
