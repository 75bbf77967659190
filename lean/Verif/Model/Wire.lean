import Verif.Model.Index
/-!
# The bytes written to the output

`proto.Marshal` (google.golang.org/protobuf) and the SCIP message types (github.com/scip-code/scip/bindings/go/scip) are dependencies
and not in /repo.  Their behaviour is modelled here from the published protobuf wire format and `scip.proto`: every set field is
written as a tag, followed by a varint or by a length and the payload, in the order of the field numbers; scalar fields with the zero
value are left out; a string that is not valid UTF-8 is an error.
-/
namespace Verif.Pb

/-- A sequence of bytes; also a Go string. -/
abbrev Bytes := List UInt8

/-- `scip.Relationship` (fields 1-5 of `scip.proto`). -/
structure Relationship where
  symbol : Bytes
  isReference : Bool := false
  isImplementation : Bool := false
  isTypeDefinition : Bool := false
  isDefinition : Bool := false
  deriving DecidableEq, Repr

/-- `scip.Diagnostic` (fields 1-5). -/
structure Diagnostic where
  severity : Int32 := 0
  code : Bytes := []
  message : Bytes := []
  source : Bytes := []
  tags : List Int32 := []
  deriving DecidableEq, Repr

/-- `scip.Occurrence` (fields 1-7). -/
structure Occurrence where
  range : List Int32 := []
  symbol : Bytes := []
  symbolRoles : Int32 := 0
  overrideDocumentation : List Bytes := []
  syntaxKind : Int32 := 0
  diagnostics : List Diagnostic := []
  enclosingRange : List Int32 := []
  deriving DecidableEq, Repr

/-- The `scip.Document` in field `signature_documentation`: only its language (field 4) and text (field 5) are ever set. -/
structure Signature where
  language : Bytes := []
  text : Bytes := []
  deriving DecidableEq, Repr

/-- `scip.SymbolInformation` (fields 1, 3-8). -/
structure SymbolInformation where
  symbol : Bytes := []
  documentation : List Bytes := []
  relationships : List Relationship := []
  kind : Int32 := 0
  displayName : Bytes := []
  signatureDocumentation : Option Signature := none
  enclosingSymbol : Bytes := []
  deriving DecidableEq, Repr

/-- `scip.Document` (fields 1-6). -/
structure Document where
  relativePath : Bytes := []
  occurrences : List Occurrence := []
  symbols : List SymbolInformation := []
  language : Bytes := []
  text : Bytes := []
  positionEncoding : Int32 := 0
  deriving DecidableEq, Repr

/-- `scip.ToolInfo` (fields 1-3). -/
structure ToolInfo where
  name : Bytes := []
  version : Bytes := []
  arguments : List Bytes := []
  deriving DecidableEq, Repr

/-- `scip.Metadata` (fields 1-4). -/
structure Metadata where
  version : Int32 := 0
  toolInfo : Option ToolInfo := none
  projectRoot : Bytes := []
  textDocumentEncoding : Int32 := 0
  deriving DecidableEq, Repr

/-- `scip.Index` (fields 1-3). -/
structure Index where
  metadata : Option Metadata := none
  documents : List Document := []
  externalSymbols : List SymbolInformation := []
  deriving DecidableEq, Repr

/-- The value of a field on the wire: wire types 0, 1, 2 and 5. -/
inductive Val where
  | varint (n : Nat)
  | fixed64 (b : Bytes)
  | len (b : Bytes)
  | fixed32 (b : Bytes)
  deriving DecidableEq, Repr

/-- The fields of a message: number and value. -/
abbrev Fields := List (Nat × Val)

/-- Base-128 varint. -/
def encodeVarint (n : Nat) : Bytes :=
  if n < 128 then [UInt8.ofNat n] else UInt8.ofNat (n % 128 + 128) :: encodeVarint (n / 128)
termination_by n

def wireType : Val → Nat
  | .varint _ => 0
  | .fixed64 _ => 1
  | .len _ => 2
  | .fixed32 _ => 5

def encodeField (f : Nat × Val) : Bytes :=
  encodeVarint (f.1 * 8 + wireType f.2) ++ match f.2 with
    | .varint n => encodeVarint n
    | .fixed64 b => b
    | .len b => encodeVarint b.length ++ b
    | .fixed32 b => b

def encodeFields (fs : Fields) : Bytes := fs.flatMap encodeField

/-- An `int32` or enum value is sign-extended to 64 bits. -/
def int32Bits (i : Int32) : Nat := (i.toInt % 2 ^ 64).toNat

/-! Fields that are not set to their zero value. -/
def fInt (n : Nat) (i : Int32) : Fields := if i = 0 then [] else [(n, .varint (int32Bits i))]
def fBool (n : Nat) (b : Bool) : Fields := if b then [(n, .varint 1)] else []
def fStr (n : Nat) (s : Bytes) : Fields := if s = [] then [] else [(n, .len s)]
def fStrs (n : Nat) (ss : List Bytes) : Fields := ss.map (fun s => (n, .len s))
/-- Repeated scalars are packed. -/
def fInts (n : Nat) (is : List Int32) : Fields := if is = [] then [] else [(n, .len (is.flatMap (fun i => encodeVarint (int32Bits i))))]
def fMsgs {α : Type} (n : Nat) (fields : α → Fields) (xs : List α) : Fields := xs.map (fun x => (n, .len (encodeFields (fields x))))
def fMsg {α : Type} (n : Nat) (fields : α → Fields) (x : Option α) : Fields := fMsgs n fields x.toList

def Relationship.fields (r : Relationship) : Fields :=
  fStr 1 r.symbol ++ fBool 2 r.isReference ++ fBool 3 r.isImplementation ++ fBool 4 r.isTypeDefinition ++ fBool 5 r.isDefinition

def Diagnostic.fields (d : Diagnostic) : Fields :=
  fInt 1 d.severity ++ fStr 2 d.code ++ fStr 3 d.message ++ fStr 4 d.source ++ fInts 5 d.tags

def Occurrence.fields (o : Occurrence) : Fields :=
  fInts 1 o.range ++ fStr 2 o.symbol ++ fInt 3 o.symbolRoles ++ fStrs 4 o.overrideDocumentation ++ fInt 5 o.syntaxKind ++
    fMsgs 6 Diagnostic.fields o.diagnostics ++ fInts 7 o.enclosingRange

def Signature.fields (s : Signature) : Fields := fStr 4 s.language ++ fStr 5 s.text

def SymbolInformation.fields (s : SymbolInformation) : Fields :=
  fStr 1 s.symbol ++ fStrs 3 s.documentation ++ fMsgs 4 Relationship.fields s.relationships ++ fInt 5 s.kind ++ fStr 6 s.displayName ++
    fMsg 7 Signature.fields s.signatureDocumentation ++ fStr 8 s.enclosingSymbol

def Document.fields (d : Document) : Fields :=
  fStr 1 d.relativePath ++ fMsgs 2 Occurrence.fields d.occurrences ++ fMsgs 3 SymbolInformation.fields d.symbols ++ fStr 4 d.language ++
    fStr 5 d.text ++ fInt 6 d.positionEncoding

def ToolInfo.fields (t : ToolInfo) : Fields := fStr 1 t.name ++ fStr 2 t.version ++ fStrs 3 t.arguments

def Metadata.fields (m : Metadata) : Fields :=
  fInt 1 m.version ++ fMsg 2 ToolInfo.fields m.toolInfo ++ fStr 3 m.projectRoot ++ fInt 4 m.textDocumentEncoding

def Index.fields (x : Index) : Fields :=
  fMsg 1 Metadata.fields x.metadata ++ fMsgs 2 Document.fields x.documents ++ fMsgs 3 SymbolInformation.fields x.externalSymbols

/-! All strings of a message. -/
def Diagnostic.strings (d : Diagnostic) : List Bytes := [d.code, d.message, d.source]
def Occurrence.strings (o : Occurrence) : List Bytes := o.symbol :: (o.overrideDocumentation ++ o.diagnostics.flatMap Diagnostic.strings)
def Signature.strings (s : Signature) : List Bytes := [s.language, s.text]
def SymbolInformation.strings (s : SymbolInformation) : List Bytes :=
  [s.symbol, s.displayName, s.enclosingSymbol] ++ s.documentation ++ s.relationships.map (·.symbol) ++
    s.signatureDocumentation.toList.flatMap Signature.strings
def Document.strings (d : Document) : List Bytes :=
  [d.relativePath, d.language, d.text] ++ d.occurrences.flatMap Occurrence.strings ++ d.symbols.flatMap SymbolInformation.strings
def ToolInfo.strings (t : ToolInfo) : List Bytes := [t.name, t.version] ++ t.arguments
def Metadata.strings (m : Metadata) : List Bytes := m.projectRoot :: m.toolInfo.toList.flatMap ToolInfo.strings
def Index.strings (x : Index) : List Bytes :=
  x.metadata.toList.flatMap Metadata.strings ++ x.documents.flatMap Document.strings ++
    x.externalSymbols.flatMap SymbolInformation.strings

/-- Is this sequence of bytes valid UTF-8? (`ByteArray.validateUTF8` is Lean's.) -/
def validUtf8 (b : Bytes) : Bool := b.toByteArray.validateUTF8

/-- `proto.Marshal` of a `scip.Index` (cmd/scip-go/main.go:171); none is an error. -/
def marshal (x : Index) : Option Bytes := if x.strings.all validUtf8 then some (encodeFields x.fields) else none

/-! ## What scip-go puts into the messages -/

/-- A modelled Go string (one character per byte) as bytes. -/
def bytes (s : Str) : Bytes := s.map (fun c => UInt8.ofNat c.toNat)

/-- The numbers of `scip.SymbolInformation_Kind` in `scip.proto`. -/
def kindNumber : Kind → Int32
  | .unspecified => 0
  | .constant => 8
  | .field => 15
  | .function => 17
  | .interface => 21
  | .method => 26
  | .package => 35
  | .struct => 49
  | .type => 54
  | .typeAlias => 55
  | .typeParameter => 58
  | .variable => 61
  | .methodSpecification => 67

/-- visitor_file.go:372-378: severity `Warning` is 2, tag `Deprecated` is 2. -/
def deprecatedDiagnostics : List Diagnostic := [{ severity := 2, message := bytes go!"Deprecated", tags := [2] }]

/-- visitor_file.go:298-321, scip.go:238-242: role `Definition` is 1, `ReadAccess` is 8. -/
def occurrence (o : Verif.Occurrence) : Occurrence :=
  { range := o.range.map Int32.ofInt, symbol := bytes o.symbol, symbolRoles := if o.isDef then 1 else 8
    enclosingRange := (o.enclosing.getD []).map Int32.ofInt
    diagnostics := if o.deprecated then deprecatedDiagnostics else [] }

/-- internal/implementations/implementations.go:97-100,109-112: a relationship is an implementation. -/
def relationship (sym : Str) : Relationship := { symbol := bytes sym, isImplementation := true }

/-- document.go:136-143, visitor_file.go:332-350, scip.go:220-229. -/
def symbolInformation (s : SymInfo × List Str) : SymbolInformation :=
  { symbol := bytes s.1.symbol, documentation := s.1.documentation.map bytes, relationships := s.2.map relationship
    kind := kindNumber s.1.kind, displayName := bytes s.1.displayName
    signatureDocumentation := s.1.signature.map (fun t => { language := bytes go!"go", text := bytes t }) }

/-- visitor_file.go:355-360. -/
def document (path : Str) (occs : List Verif.Occurrence) (syms : List (SymInfo × List Str)) : Document :=
  { language := bytes go!"go", relativePath := bytes path, occurrences := occs.map occurrence, symbols := syms.map symbolInformation }

/-- scip.go:88-97. -/
def metadata (m : Verif.Index.Metadata) : Metadata :=
  { version := Int32.ofNat m.version, projectRoot := bytes m.projectRoot, textDocumentEncoding := Int32.ofNat m.textEncoding
    toolInfo := some { name := bytes m.toolName, version := bytes m.toolVersion, arguments := m.arguments.map bytes } }

/-- lookup.go:183, extractor.go:107: the description of an external symbol has a symbol and relationships only. -/
def external (sym : Str) (rels : List Str) : SymbolInformation := { symbol := bytes sym, relationships := rels.map relationship }

/-- cmd/scip-go/main.go:157-169: the index that is written for one message (the `default` case cannot occur in the model: there are
no other messages). -/
def indexOf : Verif.Index.Message → Index
  | .metadata m => { metadata := some (metadata m) }
  | .document p os ss => { documents := [document p os ss] }
  | .external s rs => { externalSymbols := [external s rs] }

end Verif.Pb
