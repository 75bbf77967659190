import Verif.Spec.Protobuf
/-!
# Specification: what a reader of a SCIP index sees (the meaning of the numbers in scip.proto)
-/
namespace Verif.Pb.Spec

/-- `enum SymbolRole` is a bit set. -/
def hasRole (o : Occurrence) (bit : Nat) : Bool := o.symbolRoles.toInt.toNat.testBit bit
/-- `Definition = 0x1`. -/
def isDefinition (o : Occurrence) : Bool := hasRole o 0
/-- `ReadAccess = 0x8`. -/
def isRead (o : Occurrence) : Bool := hasRole o 3

/-- `enum DiagnosticTag`: `Deprecated = 2`. -/
def isDeprecated (o : Occurrence) : Bool := o.diagnostics.any (fun d => d.tags.contains 2)

/-- `enum Severity`: `Warning = 2`. -/
def isWarning (d : Diagnostic) : Prop := d.severity = 2

/-- `enum TextEncoding`: `UTF8 = 1`; `enum ProtocolVersion`: `UnspecifiedProtocolVersion = 0`. -/
def saysUtf8 (m : Metadata) : Prop := m.textDocumentEncoding = 1
def unspecifiedVersion (m : Metadata) : Prop := m.version = 0

/-- A relationship that says exactly: implements. -/
def onlyImplementation (r : Relationship) : Prop :=
  r.isImplementation = true ∧ r.isReference = false ∧ r.isTypeDefinition = false ∧ r.isDefinition = false

/-- The part of `enum Kind` that scip-go uses. -/
def kinds : List (String × Int32) :=
  [("UnspecifiedKind", 0), ("Constant", 8), ("Field", 15), ("Function", 17), ("Interface", 21), ("Method", 26), ("Package", 35),
   ("Struct", 49), ("Type", 54), ("TypeAlias", 55), ("TypeParameter", 58), ("Variable", 61), ("MethodSpecification", 67)]

end Verif.Pb.Spec
