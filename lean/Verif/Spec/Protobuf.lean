import Verif.Model.Wire
/-!
# Specification: reading a SCIP index

A protobuf decoder for `scip.Index`, written from the protobuf encoding rules and not from the encoder: fields may come in any order,
a repeated field collects all its values in order, of a scalar field the last value counts, the parts of a message field are merged
(which is the same as decoding the concatenation of the parts), packed and unpacked numbers are accepted, unknown fields and fields
with an unexpected wire type are ignored, and everything malformed (cut varints, cut payloads, group tags, field number 0, numbers
beyond 64 bits, strings that are not UTF-8) is an error.
-/
namespace Verif.Pb.Spec
open Verif.Pb

/-- A varint of at most `k` bytes at the beginning. -/
def varint : Nat → Bytes → Option (Nat × Bytes)
  | 0, _ => none
  | _ + 1, [] => none
  | k + 1, b :: r =>
    if b.toNat < 128 then some (b.toNat, r)
    else match varint k r with
      | none => none
      | some (n, r') => some (b.toNat - 128 + 128 * n, r')

/-- A 64-bit varint. -/
def varint64 (b : Bytes) : Option (Nat × Bytes) :=
  match varint 10 b with
  | some (n, r) => if n < 2 ^ 64 then some (n, r) else none
  | none => none

/-- The first `n` bytes. -/
def takeExactly (n : Nat) (b : Bytes) : Option (Bytes × Bytes) := if n ≤ b.length then some (b.take n, b.drop n) else none

/-- The value of a field with this wire type. -/
def value : Nat → Bytes → Option (Val × Bytes)
  | 0, b => (varint64 b).map (fun x => (.varint x.1, x.2))
  | 1, b => (takeExactly 8 b).map (fun x => (.fixed64 x.1, x.2))
  | 2, b => (varint64 b).bind (fun x => (takeExactly x.1 x.2).map (fun y => (.len y.1, y.2)))
  | 5, b => (takeExactly 4 b).map (fun x => (.fixed32 x.1, x.2))
  | _, _ => none

/-- One field. -/
def field (b : Bytes) : Option ((Nat × Val) × Bytes) :=
  (varint64 b).bind (fun x => if x.1 / 8 = 0 then none else (value (x.1 % 8) x.2).map (fun y => ((x.1 / 8, y.1), y.2)))

/-- At most `k` fields. -/
def fieldsUpTo : Nat → Bytes → Option Fields
  | _, [] => some []
  | 0, _ :: _ => none
  | k + 1, b => (field b).bind (fun x => (fieldsUpTo k x.2).map (fun fs => x.1 :: fs))

/-- All fields of a message (every field takes at least one byte). -/
def fields (b : Bytes) : Option Fields := fieldsUpTo b.length b

/-! Values of a field number. -/
def varints (n : Nat) (fs : Fields) : List Nat := fs.filterMap (fun f => match f with | (k, .varint v) => if k = n then some v else none | _ => none)
def lens (n : Nat) (fs : Fields) : List Bytes := fs.filterMap (fun f => match f with | (k, .len b) => if k = n then some b else none | _ => none)

/-- The low 32 bits as a signed number. -/
def int32 (n : Nat) : Int32 := Int32.ofNat n

/-- A sequence of at most `k` packed varints. -/
def unpackUpTo : Nat → Bytes → Option (List Int32)
  | _, [] => some []
  | 0, _ :: _ => none
  | k + 1, b => (varint64 b).bind (fun x => (unpackUpTo k x.2).map (fun is => int32 x.1 :: is))

def unpack (b : Bytes) : Option (List Int32) := unpackUpTo b.length b

def getInt (n : Nat) (fs : Fields) : Int32 := int32 ((varints n fs).getLast?.getD 0)
def getBool (n : Nat) (fs : Fields) : Bool := (varints n fs).getLast?.getD 0 != 0
def getStr (n : Nat) (fs : Fields) : Option Bytes := if (lens n fs).all validUtf8 then some ((lens n fs).getLast?.getD []) else none
def getStrs (n : Nat) (fs : Fields) : Option (List Bytes) := if (lens n fs).all validUtf8 then some (lens n fs) else none

/-- Repeated numbers, packed or not. -/
def getInts (n : Nat) : Fields → Option (List Int32)
  | [] => some []
  | (k, v) :: fs =>
    if k = n then
      match v with
      | .varint x => (getInts n fs).map (fun is => int32 x :: is)
      | .len b => (unpack b).bind (fun is => (getInts n fs).map (fun is' => is ++ is'))
      | _ => getInts n fs
    else getInts n fs

/-- Apply a decoder to every element. -/
def each {α β : Type} (f : α → Option β) : List α → Option (List β)
  | [] => some []
  | x :: xs => (f x).bind (fun y => (each f xs).map (fun ys => y :: ys))

def getMsgs {α : Type} (n : Nat) (dec : Fields → Option α) (fs : Fields) : Option (List α) :=
  each (fun b => (fields b).bind dec) (lens n fs)

/-- A message field that may be absent. -/
def getMsg {α : Type} (n : Nat) (dec : Fields → Option α) (fs : Fields) : Option (Option α) :=
  match lens n fs with
  | [] => some none
  | bs => ((fields bs.flatten).bind dec).map some

def readRelationship (fs : Fields) : Option Relationship := do
  return { symbol := ← getStr 1 fs, isReference := getBool 2 fs, isImplementation := getBool 3 fs, isTypeDefinition := getBool 4 fs
           isDefinition := getBool 5 fs }

def readDiagnostic (fs : Fields) : Option Diagnostic := do
  return { severity := getInt 1 fs, code := ← getStr 2 fs, message := ← getStr 3 fs, source := ← getStr 4 fs, tags := ← getInts 5 fs }

def readOccurrence (fs : Fields) : Option Occurrence := do
  return { range := ← getInts 1 fs, symbol := ← getStr 2 fs, symbolRoles := getInt 3 fs, overrideDocumentation := ← getStrs 4 fs
           syntaxKind := getInt 5 fs, diagnostics := ← getMsgs 6 readDiagnostic fs, enclosingRange := ← getInts 7 fs }

def readSignature (fs : Fields) : Option Signature := do return { language := ← getStr 4 fs, text := ← getStr 5 fs }

def readSymbolInformation (fs : Fields) : Option SymbolInformation := do
  return { symbol := ← getStr 1 fs, documentation := ← getStrs 3 fs, relationships := ← getMsgs 4 readRelationship fs, kind := getInt 5 fs
           displayName := ← getStr 6 fs, signatureDocumentation := ← getMsg 7 readSignature fs, enclosingSymbol := ← getStr 8 fs }

def readDocument (fs : Fields) : Option Document := do
  return { relativePath := ← getStr 1 fs, occurrences := ← getMsgs 2 readOccurrence fs, symbols := ← getMsgs 3 readSymbolInformation fs
           language := ← getStr 4 fs, text := ← getStr 5 fs, positionEncoding := getInt 6 fs }

def readToolInfo (fs : Fields) : Option ToolInfo := do
  return { name := ← getStr 1 fs, version := ← getStr 2 fs, arguments := ← getStrs 3 fs }

def readMetadata (fs : Fields) : Option Metadata := do
  return { version := getInt 1 fs, toolInfo := ← getMsg 2 readToolInfo fs, projectRoot := ← getStr 3 fs, textDocumentEncoding := getInt 4 fs }

def readIndex (fs : Fields) : Option Index := do
  return { metadata := ← getMsg 1 readMetadata fs, documents := ← getMsgs 2 readDocument fs, externalSymbols := ← getMsgs 3 readSymbolInformation fs }

/-- Decode a whole file. -/
def unmarshal (b : Bytes) : Option Index := (fields b).bind readIndex

end Verif.Pb.Spec
