import Verif.Spec.ScipProto
import Verif.Lemmas.WireMessages
/-! # C52: the output decodes to the messages written -/
namespace Verif
open Pb

/-- The metadata, documents and external symbols among the messages, as SCIP structures. -/
def Spec.metadataOf (ms : List Index.Message) : List Pb.Metadata := ms.filterMap (fun m => match m with | .metadata x => some (metadata x) | _ => none)
def Spec.documentsOf (ms : List Index.Message) : List Pb.Document :=
  ms.filterMap (fun m => match m with | .document p os ss => some (document p os ss) | _ => none)
def Spec.externalsOf (ms : List Index.Message) : List Pb.SymbolInformation :=
  ms.filterMap (fun m => match m with | .external s rs => some (external s rs) | _ => none)

/-- `bs` are the bytes of the messages `ms`, one element per message. -/
inductive Spec.Marshalled : List Index.Message → List Bytes → Prop
  | nil : Marshalled [] []
  | cons {m b ms bs} : marshal (indexOf m) = some b → Marshalled ms bs → Marshalled (m :: ms) (b :: bs)

open Spec

theorem marshal_some {x : Pb.Index} {b : Bytes} (h : marshal x = some b) : b = encodeFields x.fields ∧ ∀ s ∈ x.strings, validUtf8 s = true := by
  unfold marshal at h
  split at h
  · rename_i ha
    simp only [Option.some.injEq] at h
    exact ⟨h.symm, List.all_eq_true.1 ha⟩
  · simp at h

theorem marshalled_bytes {ms : List Index.Message} {bs : List Bytes} (h : Marshalled ms bs) :
    bs.flatten = encodeFields (ms.flatMap (fun m => (indexOf m).fields)) ∧ ∀ m ∈ ms, ∀ s ∈ (indexOf m).strings, validUtf8 s = true := by
  induction h with
  | nil => exact ⟨rfl, by simp⟩
  | @cons m b ms bs hm _ ih =>
    obtain ⟨h1, h2⟩ := marshal_some hm
    refine ⟨?_, ?_⟩
    · rw [List.flatten_cons, ih.1, h1]
      simp [encodeFields]
    · intro m' hm' s hs
      rcases List.mem_cons.1 hm' with rfl | hm'
      · exact h2 s hs
      · exact ih.2 m' hm' s hs

/-- The one field of a message on the wire. -/
def messageField : Index.Message → Nat × Val
  | .metadata x => (1, .len (encodeFields (metadata x).fields))
  | .document p os ss => (2, .len (encodeFields (document p os ss).fields))
  | .external s rs => (3, .len (encodeFields (external s rs).fields))

theorem indexOf_fields (m : Index.Message) : (indexOf m).fields = [messageField m] := by
  cases m <;> simp [indexOf, Index.fields, fMsg, fMsgs, messageField]

theorem plain_flat (ms : List Index.Message) : PlainFields (ms.flatMap (fun m => (indexOf m).fields)) := by
  intro f hf
  obtain ⟨m, _, h⟩ := List.mem_flatMap.1 hf
  exact index_plain _ f h

theorem lens_flat (ms : List Index.Message) :
    Pb.Spec.lens 1 (ms.flatMap (fun m => (indexOf m).fields)) = (metadataOf ms).map (fun x => encodeFields x.fields) ∧
    Pb.Spec.lens 2 (ms.flatMap (fun m => (indexOf m).fields)) = (documentsOf ms).map (fun x => encodeFields x.fields) ∧
    Pb.Spec.lens 3 (ms.flatMap (fun m => (indexOf m).fields)) = (externalsOf ms).map (fun x => encodeFields x.fields) := by
  induction ms with
  | nil => exact ⟨rfl, rfl, rfl⟩
  | cons m ms ih =>
    obtain ⟨h1, h2, h3⟩ := ih
    simp only [List.flatMap_cons, lens_append, indexOf_fields]
    simp only [indexOf_fields] at h1 h2 h3
    rw [h1, h2, h3]
    cases m <;> simp [messageField, Pb.Spec.lens, metadataOf, documentsOf, externalsOf]

/-- **C52.** Decode the concatenation of what is written for a sequence of messages, in any order and of any kind but with at most one
metadata message: the result is the index with the metadata and, in order, exactly the documents and the external symbols.
(The file must be shorter than 2⁶⁴ bytes.) -/
theorem C52_file_decodes (ms : List Index.Message) (bs : List Bytes) (h : Marshalled ms bs) (hone : (metadataOf ms).length ≤ 1)
    (hsize : bs.flatten.length < 2 ^ 64) :
    Pb.Spec.unmarshal bs.flatten = some { metadata := (metadataOf ms).head?, documents := documentsOf ms, externalSymbols := externalsOf ms } := by
  obtain ⟨hb, hv⟩ := marshalled_bytes h
  obtain ⟨l1, l2, l3⟩ := lens_flat ms
  rw [hb] at hsize ⊢
  have hp := plain_flat ms
  unfold Pb.Spec.unmarshal
  rw [hp.parse hsize]
  simp only [Option.bind_some, Pb.Spec.readIndex]
  have sub : ∀ m ∈ ms, (encodeField (messageField m)).length ≤ (encodeFields (ms.flatMap (fun m => (indexOf m).fields))).length := by
    intro m hm
    exact length_le_encodeFields (List.mem_flatMap.2 ⟨m, hm, by rw [indexOf_fields]; simp⟩)
  have e1 : Pb.Spec.getMsg 1 Pb.Spec.readMetadata (ms.flatMap (fun m => (indexOf m).fields)) = some (metadataOf ms).head? := by
    refine getMsg_of (flds := Pb.Metadata.fields) ?_ ?_
    · rw [l1]
      rcases hh : metadataOf ms with _ | ⟨x, _ | ⟨y, l⟩⟩
      · rfl
      · rfl
      · rw [hh] at hone; simp at hone
    · intro y hy
      obtain ⟨m, hm, hmy⟩ := List.mem_filterMap.1 (List.mem_of_mem_head? hy)
      cases m with
      | document => simp at hmy
      | external => simp at hmy
      | metadata x =>
        simp only [Option.some.injEq] at hmy
        subst hmy
        refine metadata_survives _ (Nat.lt_of_le_of_lt (Nat.le_trans (length_encodeField_len 1 _) (sub _ hm)) hsize) ?_
        intro s hs
        exact hv _ hm s (by simp [indexOf, Pb.Index.strings, hs])
  have e2 : Pb.Spec.getMsgs 2 Pb.Spec.readDocument (ms.flatMap (fun m => (indexOf m).fields)) = some (documentsOf ms) := by
    refine getMsgs_of (flds := Pb.Document.fields) l2 ?_
    intro y hy
    obtain ⟨m, hm, hmy⟩ := List.mem_filterMap.1 hy
    cases m with
    | metadata => simp at hmy
    | external => simp at hmy
    | document p os ss =>
      simp only [Option.some.injEq] at hmy
      subst hmy
      refine document_survives _ (Nat.lt_of_le_of_lt (Nat.le_trans (length_encodeField_len 2 _) (sub _ hm)) hsize) ?_
      intro s hs
      exact hv _ hm s (by simp [indexOf, Pb.Index.strings, hs])
  have e3 : Pb.Spec.getMsgs 3 Pb.Spec.readSymbolInformation (ms.flatMap (fun m => (indexOf m).fields)) = some (externalsOf ms) := by
    refine getMsgs_of (flds := Pb.SymbolInformation.fields) l3 ?_
    intro y hy
    obtain ⟨m, hm, hmy⟩ := List.mem_filterMap.1 hy
    cases m with
    | metadata => simp at hmy
    | document => simp at hmy
    | external s rs =>
      simp only [Option.some.injEq] at hmy
      subst hmy
      refine symbolInformation_survives _ (Nat.lt_of_le_of_lt (Nat.le_trans (length_encodeField_len 3 _) (sub _ hm)) hsize) ?_
      intro s hs
      exact hv _ hm s (by simp [indexOf, Pb.Index.strings, hs])
  rw [e1, e2, e3]
  rfl

/-- **C52**, files cut between messages: the first `k` messages decode to exactly those. -/
theorem C52_cut_between_messages (ms : List Index.Message) (bs : List Bytes) (h : Marshalled ms bs) (hone : (metadataOf ms).length ≤ 1)
    (hsize : bs.flatten.length < 2 ^ 64) (k : Nat) :
    Pb.Spec.unmarshal (bs.take k).flatten =
      some { metadata := (metadataOf (ms.take k)).head?, documents := documentsOf (ms.take k), externalSymbols := externalsOf (ms.take k) } := by
  have hk : Marshalled (ms.take k) (bs.take k) := by
    clear hone hsize
    induction h generalizing k with
    | nil => rw [List.take_nil, List.take_nil]; exact .nil
    | cons h1 _ ih =>
      cases k with
      | zero => exact .nil
      | succ k => exact .cons h1 (ih k)
  refine C52_file_decodes _ _ hk (Nat.le_trans ?_ hone) (Nat.lt_of_le_of_lt ?_ hsize)
  · exact ((List.take_sublist k ms).filterMap _).length_le
  · have := congrArg (fun l : List Bytes => l.flatten.length) (List.take_append_drop k bs)
    simp only [List.flatten_append, List.length_append] at this
    omega

/-- **C52**, files cut inside a message: they do not decode at all — no reader takes a cut message for a shorter one. -/
theorem C52_cut_inside_message (ms : List Index.Message) (bs : List Bytes) (h : Marshalled ms bs) (m : Index.Message) (b p s : Bytes)
    (hm : marshal (indexOf m) = some b) (hb : b = p ++ s) (hp : p ≠ []) (hs : s ≠ []) (hsize : bs.flatten.length + b.length < 2 ^ 64) :
    Pb.Spec.unmarshal (bs.flatten ++ p) = none := by
  obtain ⟨he, _⟩ := marshalled_bytes h
  obtain ⟨hme, _⟩ := marshal_some hm
  rw [indexOf_fields] at hme
  have hsh : Short (ms.flatMap (fun m => (indexOf m).fields)) := by unfold Short; rw [← he]; omega
  have hone : Short [messageField m] := by unfold Short; rw [← hme]; omega
  have hpl : PlainFields [messageField m] := by rw [← indexOf_fields]; exact index_plain _
  unfold Pb.Spec.unmarshal Pb.Spec.fields
  rw [he, fieldsUpTo_cut _ ((plain_flat ms).ok hsh) (messageField m) (hpl.ok hone _ (by simp)) p s (by
    rw [← hb, hme]; simp [encodeFields]) hp hs]
  rfl

/-! ## Nothing is lost in the translation to SCIP structures -/

/-- A Go string is a sequence of bytes, modelled with one character per byte. -/
def Spec.ByteString (s : Str) : Prop := ∀ c ∈ s, c.toNat < 256
/-- 32-bit numbers. -/
def Spec.Small (i : Int) : Prop := -2 ^ 31 ≤ i ∧ i < 2 ^ 31

/-- What the Go types guarantee for a message, and that enclosing ranges are not empty. -/
structure Spec.GoOccurrence (o : Occurrence) : Prop where
  range : ∀ i ∈ o.range, Small i
  symbol : ByteString o.symbol
  enclosing : ∀ r, o.enclosing = some r → r ≠ [] ∧ ∀ i ∈ r, Small i
structure Spec.GoSymbol (s : SymInfo × List Str) : Prop where
  symbol : ByteString s.1.symbol
  displayName : ByteString s.1.displayName
  documentation : ∀ d ∈ s.1.documentation, ByteString d
  signature : ∀ t, s.1.signature = some t → ByteString t
  relationships : ∀ r ∈ s.2, ByteString r
def Spec.GoMessage : Index.Message → Prop
  | .metadata m => m.version < 2 ^ 31 ∧ m.textEncoding < 2 ^ 31 ∧ ByteString m.toolName ∧ ByteString m.toolVersion ∧ ByteString m.projectRoot ∧
      ∀ a ∈ m.arguments, ByteString a
  | .document p os ss => ByteString p ∧ (∀ o ∈ os, GoOccurrence o) ∧ ∀ s ∈ ss, GoSymbol s
  | .external s rs => ByteString s ∧ ∀ r ∈ rs, ByteString r

theorem bytes_inj {s t : Str} (hs : ByteString s) (ht : ByteString t) (h : bytes s = bytes t) : s = t := by
  induction s generalizing t with
  | nil => cases t with
    | nil => rfl
    | cons => simp [bytes] at h
  | cons c s ih => cases t with
    | nil => simp [bytes] at h
    | cons d t =>
      simp only [bytes, List.map_cons, List.cons.injEq] at h
      have hc := hs c (by simp)
      have hd := ht d (by simp)
      have e := congrArg UInt8.toNat h.1
      rw [toNat_small hc, toNat_small hd] at e
      rw [Char.toNat_inj.1 e, ih (t := t) (fun c h => hs c (by simp [h])) (fun c h => ht c (by simp [h])) h.2]

theorem map_inj {α β : Type} {f : α → β} {P : α → Prop} (hf : ∀ a b, P a → P b → f a = f b → a = b) {l l' : List α} (hl : ∀ a ∈ l, P a)
    (hl' : ∀ a ∈ l', P a) (h : l.map f = l'.map f) : l = l' := by
  induction l generalizing l' with
  | nil => cases l' with
    | nil => rfl
    | cons => simp at h
  | cons a l ih => cases l' with
    | nil => simp at h
    | cons b l' =>
      simp only [List.map_cons, List.cons.injEq] at h
      rw [hf a b (hl a (by simp)) (hl' b (by simp)) h.1, ih (fun a h => hl a (by simp [h])) (fun a h => hl' a (by simp [h])) h.2]

theorem ofInt_inj {i j : Int} (hi : Small i) (hj : Small j) (h : Int32.ofInt i = Int32.ofInt j) : i = j := by
  have e := congrArg Int32.toInt h
  rwa [Int32.toInt_ofInt_of_le hi.1 hi.2, Int32.toInt_ofInt_of_le hj.1 hj.2] at e

theorem ofNat_inj {i j : Nat} (hi : i < 2 ^ 31) (hj : j < 2 ^ 31) (h : Int32.ofNat i = Int32.ofNat j) : i = j := by
  have e := congrArg Int32.toInt h
  rw [Int32.toInt_ofNat_of_lt hi, Int32.toInt_ofNat_of_lt hj] at e
  omega

theorem kindNumber_inj {k k' : Kind} (h : kindNumber k = kindNumber k') : k = k' := by
  revert h; cases k <;> cases k' <;> decide

theorem relationship_inj {s t : Str} (hs : ByteString s) (ht : ByteString t) (h : relationship s = relationship t) : s = t := by
  simp only [relationship, Pb.Relationship.mk.injEq, and_true] at h
  exact bytes_inj hs ht h

theorem occurrence_inj {o o' : Occurrence} (ho : GoOccurrence o) (ho' : GoOccurrence o') (h : occurrence o = occurrence o') : o = o' := by
  obtain ⟨r, s, d, e, p⟩ := o
  obtain ⟨r', s', d', e', p'⟩ := o'
  simp only [occurrence, Pb.Occurrence.mk.injEq, true_and] at h
  obtain ⟨h1, h2, h3, h4, h5⟩ := h
  have e1 : r = r' := map_inj (P := Small) (fun _ _ => ofInt_inj) ho.range ho'.range h1
  have e2 : s = s' := bytes_inj ho.symbol ho'.symbol h2
  have e3 : d = d' := by
    cases d <;> cases d' <;> first | rfl | (simp at h3; done)
  have e4 : p = p' := by cases p <;> cases p' <;> first | rfl | (simp [deprecatedDiagnostics] at h4)
  have e5 : e = e' := by
    cases e with
    | none => cases e' with
      | none => rfl
      | some y =>
        simp only [Option.getD_none, List.map_nil, Option.getD_some] at h5
        exact absurd (List.map_eq_nil_iff.1 h5.symm) (ho'.enclosing y rfl).1
    | some x => cases e' with
      | none =>
        simp only [Option.getD_none, List.map_nil, Option.getD_some] at h5
        exact absurd (List.map_eq_nil_iff.1 h5) (ho.enclosing x rfl).1
      | some y => exact congrArg some (map_inj (P := Small) (fun _ _ => ofInt_inj) (ho.enclosing x rfl).2 (ho'.enclosing y rfl).2 h5)
  rw [e1, e2, e3, e4, e5]

theorem symbolInformation_inj {s s' : SymInfo × List Str} (hs : GoSymbol s) (hs' : GoSymbol s') (h : symbolInformation s = symbolInformation s') :
    s = s' := by
  obtain ⟨⟨a, b, c, d, e⟩, r⟩ := s
  obtain ⟨⟨a', b', c', d', e'⟩, r'⟩ := s'
  simp only [symbolInformation, Pb.SymbolInformation.mk.injEq, and_true] at h
  obtain ⟨h1, h2, h3, h4, h5, h6⟩ := h
  have e1 : a = a' := bytes_inj hs.symbol hs'.symbol h1
  have e2 : d = d' := map_inj (P := ByteString) (fun _ _ => bytes_inj) hs.documentation hs'.documentation h2
  have e3 : r = r' := map_inj (P := ByteString) (fun _ _ => relationship_inj) hs.relationships hs'.relationships h3
  have e4 : b = b' := kindNumber_inj h4
  have e5 : c = c' := bytes_inj hs.displayName hs'.displayName h5
  have e6 : e = e' := by
    cases e with
    | none => cases e' with
      | none => rfl
      | some y => simp at h6
    | some x => cases e' with
      | none => simp at h6
      | some y =>
        simp only [Option.map_some, Option.some.injEq, Pb.Signature.mk.injEq, true_and] at h6
        exact congrArg some (bytes_inj (hs.signature x rfl) (hs'.signature y rfl) h6)
  rw [e1, e2, e3, e4, e5, e6]

/-- **C52**, last step: different messages become different SCIP structures, so decoding the file determines the messages. -/
theorem C52_translation_faithful (m m' : Index.Message) (hm : GoMessage m) (hm' : GoMessage m') (h : indexOf m = indexOf m') : m = m' := by
  cases m with
  | metadata x => cases m' with
    | metadata y =>
      obtain ⟨x1, x2, x3, x4, x5, x6⟩ := x
      obtain ⟨y1, y2, y3, y4, y5, y6⟩ := y
      simp only [indexOf, Pb.Index.mk.injEq, Option.some.injEq, metadata, Pb.Metadata.mk.injEq, Pb.ToolInfo.mk.injEq, and_true] at h
      obtain ⟨h1, ⟨h2, h3, h4⟩, h5, h6⟩ := h
      obtain ⟨a1, a2, a3, a4, a5, a6⟩ := hm
      obtain ⟨b1, b2, b3, b4, b5, b6⟩ := hm'
      have := ofNat_inj a1 b1 h1
      have := ofNat_inj a2 b2 h6
      have := bytes_inj a3 b3 h2
      have := bytes_inj a4 b4 h3
      have := bytes_inj a5 b5 h5
      have := map_inj (P := ByteString) (fun _ _ => bytes_inj) a6 b6 h4
      simp_all
    | document => simp [indexOf] at h
    | external => simp [indexOf] at h
  | document p os ss => cases m' with
    | metadata => simp [indexOf] at h
    | external => simp [indexOf] at h
    | document p' os' ss' =>
      simp only [indexOf, Pb.Index.mk.injEq, List.cons.injEq, and_true, true_and, document, Pb.Document.mk.injEq] at h
      obtain ⟨h1, h2, h3⟩ := h
      have e1 := bytes_inj hm.1 hm'.1 h1
      have e2 := map_inj (P := GoOccurrence) (fun _ _ => occurrence_inj) hm.2.1 hm'.2.1 h2
      have e3 := map_inj (P := GoSymbol) (fun _ _ => symbolInformation_inj) hm.2.2 hm'.2.2 h3
      rw [e1, e2, e3]
  | external s rs => cases m' with
    | metadata => simp [indexOf] at h
    | document => simp [indexOf] at h
    | external s' rs' =>
      simp only [indexOf, Pb.Index.mk.injEq, List.cons.injEq, and_true, true_and, external, Pb.SymbolInformation.mk.injEq] at h
      have e1 := bytes_inj hm.1 hm'.1 h.1
      have e2 := map_inj (P := ByteString) (fun _ _ => relationship_inj) hm.2 hm'.2 h.2
      rw [e1, e2]

/-- The name in scip.proto of a kind. -/
def Spec.kindName : Kind → String
  | .unspecified => "UnspecifiedKind"
  | .constant => "Constant"
  | .field => "Field"
  | .function => "Function"
  | .interface => "Interface"
  | .method => "Method"
  | .package => "Package"
  | .struct => "Struct"
  | .type => "Type"
  | .typeAlias => "TypeAlias"
  | .typeParameter => "TypeParameter"
  | .variable => "Variable"
  | .methodSpecification => "MethodSpecification"

/-- **C52**, meaning: what a reader of the decoded document sees.  Every occurrence of the run is there, in order, with its symbol, marked
as definition exactly if it is one and as read access otherwise, with its ranges, and with a deprecation notice exactly if it is
deprecated; every symbol has its kind, and its relationships all say `implements`. -/
theorem C52_reader_view (p : Str) (os : List Occurrence) (ss : List (SymInfo × List Str)) :
    (document p os ss).relativePath = bytes p ∧ (document p os ss).language = bytes go!"go" ∧
    (document p os ss).occurrences.length = os.length ∧ (document p os ss).symbols.length = ss.length ∧
    (∀ (i : Nat) o, os[i]? = some o → ∃ x, (document p os ss).occurrences[i]? = some x ∧ x.symbol = bytes o.symbol ∧
      Pb.Spec.isDefinition x = o.isDef ∧ Pb.Spec.isRead x = !o.isDef ∧ Pb.Spec.isDeprecated x = o.deprecated ∧
      (∀ d ∈ x.diagnostics, Pb.Spec.isWarning d ∧ d.message = bytes go!"Deprecated") ∧ x.diagnostics.length ≤ 1 ∧
      x.range = o.range.map Int32.ofInt ∧ x.enclosingRange = (o.enclosing.getD []).map Int32.ofInt) ∧
    (∀ (i : Nat) s, ss[i]? = some s → ∃ x, (document p os ss).symbols[i]? = some x ∧ x.symbol = bytes s.1.symbol ∧
      x.documentation = s.1.documentation.map bytes ∧ x.displayName = bytes s.1.displayName ∧
      (Spec.kindName s.1.kind, x.kind) ∈ Pb.Spec.kinds ∧
      x.signatureDocumentation.map (·.text) = s.1.signature.map bytes ∧
      (∀ d ∈ x.signatureDocumentation, d.language = bytes go!"go") ∧
      (∀ r ∈ x.relationships, Pb.Spec.onlyImplementation r) ∧ x.relationships.map (·.symbol) = s.2.map bytes) := by
  refine ⟨rfl, rfl, by simp [document], by simp [document], ?_, ?_⟩
  · intro i o ho
    refine ⟨occurrence o, by simp [document, ho], rfl, ?_, ?_, ?_, ?_, ?_, rfl, rfl⟩
    · cases h : o.isDef <;> simp [Pb.Spec.isDefinition, Pb.Spec.hasRole, occurrence, h] <;> decide
    · cases h : o.isDef <;> simp [Pb.Spec.isRead, Pb.Spec.hasRole, occurrence, h] <;> decide
    · cases h : o.deprecated <;> simp [Pb.Spec.isDeprecated, occurrence, h, deprecatedDiagnostics]
    · cases h : o.deprecated <;> simp [Pb.Spec.isWarning, occurrence, h, deprecatedDiagnostics]
    · cases h : o.deprecated <;> simp [occurrence, h, deprecatedDiagnostics]
  · intro i s hs
    refine ⟨symbolInformation s, by simp [document, hs], rfl, rfl, rfl, ?_, ?_, ?_, ?_, ?_⟩
    · simp only [symbolInformation]
      cases s.1.kind <;> decide
    · simp [symbolInformation, Function.comp_def]
    · intro d hd
      simp only [symbolInformation, Option.mem_def, Option.map_eq_some_iff] at hd
      obtain ⟨t, _, rfl⟩ := hd
      rfl
    · intro r hr
      simp only [symbolInformation, List.mem_map] at hr
      obtain ⟨x, _, rfl⟩ := hr
      exact ⟨rfl, rfl, rfl, rfl⟩
    · simp [symbolInformation, relationship, Function.comp_def]

/-- The same for the metadata of a run: it names the tool, its version and arguments, the root of the project as a URL, and says that positions and texts
are UTF-8. -/
theorem C52_reader_view_metadata (D : Index.Deps) (o : Index.Opts) :
    let m := metadata (Index.metadata D o)
    Pb.Spec.saysUtf8 m ∧ Pb.Spec.unspecifiedVersion m ∧
    m.projectRoot = bytes (if o.moduleRoot = [] then go!"file:" else go!"file://" ++ D.escapePath o.moduleRoot) ∧
    ∃ t, m.toolInfo = some t ∧ t.name = bytes go!"scip-go" ∧ t.version = bytes D.toolVersion ∧ t.arguments = o.arguments.map bytes :=
  ⟨rfl, rfl, rfl, _, rfl, rfl, rfl, rfl⟩

/-- The same for external symbols. -/
theorem C52_reader_view_external (sym : Str) (rels : List Str) :
    (external sym rels).symbol = bytes sym ∧ (∀ r ∈ (external sym rels).relationships, Pb.Spec.onlyImplementation r) ∧
      (external sym rels).relationships.map (·.symbol) = rels.map bytes := by
  refine ⟨rfl, ?_, by simp [external, relationship, Function.comp_def]⟩
  intro r hr
  simp only [external, List.mem_map] at hr
  obtain ⟨x, _, rfl⟩ := hr
  exact ⟨rfl, rfl, rfl, rfl⟩

end Verif
