import Mathlib.Data.List.Forall2
import Verif.Model.Index
import Verif.Spec.Implementations
/-! # Specification: the output of a run -/
namespace Verif.Spec
open Verif.Index

/-- The message is a document. -/
def isDocument : Message → Prop
  | .document .. => True
  | _ => False

/-- The message is the description of an external symbol. -/
def isExternal : Message → Prop
  | .external .. => True
  | _ => False

/-- The relative paths of the documents among the messages. -/
def documentPaths (ms : List Message) : List Str :=
  ms.filterMap fun m => match m with | .document p _ _ => some p | _ => none

/-- Documents that differ at most in the order of their descriptions. -/
def SameDocument : Message → Message → Prop
  | .document path occs syms, .document path' occs' syms' => path = path' ∧ occs = occs' ∧ syms.Perm syms'
  | _, _ => False

/-- Complete outputs that contain the same index: the same metadata, the same documents in the same order up to the order of descriptions
in them, and the same external symbols with the same relationships up to order. -/
def SameIndex (a b : List Message) : Prop :=
  ∃ md ds ds' es es', a = .metadata md :: (ds ++ es) ∧ b = .metadata md :: (ds' ++ es') ∧ List.Forall₂ SameDocument ds ds' ∧ es.Perm es' ∧
    ∀ m ∈ es, isExternal m

/-- `a` was handed to the writer, then `m`. -/
def Written (r : Run) (a : List Message) (m : Message) (b : List Message) : Prop := r.messages = a ++ m :: b

/-- What Go's map iteration can do: any order. -/
structure ValidMapOrders (ord : MapOrders) : Prop where
  all : ∀ l, (ord.all l).Perm l
  extractProject : ∀ l, (ord.extractProject l).Perm l
  extractAll : ∀ l, (ord.extractAll l).Perm l
  defs : ∀ p l, (ord.defs p l).Perm l
  table : ∀ n t, (ord.table n t).Perm t
  locals : ∀ n l, (ord.locals n l).Perm l
  implicits : ∀ n l, (ord.implicits n l).Perm l
  impls : ValidOrders ord.impls

/-- The packages of a loaded map are found under their path, each once. -/
structure Keyed (m : GoMap Package) : Prop where
  nodup : m.keys.Nodup
  path : ∀ k p, (k, p) ∈ m → p.path = k

end Verif.Spec
