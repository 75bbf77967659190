import Verif.Spec.Index
/-! # Specification: an index without relationships -/
namespace Verif.Spec
open Verif.Index

/-- A description without its relationships. -/
def bare (s : SymInfo × List Str) : SymInfo × List Str := (s.1, [])

/-- `b` is the document `a` without relationships (descriptions may come in another order). -/
def DocumentWithout : Message → Message → Prop
  | .document path occs syms, .document path' occs' syms' => path' = path ∧ occs' = occs ∧ syms'.Perm (syms.map bare)
  | _, _ => False

/-- Metadata that may differ in the recorded arguments. -/
def SameButArguments (a b : Metadata) : Prop := b = { a with arguments := b.arguments }

/-- `b` is the complete output `a` without implementations: the same documents in the same order, without relationships, and nothing after
them; `a` may have external symbols after its documents. -/
def WithoutImplementations (a b : List Message) : Prop :=
  ∃ md md' ds ds' es, a = .metadata md :: (ds ++ es) ∧ b = .metadata md' :: ds' ∧ SameButArguments md md' ∧
    List.Forall₂ DocumentWithout ds ds' ∧ ∀ m ∈ es, isExternal m

end Verif.Spec
