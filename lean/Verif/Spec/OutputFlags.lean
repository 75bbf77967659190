import Verif.Spec.SkipImplementations
import Verif.Model.Cmd
/-! # Specification: flags that do not concern the content of the index -/
namespace Verif.Spec
open Verif.Index Verif.Cmd

/-- Two complete outputs with the same content, except for the arguments recorded in the metadata: the same documents in the same order (with
descriptions in any order) and the same external symbols in any order. -/
def SameIndexButArguments (a b : List Message) : Prop :=
  ∃ md md' ds ds' es es', a = .metadata md :: (ds ++ es) ∧ b = .metadata md' :: (ds' ++ es') ∧ SameButArguments md md' ∧
    List.Forall₂ SameDocument ds ds' ∧ es.Perm es' ∧ ∀ m ∈ es, isExternal m

/-- Two invocations with the same flags except for `--quiet` and `--verbose`, in the same surroundings; what is recorded as the arguments may differ
(as it does if one of these flags, or `--output`, or a flag in another spelling is given). -/
structure SameCommand (S S' : Surroundings) (sh sh' : SharedFlags) : Prop where
  flags : sh' = { sh with quiet := sh'.quiet, verbose := sh'.verbose }
  surroundings : S' = { S with args := S'.args }

end Verif.Spec
