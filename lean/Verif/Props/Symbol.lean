import Verif.Lemmas.Symbol
/-! # C01, C02: symbol strings -/
namespace Verif
open Spec

/-- **C01** (round trip).  Decoding the symbol string that `FromDescriptors`/`Compose` build returns the
scheme, the manager, the module path, the module version and the descriptors it was built from — for
every module path and version that is non-empty and does not start with a space, and for *every*
descriptor list. -/
theorem C01_symbol_roundtrip (name version : Str) (ds : List Descriptor)
    (hn : fieldOk name) (hv : fieldOk version) :
    decodeSymbol (formatSymbol ⟨name, version⟩ ds) =
      some ⟨go!"scip-go", go!"gomod", name, version, ds⟩ := by
  have h0 : fieldOk go!"scip-go" := by decide
  have h1 : fieldOk go!"gomod" := by decide
  unfold decodeSymbol formatSymbol
  rw [readField_write _ _ h0 (writePackageField_head _ _ h1)]
  simp only [Option.bind_eq_bind, Option.bind_some]
  rw [readField_write _ _ h1 (writePackageField_head _ _ hn)]
  simp only [Option.bind_some]
  rw [readField_write _ _ hn (writePackageField_head _ _ hv)]
  simp only [Option.bind_some]
  rw [readField_write _ _ hv (writeDescriptors_head ds)]
  simp only [Option.bind_some]
  rw [readDescriptors_write ds _ (Nat.le_refl _)]
  rfl

/-- **C01** (no two symbols share a string). -/
theorem C01_symbol_injective (n₁ v₁ n₂ v₂ : Str) (ds₁ ds₂ : List Descriptor)
    (hn₁ : fieldOk n₁) (hv₁ : fieldOk v₁) (hn₂ : fieldOk n₂) (hv₂ : fieldOk v₂)
    (h : formatSymbol ⟨n₁, v₁⟩ ds₁ = formatSymbol ⟨n₂, v₂⟩ ds₂) :
    n₁ = n₂ ∧ v₁ = v₂ ∧ ds₁ = ds₂ := by
  have e₁ := C01_symbol_roundtrip n₁ v₁ ds₁ hn₁ hv₁
  have e₂ := C01_symbol_roundtrip n₂ v₂ ds₂ hn₂ hv₂
  rw [h, e₂] at e₁
  simp at e₁
  exact ⟨e₁.1.symm, e₁.2.1.symm, e₁.2.2.symm⟩

/-- **C01** (canonical text): for a module path and version without spaces the symbol is, character for character, the canonical text
of the SCIP grammar — names in back-ticks exactly when they contain a character that needs it — so that it is equal to the
text any other indexer writes for the same descriptors. -/
theorem C01_canonical_text (name version : Str) (ds : List Descriptor)
    (hn : name ≠ []) (hn' : ' ' ∉ name) (hv : version ≠ []) (hv' : ' ' ∉ version) :
    formatSymbol ⟨name, version⟩ ds =
      go!"scip-go gomod " ++ name ++ go!" " ++ version ++ go!" " ++
        ds.flatMap (fun d => canonicalName d.name ++ suffixText d.suffix) := by
  have hd : ∀ ds : List Descriptor, writeDescriptors ds = ds.flatMap (fun d => canonicalName d.name ++ suffixText d.suffix) := by
    intro ds
    induction ds with
    | nil => rfl
    | cons d ds ih =>
      simp only [writeDescriptors, writeDescriptor, List.flatMap_cons, ih, writeIdent_canonical]
      cases d.suffix <;> rfl
  have hf : ∀ s : Str, s ≠ [] → ' ' ∉ s → writePackageField s = s := by
    intro s h1 h2
    have : ∀ t : Str, ' ' ∉ t → doubleChar ' ' t = t := by
      intro t ht
      induction t with
      | nil => rfl
      | cons c t ih =>
        simp only [List.mem_cons, not_or] at ht
        rw [doubleChar, if_neg (fun e => ht.1 e.symm), ih ht.2]
    rw [writePackageField, if_neg h1, this s h2]
  unfold formatSymbol
  simp only [hf name hn hn', hf version hv hv', hd]
  simp [writePackageField, doubleChar]

example : ' ' ∉ go!"example.com/lib" ∧ ' ' ∉ go!"v1.0.0" ∧ canonicalName go!"a_Z9$+-" = go!"a_Z9$+-" ∧
    canonicalName go!"a`~b" = go!"`a``~b`" := by decide +kernel

/-- The hypotheses of C01 are met by ordinary and by awkward modules, and the string is the one
internal/symbols/composer_test.go:102 expects. -/
example : fieldOk go!"example.com/lib" ∧ fieldOk go!"v1.0.0" ∧
    formatSymbol ⟨go!"example.com/lib", go!"v1.0.0"⟩
      [⟨go!"example.com/lib", .nspace⟩, ⟨go!"Server", .typ⟩, ⟨go!"Start", .method⟩]
      = go!"scip-go gomod example.com/lib v1.0.0 `example.com/lib`/Server#Start()." := by decide

/-- Without the side condition on the fields C01 is false of the formatter: a version starting with a
space can be confused with a module path ending in one.  (Go module paths and versions have no spaces.) -/
theorem C01_leading_space_ambiguous :
    formatSymbol ⟨go!"a ", go!"b"⟩ [] = formatSymbol ⟨go!"a", go!" b"⟩ [] := by decide

/-- Likewise the empty version and the version `.` share a string; the loader therefore never leaves a
version empty (C37). -/
theorem C01_empty_field_ambiguous :
    formatSymbol ⟨go!"a", []⟩ [] = formatSymbol ⟨go!"a", go!"."⟩ [] := by decide

/-- **C02**: no global symbol starts with the prefix of local symbols, and every local symbol does. -/
theorem C02_global_not_local (p : ScipPackage) (ds : List Descriptor) (n : Nat) :
    Str.hasPrefix (formatSymbol p ds) go!"local " = false ∧
    Str.hasPrefix (localSymbol n) go!"local " = true ∧
    formatSymbol p ds ≠ localSymbol n := by
  have h1 : Str.hasPrefix (formatSymbol p ds) go!"local " = false := by
    have : ∃ r, formatSymbol p ds = 's' :: r := by
      simp [formatSymbol, writePackageField, doubleChar]
    obtain ⟨r, hr⟩ := this
    rw [hr]; rfl
  have h2 : Str.hasPrefix (localSymbol n) go!"local " = true := by
    simp [localSymbol, Str.hasPrefix]
  refine ⟨h1, h2, ?_⟩
  intro e; rw [e, h2] at h1; exact absurd h1 (by decide)

end Verif
