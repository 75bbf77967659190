import Verif.Props.Lookup
/-! # C20: what a lookup answers with -/
namespace Verif

/-- **C20** (the answer): a lookup answers either with a description that the table of the object's package, or of a test variant
of it, has at the position of the object; or, if none of these tables has one, with a description of its own in which nothing is
filled in but the symbol: no kind, no display name, no documentation and no signature.  That symbol is never empty, it is the
composer's symbol for the object and the module of its package. -/
theorem C20_answer (scopes : Scopes) (g : Global) (o : Obj) (info : SymInfo) (h : (g.getSymbolOfObject scopes o).2 = .info info) :
    ∃ path, o.self.pkg = some path ∧ path ≠ go!"unsafe" ∧
      ((∃ c ∈ [path, path ++ go!".test", path ++ go!" [" ++ path ++ go!".test]"],
          ∃ r, g.symbols.lookup c = some r ∧ r.table.get o.self.pos = some info) ∨
        ((∀ c ∈ [path, path ++ go!".test", path ++ go!" [" ++ path ++ go!".test]"],
            ∀ r, g.symbols.lookup c = some r → r.table.get o.self.pos = none) ∧
          info.symbol ≠ [] ∧ info.kind = .unspecified ∧ info.displayName = [] ∧ info.documentation = [] ∧ info.signature = none ∧
          ∃ r, g.symbols.lookup path = some r ∧ info.symbol = (g.composer.compose scopes (some r.module) (some o)).2)) := by
  unfold Global.getSymbolOfObject at h
  dsimp only at h
  split at h
  · simp at h
  · split at h <;> try (simp at h; done)
    split at h
    · split at h <;> try (simp at h; done)
      split at h <;> simp at h
    · rename_i path hpath
      split at h
      · simp at h
      · rename_i hu
        refine ⟨path, hpath, hu, ?_⟩
        split at h
        · rename_i i hi
          obtain ⟨c, hc, hi⟩ := List.exists_of_findSome?_eq_some hi
          simp only [Found.info.injEq] at h; subst h
          unfold Global.getSymbolInformation at hi
          obtain ⟨r, hr, hi⟩ := Option.bind_eq_some_iff.1 hi
          exact .inl ⟨c, hc, r, hr, hi⟩
        · rename_i hnone
          split at h
          · rename_i r hr
            split at h
            · simp at h
            · rename_i hne
              simp only [Found.info.injEq] at h; subst h
              refine .inr ⟨?_, hne, rfl, rfl, rfl, rfl, r, hr, rfl⟩
              intro c hc r' hr'
              have := List.findSome?_eq_none_iff.1 hnone c hc
              unfold Global.getSymbolInformation at this
              rw [hr'] at this
              exact this
          · simp at h

namespace AnswerSample

/-- The type `K` of package `p` of module `d`. -/
def k : ObjData := ⟨2, .typeName (.named .other), go!"K", some go!"p", 5⟩
/-- Nothing is in the table of `p`. -/
def empty : Global := ⟨[(go!"p", ⟨some ⟨go!"d", go!"v0"⟩, []⟩)], [], newComposer go!"m" go!"v1", []⟩
/-- The table of the test variant of `p` has an entry at position 5. -/
def tested : Global := ⟨[(go!"p.test", ⟨none, [(5, ⟨go!"s", .type, go!"K", [go!"doc"], none⟩)]⟩), (go!"p", ⟨some ⟨go!"d", go!"v0"⟩, []⟩)], [],
  newComposer go!"m" go!"v1", []⟩

end AnswerSample

/-- Both kinds of answer occur. -/
example :
    (AnswerSample.empty.getSymbolOfObject (fun _ => []) (.plain AnswerSample.k)).2 =
      .info ⟨go!"scip-go gomod d v0 p/K#", .unspecified, [], [], none⟩ ∧
    (AnswerSample.tested.getSymbolOfObject (fun _ => []) (.plain AnswerSample.k)).2 = .info ⟨go!"s", .type, go!"K", [go!"doc"], none⟩ := by
  constructor <;> rfl

end Verif
