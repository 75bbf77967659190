import Verif.Props.Lookup
/-! # Answers do not depend on earlier questions -/
namespace Verif
open Spec

/-- The memo tables hold only answers that the initial table `g0` would give. -/
structure GInv (scopes : Scopes) (g0 : Global) (U : List Obj) (g : Global) : Prop where
  symbols : g.symbols = g0.symbols
  defaults : g.composer.defaultModulePath = g0.composer.defaultModulePath ∧
    g.composer.defaultModuleVersion = g0.composer.defaultModuleVersion
  skipped : ∀ x ∈ g.skipped, ∃ t ∈ U, x = t.self.objId ∧ t.self.pkg = none ∧ ∃ c, t.self.cls = .typeName c
  memo : ∀ id s, g.composer.compositions.lookup id = some s → ∃ o ∈ U, ∃ path r, o.self.pkg = some path ∧
    g0.symbols.lookup path = some r ∧ o.canon.id = id ∧ describe scopes path o.canon ≠ [] ∧
    s = formatSymbol (g0.composer.pack (some r.module)) (describe scopes path o.canon)

theorem Composer.pack_eq {c c' : Composer} (h : c.defaultModulePath = c'.defaultModulePath ∧
    c.defaultModuleVersion = c'.defaultModuleVersion) (p) : c.pack p = c'.pack p := by
  unfold Composer.pack; rw [h.1, h.2]

theorem GInv.refl {scopes g0 U} (hf : g0.composer.compositions = [] ∧ g0.skipped = []) : GInv scopes g0 U g0 :=
  ⟨rfl, ⟨rfl, rfl⟩, by rw [hf.2]; simp, by rw [hf.1]; simp⟩

/-- Composing a known object: the answer is that of the initial composer. -/
theorem GInv.compose {scopes g0 U g} (hf : g0.composer.compositions = []) (hI : GInv scopes g0 U g)
    (hc : CoherentObjs U) {o : Obj} (ho : o ∈ U) {path r} (hp : o.self.pkg = some path)
    (hr : g0.symbols.lookup path = some r) :
    (g.composer.compose scopes (some r.module) (some o)).2 = (g0.composer.compose scopes (some r.module) (some o)).2 ∧
    GInv scopes g0 U { g with composer := (g.composer.compose scopes (some r.module) (some o)).1 } := by
  unfold Composer.compose
  simp only [hp, hf, List.lookup_nil]
  cases hl : g.composer.compositions.lookup o.canon.id with
  | some s =>
    obtain ⟨o', ho', path', r', hp', hr', hid, hd, hs⟩ := hI.memo _ _ hl
    have hco := hc o' ho' o ho (by rw [← Obj.canon_eq_entityOf, ← Obj.canon_eq_entityOf]; exact hid)
    have hcan : o'.canon = o.canon := by rw [Obj.canon_eq_entityOf, Obj.canon_eq_entityOf, hco.1]
    have hpp : path' = path := by have := hco.2; rw [hp', hp] at this; simpa using this
    subst hpp
    rw [hr] at hr'; simp only [Option.some.injEq] at hr'; subst hr'
    rw [hcan] at hd hs
    refine ⟨?_, ⟨hI.symbols, hI.defaults, hI.skipped, hI.memo⟩⟩
    simp only [hd, if_false, hs]
  | none =>
    by_cases hd : describe scopes path o.canon = []
    · simp only [hd, if_true]
      exact ⟨trivial, ⟨hI.symbols, hI.defaults, hI.skipped, hI.memo⟩⟩
    · simp only [hd, if_false]
      refine ⟨by rw [Composer.pack_eq hI.defaults], ⟨hI.symbols, hI.defaults, hI.skipped, ?_⟩⟩
      intro id s h
      simp only [List.lookup_cons] at h
      split at h
      · rename_i e
        simp only [Option.some.injEq] at h
        refine ⟨o, ho, path, r, hp, hr, (by simpa using e : id = o.canon.id).symm, hd, ?_⟩
        rw [← h, Composer.pack_eq hI.defaults]
      · exact hI.memo id s h

/-- Looking up a known object: the answer is that of the initial table. -/
theorem GInv.lookup {scopes g0 U g} (hf : g0.composer.compositions = [] ∧ g0.skipped = []) (hI : GInv scopes g0 U g)
    (hc : CoherentObjs U) (hw : ∀ o ∈ U, WellFormedObj o) {o : Obj} (ho : o ∈ U) :
    (g.getSymbolOfObject scopes o).2 = (g0.getSymbolOfObject scopes o).2 ∧
    GInv scopes g0 U (g.getSymbolOfObject scopes o).1 := by
  constructor
  · cases hp : o.self.pkg with
    | none =>
      rw [getSymbolOfObject_universe _ _ _ hp ((hw o ho).predeclared hp),
        getSymbolOfObject_universe _ _ _ hp ((hw o ho).predeclared hp)]
    | some path =>
      have hsk : o.self.objId ∉ g.skipped := by
        intro h
        obtain ⟨t, ht, he, htp, htt⟩ := hI.skipped _ h
        exact objId_ne o t (hw o ho) (hw t ht) path hp htp htt he
      have hsk0 : o.self.objId ∉ g0.skipped := by rw [hf.2]; simp
      have hinfo : ∀ c pos, g.getSymbolInformation c pos = g0.getSymbolInformation c pos := by
        intro c pos; simp [Global.getSymbolInformation, hI.symbols]
      unfold Global.getSymbolOfObject
      simp only [hsk, hsk0, if_false, hp, hinfo, hI.symbols]
      split
      · rfl
      · rfl
      · rfl
      · split
        · rfl
        · split
          · rfl
          · split
            · rename_i rec hrec
              have := (hI.compose hf.1 hc ho hp hrec).1
              rw [this]
              split <;> rfl
            · rfl
  · have hfr := getSymbolOfObject_frame scopes g o
    rcases getSymbolOfObject_composer scopes g o with e | ⟨path, r, hp, hr, e⟩
    · refine ⟨hfr.1.trans hI.symbols, by rw [e]; exact hI.defaults, ?_, by rw [e]; exact hI.memo⟩
      intro x hx
      rcases getSymbolOfObject_skipped scopes g o with e' | ⟨e', hp, ht⟩
      · rw [e'] at hx; exact hI.skipped x hx
      · rw [e'] at hx
        rcases List.mem_cons.1 hx with rfl | hx
        · exact ⟨o, ho, rfl, hp, ht⟩
        · exact hI.skipped x hx
    · rw [hI.symbols] at hr
      have hg := (hI.compose hf.1 hc ho hp hr).2
      refine ⟨hfr.1.trans hI.symbols, by rw [e]; exact hg.defaults, ?_, by rw [e]; exact hg.memo⟩
      intro x hx
      rcases getSymbolOfObject_skipped scopes g o with e' | ⟨e', hp', ht⟩
      · rw [e'] at hx; exact hI.skipped x hx
      · rw [hp] at hp'; simp at hp'


/-- What was asked: the table after a sequence of questions about the objects `objs`, from the table `g`.  A question is a
lookup or the composition of a symbol. -/
inductive Asked (scopes : Scopes) (g : Global) (objs : List Obj) : Global → Prop
  | start : Asked scopes g objs g
  | lookup {g' o} : Asked scopes g objs g' → o ∈ objs → Asked scopes g objs (g'.getSymbolOfObject scopes o).1
  | compose {g' o path r} : Asked scopes g objs g' → o ∈ objs → o.self.pkg = some path → g.symbols.lookup path = some r →
      Asked scopes g objs { g' with composer := (g'.composer.compose scopes (some r.module) (some o)).1 }

theorem Asked.frame {scopes g objs g'} (h : Asked scopes g objs g') :
    g'.symbols = g.symbols ∧ g'.pkgSymbols = g.pkgSymbols := by
  induction h with
  | start => exact ⟨rfl, rfl⟩
  | @lookup g' o _ _ ih =>
    have := getSymbolOfObject_frame scopes g' o
    exact ⟨this.1.trans ih.1, this.2.trans ih.2⟩
  | compose _ _ _ _ ih => exact ih

theorem Asked.ginv {scopes g objs g'} (h : Asked scopes g objs g') (hf : g.composer.compositions = [] ∧ g.skipped = [])
    (hc : CoherentObjs objs) (hw : ∀ o ∈ objs, WellFormedObj o) : GInv scopes g objs g' := by
  induction h with
  | start => exact GInv.refl hf
  | lookup _ ho ih => exact (ih.lookup hf hc hw ho).2
  | compose _ ho hp hr ih => exact (ih.compose hf.1 hc ho hp hr).2

/-- The answer for an object is the one that the fresh table gives. -/
theorem Asked.answer {scopes g objs g'} (h : Asked scopes g objs g') (hf : g.composer.compositions = [] ∧ g.skipped = [])
    (hc : CoherentObjs objs) (hw : ∀ o ∈ objs, WellFormedObj o) {o : Obj} (ho : o ∈ objs) :
    (g'.getSymbolOfObject scopes o).2 = (g.getSymbolOfObject scopes o).2 :=
  ((h.ginv hf hc hw).lookup hf hc hw ho).1

theorem Asked.mono {scopes g objs objs' g'} (h : Asked scopes g objs g') (hs : ∀ o ∈ objs, o ∈ objs') :
    Asked scopes g objs' g' := by
  induction h with
  | start => exact .start
  | lookup _ ho ih => exact .lookup ih (hs _ ho)
  | compose _ ho hp hr ih => exact .compose ih (hs _ ho) hp hr

theorem Asked.lookups {scopes g objs g'} (h : Asked scopes g objs g') (hist : List Obj) (hh : ∀ o ∈ hist, o ∈ objs) :
    Asked scopes g objs (g'.lookups scopes hist).1 := by
  induction hist generalizing g' with
  | nil => exact h
  | cons o os ih => exact ih (.lookup h (hh o (by simp))) (fun x hx => hh x (by simp [hx]))

theorem Asked.getSymbolInformation {scopes g objs g'} (h : Asked scopes g objs g') (p pos) :
    g'.getSymbolInformation p pos = g.getSymbolInformation p pos := by
  simp [Global.getSymbolInformation, h.frame.1]

theorem Asked.getPkgSymbol {scopes g objs g'} (h : Asked scopes g objs g') (p) :
    g'.getPkgSymbol p = g.getPkgSymbol p := by
  simp [Global.getPkgSymbol, h.frame.2]

end Verif
