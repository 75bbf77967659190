import Verif.Props.Composer
import Verif.Spec.Objects
/-! # C20: symbol lookup -/
namespace Verif
open Spec

/-- A sequence of lookups: the final state of the global symbol table and the answers. -/
def Global.lookups (scopes : Scopes) (g : Global) : List Obj → Global × List Found
  | [] => (g, [])
  | o :: os =>
    let (g, a) := g.getSymbolOfObject scopes o
    let (g, as) := Global.lookups scopes g os
    (g, a :: as)

/-- A global symbol table that has not been asked anything yet. -/
def Global.Fresh (g : Global) : Prop := g.composer.compositions = [] ∧ g.skipped = []

theorem Global.lookups_append (scopes) (g : Global) (a b : List Obj) :
    (g.lookups scopes (a ++ b)).1 = (((g.lookups scopes a).1).lookups scopes b).1 := by
  induction a generalizing g with
  | nil => rfl
  | cons o a ih => simp only [List.cons_append, Global.lookups]; exact ih _

/-- Lookups change only the composer's memo table and the set of skipped identifiers. -/
theorem getSymbolOfObject_frame (scopes) (g : Global) (o : Obj) :
    (g.getSymbolOfObject scopes o).1.symbols = g.symbols ∧
    (g.getSymbolOfObject scopes o).1.pkgSymbols = g.pkgSymbols := by
  unfold Global.getSymbolOfObject
  dsimp only
  repeat' split
  all_goals exact ⟨rfl, rfl⟩

theorem lookups_frame (scopes) (g : Global) (os : List Obj) :
    (g.lookups scopes os).1.symbols = g.symbols ∧ (g.lookups scopes os).1.pkgSymbols = g.pkgSymbols := by
  induction os generalizing g with
  | nil => exact ⟨rfl, rfl⟩
  | cons o os ih =>
    obtain ⟨h1, h2⟩ := ih (g.getSymbolOfObject scopes o).1
    obtain ⟨k1, k2⟩ := getSymbolOfObject_frame scopes g o
    exact ⟨h1.trans k1, h2.trans k2⟩

/-- The identifiers in the skip set belong to package-less types. -/
theorem getSymbolOfObject_skipped (scopes) (g : Global) (o : Obj) :
    (g.getSymbolOfObject scopes o).1.skipped = g.skipped ∨
    ((g.getSymbolOfObject scopes o).1.skipped = o.self.objId :: g.skipped ∧ o.self.pkg = none ∧
      ∃ t, o.self.cls = .typeName t) := by
  unfold Global.getSymbolOfObject
  dsimp only
  split
  · exact .inl rfl
  · split
    · exact .inl rfl
    · exact .inl rfl
    · exact .inl rfl
    · split
      · rename_i hp
        split
        · rename_i t hc; exact .inr ⟨rfl, hp, t, hc⟩
        · exact .inl rfl
        · exact .inl rfl
        · split <;> exact .inl rfl
        · exact .inl rfl
      · repeat' split
        all_goals exact .inl rfl

theorem lookups_skipped (scopes) (g : Global) (os : List Obj) (x : Str) (h : x ∈ (g.lookups scopes os).1.skipped) :
    x ∈ g.skipped ∨ ∃ o ∈ os, x = o.self.objId ∧ o.self.pkg = none ∧ ∃ t, o.self.cls = .typeName t := by
  induction os generalizing g with
  | nil => exact .inl h
  | cons o os ih =>
    have h : x ∈ ((g.getSymbolOfObject scopes o).1.lookups scopes os).1.skipped := h
    rcases ih _ h with h' | ⟨o', ho', r⟩
    · rcases getSymbolOfObject_skipped scopes g o with e | ⟨e, hp, ht⟩
      · rw [e] at h'; exact .inl h'
      · rw [e] at h'
        rcases List.mem_cons.1 h' with rfl | h'
        · exact .inr ⟨o, by simp, rfl, hp, ht⟩
        · exact .inl h'
    · exact .inr ⟨o', by simp [ho'], r⟩

/-- The composer after a sequence of lookups is the composer after the compositions they caused. -/
theorem getSymbolOfObject_composer (scopes) (g : Global) (o : Obj) :
    (g.getSymbolOfObject scopes o).1.composer = g.composer ∨
    ∃ path r, o.self.pkg = some path ∧ g.symbols.lookup path = some r ∧
      (g.getSymbolOfObject scopes o).1.composer = (g.composer.compose scopes (some r.module) (some o)).1 := by
  unfold Global.getSymbolOfObject
  dsimp only
  split
  · exact .inl rfl
  · split
    · exact .inl rfl
    · exact .inl rfl
    · exact .inl rfl
    · split
      · repeat' split
        all_goals exact .inl rfl
      · rename_i path hp
        split
        · exact .inl rfl
        · split
          · exact .inl rfl
          · split
            · rename_i r hr
              refine .inr ⟨path, r, hp, hr, ?_⟩
              split <;> rfl
            · exact .inl rfl

theorem run_append (scopes) (c : Composer) (a b : List Request) :
    (c.run scopes (a ++ b)).1 = ((c.run scopes a).1.run scopes b).1 := by
  induction a generalizing c with
  | nil => rfl
  | cons r a ih => simp only [List.cons_append, Composer.run]; exact ih _

theorem lookups_composer (scopes) (g : Global) (os : List Obj) :
    ∃ rs : List Request, (g.lookups scopes os).1.composer = (g.composer.run scopes rs).1 ∧
      ∀ r ∈ rs, ∃ o ∈ os, ∃ path rec, r = (some rec.module, some o) ∧ o.self.pkg = some path ∧
        g.symbols.lookup path = some rec := by
  induction os generalizing g with
  | nil => exact ⟨[], rfl, by simp⟩
  | cons o os ih =>
    obtain ⟨rs, h1, h2⟩ := ih (g.getSymbolOfObject scopes o).1
    have hs := (getSymbolOfObject_frame scopes g o).1
    rw [hs] at h2
    rcases getSymbolOfObject_composer scopes g o with e | ⟨path, r, hp, hr, e⟩
    · refine ⟨rs, ?_, ?_⟩
      · show ((g.getSymbolOfObject scopes o).1.lookups scopes os).1.composer = _
        rw [h1, e]
      · intro r hr
        obtain ⟨o', ho', rest⟩ := h2 r hr
        exact ⟨o', by simp [ho'], rest⟩
    · refine ⟨(some r.module, some o) :: rs, ?_, ?_⟩
      · show ((g.getSymbolOfObject scopes o).1.lookups scopes os).1.composer = _
        rw [h1, e]; rfl
      · intro r' hr'
        rcases List.mem_cons.1 hr' with rfl | hr'
        · exact ⟨o, by simp, path, r, rfl, hp, hr⟩
        · obtain ⟨o', ho', rest⟩ := h2 r' hr'
          exact ⟨o', by simp [ho'], rest⟩

/-- Splitting at the last dot. -/
theorem append_dot_inj {p q n m : Str} (hn : '.' ∉ n) (hm : '.' ∉ m) (h : p ++ '.' :: n = q ++ '.' :: m) :
    p = q ∧ n = m := by
  have h' : n.reverse ++ '.' :: p.reverse = m.reverse ++ '.' :: q.reverse := by
    have := congrArg List.reverse h
    simpa using this
  have key : ∀ (n m a b : Str), '.' ∉ n → '.' ∉ m → n ++ '.' :: a = m ++ '.' :: b → n = m ∧ a = b := by
    intro n
    induction n with
    | nil =>
      intro m a b _ hm h
      cases m with
      | nil => simp at h; exact ⟨rfl, h⟩
      | cons c m => simp at h; exact absurd (by rw [h.1]; simp) hm
    | cons c n ih =>
      intro m a b hn hm h
      cases m with
      | nil => simp at h; exact absurd (by rw [h.1]; simp) hn
      | cons d m =>
        simp only [List.cons_append, List.cons.injEq] at h
        obtain ⟨rfl, h⟩ := h
        obtain ⟨rfl, rfl⟩ := ih m a b (fun h => hn (by simp [h])) (fun h => hm (by simp [h])) h
        exact ⟨rfl, rfl⟩
  obtain ⟨h1, h2⟩ := key _ _ _ _ (by simpa using hn) (by simpa using hm) h'
  exact ⟨by simpa using h2, by simpa using h1⟩

/-- An object of a package never shares its identifier with a skipped package-less type. -/
theorem objId_ne (o t : Obj) (ho : WellFormedObj o) (ht : WellFormedObj t) (p : Str) (hp : o.self.pkg = some p)
    (htp : t.self.pkg = none) (htt : ∃ x, t.self.cls = .typeName x) : o.self.objId ≠ t.self.objId := by
  obtain ⟨x, hx⟩ := htt
  have ht' : isExported t.self.name = false := by
    have := ht.universe_types htp x hx
    rw [← isExported_iff] at this
    simpa using this
  obtain ⟨hp1, hp2⟩ := ho.path_ok p hp
  unfold ObjData.objId
  rw [ht', htp]
  simp only [Bool.false_eq_true, if_false]
  intro h
  by_cases he : isExported o.self.name = true
  · rw [if_pos he] at h
    have := ho.name_ident
    rw [h] at this
    simp at this
  · rw [if_neg he, hp] at h
    simp only [hp1, if_false] at h
    exact hp2 (append_dot_inj ho.name_ident ht.name_ident h).1

/-- A predeclared object never has a symbol, whatever was looked up before. -/
theorem getSymbolOfObject_universe (scopes) (g : Global) (o : Obj) (hp : o.self.pkg = none) (hu : Universe o) :
    (g.getSymbolOfObject scopes o).2 = .skip := by
  unfold Global.getSymbolOfObject
  dsimp only
  split
  · rfl
  · rcases hu with ⟨t, hc⟩ | hc | hc | hc | ⟨s, b, hc, ho, hn⟩
    · simp only [hc, hp]
    · simp only [hc, hp]
    · simp only [hc, hp]
    · simp only [hc]
    · have : isErrorError o.origin = true := by simp [isErrorError, ho, hn]
      simp only [hc, hp, this, if_true]

theorem newComposer_of_fresh (c : Composer) (h : c.compositions = []) :
    c = newComposer c.defaultModulePath c.defaultModuleVersion := by
  cases c; simp at h; subst h; rfl

/-- **C20** (history independence): starting from a fresh symbol table, after any sequence of lookups the
answer for an object is the answer a fresh table gives. -/
theorem C20_history_independent (scopes : Scopes) (g : Global) (hg : g.Fresh) (os : List Obj) (o : Obj)
    (hc : CoherentObjs (os ++ [o])) (hw : ∀ x ∈ os ++ [o], WellFormedObj x) :
    ((g.lookups scopes os).1.getSymbolOfObject scopes o).2 = (g.getSymbolOfObject scopes o).2 := by
  have hwo := hw o (by simp)
  cases hp : o.self.pkg with
  | none =>
    rw [getSymbolOfObject_universe _ _ _ hp (hwo.predeclared hp), getSymbolOfObject_universe _ _ _ hp (hwo.predeclared hp)]
  | some path =>
    obtain ⟨hsym, hpsym⟩ := lookups_frame scopes g os
    have hsk : o.self.objId ∉ (g.lookups scopes os).1.skipped := by
      intro h
      rcases lookups_skipped scopes g os _ h with h | ⟨t, ht, he, htp, htt⟩
      · rw [hg.2] at h; simp at h
      · exact objId_ne o t hwo (hw t (by simp [ht])) path hp htp htt he
    have hsk0 : o.self.objId ∉ g.skipped := by rw [hg.2]; simp
    obtain ⟨rs, hrs, hrs'⟩ := lookups_composer scopes g os
    have hcomp : ∀ rec, g.symbols.lookup path = some rec →
        ((g.lookups scopes os).1.composer.compose scopes (some rec.module) (some o)).2 =
        (g.composer.compose scopes (some rec.module) (some o)).2 := by
      intro rec hrec
      rw [hrs]
      rw [newComposer_of_fresh g.composer hg.1]
      apply C03_history_independent
      · intro r₁ h₁ r₂ h₂ o₁ o₂ e₁ e₂ hid
        have mem : ∀ r ∈ rs ++ [(some rec.module, some o)], ∀ o', r.2 = some o' → o' ∈ os ++ [o] := by
          intro r hr o' ho'
          rcases List.mem_append.1 hr with hr | hr
          · obtain ⟨o'', ho'', _, _, rfl, _⟩ := hrs' r hr
            simp at ho'; subst ho'; simp [ho'']
          · simp at hr; subst hr; simp at ho'; subst ho'; simp
        exact hc o₁ (mem r₁ h₁ o₁ e₁) o₂ (mem r₂ h₂ o₂ e₂) hid
      · intro r hr o' ho' hent
        obtain ⟨o'', ho'', path', rec', rfl, hp', hl'⟩ := hrs' r hr
        simp only [Option.some.injEq] at ho'; subst ho'
        have := (hc o'' (by simp [ho'']) o (by simp) (by rw [hent])).2
        rw [hp', hp] at this
        simp only [Option.some.injEq] at this; subst this
        rw [hrec] at hl'
        simp only [Option.some.injEq] at hl'; subst hl'
        rfl
    have hinfo : ∀ c pos, (g.lookups scopes os).1.getSymbolInformation c pos = g.getSymbolInformation c pos := by
      intro c pos; simp [Global.getSymbolInformation, hsym]
    unfold Global.getSymbolOfObject
    simp only [hsk, hsk0, if_false, hp, hinfo, hsym]
    split
    · rfl
    · rfl
    · rfl
    · split
      · rfl
      · split
        · rfl
        · split
          · rename_i rec hrec
            have := hcomp rec hrec
            rw [this]
            split <;> rfl
          · rfl

/-- **C20** (classification): for objects as the type checker produces them (and that are no package names),
a lookup never crashes; it reports an error only for an object that belongs to a package; predeclared objects, labels
and objects of package `unsafe` have no symbol and cause no error. -/
theorem C20_classification (scopes : Scopes) (g : Global) (o : Obj) (hw : WellFormedObj o) :
    ((∀ i, o.self.cls ≠ .pkgName i) → (g.getSymbolOfObject scopes o).2 ≠ .panic) ∧
    ((g.getSymbolOfObject scopes o).2 = .error → ∃ p, o.self.pkg = some p ∧ p ≠ go!"unsafe") ∧
    (o.self.pkg = none → (g.getSymbolOfObject scopes o).2 = .skip) ∧
    (o.self.cls = .label ∨ o.self.cls = .nil → (g.getSymbolOfObject scopes o).2 = .skip) ∧
    (o.self.pkg = some go!"unsafe" → (∀ i, o.self.cls ≠ .pkgName i) → (g.getSymbolOfObject scopes o).2 = .skip) := by
  have hnone : o.self.pkg = none → (g.getSymbolOfObject scopes o).2 = .skip := fun hp =>
    getSymbolOfObject_universe scopes g o hp (hw.predeclared hp)
  refine ⟨?_, ?_, hnone, ?_, ?_⟩
  · intro hpk h
    cases hp : o.self.pkg with
    | none => rw [hnone hp] at h; simp at h
    | some p =>
      unfold Global.getSymbolOfObject at h
      simp only [hp] at h
      repeat' split at h
      all_goals first | (simp at h; done) | (rename_i hcls; exact hpk _ hcls)
  · intro h
    cases hp : o.self.pkg with
    | none => rw [hnone hp] at h; simp at h
    | some p =>
      refine ⟨p, rfl, ?_⟩
      rintro rfl
      unfold Global.getSymbolOfObject at h
      simp only [hp] at h
      repeat' split at h
      all_goals simp_all
  · intro hcls
    unfold Global.getSymbolOfObject
    rcases hcls with h | h <;> simp only [h] <;> split <;> rfl
  · intro hp hpk
    unfold Global.getSymbolOfObject
    simp only [hp]
    split
    · rfl
    · split
      · rename_i i hcls; exact absurd hcls (hpk i)
      all_goals simp_all

/-- **C20** (collected entities): if the table of the object's package has an entry at the object's position, the lookup
answers with that entry. -/
theorem C20_collected_entity (scopes : Scopes) (g : Global) (o : Obj) (path : Str) (r : PkgRecord) (info : SymInfo)
    (hp : o.self.pkg = some path) (hu : path ≠ go!"unsafe") (hsk : o.self.objId ∉ g.skipped)
    (hcls : (∀ i, o.self.cls ≠ .pkgName i) ∧ o.self.cls ≠ .nil ∧ o.self.cls ≠ .label)
    (hr : g.symbols.lookup path = some r) (hi : r.table.get o.self.pos = some info) :
    (g.getSymbolOfObject scopes o).2 = .info info := by
  have : (testPackageCombinations path).findSome? (fun c => g.getSymbolInformation c o.self.pos) = some info := by
    simp [testPackageCombinations, Global.getSymbolInformation, hr, hi]
  unfold Global.getSymbolOfObject
  simp only [hp, hsk, hu, this, if_false]
  split
  · rename_i i h; exact absurd h (hcls.1 i)
  · rename_i h; exact absurd h hcls.2.1
  · rename_i h; exact absurd h hcls.2.2
  · rfl

/-- The predeclared type `error` and an exported type of a package are well-formed objects. -/
example : WellFormedObj (Obj.plain ⟨1, .typeName (.named .iface), go!"error", none, 0⟩) ∧
    WellFormedObj (Obj.plain ⟨2, .typeName (.named .other), go!"T", some go!"m/p", 5⟩) := by
  constructor
  · exact ⟨by simp [Obj.plain], by simp [Obj.plain], fun _ => .inl ⟨_, rfl⟩, fun _ _ _ => by decide⟩
  · exact ⟨by simp [Obj.plain], by simp [Obj.plain], by simp [Obj.plain], by simp [Obj.plain]⟩

/-- **C20** (when it panics): a lookup that finds nothing remembered panics exactly for package names and for objects without package that are
neither predeclared nor labels. -/
theorem C20_panics_iff (scopes : Scopes) (g : Global) (o : Obj) (hg : o.self.objId ∉ g.skipped) :
    (g.getSymbolOfObject scopes o).2 = .panic ↔
      (∃ i, o.self.cls = .pkgName i) ∨ (o.self.pkg = none ∧ ¬ Universe o ∧ o.self.cls ≠ .label) := by
  unfold Global.getSymbolOfObject
  dsimp only
  rw [if_neg hg]
  cases hc : o.self.cls <;> cases hp : o.self.pkg <;> simp only [Universe, hc, reduceCtorEq, exists_const, exists_eq', false_or, or_false, true_or, ne_eq,
    not_true_eq_false, not_false_eq_true, and_true, and_false, false_and, true_and, or_true, exists_false, ObjClass.func.injEq] <;> try trivial
  all_goals first
    | (split
       · simp
       · split
         · simp
         · split
           · split <;> simp
           · simp)
    | exact ⟨fun _ => ⟨_, rfl⟩, fun _ => trivial⟩
    | (simp; done)
    | skip
  rename_i sig
  cases he : isErrorError o.origin with
  | true =>
    simp only [if_true, reduceCtorEq, false_iff, Classical.not_not]
    unfold isErrorError at he
    split at he
    · rename_i n b hcl
      simp only [Bool.and_eq_true, beq_iff_eq] at he
      exact ⟨sig, b, rfl, by rw [hcl, he.1], he.2⟩
    · simp at he
  | false =>
    simp only [Bool.false_eq_true, if_false, true_iff]
    rintro ⟨s, b, _, h1, h2⟩
    simp [isErrorError, h1, h2] at he

end Verif
