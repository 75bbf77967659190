import Verif.Spec.DebugRun
import Verif.Props.TypesRun
import Verif.Props.VisitNotes
/-! # C106 for a run: the packages that are visited, and what the search for implementations leaves out -/
namespace Verif
open Spec Index Debug

/-! ## Visiting -/

theorem visitPackagesDebug_eq (root : Str) : ∀ (ps : List Package) (s : Docs × Global) {r}, visitPackages root ps s = some r →
    visitPackagesDebug root ps s = ps.flatMap fun p => .visiting p.path :: (visitPackageNotes p.env (p.files.map SourceFile.node)).map .visitor := by
  intro ps
  induction ps with
  | nil => intro s r _; rfl
  | cons p ps ih =>
    intro s r h
    unfold visitPackages at h
    unfold visitPackagesDebug
    cases hv : visitPackage root p s with
    | none => rw [hv] at h; simp at h
    | some s' => rw [hv] at h; simp only [List.flatMap_cons]; rw [ih s' h]; rfl

/-! ## The extractor -/

section
variable {E : Impl.Ext} {scopes : Scopes} {g : Global} {objs : List Obj} {b : Bool}

theorem methodsDebug_iff (hf : g.composer.compositions = [] ∧ g.skipped = []) (hc : CoherentObjs objs) (hw : ∀ o ∈ objs, WellFormedObj o) {sym : Str} {n : Note} :
    ∀ (ms : List Impl.Method) (g' : Global) (acc) {r}, Asked scopes g objs g' → (∀ m ∈ ms, m.obj ∈ objs) →
      Impl.methodSymbols scopes b sym g' ms acc = some r →
      (n ∈ methodsDebug scopes g' ms ↔ ∃ m ∈ ms, (g.getSymbolOfObject scopes m.obj).2 = .error ∧ n = .methodUnknown m.obj.self.name) := by
  intro ms
  induction ms with
  | nil => intro g' acc r _ _ _; simp [methodsDebug]
  | cons m ms ih =>
    intro g' acc r ha hm h
    have hn := Asked.lookup ha (hm m (by simp))
    have hans := Asked.answer ha hf hc hw (hm m (by simp))
    have hm' : ∀ x ∈ ms, x.obj ∈ objs := fun x hx => hm x (by simp [hx])
    unfold Impl.methodSymbols at h
    unfold methodsDebug
    obtain ⟨g1, a, hga⟩ : ∃ g1 a, g'.getSymbolOfObject scopes m.obj = (g1, a) := ⟨_, _, rfl⟩
    rw [hga] at h hn hans ⊢
    simp only at hans
    cases a with
    | panic => simp at h
    | error => simp only [List.mem_cons, ih _ _ hn hm' h, exists_eq_or_imp, ← hans, true_and]
    | skip => simp only [List.mem_cons, ih _ _ hn hm' h, exists_eq_or_imp, ← hans, reduceCtorEq, false_and, false_or]
    | info i => simp only [List.mem_cons, ih _ _ hn hm' h, exists_eq_or_imp, ← hans, reduceCtorEq, false_and, false_or]

/-- The methods of a type that cannot be named. -/
def unknownMethods (scopes : Scopes) (g : Global) (t : Impl.NamedT) (n : Note) : Prop :=
  ∃ m ∈ t.methods, (g.getSymbolOfObject scopes m.obj).2 = .error ∧ n = .methodUnknown m.obj.self.name

theorem classifyDebug_iff (hf : g.composer.compositions = [] ∧ g.skipped = []) (hc : CoherentObjs objs) (hw : ∀ o ∈ objs, WellFormedObj o) {n : Note}
    {t : Impl.NamedT} {sy path} {s s' : Impl.State} (ha : Asked scopes g objs s.g) (hm : ∀ m ∈ t.methods, m.obj ∈ objs)
    (h : Impl.classify E scopes b t sy path s = some s') :
    n ∈ classifyDebug scopes t s ↔ unknownMethods scopes g t n := by
  unfold Impl.classify at h
  unfold classifyDebug unknownMethods
  by_cases he : t.methods = []
  · simp [he]
  · rw [if_neg he]
    rw [if_neg he] at h
    cases hms : Impl.methodSymbols scopes b sy.sym s.g t.methods [] with
    | none => rw [hms] at h; simp at h
    | some x => exact methodsDebug_iff hf hc hw _ _ _ ha hm hms

/-- What is said of a package. -/
def omitted (scopes : Scopes) (g : Global) (b : Bool) (ps : List Impl.Pkg) (n : Note) : Prop :=
  (∃ p ∈ ps, p.name ≠ go!"builtin" ∧ ∃ ds d t r, p.defs = some ds ∧ some d ∈ ds ∧ (p.scope.isSome → d.pkgLevel = true) ∧ d.named = some t ∧
    g.symbols.lookup p.path = some r ∧ r.table.get d.obj.pos = none ∧ n = .noSymbol d.obj.name p.path) ∨
  ∃ t s path, Described scopes g b ps t s path ∧ unknownMethods scopes g t n

/-- What is said of types from source. -/
def defsSaid (scopes : Scopes) (g : Global) (p : Impl.Pkg) (table : Table) (ds : List (Option Impl.TypeDef)) (n : Note) : Prop :=
  ∃ d t, some d ∈ ds ∧ (p.scope.isSome → d.pkgLevel = true) ∧ d.named = some t ∧
    ((table.get d.obj.pos = none ∧ n = .noSymbol d.obj.name p.path) ∨ ((∃ i, table.get d.obj.pos = some i) ∧ unknownMethods scopes g t n))

theorem defsSaid_cons {p : Impl.Pkg} {table : Table} {d : Option Impl.TypeDef} {ds n} :
    defsSaid scopes g p table (d :: ds) n ↔ defsSaid scopes g p table [d] n ∨ defsSaid scopes g p table ds n := by
  constructor
  · rintro ⟨e, t, h, r⟩
    rcases List.mem_cons.1 h with h | h
    · exact .inl ⟨e, t, by simp [h], r⟩
    · exact .inr ⟨e, t, h, r⟩
  · rintro (⟨e, t, h, r⟩ | ⟨e, t, h, r⟩)
    · exact ⟨e, t, by simpa using .inl (List.mem_singleton.1 h), r⟩
    · exact ⟨e, t, List.mem_cons_of_mem _ h, r⟩

theorem extractDefsDebug_iff (hf : g.composer.compositions = [] ∧ g.skipped = []) (hc : CoherentObjs objs) (hw : ∀ o ∈ objs, WellFormedObj o) {n : Note}
    {p : Impl.Pkg} {table : Table} : ∀ (ds : List (Option Impl.TypeDef)) (s s' : Impl.State),
    (∀ d t, some d ∈ ds → d.named = some t → ∀ m ∈ t.methods, m.obj ∈ objs) → Asked scopes g objs s.g →
    Impl.extractDefs E scopes b p table ds s = some s' →
    (n ∈ extractDefsDebug E scopes b p table ds s ↔ defsSaid scopes g p table ds n) := by
  intro ds
  induction ds with
  | nil => intro s s' _ _ _; simp [extractDefsDebug, defsSaid]
  | cons d ds ih =>
    intro s s' hk ha h
    have hk' : ∀ d t, some d ∈ ds → d.named = some t → ∀ m ∈ t.methods, m.obj ∈ objs := fun d t hd => hk d t (by simp [hd])
    rw [defsSaid_cons]
    cases d with
    | none =>
      have e : ¬ defsSaid scopes g p table [none] n := by rintro ⟨d, t, h, _⟩; simp at h
      simp only [e, false_or]
      exact ih s s' hk' ha h
    | some d =>
      unfold Impl.extractDefs at h
      unfold extractDefsDebug
      by_cases hl : p.scope.isSome ∧ ¬ d.pkgLevel
      · rw [if_pos hl] at h ⊢
        have e : ¬ defsSaid scopes g p table [some d] n := by
          rintro ⟨d', t, h, h2, _⟩
          simp only [List.mem_singleton, Option.some.injEq] at h
          subst h
          exact hl.2 (h2 hl.1)
        simp only [e, false_or]
        exact ih s s' hk' ha h
      · rw [if_neg hl] at h ⊢
        have hl' : p.scope.isSome → d.pkgLevel = true := fun h => by
          by_contra hn
          exact hl ⟨h, hn⟩
        cases hnm : d.named with
        | none =>
          rw [hnm] at h
          have e : ¬ defsSaid scopes g p table [some d] n := by
            rintro ⟨d', t, h, _, h3, _⟩
            simp only [List.mem_singleton, Option.some.injEq] at h
            subst h
            rw [hnm] at h3
            simp at h3
          simp only [e, false_or]
          exact ih s s' hk' ha h
        | some t =>
          rw [hnm] at h
          simp only at h ⊢
          cases hg : table.get d.obj.pos with
          | none =>
            rw [hg] at h
            simp only at h ⊢
            rw [List.mem_cons, ih s s' hk' ha h]
            have e : defsSaid scopes g p table [some d] n ↔ n = .noSymbol d.obj.name p.path := by
              constructor
              · rintro ⟨d', t', h, _, h3, h4⟩
                simp only [List.mem_singleton, Option.some.injEq] at h
                subst h
                rcases h4 with h4 | ⟨⟨i, hi⟩, _⟩
                · exact h4.2
                · rw [hg] at hi; simp at hi
              · exact fun h => ⟨d, t, by simp, hl', hnm, .inl ⟨hg, h⟩⟩
            rw [e]
          | some i =>
            rw [hg] at h
            simp only at h ⊢
            cases hx : Impl.classify E scopes b t ⟨.entry p.path d.obj.pos, i.symbol⟩ p.path s with
            | none => rw [hx] at h; simp at h
            | some s₁ =>
              rw [hx] at h
              simp only at h ⊢
              have hmt := hk d t (by simp) hnm
              rw [List.mem_append, classifyDebug_iff hf hc hw ha hmt hx, ih s₁ s' hk' (Impl.classify_asked ha hmt hx) h]
              have e : defsSaid scopes g p table [some d] n ↔ unknownMethods scopes g t n := by
                constructor
                · rintro ⟨d', t', h, _, h3, h4⟩
                  simp only [List.mem_singleton, Option.some.injEq] at h
                  subst h
                  rw [hnm] at h3
                  simp only [Option.some.injEq] at h3
                  subst h3
                  rcases h4 with h4 | h4
                  · rw [hg] at h4; simp at h4
                  · exact h4.2
                · exact fun h => ⟨d, t, by simp, hl', hnm, .inr ⟨⟨i, hg⟩, h⟩⟩
              rw [e]

/-- What is said of types from export data. -/
def scopeSaid (scopes : Scopes) (g : Global) (p : Impl.Pkg) (ds : List (Option Impl.TypeDef)) (n : Note) : Prop :=
  ∃ d t, some d ∈ ds ∧ Exported d.obj.name ∧ d.named = some t ∧
    (g.composer.compose scopes (some p.module) (some (.plain d.obj))).2 ≠ [] ∧ unknownMethods scopes g t n

theorem scopeSaid_cons {p : Impl.Pkg} {d : Option Impl.TypeDef} {ds n} :
    scopeSaid scopes g p (d :: ds) n ↔ scopeSaid scopes g p [d] n ∨ scopeSaid scopes g p ds n := by
  constructor
  · rintro ⟨e, t, h, r⟩
    rcases List.mem_cons.1 h with h | h
    · exact .inl ⟨e, t, by simp [h], r⟩
    · exact .inr ⟨e, t, h, r⟩
  · rintro (⟨e, t, h, r⟩ | ⟨e, t, h, r⟩)
    · exact ⟨e, t, by simpa using .inl (List.mem_singleton.1 h), r⟩
    · exact ⟨e, t, List.mem_cons_of_mem _ h, r⟩

theorem extractScopeDebug_iff (hf : g.composer.compositions = [] ∧ g.skipped = []) (hc : CoherentObjs objs) (hw : ∀ o ∈ objs, WellFormedObj o) {n : Note}
    {p : Impl.Pkg} (hr : ∃ r, g.symbols.lookup p.path = some r ∧ r.module = p.module) : ∀ (ds : List (Option Impl.TypeDef)) (s s' : Impl.State),
    (∀ d t, some d ∈ ds → d.named = some t → ∀ m ∈ t.methods, m.obj ∈ objs) →
    (∀ d, some d ∈ ds → d.obj.pkg = some p.path ∧ Obj.plain d.obj ∈ objs) → Asked scopes g objs s.g →
    Impl.extractScope E scopes b p ds s = some s' →
    (n ∈ extractScopeDebug E scopes b p ds s ↔ scopeSaid scopes g p ds n) := by
  obtain ⟨r, hr, hrm⟩ := hr
  intro ds
  induction ds with
  | nil => intro s s' _ _ _ _; simp [extractScopeDebug, scopeSaid]
  | cons d ds ih =>
    intro s s' hk ho ha h
    have hk' : ∀ d t, some d ∈ ds → d.named = some t → ∀ m ∈ t.methods, m.obj ∈ objs := fun d t hd => hk d t (by simp [hd])
    have ho' : ∀ d, some d ∈ ds → d.obj.pkg = some p.path ∧ Obj.plain d.obj ∈ objs := fun d hd => ho d (by simp [hd])
    rw [scopeSaid_cons]
    cases d with
    | none =>
      have e : ¬ scopeSaid scopes g p [none] n := by rintro ⟨d, t, h, _⟩; simp at h
      simp only [e, false_or]
      exact ih s s' hk' ho' ha h
    | some d =>
      unfold Impl.extractScope at h
      unfold extractScopeDebug
      by_cases hl : ¬ isExported d.obj.name
      · rw [if_pos hl] at h ⊢
        have e : ¬ scopeSaid scopes g p [some d] n := by
          rintro ⟨d', t, h, h2, _⟩
          simp only [List.mem_singleton, Option.some.injEq] at h
          subst h
          exact hl ((isExported_iff _).2 h2)
        simp only [e, false_or]
        exact ih s s' hk' ho' ha h
      · rw [if_neg hl] at h ⊢
        rw [not_not] at hl
        have hl' := (isExported_iff _).1 hl
        cases hnm : d.named with
        | none =>
          rw [hnm] at h
          have e : ¬ scopeSaid scopes g p [some d] n := by
            rintro ⟨d', t, h, _, h3, _⟩
            simp only [List.mem_singleton, Option.some.injEq] at h
            subst h
            rw [hnm] at h3
            simp at h3
          simp only [e, false_or]
          exact ih s s' hk' ho' ha h
        | some t =>
          rw [hnm] at h
          obtain ⟨hp, hobj⟩ := ho d (by simp)
          have ha' := Asked.compose ha hobj (show (Obj.plain d.obj).self.pkg = some p.path from hp) hr
          have hcmp := ((ha.ginv hf hc hw).compose hf.1 hc hobj (show (Obj.plain d.obj).self.pkg = some p.path from hp) hr).1
          rw [hrm] at ha' hcmp
          dsimp only at h ⊢
          rw [hcmp] at h ⊢
          by_cases hs : (g.composer.compose scopes (some p.module) (some (.plain d.obj))).2 = []
          · rw [if_pos hs] at h ⊢
            have e : ¬ scopeSaid scopes g p [some d] n := by
              rintro ⟨d', t, h, _, _, h4, _⟩
              simp only [List.mem_singleton, Option.some.injEq] at h
              subst h
              exact h4 hs
            simp only [e, false_or]
            exact ih _ s' hk' ho' ha' h
          · rw [if_neg hs] at h ⊢
            cases hx : Impl.classify E scopes b t ⟨.type b (g.composer.compose scopes (some p.module) (some (.plain d.obj))).2,
                (g.composer.compose scopes (some p.module) (some (.plain d.obj))).2⟩ p.path
                { s with g := { s.g with composer := (s.g.composer.compose scopes (some p.module) (some (.plain d.obj))).1 } } with
            | none => rw [hx] at h; simp at h
            | some s₁ =>
              rw [hx] at h
              simp only at h ⊢
              have hmt := hk d t (by simp) hnm
              rw [List.mem_append, classifyDebug_iff (s := { s with g := _ }) hf hc hw ha' hmt hx,
                ih s₁ s' hk' ho' (Impl.classify_asked (s := { s with g := _ }) ha' hmt hx) h]
              have e : scopeSaid scopes g p [some d] n ↔ unknownMethods scopes g t n := by
                constructor
                · rintro ⟨d', t', h, _, h3, _, h4⟩
                  simp only [List.mem_singleton, Option.some.injEq] at h
                  subst h
                  rw [hnm] at h3
                  simp only [Option.some.injEq] at h3
                  subst h3
                  exact h4
                · exact fun h => ⟨d, t, by simp, hl', hnm, hs, h⟩
              rw [e]

theorem Described.mono {ps qs : List Impl.Pkg} (hsub : ∀ p ∈ ps, p ∈ qs) {t s path} (h : Described scopes g b ps t s path) : Described scopes g b qs t s path := by
  cases h with
  | source h1 h2 h3 h4 h5 h6 h7 h8 => exact .source (hsub _ h1) h2 h3 h4 h5 h6 h7 h8
  | exported h1 h2 h3 h4 h5 h6 h7 h8 h9 => exact .exported (hsub _ h1) h2 h3 h4 h5 h6 h7 h8 h9

theorem omitted_cons {p : Impl.Pkg} {ps n} : omitted scopes g b (p :: ps) n ↔ omitted scopes g b [p] n ∨ omitted scopes g b ps n := by
  constructor
  · rintro (⟨q, hq, r⟩ | ⟨t, s, path, hd, hu⟩)
    · rcases List.mem_cons.1 hq with rfl | hq
      · exact .inl (.inl ⟨_, by simp, r⟩)
      · exact .inr (.inl ⟨q, hq, r⟩)
    · cases hd with
      | source h1 h2 h3 h4 h5 h6 h7 h8 =>
        rcases List.mem_cons.1 h1 with rfl | h1
        · exact .inl (.inr ⟨_, _, _, .source (by simp) h2 h3 h4 h5 h6 h7 h8, hu⟩)
        · exact .inr (.inr ⟨_, _, _, .source h1 h2 h3 h4 h5 h6 h7 h8, hu⟩)
      | exported h1 h2 h3 h4 h5 h6 h7 h8 h9 =>
        rcases List.mem_cons.1 h1 with rfl | h1
        · exact .inl (.inr ⟨_, _, _, .exported (by simp) h2 h3 h4 h5 h6 h7 h8 h9, hu⟩)
        · exact .inr (.inr ⟨_, _, _, .exported h1 h2 h3 h4 h5 h6 h7 h8 h9, hu⟩)
  · have hsub : ∀ (qs : List Impl.Pkg), (∀ q ∈ qs, q ∈ p :: ps) → omitted scopes g b qs n → omitted scopes g b (p :: ps) n := by
      rintro qs hs (⟨q, hq, r⟩ | ⟨t, s, path, hd, hu⟩)
      · exact .inl ⟨q, hs q hq, r⟩
      · exact .inr ⟨t, s, path, Described.mono hs hd, hu⟩
    rintro (h | h)
    · exact hsub [p] (by simp) h
    · exact hsub ps (by simp +contextual) h

theorem extractPkgDebug_iff (hf : g.composer.compositions = [] ∧ g.skipped = []) (hc : CoherentObjs objs) (hw : ∀ o ∈ objs, WellFormedObj o) {n : Note}
    {p : Impl.Pkg} (hk : Impl.PkgKnown g objs p) {s s' : Impl.State} (ha : Asked scopes g objs s.g) (h : Impl.extractPkg E scopes b p s = some s') :
    n ∈ extractPkgDebug E scopes b p s ↔ omitted scopes g b [p] n := by
  obtain ⟨r, hr, hrm⟩ := hk.registered
  unfold Impl.extractPkg at h
  unfold extractPkgDebug
  by_cases hb : p.name = go!"builtin"
  · rw [if_pos hb]
    constructor
    · simp
    · rintro (⟨q, hq, h0, _⟩ | ⟨t, s, path, hd, _⟩)
      · simp only [List.mem_singleton] at hq; subst hq; exact absurd hb h0
      · cases hd with
        | source h1 h2 => simp only [List.mem_singleton] at h1; subst h1; exact absurd hb h2
        | exported h1 h2 => simp only [List.mem_singleton] at h1; subst h1; exact absurd hb h2
  · rw [if_neg hb] at h ⊢
    cases hd : p.defs with
    | some ds =>
      rw [hd] at h
      simp only at h ⊢
      rw [ha.frame.1, hr] at h ⊢
      simp only at h ⊢
      rw [extractDefsDebug_iff hf hc hw ds s s' (fun d t hm hnm => hk.methods d ⟨ds, .inl hd, hm⟩ t hnm) ha h]
      constructor
      · rintro ⟨d, t, h1, h2, h3, ⟨h4, h5⟩ | ⟨⟨i, h4⟩, h5⟩⟩
        · exact .inl ⟨p, by simp, hb, ds, d, t, r, hd, h1, h2, h3, hr, h4, h5⟩
        · exact .inr ⟨_, _, _, .source (by simp) hb hd h1 h2 h3 hr h4, h5⟩
      · rintro (⟨q, hq, _, ds', d, t, r', h0, h1, h2, h3, h4, h5, h6⟩ | ⟨t, sy, path, hD, hu⟩)
        · simp only [List.mem_singleton] at hq; subst hq
          rw [hd] at h0; simp only [Option.some.injEq] at h0; subst h0
          rw [hr] at h4; simp only [Option.some.injEq] at h4; subst h4
          exact ⟨d, t, h1, h2, h3, .inl ⟨h5, h6⟩⟩
        · cases hD with
          | source h1 h2 h3 h4 h5 h6 h7 h8 =>
            simp only [List.mem_singleton] at h1; subst h1
            rw [hd] at h3; simp only [Option.some.injEq] at h3; subst h3
            rw [hr] at h7; simp only [Option.some.injEq] at h7; subst h7
            exact ⟨_, _, h4, h5, h6, .inr ⟨⟨_, h8⟩, hu⟩⟩
          | exported h1 h2 h3 => simp only [List.mem_singleton] at h1; subst h1; rw [hd] at h3; simp at h3
    | none =>
      rw [hd] at h
      simp only at h ⊢
      cases hs : p.scope with
      | some ds =>
        rw [hs] at h
        simp only at h ⊢
        rw [extractScopeDebug_iff hf hc hw ⟨r, hr, hrm⟩ ds s s' (fun d t hm hnm => hk.methods d ⟨ds, .inr hs, hm⟩ t hnm) (hk.scope ds hs) ha h]
        constructor
        · rintro ⟨d, t, h1, h2, h3, h4, h5⟩
          exact .inr ⟨_, _, _, .exported (by simp) hb hd hs h1 h2 h3 rfl h4, h5⟩
        · rintro (⟨q, hq, _, ds', d, t, r', h0, _⟩ | ⟨t, sy, path, hD, hu⟩)
          · simp only [List.mem_singleton] at hq; subst hq; rw [hd] at h0; simp at h0
          · cases hD with
            | source h1 h2 h3 => simp only [List.mem_singleton] at h1; subst h1; rw [hd] at h3; simp at h3
            | exported h1 h2 h3 h4 h5 h6 h7 h8 h9 =>
              simp only [List.mem_singleton] at h1; subst h1
              rw [hs] at h4; simp only [Option.some.injEq] at h4; subst h4
              exact ⟨_, _, h5, h6, h7, by rw [h8]; exact h9, hu⟩
      | none =>
        constructor
        · simp
        · rintro (⟨q, hq, _, ds', d, t, r', h0, _⟩ | ⟨t, sy, path, hD, hu⟩)
          · simp only [List.mem_singleton] at hq; subst hq; rw [hd] at h0; simp at h0
          · cases hD with
            | source h1 h2 h3 => simp only [List.mem_singleton] at h1; subst h1; rw [hd] at h3; simp at h3
            | exported h1 h2 h3 h4 => simp only [List.mem_singleton] at h1; subst h1; rw [hs] at h4; simp at h4

theorem extractDebug_iff (hf : g.composer.compositions = [] ∧ g.skipped = []) (hc : CoherentObjs objs) (hw : ∀ o ∈ objs, WellFormedObj o) {n : Note} :
    ∀ (ps : List Impl.Pkg) (s s' : Impl.State), (∀ p ∈ ps, Impl.PkgKnown g objs p) → Asked scopes g objs s.g →
      Impl.extractAll E scopes b ps s = some s' → (n ∈ extractDebug E scopes b ps s ↔ omitted scopes g b ps n) := by
  intro ps
  induction ps with
  | nil =>
    intro s s' _ _ _
    constructor
    · simp [extractDebug]
    · rintro (⟨q, hq, _⟩ | ⟨t, s, path, hd, _⟩)
      · simp at hq
      · cases hd with
        | source h1 => simp at h1
        | exported h1 => simp at h1
  | cons p ps ih =>
    intro s s' hk ha h
    unfold Impl.extractAll at h
    cases hx : Impl.extractPkg E scopes b p s with
    | none => rw [hx] at h; simp at h
    | some s₁ =>
      rw [hx] at h
      have hrest := ih s₁ s' (fun q hq => hk q (by simp [hq])) (Impl.extractPkg_asked (hk p (by simp)) ha hx) h
      simp only [extractDebug, hx, List.mem_append]
      rw [hrest, extractPkgDebug_iff hf hc hw (hk p (by simp)) ha hx, omitted_cons (p := p) (ps := ps)]

end

section
variable {D : Deps} {o : Opts} {ord : MapOrders} {project all : GoMap Package} {objs : List Obj} {g : Global}

/-- Asking for a method fails exactly if nothing names it. -/
theorem nameless_iff (hg : Collected' o project all g) (ht : TypedProject D project all objs) (hn : NamedTypes D project all) {b : Bool} {p : Package}
    {d : Impl.TypeDef} {t : Impl.NamedT} (h : KnownType project all b p d t) {m : Impl.Method} (hm : m ∈ t.methods) :
    (g.getSymbolOfObject D.scopes m.obj).2 = .error ↔ Nameless D project all m.obj := by
  obtain ⟨k1, k2⟩ := method_named hg ht hn h hm
  obtain ⟨h1, h2⟩ := known_named h
  obtain ⟨hobj, s, hs⟩ := ((ht.asked _ p (known_package ht h).1 d h2) t h1).1 m hm
  have hsk : m.obj.self.objId ∉ g.skipped := by rw [hg.skipped]; simp
  constructor
  · intro he
    refine ⟨?_, fun x hx => ?_⟩
    · unfold Global.getSymbolOfObject at he
      simp only [if_neg hsk, hs] at he
      cases hp : m.obj.self.pkg with
      | none => rw [hp] at he; simp only at he; split at he <;> simp at he
      | some path =>
        refine ⟨path, rfl, fun hu => ?_⟩
        rw [hp] at he
        simp only [if_pos hu] at he
        simp at he
    · obtain ⟨i, hi⟩ := k2 ⟨x, hx⟩
      rw [he] at hi
      simp at hi
  · rintro ⟨⟨path, hp, hu⟩, hno⟩
    have hni : ∀ i, (g.getSymbolOfObject D.scopes m.obj).2 ≠ .info i := fun i hi => hno _ (k1 i hi)
    revert hni
    unfold Global.getSymbolOfObject
    simp only [if_neg hsk, hs, hp, if_neg hu]
    intro hni
    split at hni
    · exact absurd rfl (hni _)
    · split at hni
      · split at hni
        · rename_i hz _ _ hl hk; simp only [hz, hl, hk, if_true]
        · exact absurd rfl (hni _)
      · rename_i hz _ hk; simp only [hz, hk]

theorem remote_iff (ht : TypedProject D project all objs) (hv : ValidMapOrders ord) {q : Impl.Pkg} :
    q ∈ Impl.remotePackages (projectPkgs ord project) (allPkgs ord all) ↔ ∃ p, (p.path, p) ∈ all ∧ (∀ q', (p.path, q') ∉ project) ∧ q = Package.impl ord p := by
  unfold Impl.remotePackages
  rw [List.mem_filter]
  have hin : ∀ p : Package, p.path ∈ (projectPkgs ord project).map (·.path) ↔ ∃ q', (p.path, q') ∈ project := by
    intro p
    rw [List.mem_map]
    constructor
    · rintro ⟨q, hq, h⟩
      obtain ⟨p', hp', rfl⟩ := (mem_impl_project ht hv).1 hq
      exact ⟨p', by rw [← h]; exact hp'⟩
    · rintro ⟨q', hq'⟩
      have e := ht.project_keyed.path _ _ hq'
      exact ⟨Package.impl ord q', (mem_impl_project ht hv).2 ⟨q', by rw [e]; exact hq', rfl⟩, e⟩
  constructor
  · rintro ⟨h1, h2⟩
    obtain ⟨p, hp, rfl⟩ := (mem_impl_all ht hv).1 h1
    refine ⟨p, hp, fun q' hq' => ?_, rfl⟩
    simp only [decide_eq_true_eq] at h2
    exact h2 ((hin p).2 ⟨q', hq'⟩)
  · rintro ⟨p, hp, hout, rfl⟩
    refine ⟨(mem_impl_all ht hv).2 ⟨p, hp, rfl⟩, ?_⟩
    simp only [decide_eq_true_eq]
    intro h
    obtain ⟨q', hq'⟩ := (hin p).1 h
    exact hout q' hq'

end

/-- **C106** for the visits: collecting definitions tells of every package of the project once, in increasing order of their paths, and in between only of what
there is to tell about the declarations of the package (C108). -/
theorem C106_visits (o : Opts) (ord : MapOrders) (project all : GoMap Package) (hk : Keyed project) {docs g}
    (h : indexVisitPackages o ord project all = some (docs, g)) :
    ∃ ps : List Package, ps.Perm (project.map (·.2)) ∧ ps.Pairwise (fun p q => Str.lt p.path q.path = true) ∧
      ∃ notes : Package → List VisitNote, collectionDebug o ord project all = ps.flatMap (fun p => .visiting p.path :: (notes p).map .visitor) ∧
        ∀ p ∈ ps, FilesOk (p.files.map SourceFile.node) → ∀ n, n ∈ notes p ↔ PackageTells p.env.anonKey (p.files.map SourceFile.node) n :=
  ⟨_, (sortedValues_spec hk).1, (sortedValues_spec hk).2, _, visitPackagesDebug_eq _ _ _ h, fun _ _ hok n => C108_told _ n _ hok⟩

/-- **C106** for implementations: the search tells exactly of what it leaves out (and of nothing, if there is no search). -/
theorem C106_left_out (D : Deps) (o : Opts) (ord : MapOrders) (project all : GoMap Package) (objs : List Obj)
    (ht : TypedProject D project all objs) (hv : ValidMapOrders ord) (hn : NamedTypes D project all) {docs g}
    (hvp : indexVisitPackages o ord project all = some (docs, g)) {r} (h : implementations D o ord project all g = some r) (n : Note) :
    n ∈ implementationsDebug D o ord project all g ↔ o.skipImplementations = false ∧ LeftOut D project all n := by
  have hg := collected_global ht.project_keyed ht.all_keyed ht.sub hv.all hvp
  unfold implementations at h
  unfold implementationsDebug
  cases hs : o.skipImplementations with
  | true => simp
  | false =>
    rw [hs] at h
    simp only [Bool.false_eq_true, if_false, true_and] at h ⊢
    obtain ⟨r', hr, _⟩ := Option.map_eq_some_iff.1 h
    change Impl.addImplementations _ _ _ _ (projectPkgs ord project) (allPkgs ord all) _ = _ at hr
    change n ∈ addImplementationsDebug D.ext D.scopes g (projectPkgs ord project) (allPkgs ord all) ↔ _
    have hk := pkgKnown_of hg ht hv
    have hsub := impl_sub ht hv
    change ∀ q ∈ allPkgs ord all, _ at hk
    change ∀ q ∈ projectPkgs ord project, q ∈ allPkgs ord all at hsub
    have hcons := consistent_of hg ht hv
    have hf : g.composer.compositions = [] ∧ g.skipped = [] := ⟨by rw [hg.composer]; rfl, hg.skipped⟩
    unfold Impl.addImplementations at hr
    unfold addImplementationsDebug
    cases hloc : Impl.extract D.ext D.scopes true g (projectPkgs ord project) with
    | none => rw [hloc] at hr; simp at hr
    | some loc =>
      rw [hloc] at hr
      simp only at hr ⊢
      cases hrem : Impl.extract D.ext D.scopes false loc.g (Impl.remotePackages (projectPkgs ord project) (allPkgs ord all)) with
      | none => rw [hrem] at hr; simp at hr
      | some rem =>
        have ha1 := Impl.extractAll_asked _ ⟨g, [], []⟩ loc (fun p hp => hk p (hsub p hp)) Asked.start hloc
        rw [List.mem_append, extractDebug_iff hf ht.coherent ht.wellFormed _ ⟨g, [], []⟩ loc (fun p hp => hk p (hsub p hp)) Asked.start hloc,
          extractDebug_iff hf ht.coherent ht.wellFormed (Impl.remotePackages (projectPkgs ord project) (allPkgs ord all)) ⟨loc.g, [], []⟩ rem (fun p hp => hk p (List.mem_filter.1 hp).1) ha1 hrem]
        have hm : ∀ b, (∃ t s path, Described D.scopes g b (side (projectPkgs ord project) (allPkgs ord all) b) t s path ∧ unknownMethods D.scopes g t n) ↔
            ∃ p d t m, KnownType project all b p d t ∧ m ∈ t.methods ∧ Nameless D project all m.obj ∧ n = .methodUnknown m.obj.self.name := by
          intro b
          constructor
          · rintro ⟨t, s, path, hD, m, hm, he, rfl⟩
            obtain ⟨p, d, hT, _, _⟩ := (described_iff hg ht hv hn b t s path).1 hD
            exact ⟨p, d, t, m, hT, hm, (nameless_iff hg ht hn hT hm).1 he, rfl⟩
          · rintro ⟨p, d, t, m, hT, hm, he, rfl⟩
            exact ⟨t, _, _, (described_iff hg ht hv hn b t _ _).2 ⟨p, d, hT, rfl, rfl⟩, m, hm, (nameless_iff hg ht hn hT hm).2 he, rfl⟩
        constructor
        · rintro ((⟨q, hq, hb, ds, d, t, r, h1, h2, h3, h4, h5, h6, rfl⟩ | hmt) | (⟨q, hq, hb, ds, d, t, r, h1, h2, h3, h4, h5, h6, rfl⟩ | hmt))
          · exfalso
            obtain ⟨p, hp, rfl⟩ := (mem_impl_project ht hv).1 hq
            obtain ⟨ds', h1', h2'⟩ := impl_defs hv h1 h2
            obtain ⟨r', info, e1, e2, _⟩ := type_entry hg ht hn (p := p) (d := d) (t := t) ⟨hp, hb, ⟨ds', h1', h2'⟩, h3 (hn.checked p hp hb).2, h4⟩
            have h5' : g.symbols.lookup p.path = some r := h5
            rw [e1] at h5'
            simp only [Option.some.injEq] at h5'
            subst h5'
            rw [h6] at e2
            simp at e2
          · obtain ⟨p, d, t, m, hT, hmem, he, rfl⟩ := (hm true).1 hmt
            exact .method hT hmem he
          · obtain ⟨p, hp, hout, rfl⟩ := (remote_iff ht hv).1 hq
            obtain ⟨ds', h1', h2'⟩ := impl_defs hv h1 h2
            exact .type hp hout hb h1' h2' h3 h4
          · obtain ⟨p, d, t, m, hT, hmem, he, rfl⟩ := (hm false).1 hmt
            exact .method hT hmem he
        · intro hL
          cases hL with
          | @type p ds d t h1 h2 h3 h4 h5 h6 h7 =>
            refine .inr (.inl ⟨Package.impl ord p, (remote_iff ht hv).2 ⟨p, h1, h2, rfl⟩, h3, ord.defs p.path ds, d, t, ⟨some p.env.module, []⟩, ?_,
              (hv.defs _ _).symm.subset h5, h6, h7, ?_, Table.get_nil _, rfl⟩)
            · show p.defs.map _ = _; rw [h4]; rfl
            · have hnone : project.get p.path = none := by
                cases hk : project.get p.path with
                | none => rfl
                | some q' => exact absurd (GoMap.mem_of_get hk) (h2 q')
              show g.symbols.lookup p.path = _
              rw [hg.others _ hnone, GoMap.get_of_mem ht.all_keyed.nodup h1]
              rfl
          | @method b p d t m h1 h2 h3 =>
            have := (hm b).2 ⟨p, d, t, m, h1, h2, h3, rfl⟩
            cases b with
            | true => exact .inl (.inr this)
            | false => exact .inr (.inr this)

end Verif
