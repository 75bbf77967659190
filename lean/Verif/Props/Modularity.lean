import Verif.Spec.Modularity
import Verif.Props.ContentDetermined
import Verif.Props.CrossModule
/-!
# C95: the document of a file depends only on its package and on what this refers to
-/
namespace Verif
open Spec Index

section
variable {D D' : Deps} {o o' : Opts} {project all project' all' : GoMap Package} {objs objs' : List Obj}

/-! ## Declarations -/

theorem declsDeclare_same {env env' : PkgEnv} (h1 : env'.pkgPath = env.pkgPath) (h2 : env'.anonKey = env.anonKey)
    (h3 : env'.position = env.position) {decls : List Node} {i : Ident} {ds : List Descriptor} {q : Nat} (h : DeclsDeclare env decls i ds q) :
    DeclsDeclare env' decls i ds q := by
  cases h with
  | typ h => exact .typ (by rw [h1, h2]; exact h)
  | func hd h => exact .func hd (by rw [h1]; exact h)
  | var hd ht h => exact .var hd ht (by rw [h1, h2, h3]; exact h)

theorem declares_same {p p' : Package} (h : SameSource D D' p p') {i : Ident} {ds : List Descriptor} {q : Nat} :
    PackageDeclares p'.env (p'.files.map SourceFile.node) i ds q ↔ PackageDeclares p.env (p.files.map SourceFile.node) i ds q := by
  rw [h.files]
  constructor
  · rintro ⟨name, decls, h1, h2⟩
    exact ⟨name, decls, h1, declsDeclare_same h.path.symm h.anonKey.symm h.position.symm h2⟩
  · rintro ⟨name, decls, h1, h2⟩
    exact ⟨name, decls, h1, declsDeclare_same h.path h.anonKey h.position h2⟩

theorem packageSymbol_same {p p' : Package} (h : SameSource D D' p p') : packageSymbol p' = packageSymbol p := by
  unfold packageSymbol; rw [h.module, h.path]

theorem fromDescriptors_same {p p' : Package} (h : SameSource D D' p p') (ds : List Descriptor) :
    p'.env.fromDescriptors ds = p.env.fromDescriptors ds := by
  unfold PkgEnv.fromDescriptors; rw [h.module]

theorem declaredAs_same {p p' : Package} (h : SameSource D D' p p') {q : Nat} {sym : Str} : DeclaredAs p' q sym ↔ DeclaredAs p q sym := by
  unfold DeclaredAs
  simp only [declares_same h, fromDescriptors_same h, packageSymbol_same h]
  rw [h.files]

theorem findPackageDocs_same {p p' : Package} (h : SameSource D D' p p') : findPackageDocs p' = findPackageDocs p := by
  unfold findPackageDocs; rw [h.files, h.name]

theorem entityInfo_same {p p' : Package} (h : SameSource D D' p p') {q : Nat} {s : SymInfo} : EntityInfo p' q s ↔ EntityInfo p q s := by
  have sig : ∀ u, ((p'.env.defs u).bind fun d => if p'.env.signature d = [] then none else some (p'.env.signature d)) =
      ((p.env.defs u).bind fun d => if p.env.signature d = [] then none else some (p.env.signature d)) := by
    intro u
    rw [h.defs]
    cases hd : p.env.defs u with
    | none => rfl
    | some d => simp only [Option.bind_some, h.signature u d hd]
  constructor
  · intro hs
    cases hs with
    | entity i ds h1 h2 h3 h4 h5 h6 =>
      exact .entity i ds ((declares_same h).1 h1) (by rw [h2, fromDescriptors_same h]) h3 (by rw [h4, h.defs]) (by rw [h5, sig])
        (by rw [← h.files]; exact h6)
    | clause f h1 h2 h3 =>
      exact .clause f (by rw [← h.files]; exact h1) h2 (by rw [h3, packageSymbol_same h, findPackageDocs_same h, h.name])
  · intro hs
    cases hs with
    | entity i ds h1 h2 h3 h4 h5 h6 =>
      exact .entity i ds ((declares_same h).2 h1) (by rw [h2, fromDescriptors_same h]) h3 (by rw [h4, h.defs]) (by rw [h5, sig])
        (by rw [h.files]; exact h6)
    | clause f h1 h2 h3 =>
      exact .clause f (by rw [h.files]; exact h1) h2 (by rw [h3, packageSymbol_same h, findPackageDocs_same h, h.name])

theorem switch_same {p p' : Package} (h : SameSource D D' p p') {i : Ident} : SwitchIdent p' i ↔ SwitchIdent p i := by
  unfold SwitchIdent; rw [h.implicits]

theorem declaring_same {p p' : Package} (h : SameSource D D' p p') {i : Ident} : DeclaringIdent p' i ↔ DeclaringIdent p i := by
  unfold DeclaringIdent; rw [switch_same h, h.defs]

theorem localIdent_same {p p' : Package} (h : SameSource D D' p p') {i : Ident} : LocalIdent p' i ↔ LocalIdent p i := by
  unfold LocalIdent PackageLevel; simp only [switch_same h, h.defs, declares_same h]

theorem span_same {p p' : Package} (h : SameSource D D' p p') (i : Ident) : identSpan (sourceEnv D' p') i = identSpan (sourceEnv D p) i := by
  show span (p'.env.position i.pos) (p'.env.position (i.pos + i.name.length)) = span (p.env.position i.pos) (p.env.position (i.pos + i.name.length))
  rw [h.position]

theorem localInfo_same {p p' : Package} (h : SameSource D D' p p') {i : Ident} {k : Nat} {s : SymInfo} (hs : LocalInfo D' p' i k s) :
    LocalInfo D p i k s := by
  refine ⟨hs.symbol, hs.documentation, fun x => ?_, fun x => ?_⟩
  · have := hs.switch ((switch_same h).2 x)
    rw [h.implicits] at this
    exact this
  · obtain ⟨d, h1, h2, h3, h4⟩ := hs.declared fun y => x ((switch_same h).1 y)
    rw [h.defs] at h1
    rw [h.objectString _ d h1] at h4
    exact ⟨d, h1, h2, h3, h4⟩

/-! ## Lists of occurrences -/

theorem Spec.SameBesides.refl {New : List Int → Option Str → Str → Bool → Prop} : ∀ os : List Occurrence, SameBesides New os os
  | [] => .nil
  | a :: os => .same a (Spec.SameBesides.refl os)

theorem Spec.SameBesides.append {New : List Int → Option Str → Str → Bool → Prop} {a a' b b' : List Occurrence} (h : SameBesides New a a')
    (h' : SameBesides New b b') : SameBesides New (a ++ b) (a' ++ b') := by
  induction h with
  | nil => exact h'
  | same a _ ih => exact .same a ih
  | other hn _ ih => exact .other hn ih
  | more hn _ ih => exact .more hn ih

theorem parts_same {New : List Int → Option Str → Str → Bool → Prop} : ∀ {l l' : List (List Occurrence × List Occurrence)}, l.length = l'.length →
    (∀ (k : Nat) (x x' : List Occurrence × List Occurrence), l[k]? = some x → l'[k]? = some x' → SameBesides New (x.1 ++ x.2) (x'.1 ++ x'.2)) →
    SameBesides New (l.flatMap fun x => x.1 ++ x.2) (l'.flatMap fun x => x.1 ++ x.2)
  | [], [], _, _ => .nil
  | [], _ :: _, e, _ => by simp at e
  | _ :: _, [], e, _ => by simp at e
  | x :: l, x' :: l', e, h => by
    rw [List.flatMap_cons, List.flatMap_cons]
    exact (h 0 x x' rfl rfl).append (parts_same (by simpa using e) fun k y y' a b => h (k + 1) y y' (by simpa using a) (by simpa using b))

/-! ## What is met in a file -/

section
variable (hx : Extended D D' project all project' all')
include hx

theorem qualifier_same {p p' : Package} (hp : (p.path, p) ∈ project) (hp' : (p'.path, p') ∈ project') (h : SameSource D D' p p') (n : Node) :
    packageQualifier (sourceEnv D' p') n = packageQualifier (sourceEnv D p) n := by
  cases n with
  | ident i =>
    show (p'.env.uses i.uid).bind _ = (p.env.uses i.uid).bind _
    rcases hx.uses p p' hp hp' h i.uid with ⟨h1, h2⟩ | ⟨r, r', h1, h2, he, _⟩
    · rw [h1, h2]
    · rw [h1, h2]
      simp only [Option.bind_some]
      by_cases hq : ∃ q, r.self.cls = .pkgName q ∨ r'.self.cls = .pkgName q
      · obtain ⟨q, hq⟩ := hq
        rw [he.pkgName q hq]
      · have n1 : ∀ q, r.self.cls ≠ .pkgName q := fun q x => hq ⟨q, .inl x⟩
        have n2 : ∀ q, r'.self.cls ≠ .pkgName q := fun q x => hq ⟨q, .inr x⟩
        cases h3 : r.self.cls <;> cases h4 : r'.self.cls <;> first | rfl | exact absurd h3 (n1 _) | exact absurd h4 (n2 _)
  | _ => rfl

theorem loaded_iff (hk : Keyed all) (hk' : Keyed all') {p : Package} (hp : (p.path, p) ∈ project) {path : Str} (hr : RefersTo p path) :
    (all.get path).isSome = (all'.get path).isSome := by
  obtain ⟨h1, h2⟩ := hx.loaded p hp path hr
  rw [Bool.eq_iff_iff, Option.isSome_iff_exists, Option.isSome_iff_exists]
  constructor
  · rintro ⟨q, h⟩
    obtain ⟨q', h', _⟩ := h1 q (GoMap.mem_of_get h)
    exact ⟨q', GoMap.get_of_mem hk'.nodup h'⟩
  · rintro ⟨q', h⟩
    obtain ⟨q, h'⟩ := h2 q' (GoMap.mem_of_get h)
    exact ⟨q, GoMap.get_of_mem hk.nodup h'⟩

/-- The same things are met in the files of the package. -/
theorem events_same (ht : TypedProject D project all objs) (ht' : TypedProject D' project' all' objs') {p p' : Package}
    (hp : (p.path, p) ∈ project) (hp' : (p'.path, p') ∈ project') (h : SameSource D D' p p') (f : SourceFile) :
    fileEventsOf D' all' p' f = fileEventsOf D all p f := by
  unfold fileEventsOf fileEventsIn
  rw [traverseList_env (qualifier_same hx hp hp' h)]
  refine traverseList_known ?_ _
  intro n i x imported hq
  refine (loaded_iff hx ht.all_keyed ht'.all_keyed hp ?_).symm
  unfold packageQualifier at hq
  split at hq
  · rename_i u
    obtain ⟨y, hy, hq⟩ := Option.bind_eq_some_iff.1 hq
    split at hq
    · rename_i q hc
      simp only [Option.some.injEq, Prod.mk.injEq] at hq
      obtain ⟨_, _, rfl⟩ := hq
      exact .qualifier _ y hy hc
    · simp at hq
  · simp at hq

theorem locals_same (ht : TypedProject D project all objs) (ht' : TypedProject D' project' all' objs') {p p' : Package}
    (hp : (p.path, p) ∈ project) (hp' : (p'.path, p') ∈ project') (h : SameSource D D' p p') (f : SourceFile) :
    localIdents D' all' p' f = localIdents D all p f := by
  unfold localIdents
  rw [events_same hx ht ht' hp hp' h f]
  refine List.filter_congr fun i _ => ?_
  simp only [decide_eq_decide]
  exact localIdent_same h

/-! ## What references name -/

/-- The package of `project'` with the path of a package of `project` is the same. -/
theorem counterpart (ht' : TypedProject D' project' all' objs') {q q' : Package} (hq : (q.path, q) ∈ project) (hq' : (q'.path, q') ∈ project')
    (e : q'.path = q.path) : SameSource D D' q q' := by
  obtain ⟨q'', h1, h2⟩ := hx.packages q hq
  have e1 := GoMap.get_of_mem ht'.project_keyed.nodup h1
  rw [show q''.path = q'.path from h2.path.trans e.symm, GoMap.get_of_mem ht'.project_keyed.nodup hq'] at e1
  simp only [Option.some.injEq] at e1
  rw [e1]
  exact h2

/-- The entity of `r'` is declared in a package of `project'` that is not in `project`. -/
def DeclaredNew (project project' : GoMap Package) (path : Str) (r' : Obj) : Prop :=
  ∃ q' sym, (q'.path, q') ∈ project' ∧ q'.path ∈ variants path ∧ (∀ q, (q'.path, q) ∉ project) ∧ DeclaredAs q' r'.self.pos sym

theorem inProject_same (ht : TypedProject D project all objs) (ht' : TypedProject D' project' all' objs') {r r' : Obj} {path : Str}
    (hd : ∀ q, (q.path, q) ∈ project → ∀ sym, DeclaredAs q r.self.pos sym ∨ DeclaredAs q r'.self.pos sym → r'.self.pos = r.self.pos)
    (hn : ¬ DeclaredNew project project' path r') (sym : Str) : NamedInProject project' path r' sym ↔ NamedInProject project path r sym := by
  constructor
  · rintro ⟨q', h1, h2, h3⟩
    by_cases hq : ∃ q, (q'.path, q) ∈ project
    · obtain ⟨q, hq⟩ := hq
      have e : q'.path = q.path := (ht.project_keyed.path _ _ hq).symm
      rw [e] at hq
      have hs := counterpart hx ht' hq h1 e
      have h4 := (declaredAs_same hs).1 h3
      rw [hd q hq sym (.inr h4)] at h4
      exact ⟨q, hq, e ▸ h2, h4⟩
    · exact absurd ⟨q', sym, h1, h2, fun q h => hq ⟨q, h⟩, h3⟩ hn
  · rintro ⟨q, h1, h2, h3⟩
    obtain ⟨q', h4, hs⟩ := hx.packages q h1
    refine ⟨q', h4, by rw [hs.path]; exact h2, ?_⟩
    rw [declaredAs_same hs, hd q h1 sym (.inl h3)]
    exact h3

theorem namedBy_same (ht : TypedProject D project all objs) (ht' : TypedProject D' project' all' objs') {p : Package}
    (hp : (p.path, p) ∈ project) {u : Nat} {r r' : Obj} (hu : p.env.uses u = some r) (he : SameEntity D D' r r')
    (hd : ∀ q, (q.path, q) ∈ project → ∀ sym, DeclaredAs q r.self.pos sym ∨ DeclaredAs q r'.self.pos sym → r'.self.pos = r.self.pos)
    (hn : ∀ path, r.self.pkg = some path → ¬ DeclaredNew project project' path r') (sym : Str) :
    NamedBy D' project' all' r' sym ↔ NamedBy D project all r sym := by
  unfold NamedBy
  rw [ne_eq, he.nil, ne_eq, he.label, he.pkg]
  refine and_congr_right fun _ => and_congr_right fun _ => exists_congr fun path => and_congr_right fun hpk => and_congr_right fun _ => ?_
  have hin := inProject_same hx ht ht' (path := path) hd (hn path hpk)
  refine or_congr (hin sym) (and_congr (forall_congr' fun s => not_congr (hin s)) ?_)
  obtain ⟨l1, l2⟩ := hx.loaded p hp path (.used u r hu hpk)
  constructor
  · rintro ⟨q', ds, h1, h2, h3⟩
    obtain ⟨q, hq⟩ := l2 q' h1
    obtain ⟨q'', hq'', hm, _⟩ := l1 q hq
    have e := GoMap.get_of_mem ht'.all_keyed.nodup h1
    rw [GoMap.get_of_mem ht'.all_keyed.nodup hq''] at e
    simp only [Option.some.injEq] at e
    subst e
    exact ⟨q, ds, hq, (he.known path ds hpk).1 h2, by rw [h3, hm]⟩
  · rintro ⟨q, ds, h1, h2, h3⟩
    obtain ⟨q', hq', hm, _⟩ := l1 q h1
    exact ⟨q', ds, hq', (he.known path ds hpk).2 h2, by rw [h3, hm]⟩

/-! ## Occurrences -/

theorem identRefs_same (ht : TypedProject D project all objs) (ht' : TypedProject D' project' all' objs') (hu : Unambiguous project)
    (hu' : Unambiguous project') {p p' : Package} (hp : (p.path, p) ∈ project) (hp' : (p'.path, p') ∈ project') (h : SameSource D D' p p')
    {f : SourceFile} (hf : f ∈ p.files) {upto : List Ident} {u : Ident} {os os' : List Occurrence}
    (h1 : IdentRefs D project all (p, f) upto u os) (h2 : IdentRefs D' project' all' (p', f) upto u os')
    (d1 : ∀ r, p.env.uses u.uid = some r → RefsDeprecated project r os) (d2 : ∀ r, p'.env.uses u.uid = some r → RefsDeprecated project' r os') :
    SameBesides (NewReference D D' project all project' all' p p') os os' := by
  classical
  rcases hx.uses p p' hp hp' h u.uid with ⟨e1, e2⟩ | ⟨r, r', e1, e2, he, hd, hl⟩
  · rw [h1.nothing (.inr (.inr e1)), h2.nothing (.inr (.inr e2))]
    exact .nil
  · by_cases hno : u.name = go!"_" ∨ SwitchIdent p u
    · rw [h1.nothing (hno.imp_right .inl), h2.nothing (hno.imp_right fun x => .inl ((switch_same h).2 x))]
      exact .nil
    simp only [not_or] at hno
    obtain ⟨hb, hs⟩ := hno
    have hs' : ¬ SwitchIdent p' u := fun x => hs ((switch_same h).1 x)
    have hloc := locals_same hx ht ht' hp hp' h f
    have hspan := span_same h u
    have hev : ∀ l ∈ localIdents D all p f, l ∈ identsOf (fileEventsOf D all p f) := fun l hm => (List.mem_filter.1 hm).1
    have hiff : ∀ l ∈ localIdents D all p f, l.pos = r'.self.pos ↔ l.pos = r.self.pos := fun l hm =>
      ⟨fun e => by rw [e]; exact hl f hf l (hev l hm) (.inr e), fun e => by rw [e]; exact (hl f hf l (hev l hm) (.inl e)).symm⟩
    by_cases hlo : ∃ l ∈ localIdents D all p f, l ∈ upto ∧ l.pos = r.self.pos
    · obtain ⟨l, hl1, hl2, hl3⟩ := hlo
      obtain ⟨k, hk⟩ := List.mem_iff_getElem?.1 hl1
      rw [h1.toLocal hb hs r e1 k l hk hl2 hl3,
        h2.toLocal hb hs' r' e2 k l (by rw [show localIdents D' all' (p', f).1 (p', f).2 = _ from hloc]; exact hk) hl2 ((hiff l hl1).2 hl3), hspan]
      exact .refl _
    · have hl1 : ∀ l ∈ localIdents D all p f, l ∈ upto → l.pos ≠ r.self.pos := fun l a b c => hlo ⟨l, a, b, c⟩
      have hl2 : ∀ l ∈ localIdents D' all' p' f, l ∈ upto → l.pos ≠ r'.self.pos := by
        rw [hloc]; intro l a b c; exact hlo ⟨l, a, b, (hiff l a).1 c⟩
      by_cases hn : ∀ path, r.self.pkg = some path → ¬ DeclaredNew project project' path r'
      · have hsame := namedBy_same hx ht ht' hp e1 he hd hn
        by_cases hnm : ∃ sym, NamedBy D project all r sym
        · obtain ⟨sym, dep, eq1, n1⟩ := h1.toEntity hb hs r e1 hl1 hnm
          obtain ⟨sym', dep', eq2, n2⟩ := h2.toEntity hb hs' r' e2 hl2 (by obtain ⟨s, hs⟩ := hnm; exact ⟨s, (hsame s).2 hs⟩)
          obtain rfl := namedBy_unique ht hu n1 ((hsame sym').1 n2)
          have d1 := d1 r e1
          have d2 := d2 r' e2
          rw [eq1] at d1
          rw [eq2] at d2
          have d1 := d1 _ (List.mem_singleton_self _) (fun k => namedBy_global n1 k)
          have d2 := d2 _ (List.mem_singleton_self _) (fun k => namedBy_global n1 k)
          have hdd : dep = dep' := by
            rcases d1 with ⟨path, q, s, a1, a2, a3, a4, a5, a6⟩ | ⟨a1, a2⟩
            · have hpos := hd q a2 _ (.inl (EntityInfo.declared a4))
              obtain ⟨q', hq', hss⟩ := hx.packages q a2
              have a4' : EntityInfo q' r'.self.pos s := by rw [hpos]; exact (entityInfo_same hss).2 a4
              rcases d2 with ⟨path', q₂, s', b1, b2, b3, b4, b5, b6⟩ | ⟨b1, b2⟩
              · have := hu'.packages q' q₂ hq' b2 _ _ _ (EntityInfo.declared a4') (EntityInfo.declared b4)
                subst this
                have := entity_unique hu' hq' a4' b4
                subst this
                rw [Bool.eq_iff_iff]
                exact a6.trans b6.symm
              · exact absurd ⟨q', hq', by rw [hss.path]; exact a3, EntityInfo.declared a4'⟩ (b1 path _ (by rw [he.pkg]; exact a1))
            · rcases d2 with ⟨path', q₂, s', b1, b2, b3, b4, b5, b6⟩ | ⟨b1, b2⟩
              · rw [he.pkg] at b1
                have : NamedInProject project' path' r' s'.symbol := ⟨q₂, b2, b3, EntityInfo.declared b4⟩
                exact absurd ((inProject_same hx ht ht' hd (hn path' b1) _).1 this) (a1 path' _ b1)
              · exact a2.trans b2.symm
          rw [eq1, eq2, hdd, hspan]
          exact .refl _
        · have hnm1 : ∀ sym, ¬ NamedBy D project all r sym := fun s x => hnm ⟨s, x⟩
          rw [h1.unnamed hb hs r e1 hl1 hnm1, h2.unnamed hb hs' r' e2 hl2 (fun s x => hnm1 s ((hsame s).1 x))]
          exact .nil
      · simp only [not_forall, not_not] at hn
        obtain ⟨path, hpk, q', symq, hq', hv, hnew, hdq⟩ := hn
        by_cases hun : r.self.cls = .nil ∨ r.self.cls = .label ∨ path = go!"unsafe"
        · have n1 : ∀ sym, ¬ NamedBy D project all r sym := by
            rintro sym ⟨x1, x2, path', x3, x4, _⟩
            rw [hpk] at x3
            simp only [Option.some.injEq] at x3
            subst x3
            rcases hun with y | y | y
            · exact x1 y
            · exact x2 y
            · exact x4 y
          have n2 : ∀ sym, ¬ NamedBy D' project' all' r' sym := by
            rintro sym ⟨x1, x2, path', x3, x4, _⟩
            rw [he.pkg, hpk] at x3
            simp only [Option.some.injEq] at x3
            subst x3
            rcases hun with y | y | y
            · exact x1 (he.nil.2 y)
            · exact x2 (he.label.2 y)
            · exact x4 y
          rw [h1.unnamed hb hs r e1 hl1 n1, h2.unnamed hb hs' r' e2 hl2 n2]
          exact .nil
        · simp only [not_or] at hun
          obtain ⟨u1, u2, u3⟩ := hun
          have n2 : NamedBy D' project' all' r' symq := ⟨fun x => u1 (he.nil.1 x), fun x => u2 (he.label.1 x), path, by rw [he.pkg]; exact hpk, u3,
            .inl ⟨q', hq', hv, hdq⟩⟩
          obtain ⟨sym', dep', eq2, n2⟩ := h2.toEntity hb hs' r' e2 hl2 ⟨_, n2⟩
          have d2 := d2 r' e2
          rw [eq2] at d2
          have d2 := d2 _ (List.mem_singleton_self _) (fun k => namedBy_global n2 k)
          have hni : NewlyIndexed project project' r' sym' dep' := by
            rcases d2 with ⟨path', q₂, s', b1, b2, b3, b4, b5, b6⟩ | ⟨b1, b2⟩
            · have := hu'.packages q' q₂ hq' b2 _ _ _ hdq (EntityInfo.declared b4)
              subst this
              exact ⟨path', q', s', b1, hq', b3, hnew, b4, b5, b6⟩
            · exact absurd ⟨q', hq', hv, hdq⟩ (b1 path symq (by rw [he.pkg]; exact hpk))
          by_cases hnm : ∃ sym, NamedBy D project all r sym
          · obtain ⟨sym, dep, eq1, n1⟩ := h1.toEntity hb hs r e1 hl1 hnm
            have d1 := d1 r e1
            rw [eq1] at d1
            have d1 := d1 _ (List.mem_singleton_self _) (fun k => namedBy_global n1 k)
            have hdep : dep = false := by
              rcases d1 with ⟨path', q, s, a1, a2, a3, a4, a5, a6⟩ | ⟨a1, a2⟩
              · exfalso
                have hpos := hd q a2 _ (.inl (EntityInfo.declared a4))
                obtain ⟨q₂, hq₂, hss⟩ := hx.packages q a2
                have a4' : EntityInfo q₂ r'.self.pos s := by rw [hpos]; exact (entityInfo_same hss).2 a4
                have := hu'.packages q' q₂ hq' hq₂ _ _ _ hdq (EntityInfo.declared a4')
                subst this
                exact hnew q (by rw [hss.path]; exact a2)
              · exact a2
            rw [eq1, eq2, hdep, hspan]
            refine .other ⟨u, r, r', e1, e2, rfl, fun s => ⟨?_, ?_⟩, n2, hni⟩ .nil
            · rintro ⟨⟩; exact n1
            · intro n; rw [namedBy_unique ht hu n1 n]
          · have hnm1 : ∀ sym, ¬ NamedBy D project all r sym := fun s x => hnm ⟨s, x⟩
            rw [h1.unnamed hb hs r e1 hl1 hnm1, eq2, hspan]
            refine .more ⟨u, r, r', e1, e2, rfl, fun s => ⟨?_, fun n => absurd n (hnm1 s)⟩, n2, hni⟩ .nil
            rintro ⟨⟩

theorem identDefs_same (ht : TypedProject D project all objs) (ht' : TypedProject D' project' all' objs') (hu : Unambiguous project)
    {p p' : Package} (hp : (p.path, p) ∈ project) (hp' : (p'.path, p') ∈ project') (h : SameSource D D' p p')
    {f : SourceFile} (hf : f ∈ p.files) {syms syms' : List (SymInfo × List Str)} {i : Ident} {decl : Option (Nat × Nat)}
    {os os' : List Occurrence} (h1 : IdentDefs D all (p, f) syms i decl os) (h2 : IdentDefs D' all' (p', f) syms' i decl os') : os = os' := by
  have hloc := locals_same hx ht ht' hp hp' h f
  refine identDefs_unique ht hu hp hf h1 (syms' := syms') ⟨fun hn => ?_, fun hb hs => ?_, fun hl hs => ?_, fun hd hl => ?_⟩
  · exact h2.nothing (fun x => hn ((declaring_same h).1 x))
  · obtain ⟨k, hk, e⟩ := h2.switch hb ((switch_same h).2 hs)
    refine ⟨k, ?_, ?_⟩
    · rw [← hk]; exact congrArg (fun l => l[k]?) hloc.symm
    · rw [e]; simp only [span_same h]
  · obtain ⟨k, hk, e⟩ := h2.toLocal ((localIdent_same h).2 hl) (fun x => hs ((switch_same h).1 x))
    refine ⟨k, ?_, ?_⟩
    · rw [← hk]; exact congrArg (fun l => l[k]?) hloc.symm
    · rw [e]; simp only [span_same h, h.position]
  · obtain ⟨s, hs, h3, dep, h4, e⟩ := h2.toEntity ((declaring_same h).2 hd) (fun x => hl ((localIdent_same h).1 x))
    exact ⟨s, hs, (entityInfo_same h).1 h3, dep, h4, by rw [e]; simp only [span_same h, h.position]⟩

theorem loadedSymbol_same (ht' : TypedProject D' project' all' objs') {p : Package} (hp : (p.path, p) ∈ project) {path : Str} (hr : RefersTo p path)
    {q q' : Package} (hq : (path, q) ∈ all) (hq' : (path, q') ∈ all') : packageSymbol q' = packageSymbol q := by
  obtain ⟨q₂, h1, h2, h3⟩ := (hx.loaded p hp path hr).1 q hq
  have e := GoMap.get_of_mem ht'.all_keyed.nodup h1
  rw [GoMap.get_of_mem ht'.all_keyed.nodup hq'] at e
  simp only [Option.some.injEq] at e
  subst e
  unfold packageSymbol
  rw [h2, h3]

theorem event_same (ht : TypedProject D project all objs) (ht' : TypedProject D' project' all' objs') (hu : Unambiguous project)
    (hu' : Unambiguous project') {p p' : Package} (hp : (p.path, p) ∈ project) (hp' : (p'.path, p') ∈ project') (h : SameSource D D' p p')
    {f : SourceFile} (hf : f ∈ p.files) {syms syms' : List (SymInfo × List Str)} {upto : List Ident} {ev : Event}
    (hm : ev ∈ fileEventsOf D all p f) {defs refs defs' refs' : List Occurrence}
    (h1 : EventOccurrences D project all (p, f) syms upto ev defs refs) (h2 : EventOccurrences D' project' all' (p', f) syms' upto ev defs' refs') :
    SameBesides (NewReference D D' project all project' all' p p') (defs ++ refs) (defs' ++ refs') := by
  classical
  obtain ⟨a1, a2⟩ := h1
  obtain ⟨b1, b2⟩ := h2
  cases ev with
  | ident i decl =>
    rw [identDefs_same hx ht ht' hu hp hp' h hf a2.1 b2.1]
    exact (Spec.SameBesides.refl _).append (identRefs_same hx ht ht' hu hu' hp hp' h hf a1 b1 a2.2 b2.2)
  | qualifier i x imported =>
    obtain ⟨y, hy⟩ : ∃ u r, p.env.uses u = some r ∧ r.self.cls = .pkgName imported :=
      ⟨i.uid, x, traverseList_qualifier _ _ _ _ _ _ hm⟩
    obtain ⟨r, hr, hc⟩ := hy
    have href : RefersTo p imported := .qualifier y r hr hc
    rw [show defs = [] from a2, show defs' = [] from b2]
    have : refs = refs' := by
      by_cases hq : ∃ q, (imported, q) ∈ all
      · obtain ⟨q, hq⟩ := hq
        obtain ⟨q', hq', _⟩ := (hx.loaded p hp imported href).1 q hq
        rw [a1.1 q hq, b1.1 q' hq', loadedSymbol_same hx ht' hp href hq hq', span_same h]
      · rw [a1.2 (fun q x => hq ⟨q, x⟩), b1.2 (fun q' x => hq ((hx.loaded p hp imported href).2 q' x))]
    rw [this]
    exact .refl _
  | imp uid name pp =>
    rw [show defs = [] from a2, show defs' = [] from b2]
    have hb : (p'.pkgNameOf uid).bind p'.imports = (p.pkgNameOf uid).bind p.imports := by rw [h.pkgNameOf, h.imports]
    have : refs = refs' := by
      by_cases hq : ∃ imported q, (p.pkgNameOf uid).bind p.imports = some imported ∧ (imported, q) ∈ all
      · obtain ⟨imported, q, hi, hq⟩ := hq
        have href : RefersTo p imported := .imported uid hi
        obtain ⟨q', hq', _⟩ := (hx.loaded p hp imported href).1 q hq
        rw [a1.1 imported q hi hq, b1.1 imported q' (hb.trans hi) hq', loadedSymbol_same hx ht' hp href hq hq']
        simp only [h.position]
      · rw [a1.2 (fun imported q hi x => hq ⟨imported, q, hi, x⟩), b1.2 ?_]
        intro imported q' hi x
        rw [show (p', f).1 = p' from rfl, hb] at hi
        obtain ⟨q, hq'⟩ := (hx.loaded p hp imported (.imported uid hi)).2 q' x
        exact hq ⟨imported, q, hi, hq'⟩
    rw [this]
    exact .refl _

/-- The occurrences of a file in both cases. -/
theorem occurrences_same (ht : TypedProject D project all objs) (ht' : TypedProject D' project' all' objs') (hu : Unambiguous project)
    (hu' : Unambiguous project') {p p' : Package} (hp : (p.path, p) ∈ project) (hp' : (p'.path, p') ∈ project') (h : SameSource D D' p p')
    {f : SourceFile} (hf : f ∈ p.files) {syms syms' : List (SymInfo × List Str)} {occs occs' : List Occurrence}
    (h1 : DocumentOccurrences D project all (p, f) syms occs) (h2 : DocumentOccurrences D' project' all' (p', f) syms' occs') :
    SameBesides (NewReference D D' project all project' all' p p') occs occs' := by
  obtain ⟨parts, rfl, hlen, h1⟩ := h1
  obtain ⟨parts', rfl, hlen', h2⟩ := h2
  have hev := events_same hx ht ht' hp hp' h f
  have hev' : fileEventsOf D' all' (p', f).1 (p', f).2 = fileEventsOf D all p f := hev
  simp only [packageSymbol_same h, h.position]
  refine .same _ (parts_same ?_ ?_)
  · rw [hlen, hlen', hev']
  · intro k x x' hx1 hx2
    have hk : k < (fileEventsOf D all p f).length := by
      have := (List.getElem?_eq_some_iff.1 hx1).1
      rw [hlen] at this
      exact this
    have e := List.getElem?_eq_getElem hk
    refine event_same hx ht ht' hu hu' hp hp' h hf (syms' := syms') (List.getElem_mem hk) (h1 k _ x e hx1) ?_
    have := h2 k ((fileEventsOf D all p f)[k]) x' (by rw [hev']; exact e) hx2
    rw [hev'] at this
    exact this

/-! ## Descriptions -/

theorem descriptions_same (ht : TypedProject D project all objs) (ht' : TypedProject D' project' all' objs') (hu : Unambiguous project)
    {p p' : Package} (hp : (p.path, p) ∈ project) (hp' : (p'.path, p') ∈ project') (h : SameSource D D' p p')
    {f : SourceFile} (hf : f ∈ p.files) {syms syms' : List (SymInfo × List Str)}
    (h1 : DocumentDescriptions D o project all (p, f) syms) (h2 : DocumentDescriptions D' o' project' all' (p', f) syms') :
    (syms.map (·.1)).Perm (syms'.map (·.1)) := by
  have hloc := locals_same hx ht ht' hp hp' h f
  have hloc' : localIdents D' all' (p', f).1 (p', f).2 = localIdents D all p f := hloc
  obtain ⟨qs, en, lo, a1, a2, a3, a4, a5, a6⟩ := h1
  obtain ⟨qs', en', lo', b1, b2, b3, b4, b5, b6⟩ := h2
  rw [hloc'] at b5 b6
  have hq : qs.Perm qs' := (List.perm_ext_iff_of_nodup a2 b2).2 fun q => by
    rw [a3 q, b3 q]
    simp only [declaredAs_same h, h.fileOf f hf q]
  have he : (en.map (·.1)).Perm (en'.map (·.1)) := by
    refine forall2_perm (R := fun q s => EntityInfo p q s) (fun q s s' => entity_unique hu hp) ?_ ?_ hq
    · rw [List.forall₂_map_right_iff]
      exact a4.imp fun q s x => x.1
    · rw [List.forall₂_map_right_iff]
      exact b4.imp fun q s x => (entityInfo_same h).1 x.1
  have hl : lo.map (·.1) = lo'.map (·.1) := by
    refine List.ext_getElem (by rw [List.length_map, List.length_map]; exact a5.trans b5.symm) ?_
    intro k hk hk'
    rw [List.length_map] at hk hk'
    rw [List.getElem_map, List.getElem_map]
    have hi : k < (localIdents D all p f).length := lt_of_lt_of_eq hk a5
    exact localInfo_unique hu hp (a6 k _ _ (List.getElem?_eq_getElem hi) (List.getElem?_eq_getElem hk)).1
      (localInfo_same h (b6 k _ _ (List.getElem?_eq_getElem hi) (List.getElem?_eq_getElem hk')).1)
  have p1 := (a1.map (·.1))
  have p2 := (b1.map (·.1))
  rw [List.map_append] at p1 p2
  rw [hl] at p1
  exact p1.trans ((he.append_right _).trans p2.symm)

/-! ## New references -/

/-- If the entities of the newly indexed packages are plainly declared, a reference has the symbol that it had before. -/
theorem newReference_plain (ht : TypedProject D project all objs) (ht' : TypedProject D' project' all' objs')
    (hu' : Unambiguous project') {p p' : Package} (hp : (p.path, p) ∈ project) (hp' : (p'.path, p') ∈ project') (h : SameSource D D' p p')
    (hplain : PlainlyDeclared D' project project' p') {range : List Int} {sym? : Option Str} {sym : Str} {dep : Bool}
    (hn : NewReference D D' project all project' all' p p' range sym? sym dep) : sym? = some sym := by
  obtain ⟨i, r, r', e1, e2, _, hs, hnb, path, q', s, hpk, hq', hv, hnew, hinfo, rfl, _⟩ := hn
  obtain ⟨hnil, hlab, path', hpk', hun, _⟩ := hnb
  rw [hpk] at hpk'
  simp only [Option.some.injEq] at hpk'
  subst hpk'
  rcases hx.uses p p' hp hp' h i.uid with ⟨e, _⟩ | ⟨r₁, r₁', a1, a2, he, hd, hl⟩
  · rw [e1] at e; simp at e
  rw [e1] at a1
  rw [e2] at a2
  simp only [Option.some.injEq] at a1 a2
  subst a1
  subst a2
  obtain ⟨rfl, f, hf, n, hpos, htd⟩ := hplain i.uid r' path q' _ e2 hpk hq' hv hnew (EntityInfo.declared hinfo)
  obtain ⟨hdecl, hne⟩ := typedDecl_path D'.scopes q'.env f.decls n (entityOf r') htd
  have hpd : PackageDeclares q'.env (q'.files.map SourceFile.node) n (describe D'.scopes q'.path (entityOf r')) r'.self.pos :=
    ⟨f.name, f.decls, List.mem_map.2 ⟨f, hf, rfl⟩, hpos ▸ hdecl⟩
  have hsym : s.symbol = q'.env.fromDescriptors (describe D'.scopes q'.path (entityOf r')) :=
    declaredAs_unique hu' hq' (EntityInfo.declared hinfo) (.inl ⟨n, _, hpd, rfl⟩)
  obtain ⟨l1, l2⟩ := hx.loaded p hp q'.path (.used i.uid r e1 (he.pkg ▸ hpk))
  have hq'all := ht'.sub _ _ hq'
  obtain ⟨q, hq⟩ := l2 q' hq'all
  obtain ⟨q'', hq'', hm, _⟩ := l1 q hq
  have e := GoMap.get_of_mem ht'.all_keyed.nodup hq'all
  rw [GoMap.get_of_mem ht'.all_keyed.nodup hq''] at e
  simp only [Option.some.injEq] at e
  subst e
  have hpn : ∀ x, (entityOf r').cls ≠ .pkgName x := by
    intro x hc
    have : describe D'.scopes q''.path (entityOf r') ≠ [] := hne
    cases htd with
    | typ _ _ hc' _ => rw [hc] at hc'; simp at hc'
    | value _ _ _ _ hc' _ => rw [hc] at hc'; simp at hc'
    | func _ hc' _ => rw [hc] at hc'; simp at hc'
    | method _ _ _ hc' _ _ => rw [hc] at hc'; simp at hc'
    | field _ _ _ _ hc' _ _ _ _ _ _ => rw [hc] at hc'; simp at hc'
  refine (hs _).2 ⟨fun x => hnil (he.nil.2 x), fun x => hlab (he.label.2 x), q''.path, he.pkg ▸ hpk, hun, .inr ⟨?_, q, _, hq,
    (he.known _ _ (he.pkg ▸ hpk)).1 ((describe_iff D'.scopes q''.path _ hpn _).1 ⟨rfl, hne⟩), ?_⟩⟩
  · rintro s' ⟨q₁, b1, b2, b3⟩
    have hpos' := hd q₁ b1 s' (.inl b3)
    obtain ⟨q₂, c1, c2⟩ := hx.packages q₁ b1
    have b3' : DeclaredAs q₂ r'.self.pos s' := by rw [hpos']; exact (declaredAs_same c2).2 b3
    have := hu'.packages q'' q₂ hq' c1 _ _ _ (EntityInfo.declared hinfo) b3'
    subst this
    exact hnew q₁ (c2.path ▸ b1)
  · rw [hsym, PkgEnv.fromDescriptors, hm]

end

/-- **C95**, the document of a file depends only on its package and on what this refers to: if more packages are indexed, then its document
describes the same entities in the same words, and has the same occurrences except for references to entities of the packages that were
not indexed before.  Relationships are left out: a type can implement interfaces of the other packages. -/
theorem C95_document (D D' : Deps) (o o' : Opts) (ord ord' : MapOrders) (w w' : Writer) (project all project' all' : GoMap Package)
    (objs objs' : List Obj) (ht : TypedProject D project all objs) (ht' : TypedProject D' project' all' objs')
    (hv : ValidMapOrders ord) (hv' : ValidMapOrders ord') (hn : NamedTypes D project all) (hn' : NamedTypes D' project' all')
    (hdist : ∀ p, (p.path, p) ∈ project → DistinctIdents p) (hdist' : ∀ p, (p.path, p) ∈ project' → DistinctIdents p)
    (horig : ∀ r ∈ objs, ∀ q, (entityOf r).cls ≠ .pkgName q) (horig' : ∀ r ∈ objs', ∀ q, (entityOf r).cls ≠ .pkgName q)
    (hu : Unambiguous project) (hu' : Unambiguous project') (hx : Extended D D' project all project' all')
    (p p' : Package) (hs : SameSource D D' p p') (f : SourceFile) (n n' : Nat)
    (he : (filesOf (sortedValues project))[n]? = some (p, f)) (he' : (filesOf (sortedValues project'))[n']? = some (p', f))
    (path path' : Str) (occs occs' : List Occurrence) (syms syms' : List (SymInfo × List Str))
    (hm : (index D o ord w (.ok (project, all))).messages[n + 1]? = some (.document path occs syms))
    (hm' : (index D' o' ord' w' (.ok (project', all'))).messages[n' + 1]? = some (.document path' occs' syms')) :
    (o'.moduleRoot = o.moduleRoot → path' = path) ∧ (syms.map (·.1)).Perm (syms'.map (·.1)) ∧
    SameBesides (NewReference D D' project all project' all' p p') occs occs' := by
  obtain ⟨hp, hf, _⟩ := mem_project_files ht (List.mem_of_getElem? he)
  obtain ⟨hp', _, _⟩ := mem_project_files ht' (List.mem_of_getElem? he')
  have d := C87_document D o ord w project all objs ht hv hn hdist horig n _ he path occs syms hm
  have d' := C87_document D' o' ord' w' project' all' objs' ht' hv' hn' hdist' horig' n' _ he' path' occs' syms' hm'
  refine ⟨fun e => ?_, descriptions_same hx ht ht' hu hp hp' hs hf d.descriptions d'.descriptions,
    occurrences_same hx ht ht' hu hu' hp hp' hs hf d.occurrences d'.occurrences⟩
  rw [d.path, d'.path, e]

/-- **C95**, what does not refer to the other packages: the occurrences are the same. -/
theorem C95_nothing_new (D D' : Deps) (o o' : Opts) (ord ord' : MapOrders) (w w' : Writer) (project all project' all' : GoMap Package)
    (objs objs' : List Obj) (ht : TypedProject D project all objs) (ht' : TypedProject D' project' all' objs')
    (hv : ValidMapOrders ord) (hv' : ValidMapOrders ord') (hn : NamedTypes D project all) (hn' : NamedTypes D' project' all')
    (hdist : ∀ p, (p.path, p) ∈ project → DistinctIdents p) (hdist' : ∀ p, (p.path, p) ∈ project' → DistinctIdents p)
    (horig : ∀ r ∈ objs, ∀ q, (entityOf r).cls ≠ .pkgName q) (horig' : ∀ r ∈ objs', ∀ q, (entityOf r).cls ≠ .pkgName q)
    (hu : Unambiguous project) (hu' : Unambiguous project') (hx : Extended D D' project all project' all')
    (p p' : Package) (hs : SameSource D D' p p') (f : SourceFile) (n n' : Nat)
    (he : (filesOf (sortedValues project))[n]? = some (p, f)) (he' : (filesOf (sortedValues project'))[n']? = some (p', f))
    (path path' : Str) (occs occs' : List Occurrence) (syms syms' : List (SymInfo × List Str))
    (hm : (index D o ord w (.ok (project, all))).messages[n + 1]? = some (.document path occs syms))
    (hm' : (index D' o' ord' w' (.ok (project', all'))).messages[n' + 1]? = some (.document path' occs' syms'))
    (hno : ∀ u r' pkg q', p'.env.uses u = some r' → r'.self.pkg = some pkg → (q'.path, q') ∈ project' → q'.path ∈ variants pkg →
      ∃ q, (q'.path, q) ∈ project) : occs' = occs := by
  obtain ⟨_, _, h⟩ := C95_document D D' o o' ord ord' w w' project all project' all' objs objs' ht ht' hv hv' hn hn' hdist hdist' horig horig' hu hu' hx
    p p' hs f n n' he he' path path' occs occs' syms syms' hm hm'
  have hno' : ∀ range sym? sym dep, ¬ NewReference D D' project all project' all' p p' range sym? sym dep := by
    rintro range sym? sym dep ⟨i, r, r', _, e2, _, _, _, pkg, q', s, hpk, hq', hv, hnew, _⟩
    obtain ⟨q, hq⟩ := hno i.uid r' pkg q' e2 hpk hq' hv
    exact hnew q hq
  clear hm hm'
  induction h with
  | nil => rfl
  | same a _ ih => rw [ih]
  | other hr => exact absurd hr (hno' _ _ _ _)
  | more hr => exact absurd hr (hno' _ _ _ _)

/-- **C95**, what is plainly declared: references to the packages that were not indexed before have the same symbols, but can be marked as
deprecated now. -/
theorem C95_only_marks (D D' : Deps) (o o' : Opts) (ord ord' : MapOrders) (w w' : Writer) (project all project' all' : GoMap Package)
    (objs objs' : List Obj) (ht : TypedProject D project all objs) (ht' : TypedProject D' project' all' objs')
    (hv : ValidMapOrders ord) (hv' : ValidMapOrders ord') (hn : NamedTypes D project all) (hn' : NamedTypes D' project' all')
    (hdist : ∀ p, (p.path, p) ∈ project → DistinctIdents p) (hdist' : ∀ p, (p.path, p) ∈ project' → DistinctIdents p)
    (horig : ∀ r ∈ objs, ∀ q, (entityOf r).cls ≠ .pkgName q) (horig' : ∀ r ∈ objs', ∀ q, (entityOf r).cls ≠ .pkgName q)
    (hu : Unambiguous project) (hu' : Unambiguous project') (hx : Extended D D' project all project' all')
    (p p' : Package) (hs : SameSource D D' p p') (f : SourceFile) (n n' : Nat)
    (he : (filesOf (sortedValues project))[n]? = some (p, f)) (he' : (filesOf (sortedValues project'))[n']? = some (p', f))
    (path path' : Str) (occs occs' : List Occurrence) (syms syms' : List (SymInfo × List Str))
    (hm : (index D o ord w (.ok (project, all))).messages[n + 1]? = some (.document path occs syms))
    (hm' : (index D' o' ord' w' (.ok (project', all'))).messages[n' + 1]? = some (.document path' occs' syms'))
    (hplain : PlainlyDeclared D' project project' p') :
    List.Forall₂ (fun a b => b = a ∨ b = { a with deprecated := true } ∧ ∃ r', NewlyIndexed project project' r' a.symbol true) occs occs' := by
  obtain ⟨_, _, h⟩ := C95_document D D' o o' ord ord' w w' project all project' all' objs objs' ht ht' hv hv' hn hn' hdist hdist' horig horig' hu hu' hx
    p p' hs f n n' he he' path path' occs occs' syms syms' hm hm'
  obtain ⟨hp, _, _⟩ := mem_project_files ht (List.mem_of_getElem? he)
  obtain ⟨hp', _, _⟩ := mem_project_files ht' (List.mem_of_getElem? he')
  have hsym : ∀ range sym? sym dep, NewReference D D' project all project' all' p p' range sym? sym dep → sym? = some sym :=
    fun range sym? sym dep hr => newReference_plain hx ht ht' hu' hp hp' hs hplain hr
  clear hm hm'
  induction h with
  | nil => exact .nil
  | same a _ ih => exact .cons (.inl rfl) ih
  | @other range sym sym' dep os os' hr _ ih =>
    refine .cons ?_ ih
    have e := hsym _ _ _ _ hr
    simp only [Option.some.injEq] at e
    subst e
    cases dep with
    | false => exact .inl rfl
    | true =>
      obtain ⟨i, r, r', _, _, _, _, _, hni⟩ := hr
      exact .inr ⟨rfl, r', hni⟩
  | more hr => have e := hsym _ _ _ _ hr; simp at e

end
end Verif
