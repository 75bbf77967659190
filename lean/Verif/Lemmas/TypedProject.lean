import Verif.Lemmas.Project
import Verif.Lemmas.AskedExtract
import Verif.Lemmas.Traversal
import Verif.Props.FileVisitor
import Verif.Props.Implementations
/-! # Lemmas: what holds for the files of a typed project -/
namespace Verif.Index
open Verif Verif.Spec

section
variable {D : Deps} {o : Opts} {ord : MapOrders} {project all : GoMap Package} {objs : List Obj} {g : Global}

theorem known_eq (hg : Collected' o project all g) :
    (fun p => (g.getPkgSymbol p).isSome) = (fun q => (all.get q).isSome) := by
  funext k
  rw [hg.packages, Option.isSome_map]

theorem events_eq (hg : Collected' o project all g) (n : Nat) (p : Package) (t : Table) (f : SourceFile) :
    fileEvents (fileEnv D ord n p t) g f.decls = fileEventsOf D all p f := by
  unfold fileEvents fileEventsOf fileEventsIn
  rw [known_eq hg]
  exact traverseList_congr (env := fileEnv D ord n p t) (env' := sourceEnv D p) rfl _ _

theorem parsed_of (hg : Collected' o project all g) (ht : TypedProject D project all objs) {p : Package} (hp : (p.path, p) ∈ project)
    {f : SourceFile} (hf : f ∈ p.files) (n : Nat) (t : Table) :
    ParsedFile (fileEnv D ord n p t) (fun p => (g.getPkgSymbol p).isSome) f.decls := by
  rw [known_eq hg]
  have := (ht.files _ p hp f hf).parsed
  exact ⟨this.top_level, by rw [traverseList_congr (env := fileEnv D ord n p t) (env' := sourceEnv D p) rfl]; exact this.distinct⟩

theorem typed_of (hg : Collected' o project all g) (ht : TypedProject D project all objs) (hv : ValidMapOrders ord)
    {p : Package} (hp : (p.path, p) ∈ project) {f : SourceFile} (hf : f ∈ p.files) (n : Nat) {t : Table}
    (hl : g.symbols.lookup p.path = some ⟨some p.env.module, t⟩) :
    TypedFile (fileEnv D ord n p t) (fileEvents (fileEnv D ord n p t) g f.decls) objs g := by
  have hs := ht.files _ p hp f hf
  rw [events_eq hg]
  refine ⟨?_, ?_, hs.looked_up, ht.coherent, ht.wellFormed, ?_, ht.positions _ p hp, hs.imports, hs.import_names⟩
  · intro pos
    show (g.symbols.lookup p.path).bind _ = _
    rw [hl]; rfl
  · rw [hg.composer]; exact ⟨rfl, hg.skipped⟩
  · intro x hx
    apply ht.unquoted _ p hp x
    rcases hx with hx | hx
    · exact .inl hx
    · exact .inr ((hv.implicits n p.implicits).subset hx)

/-- The extractor's view of the packages. -/
theorem mem_impl_all (ht : TypedProject D project all objs) (hv : ValidMapOrders ord) {q : Impl.Pkg} :
    q ∈ (ord.extractAll (all.map (·.2))).map (Package.impl ord) ↔ ∃ p, (p.path, p) ∈ all ∧ q = Package.impl ord p := by
  rw [List.mem_map]
  constructor
  · rintro ⟨p, hp, rfl⟩
    obtain ⟨⟨k, p'⟩, hp', rfl⟩ := List.mem_map.1 ((hv.extractAll _).subset hp)
    have e := ht.all_keyed.path k p' hp'
    simp only at *
    exact ⟨p', by rw [e]; exact hp', rfl⟩
  · rintro ⟨p, hp, rfl⟩
    exact ⟨p, (hv.extractAll _).symm.subset (List.mem_map.2 ⟨_, hp, rfl⟩), rfl⟩

theorem mem_impl_project (ht : TypedProject D project all objs) (hv : ValidMapOrders ord) {q : Impl.Pkg} :
    q ∈ (ord.extractProject (project.map (·.2))).map (Package.impl ord) ↔ ∃ p, (p.path, p) ∈ project ∧ q = Package.impl ord p := by
  rw [List.mem_map]
  constructor
  · rintro ⟨p, hp, rfl⟩
    obtain ⟨⟨k, p'⟩, hp', rfl⟩ := List.mem_map.1 ((hv.extractProject _).subset hp)
    have e := ht.project_keyed.path k p' hp'
    simp only at *
    exact ⟨p', by rw [e]; exact hp', rfl⟩
  · rintro ⟨p, hp, rfl⟩
    exact ⟨p, (hv.extractProject _).symm.subset (List.mem_map.2 ⟨_, hp, rfl⟩), rfl⟩

theorem impl_sub (ht : TypedProject D project all objs) (hv : ValidMapOrders ord) :
    ∀ q ∈ (ord.extractProject (project.map (·.2))).map (Package.impl ord),
      q ∈ (ord.extractAll (all.map (·.2))).map (Package.impl ord) := by
  intro q hq
  obtain ⟨p, hp, rfl⟩ := (mem_impl_project ht hv).1 hq
  exact (mem_impl_all ht hv).2 ⟨p, ht.sub _ _ hp, rfl⟩

theorem impl_defs (hv : ValidMapOrders ord) {p : Package} {ds : List (Option Impl.TypeDef)} {t : Option Impl.TypeDef}
    (h : (Package.impl ord p).defs = some ds) (hm : t ∈ ds) : ∃ ds', p.defs = some ds' ∧ t ∈ ds' := by
  obtain ⟨ds', h1, rfl⟩ := Option.map_eq_some_iff.1 h
  exact ⟨ds', h1, (hv.defs _ _).subset hm⟩

/-- Each entry of `Defs` or of the scope of the extractor's view is one of the package. -/
theorem impl_type (hv : ValidMapOrders ord) {p : Package} {t : Impl.TypeDef}
    (h : ∃ ds, ((Package.impl ord p).defs = some ds ∨ (Package.impl ord p).scope = some ds) ∧ some t ∈ ds) :
    ∃ ds, (p.defs = some ds ∨ p.scope = some ds) ∧ some t ∈ ds := by
  obtain ⟨ds, h | h, hm⟩ := h
  · obtain ⟨ds', h1, h2⟩ := impl_defs hv h hm
    exact ⟨ds', .inl h1, h2⟩
  · exact ⟨ds, .inr h, hm⟩

/-- What the symbol table says about the packages. -/
theorem registered_of (hg : Collected' o project all g) (ht : TypedProject D project all objs) {p : Package} (hp : (p.path, p) ∈ all) :
    ∃ r, g.symbols.lookup p.path = some r ∧ r.module = some p.env.module := by
  cases hk : project.get p.path with
  | none =>
    refine ⟨⟨some p.env.module, []⟩, ?_, rfl⟩
    · rw [hg.others _ hk, GoMap.get_of_mem ht.all_keyed.nodup hp]; rfl
  | some p' =>
    have hp' := GoMap.mem_of_get hk
    have hpa := ht.sub _ _ hp'
    have e1 := GoMap.get_of_mem ht.all_keyed.nodup hp
    have e2 := GoMap.get_of_mem ht.all_keyed.nodup hpa
    rw [e1] at e2
    simp only [Option.some.injEq] at e2
    subst e2
    obtain ⟨t, _, hl⟩ := hg.inProject p hp'
    exact ⟨_, hl, rfl⟩

theorem pkgKnown_of (hg : Collected' o project all g) (ht : TypedProject D project all objs) (hv : ValidMapOrders ord) :
    ∀ q ∈ (ord.extractAll (all.map (·.2))).map (Package.impl ord), Impl.PkgKnown g objs q := by
  intro q hq
  obtain ⟨p, hp, rfl⟩ := (mem_impl_all ht hv).1 hq
  refine ⟨?_, ?_, ?_⟩
  · intro t h n hn m hm
    exact (((ht.asked _ p hp t (impl_type hv h)) n hn).1 m hm).1
  · intro ds hds t hm
    exact ht.scope _ p hp ds hds t hm
  · exact registered_of hg ht hp

theorem asked_sub (ht : TypedProject D project all objs) (hv : ValidMapOrders ord) :
    ∀ x ∈ askedObjs ((ord.extractAll (all.map (·.2))).map (Package.impl ord)), x ∈ objs := by
  intro x hx
  rcases List.mem_append.1 hx with hx | hx
  · obtain ⟨n, hn, hx⟩ := List.mem_flatMap.1 hx
    obtain ⟨m, hm, rfl⟩ := List.mem_map.1 hx
    obtain ⟨q, hq, hn⟩ := List.mem_flatMap.1 hn
    obtain ⟨d, hd, he⟩ := List.mem_filterMap.1 hn
    obtain ⟨p, hp, rfl⟩ := (mem_impl_all ht hv).1 hq
    cases d with
    | none => simp at he
    | some t =>
      have he' : t.named = some n := he
      refine ((ht.asked _ p hp t (impl_type hv ?_) n he').1 m hm).1
      rcases List.mem_append.1 hd with hd | hd
      · cases hds : (Package.impl ord p).defs with
        | none => rw [hds] at hd; simp at hd
        | some ds => rw [hds] at hd; exact ⟨ds, .inl rfl, hd⟩
      · cases hds : (Package.impl ord p).scope with
        | none => rw [hds] at hd; simp at hd
        | some ds => rw [hds] at hd; exact ⟨ds, .inr rfl, hd⟩
  · obtain ⟨q, hq, hx⟩ := List.mem_flatMap.1 hx
    obtain ⟨p, hp, rfl⟩ := (mem_impl_all ht hv).1 hq
    obtain ⟨d, hd, he⟩ := List.mem_filterMap.1 hx
    cases d with
    | none => simp at he
    | some t =>
      simp only [Option.map_some, Option.some.injEq] at he
      subst he
      cases hds : (Package.impl ord p).scope with
      | none => rw [hds] at hd; simp at hd
      | some ds => rw [hds] at hd; exact (ht.scope _ p hp ds hds t hd).2

theorem methodSet_of (ht : TypedProject D project all objs) (hv : ValidMapOrders ord) {n : Impl.NamedT}
    (hn : n ∈ methodSets ((ord.extractAll (all.map (·.2))).map (Package.impl ord))) :
    (∀ m ∈ n.methods, m.obj ∈ objs ∧ ∃ s, m.obj.self.cls = .func s) ∧ (n.methods.map Impl.Method.id).Nodup := by
  obtain ⟨q, hq, hn⟩ := List.mem_flatMap.1 hn
  obtain ⟨d, hd, he⟩ := List.mem_filterMap.1 hn
  obtain ⟨p, hp, rfl⟩ := (mem_impl_all ht hv).1 hq
  cases d with
  | none => simp at he
  | some t =>
    refine ht.asked _ p hp t (impl_type hv ?_) n he
    rcases List.mem_append.1 hd with hd | hd
    · cases hds : (Package.impl ord p).defs with
      | none => rw [hds] at hd; simp at hd
      | some ds => rw [hds] at hd; exact ⟨ds, .inl rfl, hd⟩
    · cases hds : (Package.impl ord p).scope with
      | none => rw [hds] at hd; simp at hd
      | some ds => rw [hds] at hd; exact ⟨ds, .inr rfl, hd⟩

/-- The hypotheses of the theorems on the implementation pass hold in a run. -/
theorem consistent_of (hg : Collected' o project all g) (ht : TypedProject D project all objs) (hv : ValidMapOrders ord) :
    Consistent g ((ord.extractAll (all.map (·.2))).map (Package.impl ord)) where
  fresh := by rw [hg.composer]; exact ⟨rfl, hg.skipped⟩
  coherent := CoherentObjs.mono ht.coherent (asked_sub ht hv)
  wellFormed := fun x hx => ht.wellFormed x (asked_sub ht hv x hx)
  funcs := fun n hn m hm => ((methodSet_of ht hv hn).1 m hm).2
  oneMethod := fun n hn => (methodSet_of ht hv hn).2
  scopeTypes := by
    intro q hq ds hds t hm
    obtain ⟨p, hp, rfl⟩ := (mem_impl_all ht hv).1 hq
    exact (ht.scope _ p hp ds hds t hm).1
  modules := by
    intro q hq r hr
    obtain ⟨p, hp, rfl⟩ := (mem_impl_all ht hv).1 hq
    obtain ⟨r', hr', e⟩ := registered_of hg ht hp
    have hr2 : g.symbols.lookup p.path = some r := hr
    rw [hr'] at hr2
    simp only [Option.some.injEq] at hr2
    rw [← hr2]; exact e
  registered := by
    intro q hq
    obtain ⟨p, hp, rfl⟩ := (mem_impl_all ht hv).1 hq
    obtain ⟨r', hr', e⟩ := registered_of hg ht hp
    exact ⟨r', hr'⟩

theorem implementations_asked (hg : Collected' o project all g) (ht : TypedProject D project all objs) (hv : ValidMapOrders ord)
    {g' heap ex} (h : implementations D o ord project all g = some (g', heap, ex)) : Asked D.scopes g objs g' := by
  unfold implementations at h
  split at h
  · simp only [Option.some.injEq, Prod.mk.injEq] at h
    rw [← h.1]; exact .start
  · obtain ⟨r, hr, he⟩ := Option.map_eq_some_iff.1 h
    simp only [Prod.mk.injEq] at he
    rw [← he.1]
    exact Impl.addImplementations_asked (pkgKnown_of hg ht hv) (impl_sub ht hv) hr

end

end Verif.Index
