import Verif.Props.PackageSymbol
/-! # C111: relationships and external symbols lead from one index into another -/
namespace Verif
open Spec Index

section
variable {D D' : Deps} {project all project' all' : GoMap Package} {objs objs' : List Obj} {p q : Package} {f : SourceFile} {i : Ident} {ok : Prop} {r : Obj}

/-- **C111**: a symbol by which the second index means an entity of `p` (in a reference or as a relationship, e.g. that of a method to the method of an
interface) is the one of the definition in the first index exactly under the condition `ok` of C04. -/
theorem C111_symbol {ds : List Descriptor} (ht' : TypedProject D' project' all' objs') (hp : ParsedProject project)
    (hfields : fieldOk p.env.module.path ∧ fieldOk p.env.module.version) (hd : Denoted D project all p f i ds) (g : SourceFile) (hg : g ∈ p.files)
    (ho : EntityDecl D'.scopes (specScopeName p.env.position) p.env.pkgPath g.decls i (entityOf r) ok)
    (hk : DependencyIn project' all' p) (hpkg : r.self.pkg = some p.env.pkgPath) (sym : Str) (hs : NamedBy D' project' all' r sym) :
    sym = p.env.fromDescriptors ds ↔ ok := by
  obtain ⟨hne, hiff⟩ := crossPath hp hd hg ho
  obtain ⟨_, rfl⟩ := (crossNamed (D' := D') hk ht'.all_keyed (entityDecl_cls ho) hpkg sym).1 hs
  rw [← hiff]
  constructor
  · intro h
    exact (C01_symbol_injective _ _ _ _ _ _ hfields.1 hfields.2 hfields.1 hfields.2 h).2.2.symm
  · intro h
    rw [← h]

theorem type_leads (o : Opts) (ht : TypedProject D project all objs) (hp : ParsedProject project)
    (hfields : ∀ p, (p.path, p) ∈ all → fieldOk p.env.module.path ∧ fieldOk p.env.module.version) (ms : List Message) (h : IndexOf D o project all ms)
    (hd : Denoted D project all p f i [⟨p.path, .nspace⟩, ⟨i.name, .typ⟩]) (hdef : (p.env.defs i.uid).isSome) (hsw : ¬ SwitchIdent p i)
    (hpath : q.path = p.path) (hmod : q.env.module = p.env.module) : LeadsTo D p i ms (typeSymbol q i.name) := by
  have hsym : typeSymbol q i.name = p.env.fromDescriptors [⟨p.path, .nspace⟩, ⟨i.name, .typ⟩] := by
    unfold typeSymbol PkgEnv.fromDescriptors
    rw [hpath, hmod]
  rw [hsym]
  obtain ⟨s, h1, h2, _⟩ := C100_one_description ht hp hfields ms h hd
  exact ⟨C100_one_definition ht hp hfields ms h hd hdef hsw, s, h1, h2⟩

/-- **C111**, for external symbols: an external symbol of the second index stands for a type of a dependency, and leads to the declaration of the type in any
index of this package in the same module version. -/
theorem C111_external {o' : Opts} {ms' : List Message} (h' : IndexOf D' o' project' all' ms') (sym : Str) (rels : List Str)
    (hm : .external sym rels ∈ ms') : ∃ q t n, DependencyType project' all' q t n ∧
      ∀ (D : Deps) (o : Opts) (project all : GoMap Package) (objs : List Obj) (ms : List Message) (p : Package) (f : SourceFile) (i : Ident),
        TypedProject D project all objs → ParsedProject project →
        (∀ p, (p.path, p) ∈ all → fieldOk p.env.module.path ∧ fieldOk p.env.module.version) → IndexOf D o project all ms →
        Denoted D project all p f i [⟨p.path, .nspace⟩, ⟨i.name, .typ⟩] → (p.env.defs i.uid).isSome → ¬ SwitchIdent p i →
        q.path = p.path → q.env.module = p.env.module → t.obj.name = i.name → LeadsTo D p i ms sym := by
  obtain ⟨md, ps, docs, es, rfl, _, _, _, hdocs, hes⟩ := h'
  rcases List.mem_cons.1 hm with hm | hm
  · simp at hm
  rcases List.mem_append.1 hm with hm | hm
  · rw [List.forall₂_iff_get] at hdocs
    obtain ⟨k, hk, e⟩ := List.mem_iff_getElem.1 hm
    obtain ⟨_, _, _, h, _⟩ := hdocs.2 k (by rw [hdocs.1]; exact hk) hk
    simp [e] at h
  · obtain ⟨sym', rels', e, _, _, _, q, t, n, hdep, hsym, _⟩ := hes.real _ hm
    simp only [Message.external.injEq] at e
    obtain ⟨rfl, rfl⟩ := e
    refine ⟨q, t, n, hdep, ?_⟩
    intro D o project all objs ms p f i ht hp hfields h hd hdef hsw hpath hmod hname
    rw [hsym, hname]
    exact type_leads o ht hp hfields ms h hd hdef hsw hpath hmod

/-- **C111**, for relationships of types: if a type of the second project implements an interface of a dependency, then the relationships of the type have a
symbol that leads to the declaration of the interface in the first index. -/
theorem C111_implemented {o o' : Opts} {ms : List Message} (ht : TypedProject D project all objs) (hp : ParsedProject project)
    (hfields : ∀ p, (p.path, p) ∈ all → fieldOk p.env.module.path ∧ fieldOk p.env.module.version) (h : IndexOf D o project all ms)
    (hd : Denoted D project all p f i [⟨p.path, .nspace⟩, ⟨i.name, .typ⟩]) (hdef : (p.env.defs i.uid).isSome) (hsw : ¬ SwitchIdent p i)
    (hskip : o'.skipImplementations = false) {p' : Package} {d d' : Impl.TypeDef} {t n : Impl.NamedT}
    (hrel : TypesRelate D'.ext project' all' true false p' d t q d' n) (hpath : q.path = p.path) (hmod : q.env.module = p.env.module)
    (hname : d'.obj.name = i.name) (rels : List Str) (hrels : RelationshipsAt D' o' project' all' p' d.obj.pos rels) :
    ∃ x ∈ rels, LeadsTo D p i ms x := by
  refine ⟨typeSymbol q d'.obj.name, (hrels.2 _).2 ⟨hskip, .inl ⟨false, d, t, q, d', n, hrel, rfl, rfl⟩⟩, ?_⟩
  rw [hname]
  exact type_leads o ht hp hfields ms h hd hdef hsw hpath hmod

end

end Verif
