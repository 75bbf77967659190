import Verif.Spec.Types
import Verif.Props.WholeRun
/-! # C31-C35 for whole runs, in terms of the source -/
namespace Verif
open Spec Index

section
variable {D : Deps} {o : Opts} {ord : MapOrders} {project all : GoMap Package} {objs : List Obj} {g : Global}

/-- The description of a type. -/
def Spec.typeRef (b : Bool) (p : Package) (d : Impl.TypeDef) : Impl.SymRef :=
  match b with
  | true => ⟨.entry p.path d.obj.pos, typeSymbol p d.obj.name⟩
  | false => ⟨.type false (typeSymbol p d.obj.name), typeSymbol p d.obj.name⟩

theorem typeRef_sym (b : Bool) (p : Package) (d : Impl.TypeDef) : (typeRef b p d).sym = typeSymbol p d.obj.name := by
  cases b <;> rfl

theorem same_package (ht : TypedProject D project all objs) {p q : Package} (hp : (p.path, p) ∈ all) (hq : (q.path, q) ∈ all)
    (h : p.path = q.path) : p = q := by
  have e1 := GoMap.get_of_mem ht.all_keyed.nodup hp
  have e2 := GoMap.get_of_mem ht.all_keyed.nodup hq
  rw [h, e2] at e1
  exact (Option.some.inj e1).symm

theorem file_of (ht : TypedProject D project all objs) {p : Package} (hp : (p.path, p) ∈ project) {f : SourceFile} (hf : f ∈ p.files) :
    (p, f) ∈ filesOf (sortedValues project) := by
  unfold filesOf
  refine List.mem_flatMap.2 ⟨p, ?_, List.mem_map.2 ⟨f, hf, rfl⟩⟩
  exact (mem_sortedValues ht.project_keyed).2 hp

/-- The entry of a type in the table of its package. -/
theorem type_entry (hg : Collected' o project all g) (ht : TypedProject D project all objs) (hn : NamedTypes D project all)
    {p : Package} {d : Impl.TypeDef} {t : Impl.NamedT} (h : ProjectType project p d t) :
    ∃ r info, g.symbols.lookup p.path = some r ∧ r.table.get d.obj.pos = some info ∧ info.symbol = typeSymbol p d.obj.name := by
  obtain ⟨f, hf, i, hi, hpos, hname, hdecl, honly⟩ := hn.declared p d t h
  obtain ⟨tab, htab, hl⟩ := hg.inProject p h.package
  obtain ⟨info, h1, h2⟩ := table_of_declared ht (e := (p, f)) (file_of ht h.package hf) htab hi hdecl (fun i' ds' h => (honly i' ds' h).2)
  refine ⟨_, info, hl, by rw [← hpos]; exact h1, ?_⟩
  rw [h2, hname]
  rfl

/-- The symbol composed for a type of a dependency. -/
theorem type_composed (hg : Collected' o project all g) (ht : TypedProject D project all objs) {p : Package} {d : Impl.TypeDef}
    (hp : (p.path, p) ∈ all) {ds : List (Option Impl.TypeDef)} (hs : p.scope = some ds) (hd : some d ∈ ds)
    (hc : ∃ ty, d.obj.cls = .typeName ty) :
    (g.composer.compose D.scopes (some (some p.env.module)) (some (.plain d.obj))).2 = typeSymbol p d.obj.name := by
  obtain ⟨ty, hc⟩ := hc
  have hpkg := (ht.scope _ p hp ds hs d hd).1
  unfold Composer.compose
  rw [hg.composer]
  have e1 : (Obj.plain d.obj).self.pkg = some p.path := hpkg
  simp only [e1]
  have e2 : (newComposer o.moduleRoot o.moduleVersion).compositions = [] := rfl
  rw [e2]
  simp only [List.lookup_nil]
  have e3 : describe D.scopes p.path (Obj.plain d.obj).canon = [⟨p.path, .nspace⟩, ⟨d.obj.name, .typ⟩] := by
    have e4 : (Obj.plain d.obj).canon = d.obj := by
      unfold Obj.canon
      simp only [show (Obj.plain d.obj).self = d.obj from rfl, hc]
    rw [e4]
    simp [describe, hc]
  rw [e3]
  rfl

/-- What the index describes as types, in terms of the source. -/
theorem described_iff (hg : Collected' o project all g) (ht : TypedProject D project all objs) (hv : ValidMapOrders ord)
    (hn : NamedTypes D project all) (b : Bool) (t : Impl.NamedT) (s : Impl.SymRef) (path : Str) :
    Described D.scopes g b (side (projectPkgs ord project) (allPkgs ord all) b) t s path ↔
      ∃ p d, KnownType project all b p d t ∧ path = p.path ∧ s = typeRef b p d := by
  have hremote : ∀ q, q ∈ Impl.remotePackages (projectPkgs ord project) (allPkgs ord all) ↔
      ∃ p, (p.path, p) ∈ all ∧ (∀ q', (p.path, q') ∉ project) ∧ q = Package.impl ord p := by
    intro q
    unfold Impl.remotePackages
    rw [List.mem_filter]
    have hin : ∀ p : Package, p.path ∈ (projectPkgs ord project).map (·.path) ↔ ∃ q', (p.path, q') ∈ project := by
      intro p
      rw [List.mem_map]
      constructor
      · rintro ⟨q, hq, h⟩
        obtain ⟨p', hp', rfl⟩ := (mem_impl_project ht hv).1 hq
        exact ⟨p', by rw [← h]; exact hp'⟩
      · rintro ⟨q', hq'⟩
        have e := ht.project_keyed.path _ _ hq'
        exact ⟨Package.impl ord q', (mem_impl_project ht hv).2 ⟨q', by rw [e]; exact hq', rfl⟩, e⟩
    constructor
    · rintro ⟨h1, h2⟩
      obtain ⟨p, hp, rfl⟩ := (mem_impl_all ht hv).1 h1
      refine ⟨p, hp, ?_, rfl⟩
      intro q' hq'
      simp only [decide_eq_true_eq] at h2
      exact h2 ((hin p).2 ⟨q', hq'⟩)
    · rintro ⟨p, hp, hout, rfl⟩
      refine ⟨(mem_impl_all ht hv).2 ⟨p, hp, rfl⟩, ?_⟩
      simp only [decide_eq_true_eq]
      intro h
      obtain ⟨q', hq'⟩ := (hin p).1 h
      exact hout q' hq'
  cases b with
  | true =>
    constructor
    · intro h
      cases h with
      | @source q ds d named r i h1 h2 h3 h4 h5 h6 h7 h8 =>
        obtain ⟨p, hp, rfl⟩ := (mem_impl_project ht hv).1 h1
        obtain ⟨ds', h3', h4'⟩ := impl_defs hv h3 h4
        have hT : ProjectType project p d t := ⟨hp, h2, ⟨ds', h3', h4'⟩, h5 (hn.checked p hp h2).2, h6⟩
        obtain ⟨r', info, e1, e2, e3⟩ := type_entry hg ht hn hT
        refine ⟨p, d, hT, rfl, ?_⟩
        have e4 : g.symbols.lookup p.path = some r := h7
        rw [e1] at e4
        simp only [Option.some.injEq] at e4
        subst e4
        rw [h8] at e2
        simp only [Option.some.injEq] at e2
        subst e2
        show (⟨.entry p.path d.obj.pos, i.symbol⟩ : Impl.SymRef) = ⟨.entry p.path d.obj.pos, typeSymbol p d.obj.name⟩
        rw [e3]
      | @exported q ds d named sym h1 h2 h3 h4 h5 h6 h7 h8 h9 =>
        exfalso
        obtain ⟨p, hp, rfl⟩ := (mem_impl_project ht hv).1 h1
        have := (hn.checked p hp h2).1
        have h3' : p.defs.map (ord.defs p.path) = none := h3
        rw [Option.map_eq_none_iff] at h3'
        rw [h3'] at this
        simp at this
    · rintro ⟨p, d, hT, rfl, rfl⟩
      obtain ⟨r, info, e1, e2, e3⟩ := type_entry hg ht hn hT
      obtain ⟨ds, hds, hm⟩ := hT.declared
      have := Described.source (scopes := D.scopes) (g := g) (project := true) (ps := side (projectPkgs ord project) (allPkgs ord all) true)
        (p := Package.impl ord p) (ds := ord.defs p.path ds) (d := d) (named := t) (r := r) (i := info)
        ((mem_impl_project ht hv).2 ⟨p, hT.package, rfl⟩) hT.notBuiltin (by show p.defs.map _ = _; rw [hds]; rfl)
        ((hv.defs _ _).symm.subset hm) (fun _ => hT.level) hT.named e1 e2
      rw [e3] at this
      exact this
  | false =>
    constructor
    · intro h
      cases h with
      | @source q ds d named r i h1 h2 h3 h4 h5 h6 h7 h8 =>
        exfalso
        obtain ⟨p, hp, hout, rfl⟩ := (hremote q).1 h1
        have hnone : project.get p.path = none := by
          cases hk : project.get p.path with
          | none => rfl
          | some q' => exact absurd (GoMap.mem_of_get hk) (hout q')
        have h7' : g.symbols.lookup p.path = some r := h7
        rw [hg.others _ hnone] at h7'
        obtain ⟨p', _, rfl⟩ := Option.map_eq_some_iff.1 h7'
        simp [Table.get_nil] at h8
      | @exported q ds d named sym h1 h2 h3 h4 h5 h6 h7 h8 h9 =>
        obtain ⟨p, hp, hout, rfl⟩ := (hremote q).1 h1
        have h3' : p.defs = none := by
          have h3' : p.defs.map (ord.defs p.path) = none := h3
          rwa [Option.map_eq_none_iff] at h3'
        have hT : DependencyType project all p d t := ⟨hp, hout, h2, h3', ⟨ds, h4, h5⟩, h6, h7⟩
        have e := type_composed hg ht hp h4 h5 (hn.scope_types p d t hT)
        have h8' : (g.composer.compose D.scopes (some (some p.env.module)) (some (.plain d.obj))).2 = sym := h8
        rw [e] at h8'
        refine ⟨p, d, hT, rfl, ?_⟩
        subst h8'
        rfl
    · rintro ⟨p, d, hT, rfl, rfl⟩
      obtain ⟨ds, hds, hm⟩ := hT.scope
      have e := type_composed hg ht hT.package hds hm (hn.scope_types p d t hT)
      refine Described.exported (p := Package.impl ord p) (ds := ds) (d := d) (named := t) ((hremote _).2 ⟨p, hT.package, hT.outside, rfl⟩)
        hT.notBuiltin (by show p.defs.map _ = none; rw [hT.exportData]; rfl) hds hm hT.exported hT.named e ?_
      unfold typeSymbol
      have := (C02_global_not_local ⟨p.env.module.path, p.env.module.version⟩ [⟨p.path, .nspace⟩, ⟨d.obj.name, .typ⟩] 0).1
      intro h
      simp [formatSymbol, writePackageField, doubleChar] at h

theorem known_package (ht : TypedProject D project all objs) {b : Bool} {p : Package} {d : Impl.TypeDef} {t : Impl.NamedT}
    (h : KnownType project all b p d t) : (p.path, p) ∈ all ∧ p.name ≠ go!"builtin" := by
  cases b with
  | true => exact ⟨ht.sub _ _ h.package, h.notBuiltin⟩
  | false => exact ⟨h.package, h.notBuiltin⟩

/-- **C01** for types: types with the same symbol are the same. -/
theorem type_symbols_distinct (ht : TypedProject D project all objs) (hn : NamedTypes D project all) {b b' : Bool} {p p' : Package}
    {d d' : Impl.TypeDef} {t t' : Impl.NamedT} (h : KnownType project all b p d t) (h' : KnownType project all b' p' d' t')
    (e : typeSymbol p d.obj.name = typeSymbol p' d'.obj.name) : b = b' ∧ p = p' ∧ d = d' ∧ t = t' := by
  obtain ⟨h1, h2⟩ := known_package ht h
  obtain ⟨h1', h2'⟩ := known_package ht h'
  obtain ⟨f1, f2⟩ := hn.fields p h1 h2
  obtain ⟨f1', f2'⟩ := hn.fields p' h1' h2'
  obtain ⟨_, _, e3⟩ := C01_symbol_injective _ _ _ _ _ _ f1 f2 f1' f2' e
  simp only [List.cons.injEq, Descriptor.mk.injEq, and_true] at e3
  have hpp := same_package ht h1 h1' e3.1
  subst hpp
  have hd : b = b' ∧ d = d' := by
    cases b with
    | true =>
      cases b' with
      | true => exact ⟨rfl, hn.once p d t d' t' h h' e3.2⟩
      | false => exact absurd h.package (h'.outside p)
    | false =>
      cases b' with
      | true => exact absurd h'.package (h.outside p)
      | false => exact ⟨rfl, hn.scope_once p d t d' t' h h' e3.2⟩
  obtain ⟨rfl, rfl⟩ := hd
  refine ⟨rfl, rfl, rfl, ?_⟩
  have n1 : d.named = some t := by cases b <;> exact h.named
  have n2 : d.named = some t' := by cases b <;> exact h'.named
  rw [n1] at n2
  exact Option.some.inj n2

theorem distinctTypes_of (ht : TypedProject D project all objs) (hv : ValidMapOrders ord) (hn : NamedTypes D project all) :
    DistinctTypes D o ord project all := by
  intro docs g h b t s path t' s' path' hD hD' e
  have hg := collected_global ht.project_keyed ht.all_keyed ht.sub hv.all h
  obtain ⟨p, d, hT, rfl, rfl⟩ := (described_iff hg ht hv hn b t s path).1 hD
  obtain ⟨p', d', hT', rfl, rfl⟩ := (described_iff hg ht hv hn b t' s' path').1 hD'
  rw [typeRef_sym, typeRef_sym] at e
  obtain ⟨_, rfl, rfl, rfl⟩ := type_symbols_distinct ht hn hT hT' e
  exact ⟨rfl, rfl, rfl⟩

theorem describedOnce_of (hg : Collected' o project all g) (ht : TypedProject D project all objs) (hv : ValidMapOrders ord)
    (hn : NamedTypes D project all) : DescriptionsDistinct D.scopes g (projectPkgs ord project) (allPkgs ord all) where
  types := by
    intro b t s path b' t' s' path' hD hD' e
    obtain ⟨p, d, hT, rfl, rfl⟩ := (described_iff hg ht hv hn b t s path).1 hD
    obtain ⟨p', d', hT', rfl, rfl⟩ := (described_iff hg ht hv hn b' t' s' path').1 hD'
    have hsym : typeSymbol p d.obj.name = typeSymbol p' d'.obj.name := by
      cases b <;> cases b' <;> simp only [typeRef, reduceCtorEq, Impl.Ref.entry.injEq, Impl.Ref.type.injEq] at e
      · exact e.2
      · obtain ⟨e1, e2⟩ := e
        have hpp := same_package ht (known_package ht hT).1 (known_package ht hT').1 e1
        subst hpp
        obtain ⟨f, hf, i, hi, hpos, hname, _⟩ := hn.declared p d t hT
        obtain ⟨f', hf', i', hi', hpos', hname', _⟩ := hn.declared p d' t' hT'
        obtain ⟨_, rfl⟩ := ident_at ht (file_of ht hT.package hf) (file_of ht hT.package hf') hi hi' (by rw [hpos, hpos', e2])
        rw [← hname, ← hname']
    obtain ⟨rfl, rfl, rfl, rfl⟩ := type_symbols_distinct ht hn hT hT' hsym
    exact ⟨rfl, rfl, rfl, rfl⟩
  methods := by
    intro b t s path b' t' s' path' n sn hD hD' hnm hdesc e
    obtain ⟨p, d, hT, rfl, rfl⟩ := (described_iff hg ht hv hn b t s path).1 hD
    obtain ⟨p', d', hT', rfl, rfl⟩ := (described_iff hg ht hv hn b' t' s' path').1 hD'
    obtain ⟨i, _, _, h | h⟩ := hdesc
    · obtain ⟨c, _, hr⟩ := h
      rw [hr] at e
      cases b with
      | false => simp [typeRef] at e
      | true =>
        simp only [typeRef, Impl.Ref.entry.injEq] at e
        exact hn.methods p d t hT b' p' d' t' hT' n hnm e.2.symm
    · rw [h.2] at e
      cases b <;> simp [typeRef] at e

/-! ## Methods -/

theorem tableOf_eq (hg : Collected' o project all g) (ht : TypedProject D project all objs) (r : Obj) :
    Impl.tableOf g r = declaringPackage project r := by
  classical
  unfold Impl.tableOf declaringPackage
  cases r.self.pkg with
  | none => rfl
  | some path =>
    show (variants path).find? _ = _
    congr 1
    funext c
    obtain ⟨h1, h2⟩ := symbolInformation_declared hg ht c r.self.pos
    rw [Bool.eq_iff_iff, decide_eq_true_eq]
    constructor
    · intro h
      obtain ⟨info, hi⟩ := Option.isSome_iff_exists.1 h
      obtain ⟨p, hp, rfl, hd⟩ := h1 info hi
      exact ⟨p, _, hp, hd⟩
    · rintro ⟨p, sym, hp, hd⟩
      have e := ht.project_keyed.path _ _ hp
      subst e
      obtain ⟨info, hi⟩ := h2 p hp rfl sym hd
      rw [hi]; rfl

theorem known_named {b : Bool} {p : Package} {d : Impl.TypeDef} {t : Impl.NamedT} (h : KnownType project all b p d t) :
    d.named = some t ∧ ∃ ds, (p.defs = some ds ∨ p.scope = some ds) ∧ some d ∈ ds := by
  cases b with
  | true => obtain ⟨ds, h1, h2⟩ := h.declared; exact ⟨h.named, ds, .inl h1, h2⟩
  | false => obtain ⟨ds, h1, h2⟩ := h.scope; exact ⟨h.named, ds, .inr h1, h2⟩

/-- The descriptions of methods, in terms of the source. -/
theorem method_named (hg : Collected' o project all g) (ht : TypedProject D project all objs) (hn : NamedTypes D project all)
    {b : Bool} {p : Package} {d : Impl.TypeDef} {t : Impl.NamedT} (h : KnownType project all b p d t) {m : Impl.Method}
    (hm : m ∈ t.methods) :
    (∀ info, (g.getSymbolOfObject D.scopes m.obj).2 = .info info → NamedBy D project all m.obj info.symbol) ∧
    ((∃ sym, NamedBy D project all m.obj sym) → ∃ info, (g.getSymbolOfObject D.scopes m.obj).2 = .info info) := by
  obtain ⟨h1, h2⟩ := known_named h
  obtain ⟨hobj, s, hs⟩ := ((ht.asked _ p (known_package ht h).1 d h2) t h1).1 m hm
  obtain ⟨c, hc⟩ := hn.origins b p d t h m hm
  exact lookup_named hg ht m.obj hobj (fun q e => by rw [hs] at e; simp at e) (fun q e => by rw [hc] at e; simp at e)

/-- What is related to the entry of a project package, in terms of the source. -/
theorem shouldRelate_iff (hg : Collected' o project all g) (ht : TypedProject D project all objs) (hv : ValidMapOrders ord)
    (hn : NamedTypes D project all) {p : Package} (hp : (p.path, p) ∈ project) (q : Nat) (x : Str) :
    (∃ b b', (b = true ∨ b' = true) ∧
      ShouldRelate D.ext D.scopes g (projectPkgs ord project) (allPkgs ord all) b b' (.entry p.path q) x) ↔
    RelatedType D project all p q x ∨ RelatedMethod D project all p q x := by
  constructor
  · rintro ⟨b, b', hb, t, st, pt, i, si, qi, hD, hti, hD', hii, hne, himp, hex, h1 | ⟨n, hnm, m, hm, hid, sn, sm, h1, h2, h3, h4⟩⟩
    · obtain ⟨p₁, d, hT, rfl, rfl⟩ := (described_iff hg ht hv hn b t st pt).1 hD
      obtain ⟨p', d', hT', rfl, rfl⟩ := (described_iff hg ht hv hn b' i si qi).1 hD'
      left
      cases b with
      | false => exact absurd h1.1 (by simp [typeRef])
      | true =>
        have e := h1.1
        simp only [typeRef, Impl.Ref.entry.injEq] at e
        have := same_package ht (ht.sub _ _ hp) (known_package ht hT).1 e.1
        subst this
        exact ⟨b', d, t, p', d', i, ⟨.inl rfl, hT, hti, hT', hii, hne, himp, hex⟩, e.2.symm, by rw [h1.2, typeRef_sym]⟩
    · obtain ⟨p₁, d, hT, rfl, rfl⟩ := (described_iff hg ht hv hn b t st pt).1 hD
      obtain ⟨p', d', hT', rfl, rfl⟩ := (described_iff hg ht hv hn b' i si qi).1 hD'
      right
      obtain ⟨in', e1, e2, e3⟩ := h1
      obtain ⟨im, e4, e5, e6⟩ := h2
      refine ⟨b, b', p₁, d, t, p', d', i, ⟨hb, hT, hti, hT', hii, hne, himp, hex⟩, n, hnm, m, hm, hid,
        ⟨_, (method_named hg ht hn hT hnm).1 in' e1⟩, ?_, ?_, ?_⟩
      · rw [← tableOf_eq hg ht]
        rcases e3 with ⟨c, h, h'⟩ | ⟨_, h⟩
        · rw [← h3] at h'
          simp only [Impl.Ref.entry.injEq] at h'
          rw [h, h'.1]
        · rw [h] at h3; simp at h3
      · rcases e3 with ⟨c, h, h'⟩ | ⟨_, h⟩
        · rw [← h3] at h'
          simp only [Impl.Ref.entry.injEq] at h'
          exact h'.2.symm
        · rw [h] at h3; simp at h3
      · rw [h4, e5]
        exact (method_named hg ht hn hT' hm).1 im e4
  · rintro (⟨b', d, t, p', d', i, h, rfl, rfl⟩ | ⟨b, b', p₁, d, t, p', d', i, h, n, hnm, m, hm, hid, hnn, hdp, rfl, hx⟩)
    · refine ⟨true, b', .inl rfl, t, _, _, i, _, _, (described_iff hg ht hv hn true t _ _).2 ⟨p, d, h.type, rfl, rfl⟩, h.concrete,
        (described_iff hg ht hv hn b' i _ _).2 ⟨p', d', h.interface, rfl, rfl⟩, h.isInterface, h.nonEmpty, h.implements, h.visible,
        .inl ⟨rfl, (typeRef_sym _ _ _).symm⟩⟩
    · obtain ⟨in', e1⟩ := (method_named hg ht hn h.type hnm).2 hnn
      obtain ⟨im, e4⟩ := (method_named hg ht hn h.interface hm).2 ⟨x, hx⟩
      have e5 := hn.named_once _ _ _ _ h.interface m hm _ _ hx ((method_named hg ht hn h.interface hm).1 im e4)
      rw [← tableOf_eq hg ht] at hdp
      refine ⟨b, b', h.sides, t, _, _, i, _, _, (described_iff hg ht hv hn b t _ _).2 ⟨p₁, d, h.type, rfl, rfl⟩, h.concrete,
        (described_iff hg ht hv hn b' i _ _).2 ⟨p', d', h.interface, rfl, rfl⟩, h.isInterface, h.nonEmpty, h.implements, h.visible,
        .inr ⟨n, hnm, m, hm, hid, ⟨.entry p.path n.obj.self.pos, in'.symbol⟩,
          ⟨Impl.methodRef b' (typeRef b' p' d').sym g m, im.symbol⟩, ⟨in', e1, rfl, .inl ⟨_, hdp, rfl⟩⟩, ⟨im, e4, rfl, ?_⟩, rfl, e5⟩⟩
      unfold Impl.methodRef
      cases hc : Impl.tableOf g m.obj with
      | some c => exact .inl ⟨c, rfl, rfl⟩
      | none => exact .inr ⟨rfl, rfl⟩

/-- The relationships in a document. -/
theorem relationshipsAt (hg : Collected' o project all g) (ht : TypedProject D project all objs) (hv : ValidMapOrders ord)
    (hn : NamedTypes D project all) {docs} (hvp : indexVisitPackages o ord project all = some (docs, g)) {g' heap ex}
    (him : implementations D o ord project all g = some (g', heap, ex)) {p : Package} (hp : (p.path, p) ∈ project) (q : Nat) :
    RelationshipsAt D o project all p q (heap (.entry p.path q)) := by
  cases hskip : o.skipImplementations with
  | true =>
    obtain ⟨rfl, _⟩ := implementations_skip hskip him
    simp [RelationshipsAt, hskip]
  | false =>
    obtain ⟨r, hr, rfl, _⟩ := implementations_run hskip him
    have hcons := consistent_of hg ht hv
    have hsub := impl_sub ht hv
    refine ⟨?_, ?_⟩
    · rcases C34_sorted_duplicate_free hcons hsub hv.impls hr (.entry p.path q) with h | h
      · rw [h]; exact .nil
      · exact h.1
    · intro x
      rw [heap_iff hcons hsub hv.impls (distinctTypes_of ht hv hn docs g hvp) hr]
      simp only [List.not_mem_nil, false_or, hskip, true_and]
      exact shouldRelate_iff hg ht hv hn hp q x

end

/-- **C84.** The relationships in the document of a file, completely and in terms of the source: what is described is local and has no
relationships, or it is declared at a position of this file and has exactly the relationships of this position; and everything that is
declared at a position of the file is described. -/
theorem C84_exact_relationships (D : Deps) (o : Opts) (ord : MapOrders) (w : Writer) (project all : GoMap Package) (objs : List Obj)
    (ht : TypedProject D project all objs) (hv : ValidMapOrders ord) (hn : NamedTypes D project all) (n : Nat)
    (e : Package × SourceFile) (he : (filesOf (sortedValues project))[n]? = some e) (path : Str) (occs : List Occurrence)
    (syms : List (SymInfo × List Str))
    (hm : (index D o ord w (.ok (project, all))).messages[n + 1]? = some (.document path occs syms)) :
    (∀ s ∈ syms, isLocalSymbol s.1.symbol = true ∧ s.2 = [] ∨
      ∃ q, D.fileOf q = some e.2.file ∧ DeclaredAs e.1 q s.1.symbol ∧ RelationshipsAt D o project all e.1 q s.2) ∧
    (∀ q sym, D.fileOf q = some e.2.file → DeclaredAs e.1 q sym →
      ∃ s ∈ syms, DeclaredAs e.1 q s.1.symbol ∧ RelationshipsAt D o project all e.1 q s.2) := by
  obtain ⟨docs, g, g', heap, ex, hvp, hg, him, t, st, hlk, htab, hvis, hmsg⟩ := run_document ht hv he hm
  simp only [Message.document.injEq] at hmsg
  obtain ⟨_, _, rfl⟩ := hmsg
  rw [document_pairs]
  have hT := packageTable_of htab
  have hp := (mem_sortedValues ht.project_keyed).1 (mem_filesOf.1 (List.mem_of_getElem? he)).1
  have t1 := fun q => (table_declared ht hp htab q).1
  have t2 := fun q => (table_declared ht hp htab q).2
  constructor
  · intro s hs
    rcases List.mem_append.1 hs with hs | hs
    · obtain ⟨⟨q, info⟩, hq, rfl⟩ := List.mem_map.1 hs
      simp only [List.mem_filter, beq_iff_eq] at hq
      have hget := Table.get_of_mem hT.uniq ((hv.table _ _).subset hq.1)
      exact .inr ⟨q, hq.2, t1 q info hget, relationshipsAt hg ht hv hn hvp him hp q⟩
    · obtain ⟨l, hl, rfl⟩ := List.mem_map.1 hs
      refine .inl ⟨?_, rfl⟩
      have hl' := (hv.locals _ _).subset hl
      rw [hvis.inv.locals] at hl'
      unfold localMap at hl'
      obtain ⟨z, _, rfl⟩ := List.mem_map.1 hl'
      exact localSymbol_prefix _
  · intro q sym hq hd
    obtain ⟨info, hi⟩ := t2 q ⟨sym, hd⟩
    refine ⟨(info, heap (.entry e.1.path q)), List.mem_append_left _ (List.mem_map.2 ⟨(q, info), ?_, rfl⟩), t1 q info hi,
      relationshipsAt hg ht hv hn hvp him hp q⟩
    exact List.mem_filter.2 ⟨(hv.table _ _).symm.subset (Table.mem_of_get hi), by simp [hq]⟩

/-- The type whose name is declared at a position. -/
theorem type_at {D : Deps} {project all : GoMap Package} {objs : List Obj} (ht : TypedProject D project all objs)
    (hn : NamedTypes D project all) {p : Package} {d d' : Impl.TypeDef} {t t' : Impl.NamedT} (h : ProjectType project p d t)
    (h' : ProjectType project p d' t') (e : d.obj.pos = d'.obj.pos) : d = d' ∧ t = t' := by
  obtain ⟨f, hf, i, hi, hpos, hname, _⟩ := hn.declared p d t h
  obtain ⟨f', hf', i', hi', hpos', hname', _⟩ := hn.declared p d' t' h'
  obtain ⟨_, rfl⟩ := ident_at ht (file_of ht h.package hf) (file_of ht h.package hf') hi hi' (by rw [hpos, hpos', e])
  have hd := hn.once p d t d' t' h h' (by rw [← hname, ← hname'])
  subst hd
  refine ⟨rfl, ?_⟩
  have := h.named
  rw [h'.named] at this
  exact (Option.some.inj this).symm

/-- **C84** for a type: the document of the file that declares a type at package level describes it, under its symbol, with exactly the
interfaces that it implements. -/
theorem C84_types (D : Deps) (o : Opts) (ord : MapOrders) (w : Writer) (project all : GoMap Package) (objs : List Obj)
    (ht : TypedProject D project all objs) (hv : ValidMapOrders ord) (hn : NamedTypes D project all) (n : Nat)
    (e : Package × SourceFile) (he : (filesOf (sortedValues project))[n]? = some e) (path : Str) (occs : List Occurrence)
    (syms : List (SymInfo × List Str))
    (hm : (index D o ord w (.ok (project, all))).messages[n + 1]? = some (.document path occs syms))
    (d : Impl.TypeDef) (t : Impl.NamedT) (hd : ProjectType project e.1 d t) (hf : D.fileOf d.obj.pos = some e.2.file) :
    ∃ s ∈ syms, s.1.symbol = typeSymbol e.1 d.obj.name ∧ s.2.Pairwise (fun a b => Str.lt a b = true) ∧
      ∀ x, x ∈ s.2 ↔ o.skipImplementations = false ∧
        ∃ b' p' d' i, TypesRelate D.ext project all true b' e.1 d t p' d' i ∧ x = typeSymbol p' d'.obj.name := by
  obtain ⟨f, hff, i, hi, hpos, hname, hdecl, honly⟩ := hn.declared e.1 d t hd
  obtain ⟨s, hs, hsd, hsort, hrel⟩ := (C84_exact_relationships D o ord w project all objs ht hv hn n e he path occs syms hm).2 d.obj.pos _ hf
    (.inl ⟨i, _, by rw [← hpos]; exact hdecl, rfl⟩)
  refine ⟨s, hs, ?_, hsort, ?_⟩
  · rcases hsd with ⟨i', ds, h1, h2⟩ | ⟨f', h1, h2, _⟩
    · rw [← hpos] at h1
      rw [h2, (honly i' ds h1).2, hname]
      rfl
    · exfalso
      exact (ht.clauses _ _ hd.package f hff f' (List.mem_of_mem_head? h1) i hi) (by rw [h2, hpos])
  · intro x
    rw [hrel x]
    constructor
    · rintro ⟨hsk, ⟨b', d₁, t₁, p', d', i', h, e1, e2⟩ | ⟨b, b', p₁, d₁, t₁, p', d', i', h, n', hnm, m, hmm, hid, hnn, hdp, hq, hx⟩⟩
      · obtain ⟨rfl, rfl⟩ := type_at ht hn hd h.type e1.symm
        exact ⟨hsk, b', p', d', i', h, e2⟩
      · exact absurd hq (hn.methods e.1 d t hd b p₁ d₁ t₁ h.type n' hnm)
    · rintro ⟨hsk, b', p', d', i', h, e2⟩
      exact ⟨hsk, .inl ⟨b', d, t, p', d', i', h, rfl, e2⟩⟩

/-! ## External symbols -/

/-- The symbol of an external description. -/
def Spec.externalSymbol : Message → Option Str
  | .external sym _ => some sym
  | _ => none

/-- **C35** (whole run): no external symbol is written twice, whether the run succeeds or not. -/
theorem C35_written_once (D : Deps) (o : Opts) (ord : MapOrders) (w : Writer) (project all : GoMap Package) (objs : List Obj)
    (ht : TypedProject D project all objs) (hv : ValidMapOrders ord) :
    ((index D o ord w (.ok (project, all))).messages.filterMap externalSymbol).Nodup := by
  have hnone : ∀ ms : List Message, (∀ m ∈ ms, isDocument m) → ms.filterMap externalSymbol = [] := by
    intro ms h
    rw [List.filterMap_eq_nil_iff]
    intro m hm
    have := h m hm
    cases m <;> simp_all [isDocument, externalSymbol]
  rcases index_stages D o ord w (.ok (project, all)) with ⟨e, _, hr⟩ | ⟨hw, ⟨e, hl, _⟩ | ⟨pr, al, hl, ⟨hc, hr⟩ |
    ⟨docs, g, g', heap, externals, hvp, him, rd, hrd, hr⟩⟩⟩
  · rw [hr]; exact .nil
  · simp at hl
  · rw [hr]; exact .nil
  · simp only [Except.ok.injEq, Prod.mk.injEq] at hl
    obtain ⟨rfl, rfl⟩ := hl
    have hg := collected_global ht.project_keyed ht.all_keyed ht.sub hv.all hvp
    have hnd : (externals.filterMap externalSymbol).Nodup := by
      cases hs : o.skipImplementations with
      | true => rw [(implementations_skip hs him).2]; simp
      | false =>
        obtain ⟨r, hi, _, rfl⟩ := implementations_run hs him
        obtain ⟨loc, rem, hL, hLr, hR, hRr, hmem, hsort, hframe, _, _, hext⟩ := run_spec (consistent_of hg ht hv) (impl_sub ht hv) hv.impls hi
        have e1 : (r.external.map (fun s => Message.external s.sym (r.heap s.ref))).filterMap externalSymbol = r.external.map (·.sym) := by
          rw [List.filterMap_map]
          exact congrFun (List.filterMap_eq_map (f := fun s : Impl.SymRef => s.sym)) _
        rw [e1]
        rw [(hext.map _).nodup_iff, List.map_map]
        have e2 : (rem.concretes.filter (fun e => r.heap e.2.symbol.ref ≠ [])).map ((fun s => s.sym) ∘ fun e => e.2.symbol) =
            (rem.concretes.filter (fun e => r.heap e.2.symbol.ref ≠ [])).map (·.1) := by
          apply List.map_congr_left
          intro x hx
          obtain ⟨t, sy, p, _, _, _, h1, h2⟩ := hR.concretes x (List.mem_of_mem_filter hx)
          show x.2.symbol.sym = x.1
          rw [h1, h2.symbol]
        rw [e2]
        exact (List.filter_sublist.map _).nodup hR.ckeys
    obtain ⟨_, ⟨ds, h2, h3, _, h5⟩, _⟩ := writeDocuments_spec D ord w heap docs (filesOf (sortedValues project)) g' _ (single_ok hw)
    rw [← hrd] at h2 h5
    have hds := hnone ds h3
    rcases hr with ⟨ho, hr⟩ | ⟨ho, hr⟩
    · obtain ⟨_, ⟨es, k2, k3, _⟩, _⟩ := writeExternals_spec w externals rd.messages (h5 ho).2
      rw [← hr] at k2
      rw [k2, h2]
      simp only [List.filterMap_append, hds, List.filterMap_cons, externalSymbol, List.filterMap_nil, List.nil_append]
      exact (k3.sublist.filterMap _).nodup hnd
    · rw [hr, h2]
      simp only [List.filterMap_append, hds, List.filterMap_cons, externalSymbol, List.filterMap_nil, List.nil_append]
      exact .nil

theorem no_external {ds : List Message} {fs : List (Package × SourceFile)} {f : Package × SourceFile → Str}
    (h1 : documentPaths ds = fs.map f) (h2 : ds.length = fs.length) (sym : Str) (rels : List Str) : Message.external sym rels ∉ ds := by
  intro hm
  have h3 : (documentPaths ds).length = ds.length := by rw [h1, h2, List.length_map]
  have h4 : ∀ l : List Message, (documentPaths l).length ≤ l.length := fun l => List.length_filterMap_le _ _
  obtain ⟨a, b, rfl⟩ := List.append_of_mem hm
  have h5 : documentPaths (a ++ Message.external sym rels :: b) = documentPaths a ++ documentPaths b := by
    simp [documentPaths, List.filterMap_append]
  rw [h5] at h3
  have ha := h4 a
  have hb := h4 b
  simp only [List.length_append, List.length_cons] at h3
  omega

/-- **C84** for external symbols: a successful run writes an external symbol for exactly the exported types of dependencies that implement
an interface of the project, each once, with exactly these interfaces in increasing order. -/
theorem C84_external_symbols (D : Deps) (o : Opts) (ord : MapOrders) (w : Writer) (project all : GoMap Package) (objs : List Obj)
    (ht : TypedProject D project all objs) (hv : ValidMapOrders ord) (hn : NamedTypes D project all)
    (hok : (index D o ord w (.ok (project, all))).outcome = .ok) :
    (∀ p d t p' d' i, o.skipImplementations = false → TypesRelate D.ext project all false true p d t p' d' i →
      ∃ rels, .external (typeSymbol p d.obj.name) rels ∈ (index D o ord w (.ok (project, all))).messages) ∧
    (∀ sym rels, .external sym rels ∈ (index D o ord w (.ok (project, all))).messages → o.skipImplementations = false ∧ rels ≠ [] ∧
      rels.Pairwise (fun a b => Str.lt a b = true) ∧
      ∃ p d t, DependencyType project all p d t ∧ sym = typeSymbol p d.obj.name ∧
        ∀ x, x ∈ rels ↔ ∃ p' d' i, TypesRelate D.ext project all false true p d t p' d' i ∧ x = typeSymbol p' d'.obj.name) := by
  obtain ⟨pr, al, docs, g, g', heap, ds, ex, hl, hvp, him, hmsgs, hpaths, hlen⟩ := C49_success_is_complete D o ord w _ hok
  simp only [Except.ok.injEq, Prod.mk.injEq] at hl
  obtain ⟨rfl, rfl⟩ := hl
  have hg := collected_global ht.project_keyed ht.all_keyed ht.sub hv.all hvp
  have hrun := C35_whole_run D o ord w project all objs ht hv (distinctTypes_of ht hv hn) g ⟨docs, hvp⟩ (describedOnce_of hg ht hv hn) hok
  have hdesc := described_iff hg ht hv hn
  constructor
  · intro p d t p' d' i hs h
    refine ((hrun.2 hs).1 _).2 ⟨t, (typeRef false p d).ref, p.path, i, typeRef true p' d', p'.path, ?_, h.concrete,
      (hdesc true i _ _).2 ⟨p', d', h.interface, rfl, rfl⟩, h.isInterface, h.nonEmpty, ?_, h.implements⟩
    · exact (hdesc false t _ _).2 ⟨p, d, h.type, rfl, rfl⟩
    · rcases h.visible with hx | hx
      · exact hx
      · exact absurd (by rw [hx]; exact h.interface.package) (h.type.outside p')
  · intro sym rels hmem
    cases hs : o.skipImplementations with
    | true => exact absurd hmem (hrun.1 hs sym rels)
    | false =>
      obtain ⟨_, h2⟩ := hrun.2 hs
      obtain ⟨t, ref, pt, hD, hx⟩ := h2 sym rels hmem
      obtain ⟨t', ref', p', i, si, qi, hD', hti', hI, hii, hne, hex, himp⟩ := ((hrun.2 hs).1 sym).1 ⟨rels, hmem⟩
      obtain ⟨rfl, e2, rfl⟩ := distinctTypes_of ht hv hn docs g hvp false _ _ _ _ _ _ hD hD' rfl
      obtain ⟨p, d, hT, rfl, hsym⟩ := (hdesc false t _ _).1 hD
      have hrel : ∀ x, x ∈ rels ↔ ∃ p' d' i, TypesRelate D.ext project all false true p d t p' d' i ∧ x = typeSymbol p' d'.obj.name := by
        intro x
        rw [hx]
        constructor
        · rintro ⟨i, si, qi, h1, h2, h3, h4, h5, rfl⟩
          obtain ⟨p', d', hT', rfl, rfl⟩ := (hdesc true i _ _).1 h1
          exact ⟨p', d', i, ⟨.inr rfl, hT, hti', hT', h2, h3, h5, .inl h4⟩, typeRef_sym _ _ _⟩
        · rintro ⟨p', d', i, h, rfl⟩
          refine ⟨i, typeRef true p' d', p'.path, (hdesc true i _ _).2 ⟨p', d', h.interface, rfl, rfl⟩, h.isInterface, h.nonEmpty, ?_,
            h.implements, (typeRef_sym _ _ _).symm⟩
          rcases h.visible with hx | hx
          · exact hx
          · exact absurd (by rw [hx]; exact h.interface.package) (h.type.outside p')
      refine ⟨rfl, ?_, ?_, p, d, t, hT, by have := congrArg Impl.SymRef.sym hsym; rwa [typeRef_sym] at this, hrel⟩
      · intro he
        have := (hx si.sym).2 ⟨i, si, qi, hI, hii, hne, hex, himp, rfl⟩
        rw [he] at this
        simp at this
      · have hmem' : Message.external sym rels ∈ ex := by
          rw [hmsgs] at hmem
          rcases List.mem_cons.1 hmem with h | h
          · simp at h
          · rcases List.mem_append.1 h with h | h
            · exact absurd h (no_external hpaths hlen sym rels)
            · exact h
        obtain ⟨r, hr, _, rfl⟩ := implementations_run hs him
        obtain ⟨s, _, e⟩ := List.mem_map.1 hmem'
        simp only [Message.external.injEq] at e
        rw [← e.2]
        rcases C34_sorted_duplicate_free (consistent_of hg ht hv) (impl_sub ht hv) hv.impls hr s.ref with h | h
        · rw [h]; exact .nil
        · exact h.1

/-- **C69** in terms of the source: two runs on the same program, with different orders of map iteration and different writers. -/
theorem C69_same_output (D : Deps) (o : Opts) (ord ord' : MapOrders) (w w' : Writer) (project all : GoMap Package) (objs : List Obj)
    (ht : TypedProject D project all objs) (hv : ValidMapOrders ord) (hv' : ValidMapOrders ord') (hn : NamedTypes D project all)
    (r r' : Run) (hr : r = index D o ord w (.ok (project, all))) (hr' : r' = index D o ord' w' (.ok (project, all))) :
    r.messages[0]? = r'.messages[0]? ∧
    (∀ (i : Nat) (path path' : Str) (occs occs' : List Occurrence) (syms syms' : List (SymInfo × List Str)),
      r.messages[i]? = some (.document path occs syms) →
      r'.messages[i]? = some (.document path' occs' syms') → path = path' ∧ occs = occs' ∧ syms.Perm syms') ∧
    (r.outcome = .ok → r'.outcome = .ok → r.messages.length = r'.messages.length ∧
      (r.messages.filter externalMessage).Perm (r'.messages.filter externalMessage)) :=
  C69_same_documents D o ord ord' w w' project all objs ht hv hv' (distinctTypes_of ht hv hn) r r' hr hr'

end Verif
