import Verif.Props.Program
import Verif.Props.TypesRun
/-! # C85: the output of the whole program does not depend on any order of iteration; C84 for the whole program -/
namespace Verif
open Spec Index Program Loader Loader.Spec

/-! ## The module of a package does not matter to what it declares -/

theorem declsDeclare_module {env : PkgEnv} {decls : List Node} {i : Ident} {ds : List Descriptor} {q : Nat} (m : ModIdent) :
    DeclsDeclare { env with module := m } decls i ds q ↔ DeclsDeclare env decls i ds q := by
  constructor
  · intro h
    cases h with
    | typ h => exact .typ h
    | func h1 h2 => exact .func h1 h2
    | var h1 h2 h3 => exact .var h1 h2 h3
  · intro h
    cases h with
    | typ h => exact .typ h
    | func h1 h2 => exact .func h1 h2
    | var h1 h2 h3 => exact .var h1 h2 h3

theorem packageDeclares_module {env : PkgEnv} {files : List Node} {i : Ident} {ds : List Descriptor} {q : Nat} (m : ModIdent) :
    PackageDeclares { env with module := m } files i ds q ↔ PackageDeclares env files i ds q := by
  unfold PackageDeclares
  simp only [declsDeclare_module]

theorem onlyDeclares_module {p : Package} {i : Ident} {ds : List Descriptor} (m : ModIdent) (h : OnlyDeclares p i ds) :
    OnlyDeclares { p with env := { p.env with module := m } } i ds :=
  ⟨(packageDeclares_module m).2 h.1, fun i' ds' h' => h.2 i' ds' ((packageDeclares_module m).1 h')⟩

theorem fileEvents_module (D : Deps) (known : Str → Bool) (p : Package) (m : ModIdent) (f : SourceFile) :
    fileEventsIn D known { p with env := { p.env with module := m } } f = fileEventsIn D known p f :=
  traverseList_congr (env := sourceEnv D { p with env := { p.env with module := m } }) (env' := sourceEnv D p) rfl _ _

theorem recvBase_unique {t : RecvTy} {a b : Str} (ha : RecvBase t a) (hb : RecvBase t b) : a = b := by
  induction ha generalizing b with
  | named => cases hb; rfl
  | «alias» _ ih => cases hb with | «alias» h => exact ih h
  | pointer _ ih => cases hb with | pointer h => exact ih h

theorem methodPath_unique {scopes : Scopes} {pkg : Str} {x : ObjData} {c : Option (Option RecvTy)} (hc : x.cls = .func c)
    {ds ds' : List Descriptor} (h : DependencyPath scopes pkg x ds) (h' : DependencyPath scopes pkg x ds') : ds = ds' := by
  cases h with
  | typ e => rw [hc] at e; simp at e
  | const e => rw [hc] at e; simp at e
  | var e => rw [hc] at e; simp at e
  | field e => rw [hc] at e; simp at e
  | func e =>
    cases h' with
    | typ e' => rw [hc] at e'; simp at e'
    | const e' => rw [hc] at e'; simp at e'
    | var e' => rw [hc] at e'; simp at e'
    | field e' => rw [hc] at e'; simp at e'
    | func => rfl
    | method e' => rw [e] at e'; simp at e'
  | method e hb =>
    cases h' with
    | typ e' => rw [hc] at e'; simp at e'
    | const e' => rw [hc] at e'; simp at e'
    | var e' => rw [hc] at e'; simp at e'
    | field e' => rw [hc] at e'; simp at e'
    | func e' => rw [e] at e'; simp at e'
    | method e' hb' =>
      rw [e] at e'
      simp only [ObjClass.func.injEq, Option.some.injEq] at e'
      subst e'
      rw [recvBase_unique hb hb']

section
variable {D : Deps} {d : Delivered} {objs : List Obj} {env : Loader.Env} {o : Cmd.IndexOpts} {order : Nat → Nat → List Nat}
  {fuel : Nat} {l : Loaded}

theorem packageOf_delivered (h : LoadOk d env o order fuel l) (i : Nat) : packageOf d l.st.pkgs i =
    { asDelivered d i with env := { (asDelivered d i).env with module := moduleIdent (l.st.pkgs i).module } } := by
  rw [packageOf_eq h, asDelivered_eq]

/-- A project package of a load. -/
theorem Program.LoadOk.project_of (h : LoadOk d env o order fuel l) {p : Package} (hp : (p.path, p) ∈ projectOf d o l) (hb : p.name ≠ go!"builtin") :
    ∃ i, InProject d i ∧ (d.info i).path = p.path ∧ p = packageOf d l.st.pkgs i ∧ l.st.all.get p.path = some (.loaded i) := by
  rcases h.project_cases hp with ⟨_, rfl⟩ | h1
  · exact absurd rfl hb
  · exact h1

theorem Program.LoadOk.all_of (h : LoadOk d env o order fuel l) {p : Package} (hp : (p.path, p) ∈ allOf d o l) (hb : p.name ≠ go!"builtin") :
    ∃ i, Reachable d.graph i ∧ (d.info i).path = p.path ∧ p = packageOf d l.st.pkgs i ∧ l.st.all.get p.path = some (.loaded i) := by
  obtain ⟨x, hx, e⟩ := (mem_allOf h).1 hp
  cases x with
  | builtin => exact absurd (by rw [e]; rfl) hb
  | loaded i => exact ⟨i, h.inv.reach i (.inl (h.inv.keptMet _ i hx)), h.invC.key _ i hx, e, hx⟩

theorem Program.LoadOk.sourceType (h : LoadOk d env o order fuel l) {p : Package} {t : Impl.TypeDef} {n : Impl.NamedT}
    (hT : ProjectType (projectOf d o l) p t n) :
    ∃ i, InProject d i ∧ (d.info i).path = p.path ∧ p = packageOf d l.st.pkgs i ∧ SourceType d i t n := by
  obtain ⟨i, hi, h1, h2, _⟩ := h.project_of hT.package hT.notBuiltin
  subst h2
  exact ⟨i, hi, h1, rfl, hT.notBuiltin, hT.declared, hT.level, hT.named⟩

theorem Program.LoadOk.typeIn (h : LoadOk d env o order fuel l) {b : Bool} {p : Package} {t : Impl.TypeDef} {n : Impl.NamedT}
    (hT : KnownType (projectOf d o l) (allOf d o l) b p t n) : ∃ i, Reachable d.graph i ∧ TypeIn d i t n := by
  cases b with
  | true =>
    obtain ⟨i, hi, _, _, hs⟩ := h.sourceType hT
    obtain ⟨ds, h1, h2⟩ := hs.declared
    exact ⟨i, hi.1, ⟨ds, .inl h1, h2⟩, hs.named⟩
  | false =>
    obtain ⟨i, hi, h1, h2, _⟩ := h.all_of hT.package hT.notBuiltin
    subst h2
    obtain ⟨ds, h1, h2⟩ := hT.scope
    exact ⟨i, hi, ⟨ds, .inr h1, h2⟩, hT.named⟩

/-- The types of a delivered program are, after loading, types that indexing can rely on. -/
theorem Program.LoadOk.named (h : LoadOk d env o order fuel l) (hn : NamedProgram d D env o) (hroot : o.moduleRoot = [] ∨ Absolute o.moduleRoot)
    (hdir : ∀ i, Reachable d.graph i → DirOk (identityOpts o) (d.info i)) : NamedTypes D (projectOf d o l) (allOf d o l) where
  fields := by
    intro p hp hb
    obtain ⟨i, hi, h1, h2, hk⟩ := h.all_of hp hb
    obtain ⟨m, hm, hid⟩ := C81_identity h.valid h.once h.load hroot (hdir i hi) hk
    have e : p.env.module = ⟨m.path, m.version⟩ := by
      rw [h2]
      show moduleIdent (l.st.pkgs i).module = _
      rw [hm]; rfl
    rw [e]
    exact hn.fields i hi _ _ hid
  checked := by
    intro p hp hb
    obtain ⟨i, hi, h1, h2, _⟩ := h.project_of hp hb
    subst h2
    exact hn.checked i hi hb
  declared := by
    intro p t n hT
    obtain ⟨i, hi, h1, rfl, hs⟩ := h.sourceType hT
    obtain ⟨f, hf, u, hu, e1, e2, e3⟩ := hn.declared i hi t n hs
    refine ⟨f, hf, u, ?_, e1, e2, ?_⟩
    · show u ∈ identsOf (fileEventsIn D (fun q => ((allOf d o l).get q).isSome) _ f)
      rw [known_all h, packageOf_delivered h]
      rw [fileEvents_module]
      exact hu
    · rw [← h1, packageOf_delivered h]
      exact onlyDeclares_module _ e3
  once := by
    intro p t n t' n' hT hT' e
    obtain ⟨i, hi, h1, h2, hs⟩ := h.sourceType hT
    refine hn.once i hi t n t' n' hs ?_ e
    subst h2
    exact ⟨hT'.notBuiltin, hT'.declared, hT'.level, hT'.named⟩
  scope_once := by
    intro p t n t' n' hT hT' e
    obtain ⟨i, hi, h1, h2, _⟩ := h.all_of hT.package hT.notBuiltin
    subst h2
    obtain ⟨ds, k1, k2⟩ := hT.scope
    obtain ⟨ds', k1', k2'⟩ := hT'.scope
    rw [k1] at k1'
    simp only [Option.some.injEq] at k1'
    subst k1'
    exact hn.scope_once i hi ds k1 t t' k2 k2' e
  scope_types := by
    intro p t n hT
    obtain ⟨i, hi, h1, h2, _⟩ := h.all_of hT.package hT.notBuiltin
    subst h2
    obtain ⟨ds, k1, k2⟩ := hT.scope
    exact hn.scope_types i hi ds k1 t n k2 hT.named
  origins := by
    intro b p t n hT
    obtain ⟨i, hi, hT'⟩ := h.typeIn hT
    exact hn.origins i hi t n hT'
  named_once := by
    intro b p t n hT m hm x y hx hy
    obtain ⟨i, hi, hT'⟩ := h.typeIn hT
    have hdecl : ∀ {q : Package} {x : Str}, (q.path, q) ∈ projectOf d o l → DeclaredAs q m.obj.self.pos x →
        ∃ j, InProject d j ∧ (d.info j).path = q.path ∧ ∃ u ds, PackageDeclares (asDelivered d j).env
          ((asDelivered d j).files.map SourceFile.node) u ds m.obj.self.pos ∧ x = q.env.fromDescriptors ds := by
      intro q x hq hd
      rcases h.project_cases hq with ⟨_, rfl⟩ | ⟨j, hj, e1, e2, _⟩
      · rcases hd with ⟨u, ds, ⟨_, _, hf, _⟩, _⟩ | ⟨f, hf, _⟩
        · simp [builtinPackage] at hf
        · simp [builtinPackage] at hf
      · subst e2
        rcases hd with ⟨u, ds, hd, rfl⟩ | ⟨f, hf, hp, _⟩
        · refine ⟨j, hj, e1, u, ds, ?_, rfl⟩
          rw [packageOf_delivered h] at hd
          exact (packageDeclares_module _).1 hd
        · exact absurd hp (hn.methods_clause i hi t n hT' m hm j hj f (List.mem_of_mem_head? hf))
    obtain ⟨_, _, path, hpath, _, hx⟩ := hx
    obtain ⟨_, _, path', hpath', _, hy⟩ := hy
    rw [hpath] at hpath'
    simp only [Option.some.injEq] at hpath'
    subst hpath'
    rcases hx with ⟨q, hq, hv, hd⟩ | ⟨hno, q, ds, hq, hdp, rfl⟩
    · rcases hy with ⟨q', hq', hv', hd'⟩ | ⟨hno', _⟩
      · obtain ⟨j, hj, e1, u, ds, k1, rfl⟩ := hdecl hq hd
        obtain ⟨j', hj', e1', u', ds', k1', rfl⟩ := hdecl hq' hd'
        obtain ⟨e2, rfl⟩ := hn.methods_once i hi t n hT' m hm j j' hj hj' u ds u' ds' k1 k1'
        have hpq : q.path = q'.path := by rw [← e1, ← e1', e2]
        have : q = q' := by
          have g1 := GoMap.get_of_mem (projectOf_nodup h) hq
          have g2 := GoMap.get_of_mem (projectOf_nodup h) hq'
          rw [hpq, g2] at g1
          exact (Option.some.inj g1).symm
        rw [this]
      · exact absurd ⟨q, hq, hv, hd⟩ (hno' x)
    · rcases hy with hy | ⟨_, q', ds', hq', hdp', rfl⟩
      · exact absurd hy (hno y)
      · have hnd : (allOf d o l).keys.Nodup := by rw [allOf_keys h]; exact h.inv.nodup
        have g1 := GoMap.get_of_mem hnd hq
        have g2 := GoMap.get_of_mem hnd hq'
        rw [g2] at g1
        simp only [Option.some.injEq] at g1
        subst g1
        obtain ⟨c, hc⟩ := hn.origins i hi t n hT' m hm
        rw [methodPath_unique hc hdp hdp']
  methods := by
    intro p t n hT b p' t' n' hT' m hm
    obtain ⟨j, hj, _, _, hs⟩ := h.sourceType hT
    obtain ⟨i, hi, hT''⟩ := h.typeIn hT'
    exact hn.methods_type i hi t' n' hT'' m hm j hj t n hs

end

/-! ## The order in which the loader iterates over imports -/

section
variable {D : Deps} {d : Delivered} {objs : List Obj} {env : Loader.Env} {o : Cmd.IndexOpts} {order order' : Nat → Nat → List Nat}
  {fuel fuel' : Nat} {l l' : Loaded}

/-- Two loads keep the same package under a path, as far as indexing can see. -/
theorem same_kept (h : LoadOk d env o order fuel l) (h' : LoadOk d env o order' fuel' l') (ha : AlikeVariants d) {k : Str} {x : Kept}
    (hx : l.st.all.get k = some x) :
    ∃ x', l'.st.all.get k = some x' ∧ keptPackage d o l.st.pkgs x = keptPackage d o l'.st.pkgs x' := by
  obtain ⟨x', hx'⟩ := (h'.known k).2 ((h.known k).1 ⟨x, hx⟩)
  refine ⟨x', hx', ?_⟩
  have conflict : ∀ {order order' fuel fuel' l l'}, LoadOk d env o order fuel l → LoadOk d env o order' fuel' l' → ∀ j,
      l.st.all.get k = some .builtin → l'.st.all.get k = some (.loaded j) → False := by
    intro order order' fuel fuel' l l' h h' j hx hx'
    have hk := h.inv.builtinOnly _ hx
    have hj := h'.inv.reach j (.inl (h'.inv.keptMet _ j hx'))
    have hjk := h'.invC.key _ j hx'
    have hpos := h'.invC.replaced j (by rw [← hk]; exact hx')
    obtain ⟨y, hy, hle⟩ := h.represented hj
    rw [hjk, hx] at hy
    simp only [Option.some.injEq] at hy
    subst hy
    exact absurd (Nat.lt_of_lt_of_le hpos hle) (Nat.lt_irrefl 0)
  cases x with
  | builtin =>
    cases x' with
    | builtin => rfl
    | loaded j => exact (conflict h h' j hx hx').elim
  | loaded i =>
    cases x' with
    | builtin => exact (conflict h' h i hx' hx).elim
    | loaded j =>
      have hi := h.inv.reach i (.inl (h.inv.keptMet _ i hx))
      have hj := h'.inv.reach j (.inl (h'.inv.keptMet _ j hx'))
      have hik := h.invC.key _ i hx
      have hjk := h'.invC.key _ j hx'
      obtain ⟨e1, e2⟩ := ha i j hi hj (by rw [hik, hjk]) (Nat.le_antisymm (h'.maximal hx' hi hik) (h.maximal hx hj hjk))
      show packageOf d l.st.pkgs i = packageOf d l'.st.pkgs j
      have n1 := (load_invN h.valid h.once h.load).kept _ _ hx
      have n2 := (load_invN h'.valid h'.once h'.load).kept _ _ hx'
      rw [e1, n2] at n1
      simp only [Option.some.injEq] at n1
      rw [packageOf_delivered h, packageOf_delivered h', e2, n1]

/-- Two loads give the same packages. -/
theorem same_loaded (h : LoadOk d env o order fuel l) (h' : LoadOk d env o order' fuel' l') (ha : AlikeVariants d) :
    (projectOf d o l).Perm (projectOf d o l') ∧ (allOf d o l).Perm (allOf d o l') := by
  have sub : ∀ {order order' fuel fuel' l l'}, LoadOk d env o order fuel l → LoadOk d env o order' fuel' l' →
      (∀ e, e ∈ projectOf d o l → e ∈ projectOf d o l') ∧ ∀ e, e ∈ allOf d o l → e ∈ allOf d o l' := by
    intro order order' fuel fuel' l l' h h'
    constructor
    · rintro ⟨k, p⟩ hp
      obtain ⟨x, hx, rfl⟩ := (mem_projectOf h).1 hp
      obtain ⟨hr, hx⟩ := (h.project_get k x).1 hx
      obtain ⟨x', hx', e⟩ := same_kept h h' ha hx
      exact (mem_projectOf h').2 ⟨x', (h'.project_get k x').2 ⟨hr, hx'⟩, e⟩
    · rintro ⟨k, p⟩ hp
      obtain ⟨x, hx, rfl⟩ := (mem_allOf h).1 hp
      obtain ⟨x', hx', e⟩ := same_kept h h' ha hx
      exact (mem_allOf h').2 ⟨x', hx', e⟩
  have nd : ∀ {m : GoMap Package}, m.keys.Nodup → m.Nodup := fun {m} hm => List.Nodup.of_map _ hm
  constructor
  · exact (List.perm_ext_iff_of_nodup (nd (projectOf_nodup h)) (nd (projectOf_nodup h'))).2 fun e => ⟨(sub h h').1 e, (sub h' h).1 e⟩
  · refine (List.perm_ext_iff_of_nodup (nd ?_) (nd ?_)).2 fun e => ⟨(sub h h').2 e, (sub h' h).2 e⟩
    · rw [allOf_keys h]; exact h.inv.nodup
    · rw [allOf_keys h']; exact h'.inv.nodup

end

open Classical in
/-- The orders of map iteration with which a run on one pair of maps is the run with the given orders on another. -/
noncomputable def ordersFor (ord : MapOrders) (project all project' all' : GoMap Package) : MapOrders :=
  { ord with
    all := fun l => if l = all.map (·.2) then ord.all (all'.map (·.2)) else ord.all l
    extractProject := fun l => if l = project.map (·.2) then ord.extractProject (project'.map (·.2)) else ord.extractProject l
    extractAll := fun l => if l = all.map (·.2) then ord.extractAll (all'.map (·.2)) else ord.extractAll l }

theorem ordersFor_valid {ord : MapOrders} (hv : ValidMapOrders ord) {project all project' all' : GoMap Package}
    (hp : project.Perm project') (ha : all.Perm all') : ValidMapOrders (ordersFor ord project all project' all') := by
  refine ⟨?_, ?_, ?_, hv.defs, hv.table, hv.locals, hv.implicits, hv.impls⟩
  · intro l
    simp only [ordersFor]
    split
    · rename_i e; rw [e]; exact (hv.all _).trans (ha.symm.map _)
    · exact hv.all l
  · intro l
    simp only [ordersFor]
    split
    · rename_i e; rw [e]; exact (hv.extractProject _).trans (hp.symm.map _)
    · exact hv.extractProject l
  · intro l
    simp only [ordersFor]
    split
    · rename_i e; rw [e]; exact (hv.extractAll _).trans (ha.symm.map _)
    · exact hv.extractAll l

theorem sortedValues_perm {m m' : GoMap Package} (hk : Keyed m) (hk' : Keyed m') (h : m.Perm m') : sortedValues m = sortedValues m' := by
  obtain ⟨h1, h2⟩ := sortedValues_spec hk
  obtain ⟨h3, h4⟩ := sortedValues_spec hk'
  have hp : (sortedValues m).Perm (sortedValues m') := h1.trans ((h.map _).trans h3.symm)
  refine hp.eq_of_pairwise ?_ h2 h4
  intro a b _ _ hab hba
  exact absurd (Str.lt_trans hab hba) (by rw [Str.lt_irrefl]; simp)

/-- Indexing the same packages, in maps that are laid out differently, is indexing with other orders of iteration. -/
theorem index_perm (D : Deps) (o : Index.Opts) (ord : MapOrders) (w : Writer) {project all project' all' : GoMap Package}
    (hk : Keyed project) (hk' : Keyed project') (hp : project.Perm project') :
    index D o ord w (.ok (project', all')) = index D o (ordersFor ord project all project' all') w (.ok (project, all)) := by
  have hs := sortedValues_perm hk hk' hp
  have e1 : indexVisitPackages o (ordersFor ord project all project' all') project all = indexVisitPackages o ord project' all' := by
    unfold indexVisitPackages
    rw [hs]
    simp [ordersFor]
  have e2 : ∀ g, implementations D o (ordersFor ord project all project' all') project all g = implementations D o ord project' all' g := by
    intro g
    have ei : Package.impl (ordersFor ord project all project' all') = Package.impl ord := rfl
    unfold implementations
    rw [ei]
    simp [ordersFor]
  have e3 : ∀ (heap : Impl.Heap) (docs : Docs) (fs : List (Package × SourceFile)) (g : Global) (done : List Message),
      writeDocuments D (ordersFor ord project all project' all') w heap docs fs g done = writeDocuments D ord w heap docs fs g done := by
    intro heap docs fs
    induction fs with
    | nil => intro g done; rfl
    | cons e fs ih =>
      intro g done
      have hv : ∀ n d, visitFile D (ordersFor ord project all project' all') heap n e.1 e.2 d g = visitFile D ord heap n e.1 e.2 d g :=
        fun _ _ => rfl
      simp only [writeDocuments, hv, ih]
  unfold index
  simp only [e1, e2, e3, hs]

theorem index_first (D : Deps) (o : Index.Opts) (ord : MapOrders) (w : Writer) (loaded : Except Str (GoMap Package × GoMap Package)) :
    (index D o ord w loaded).messages[0]? = some (.metadata (metadata D o)) := by
  rcases index_stages D o ord w loaded with ⟨e, _, hr⟩ | ⟨hw, ⟨e, hl, hr⟩ | ⟨pr, al, hl, ⟨hc, hr⟩ |
    ⟨docs, g, g', heap, externals, hvp, him, rd, hrd, hr⟩⟩⟩
  · rw [hr]; rfl
  · rw [hr]; rfl
  · rw [hr]; rfl
  · obtain ⟨_, ⟨ds, h2, _, _, h5⟩, _⟩ := writeDocuments_spec D ord w heap docs (filesOf (sortedValues pr)) g' _ (single_ok hw)
    rw [← hrd] at h2 h5
    rcases hr with ⟨ho, hr⟩ | ⟨ho, hr⟩
    · obtain ⟨_, ⟨es, k2, _⟩, _⟩ := writeExternals_spec w externals rd.messages (h5 ho).2
      rw [← hr] at k2
      rw [k2, h2]; simp
    · rw [hr, h2]; simp

/-- **C85.** Two runs of the whole program on the same delivered packages, with different orders of iteration over imports (in the
loader) and over all other maps, and with different writers: they hand over the same metadata and, for every file that both have
written, documents with the same path, the same occurrences in the same order, and the same descriptions (with their relationships) up
to order; if both succeed they write as many messages, and the same external symbols up to order. -/
theorem C85_same_output (D : Deps) (answer : Query → Except Str Delivered) (env : Loader.Env) (order order' : Nat → Nat → List Nat)
    (fuel fuel' : Nat) (ord ord' : MapOrders) (o : Cmd.IndexOpts) (w w' : Writer) (d : Delivered) (objs : List Obj)
    (hg : GoProgram d answer order o) (hg' : GoProgram d answer order' o) (ha : AlikeVariants d) (ht : TypedProgram d D objs)
    (hn : NamedProgram d D env o) (hv : ValidMapOrders ord) (hv' : ValidMapOrders ord')
    (hroot : o.moduleRoot = [] ∨ Absolute o.moduleRoot) (hdir : ∀ i, Reachable d.graph i → DirOk (identityOpts o) (d.info i))
    (r r' : Run) (hr : indexing D answer env order fuel ord o w = some r) (hr' : indexing D answer env order' fuel' ord' o w' = some r') :
    r.messages[0]? = r'.messages[0]? ∧
    (∀ (i : Nat) (path path' : Str) (occs occs' : List Occurrence) (syms syms' : List (SymInfo × List Str)),
      r.messages[i]? = some (.document path occs syms) →
      r'.messages[i]? = some (.document path' occs' syms') → path = path' ∧ occs = occs' ∧ syms.Perm syms') ∧
    (r.outcome = .ok → r'.outcome = .ok → r.messages.length = r'.messages.length ∧
      (r.messages.filter externalMessage).Perm (r'.messages.filter externalMessage)) := by
  have first : ∀ {ord : MapOrders} {w : Writer} {loaded}, (index D (indexOpts o) ord w loaded).messages[0]? =
      some (.metadata (metadata D (indexOpts o))) := by
    intro ord w loaded
    exact index_first D (indexOpts o) ord w loaded
  have failed : ∀ {ord : MapOrders} {w : Writer}, (index D (indexOpts o) ord w (.error panicText)).messages =
      [.metadata (metadata D (indexOpts o))] ∧ (index D (indexOpts o) ord w (.error panicText)).outcome ≠ .ok := by
    intro ord w
    obtain ⟨h1, e, h2, _⟩ := failed_load D (indexOpts o) ord w panicText
    exact ⟨h1, by rw [h2]; simp⟩
  have nodoc : ∀ {m : Metadata} {i : Nat} {path occs syms}, [Message.metadata m][i]? = some (.document path occs syms) → False := by
    intro m i path occs syms h
    cases i <;> simp at h
  rcases indexing_cases hg hr with ⟨rfl, _⟩ | ⟨l, hl, rfl⟩
  · rcases indexing_cases hg' hr' with ⟨rfl, _⟩ | ⟨l', hl', rfl⟩
    all_goals
      refine ⟨by rw [first, first], ?_, fun h => absurd h failed.2⟩
      intro i path path' occs occs' syms syms' h
      rw [failed.1] at h
      exact (nodoc h).elim
  · rcases indexing_cases hg' hr' with ⟨rfl, _⟩ | ⟨l', hl', rfl⟩
    · refine ⟨by rw [first, first], ?_, fun _ h => absurd h failed.2⟩
      intro i path path' occs occs' syms syms' _ h
      rw [failed.1] at h
      exact (nodoc h).elim
    · obtain ⟨hp, hal⟩ := same_loaded hl hl' ha
      have ht1 := hl.typed ht
      have ht2 := hl'.typed ht
      exact C69_same_output D (indexOpts o) ord (ordersFor ord' (projectOf d o l) (allOf d o l) (projectOf d o l') (allOf d o l')) w w' _ _ objs
        ht1 hv (ordersFor_valid hv' hp hal) (hl.named hn hroot hdir) _ _ rfl (index_perm D (indexOpts o) ord' w' ht1.project_keyed ht2.project_keyed hp)

theorem isDocument_of_paths {ds : List Message} (h : (documentPaths ds).length = ds.length) : ∀ m ∈ ds, isDocument m := by
  induction ds with
  | nil => simp
  | cons a ds ih =>
    have hle : (documentPaths ds).length ≤ ds.length := List.length_filterMap_le _ _
    cases a with
    | document p x y =>
      have : documentPaths (.document p x y :: ds) = p :: documentPaths ds := rfl
      rw [this] at h
      simp only [List.length_cons, Nat.add_right_cancel_iff] at h
      intro m hm
      rcases List.mem_cons.1 hm with rfl | hm
      · trivial
      · exact ih h m hm
    | metadata m =>
      have : documentPaths (.metadata m :: ds) = documentPaths ds := rfl
      rw [this] at h
      simp only [List.length_cons] at h
      omega
    | external p x =>
      have : documentPaths (.external p x :: ds) = documentPaths ds := rfl
      rw [this] at h
      simp only [List.length_cons] at h
      omega

theorem sameIndex_of {md : Metadata} {ds ds' es es' : List Message} (hd : ∀ m ∈ ds, isDocument m) (hd' : ∀ m ∈ ds', isDocument m)
    (he : ∀ m ∈ es, isExternal m) (he' : ∀ m ∈ es', isExternal m) (hlen : ds.length = ds'.length)
    (h1 : ∀ (i : Nat) (path path' : Str) (occs occs' : List Occurrence) (syms syms' : List (SymInfo × List Str)),
      (Message.metadata md :: (ds ++ es))[i]? = some (.document path occs syms) →
      (Message.metadata md :: (ds' ++ es'))[i]? = some (.document path' occs' syms') → path = path' ∧ occs = occs' ∧ syms.Perm syms')
    (h2 : ((Message.metadata md :: (ds ++ es)).filter externalMessage).Perm ((Message.metadata md :: (ds' ++ es')).filter externalMessage)) :
    SameIndex (.metadata md :: (ds ++ es)) (.metadata md :: (ds' ++ es')) := by
  have fil : ∀ {ds es : List Message}, (∀ m ∈ ds, isDocument m) → (∀ m ∈ es, isExternal m) →
      (Message.metadata md :: (ds ++ es)).filter externalMessage = es := by
    intro ds es hd he
    rw [List.filter_cons_of_neg (by simp [externalMessage]), List.filter_append]
    have a : ds.filter externalMessage = [] := by
      rw [List.filter_eq_nil_iff]
      intro m hm
      have := hd m hm
      cases m <;> simp_all [isDocument, externalMessage]
    have b : es.filter externalMessage = es := by
      rw [List.filter_eq_self]
      intro m hm
      have := he m hm
      cases m <;> simp_all [isExternal, externalMessage]
    rw [a, b, List.nil_append]
  rw [fil hd he, fil hd' he'] at h2
  refine ⟨md, ds, ds', es, es', rfl, rfl, ?_, h2, he⟩
  rw [List.forall₂_iff_get]
  refine ⟨hlen, ?_⟩
  intro i hi hi'
  have g1 : (Message.metadata md :: (ds ++ es))[i + 1]? = some ds[i] := by
    rw [List.getElem?_cons_succ, List.getElem?_append_left hi, List.getElem?_eq_getElem hi]
  have g2 : (Message.metadata md :: (ds' ++ es'))[i + 1]? = some ds'[i] := by
    rw [List.getElem?_cons_succ, List.getElem?_append_left hi', List.getElem?_eq_getElem hi']
  have k1 := hd _ (List.getElem_mem hi)
  have k2 := hd' _ (List.getElem_mem hi')
  show SameDocument ds[i] ds'[i]
  cases e1 : ds[i] with
  | metadata => rw [e1] at k1; exact k1.elim
  | external => rw [e1] at k1; exact k1.elim
  | document p x y =>
    cases e2 : ds'[i] with
    | metadata => rw [e2] at k2; exact k2.elim
    | external => rw [e2] at k2; exact k2.elim
    | document p' x' y' => exact h1 (i + 1) p p' x x' y y' (by rw [g1, e1]) (by rw [g2, e2])

/-- **C69** for successful runs: they contain the same index. -/
theorem C69_same_index (D : Deps) (o : Index.Opts) (ord ord' : MapOrders) (w w' : Writer) (project all : GoMap Package) (objs : List Obj)
    (ht : TypedProject D project all objs) (hv : ValidMapOrders ord) (hv' : ValidMapOrders ord') (hn : NamedTypes D project all)
    (hok : (index D o ord w (.ok (project, all))).outcome = .ok) (hok' : (index D o ord' w' (.ok (project, all))).outcome = .ok) :
    SameIndex (index D o ord w (.ok (project, all))).messages (index D o ord' w' (.ok (project, all))).messages := by
  obtain ⟨_, h1, h2⟩ := C69_same_output D o ord ord' w w' project all objs ht hv hv' hn _ _ rfl rfl
  obtain ⟨_, h2⟩ := h2 hok hok'
  obtain ⟨pr, al, docs, g, g₁, heap, ds, ex, hl, hvp, him, hm, hpaths, hlen⟩ := C49_success_is_complete D o ord w _ hok
  obtain ⟨pr', al', docs', g', g₁', heap', ds', ex', hl', hvp', him', hm', hpaths', hlen'⟩ := C49_success_is_complete D o ord' w' _ hok'
  simp only [Except.ok.injEq, Prod.mk.injEq] at hl hl'
  obtain ⟨rfl, rfl⟩ := hl
  obtain ⟨rfl, rfl⟩ := hl'
  rw [hm, hm'] at h1 h2 ⊢
  refine sameIndex_of (isDocument_of_paths (by rw [hpaths, List.length_map, hlen])) (isDocument_of_paths (by rw [hpaths', List.length_map, hlen']))
    (externals_of him) (externals_of him') (by rw [hlen, hlen']) h1 h2

/-- **C85.** If no write fails and no go.mod file is broken, then two runs of the whole program on the same delivered packages both
succeed and write the same index, whatever the orders of iteration. -/
theorem C85_same_index (D : Deps) (answer : Query → Except Str Delivered) (env : Loader.Env) (order order' : Nat → Nat → List Nat)
    (fuel fuel' : Nat) (ord ord' : MapOrders) (o : Cmd.IndexOpts) (w w' : Writer) (d : Delivered) (objs : List Obj)
    (hg : GoProgram d answer order o) (hg' : GoProgram d answer order' o) (ha : AlikeVariants d) (ht : TypedProgram d D objs)
    (hs : SignedProgram d D) (hn : NamedProgram d D env o) (hv : ValidMapOrders ord) (hv' : ValidMapOrders ord')
    (hroot : o.moduleRoot = [] ∨ Absolute o.moduleRoot) (hdir : ∀ i, Reachable d.graph i → DirOk (identityOpts o) (d.info i))
    (hw : ∀ a m, w a m = none) (hw' : ∀ a m, w' a m = none) (hb : ∀ f, env.readMod f ≠ .broken)
    (r r' : Run) (hr : indexing D answer env order fuel ord o w = some r) (hr' : indexing D answer env order' fuel' ord' o w' = some r') :
    r.outcome = .ok ∧ r'.outcome = .ok ∧ SameIndex r.messages r'.messages := by
  have hok := (C82_never_crashes D answer env order fuel ord o w d objs hg ht hs hv r hr).2 hw hb
  have hok' := (C82_never_crashes D answer env order' fuel' ord' o w' d objs hg' ht hs hv' r' hr').2 hw' hb
  refine ⟨hok, hok', ?_⟩
  obtain ⟨l, hl, rfl⟩ := indexing_ok hg hr hok
  obtain ⟨l', hl', rfl⟩ := indexing_ok hg' hr' hok'
  obtain ⟨hp, hal⟩ := same_loaded hl hl' ha
  have ht1 := hl.typed ht
  have ht2 := hl'.typed ht
  have e := index_perm D (indexOpts o) ord' w' (all := allOf d o l) (all' := allOf d o l') ht1.project_keyed ht2.project_keyed hp
  rw [e] at hok' ⊢
  exact C69_same_index D (indexOpts o) ord _ w w' _ _ objs ht1 hv (ordersFor_valid hv' hp hal) (hl.named hn hroot hdir) hok hok'

end Verif
