import Verif.Lemmas.RenamingVisit
/-! # Renaming: the implementation pass -/
namespace Verif
open Spec Index Impl

variable {ρ : Renaming}

def renRef (ρ : Renaming) : Ref → Ref
  | .entry pkg pos => .entry pkg (ρ.pos pos)
  | r => r

theorem renRef_inj {a b : Ref} (h : renRef ρ a = renRef ρ b) : a = b := by
  cases a <;> cases b <;> simp only [renRef, reduceCtorEq, Ref.entry.injEq] at h
  · rw [h.1, ρ.pos_inj _ _ h.2]
  · exact h
  · exact h

def renSymRef (ρ : Renaming) (s : SymRef) : SymRef := ⟨renRef ρ s.ref, s.sym⟩

def renMethods (ρ : Renaming) (ms : List (Str × SymRef)) : List (Str × SymRef) := ms.map fun e => (e.1, renSymRef ρ e.2)

def renDef (ρ : Renaming) (d : ImplDef) : ImplDef :=
  { d with symbol := renSymRef ρ d.symbol, named := renNamed ρ d.named, methods := renMethods ρ d.methods }

def renDefs (ρ : Renaming) (ds : List (Str × ImplDef)) : List (Str × ImplDef) := ds.map fun e => (e.1, renDef ρ e.2)

def renImpl (ρ : Renaming) (s : Impl.State) : Impl.State := ⟨renGlobal ρ s.g, renDefs ρ s.ifaces, renDefs ρ s.concretes⟩

theorem put_ren {β γ : Type} (f : β → γ) (k : Str) (v : β) (m : List (Str × β)) :
    put k (f v) (m.map fun e => (e.1, f e.2)) = (put k v m).map fun e => (e.1, f e.2) := by
  unfold put
  rw [List.map_cons, List.filter_map]
  rfl

theorem tableOf_ren (g : Global) (o : Obj) : tableOf (renGlobal ρ g) (renObj ρ o) = tableOf g o := by
  unfold tableOf
  rw [show (renObj ρ o).self.pkg = o.self.pkg from rfl]
  cases o.self.pkg with
  | none => rfl
  | some path =>
    simp only
    congr 1
    funext c
    rw [show (renObj ρ o).self.pos = ρ.pos o.self.pos from rfl, getSymbolInformation_ren]

theorem methodRef_ren (project : Bool) (sym : Str) (g : Global) (m : Method) :
    methodRef project sym (renGlobal ρ g) (renMethod ρ m) = renRef ρ (methodRef project sym g m) := by
  unfold methodRef
  rw [show (renMethod ρ m).obj = renObj ρ m.obj from rfl, tableOf_ren]
  cases tableOf g m.obj <;> rfl

theorem methodMask_ren (E : Ext) (ms : List Method) : methodMask E (ms.map (renMethod ρ)) = methodMask E ms := by
  induction ms with
  | nil => rfl
  | cons m ms ih => simp only [List.map_cons, methodMask, ih]; rfl

theorem hasUnexported_ren (ms : List Method) : hasUnexportedMethods (ms.map (renMethod ρ)) = hasUnexportedMethods ms := by
  induction ms with
  | nil => rfl
  | cons m ms ih => simp only [List.map_cons, hasUnexportedMethods, ih]; rfl

section
variable {s s' : Scopes} (hs : ∀ path, s' path = (s path).map (renData ρ))
include hs

theorem methodSymbols_ren (project : Bool) (sym : Str) (ms : List Method) : ∀ (g : Global) (acc : List (Str × SymRef)),
    methodSymbols s' project sym (renGlobal ρ g) (ms.map (renMethod ρ)) (renMethods ρ acc) =
      (methodSymbols s project sym g ms acc).map fun x => (renGlobal ρ x.1, renMethods ρ x.2) := by
  induction ms with
  | nil => intro g acc; simp [methodSymbols]
  | cons m ms ih =>
    intro g acc
    simp only [List.map_cons, methodSymbols]
    rw [show (renMethod ρ m).obj = renObj ρ m.obj from rfl, getSymbolOfObject_ren hs]
    rcases g.getSymbolOfObject s m.obj with ⟨g', f⟩
    cases f with
    | panic => rfl
    | error => exact ih g' acc
    | skip => exact ih g' acc
    | info i =>
      simp only
      rw [← ih, methodRef_ren]
      congr 1
      exact put_ren (renSymRef ρ) m.id ⟨methodRef project sym g m, i.symbol⟩ acc

theorem classify_ren (E : Ext) (project : Bool) (n : NamedT) (sym : SymRef) (path : Str) (st : Impl.State) :
    classify E s' project (renNamed ρ n) (renSymRef ρ sym) path (renImpl ρ st) =
      (classify E s project n sym path st).map (renImpl ρ) := by
  unfold classify
  have h0 : ((renNamed ρ n).methods = []) ↔ n.methods = [] := by simp [renNamed]
  simp only [h0]
  split
  · rfl
  rw [show (renNamed ρ n).methods = n.methods.map (renMethod ρ) from rfl, methodMask_ren, hasUnexported_ren, List.length_map]
  have := methodSymbols_ren hs project sym.sym n.methods st.g []
  rw [show (renImpl ρ st).g = renGlobal ρ st.g from rfl, show (renSymRef ρ sym).sym = sym.sym from rfl]
  rw [show renMethods ρ [] = [] from rfl] at this
  rw [this]
  cases methodSymbols s project sym.sym st.g n.methods [] with
  | none => rfl
  | some x =>
    obtain ⟨g, ms⟩ := x
    cases methodMask E n.methods with
    | none => rfl
    | some mask =>
      have hi : (renNamed ρ n).isIface = n.isIface := rfl
      simp only [Option.map_some, hi, Option.bind_eq_bind, Option.bind_some, Option.pure_def]
      have key : ∀ l : List (Str × ImplDef), put sym.sym
          (⟨renSymRef ρ sym, renNamed ρ n, renMethods ρ ms, mask, n.methods.length, hasUnexportedMethods n.methods, path⟩ : ImplDef) (renDefs ρ l) =
          renDefs ρ (put sym.sym (⟨sym, n, ms, mask, n.methods.length, hasUnexportedMethods n.methods, path⟩ : ImplDef) l) := by
        intro l
        exact put_ren (renDef ρ) sym.sym ⟨sym, n, ms, mask, n.methods.length, hasUnexportedMethods n.methods, path⟩ l
      cases n.isIface
      · simp only [Bool.false_eq_true, if_false, Option.map_some, renImpl, ← key]
      · simp only [if_true, Option.map_some, renImpl, ← key]

def renPkg (ρ : Renaming) (p : Pkg) : Pkg :=
  { p with defs := p.defs.map fun ds => ds.map fun t => t.map (renTypeDef ρ), scope := p.scope.map fun ds => ds.map fun t => t.map (renTypeDef ρ) }

theorem extractDefs_ren (E : Ext) (project : Bool) (p : Pkg) (t : Table) (ds : List (Option TypeDef)) : ∀ st : Impl.State,
    extractDefs E s' project (renPkg ρ p) (renTable ρ t) (ds.map fun t => t.map (renTypeDef ρ)) (renImpl ρ st) =
      (extractDefs E s project p t ds st).map (renImpl ρ) := by
  induction ds with
  | nil => intro st; simp [extractDefs]
  | cons d ds ih =>
    intro st
    cases d with
    | none => simp only [List.map_cons, Option.map_none, extractDefs]; exact ih st
    | some d =>
      simp only [List.map_cons, Option.map_some, extractDefs]
      have h1 : (renPkg ρ p).scope.isSome = p.scope.isSome := by simp [renPkg]
      rw [h1, show (renTypeDef ρ d).pkgLevel = d.pkgLevel from rfl, show (renTypeDef ρ d).named = d.named.map (renNamed ρ) from rfl,
        show (renTypeDef ρ d).obj.pos = ρ.pos d.obj.pos from rfl, table_get_ren]
      split
      · exact ih st
      cases d.named with
      | none => exact ih st
      | some n =>
        simp only [Option.map_some]
        cases t.get d.obj.pos with
        | none => exact ih st
        | some i =>
          simp only
          have := classify_ren hs E project n ⟨.entry p.path d.obj.pos, i.symbol⟩ p.path st
          rw [show (renPkg ρ p).path = p.path from rfl]
          rw [show (⟨.entry p.path (ρ.pos d.obj.pos), i.symbol⟩ : SymRef) = renSymRef ρ ⟨.entry p.path d.obj.pos, i.symbol⟩ from rfl, this]
          cases classify E s project n ⟨.entry p.path d.obj.pos, i.symbol⟩ p.path st with
          | none => rfl
          | some st => exact ih st

theorem extractScope_ren (E : Ext) (project : Bool) (p : Pkg) (ds : List (Option TypeDef)) : ∀ st : Impl.State,
    extractScope E s' project (renPkg ρ p) (ds.map fun t => t.map (renTypeDef ρ)) (renImpl ρ st) =
      (extractScope E s project p ds st).map (renImpl ρ) := by
  induction ds with
  | nil => intro st; simp [extractScope]
  | cons d ds ih =>
    intro st
    cases d with
    | none => simp only [List.map_cons, Option.map_none, extractScope]; exact ih st
    | some d =>
      simp only [List.map_cons, Option.map_some, extractScope]
      rw [show (renTypeDef ρ d).obj.name = d.obj.name from rfl, show (renTypeDef ρ d).named = d.named.map (renNamed ρ) from rfl]
      split
      · exact ih st
      cases d.named with
      | none => exact ih st
      | some n =>
        simp only [Option.map_some]
        have hc := compose_ren hs st.g.composer (some p.module) (some (.plain d.obj))
        rw [show (renImpl ρ st).g.composer = renComposer ρ st.g.composer from rfl, show (renPkg ρ p).module = p.module from rfl]
        rw [show (some (Obj.plain (renTypeDef ρ d).obj)) = (some (Obj.plain d.obj)).map (renObj ρ) from rfl, hc]
        rcases st.g.composer.compose s (some p.module) (some (.plain d.obj)) with ⟨c, sym⟩
        simp only
        have hst : ({ renImpl ρ st with g := { (renImpl ρ st).g with composer := renComposer ρ c } } : Impl.State) =
          renImpl ρ { st with g := { st.g with composer := c } } := rfl
        rw [hst]
        split
        · exact ih _
        · have := classify_ren hs E project n ⟨.type project sym, sym⟩ p.path { st with g := { st.g with composer := c } }
          rw [show (renPkg ρ p).path = p.path from rfl]
          rw [show (⟨.type project sym, sym⟩ : SymRef) = renSymRef ρ ⟨.type project sym, sym⟩ from rfl, this]
          rw [show renSymRef ρ ⟨.type project sym, sym⟩ = ⟨.type project sym, sym⟩ from rfl]
          cases classify E s project n ⟨.type project sym, sym⟩ p.path { st with g := { st.g with composer := c } } with
          | none => rfl
          | some st => exact ih st

theorem extractPkg_ren (E : Ext) (project : Bool) (p : Pkg) (st : Impl.State) :
    extractPkg E s' project (renPkg ρ p) (renImpl ρ st) = (extractPkg E s project p st).map (renImpl ρ) := by
  unfold extractPkg
  rw [show (renPkg ρ p).name = p.name from rfl]
  split
  · rfl
  rw [show (renPkg ρ p).defs = p.defs.map fun ds => ds.map fun t => t.map (renTypeDef ρ) from rfl,
    show (renPkg ρ p).scope = p.scope.map fun ds => ds.map fun t => t.map (renTypeDef ρ) from rfl,
    show (renPkg ρ p).path = p.path from rfl, show (renImpl ρ st).g.symbols.lookup p.path = _ from symbols_ren st.g p.path]
  cases p.defs with
  | some ds =>
    simp only [Option.map_some]
    cases st.g.symbols.lookup p.path with
    | none => rfl
    | some r => exact extractDefs_ren hs E project p r.table ds st
  | none =>
    simp only [Option.map_none]
    cases p.scope with
    | none => rfl
    | some ds => exact extractScope_ren hs E project p ds st

theorem extractAll_ren (E : Ext) (project : Bool) (ps : List Pkg) : ∀ st : Impl.State,
    extractAll E s' project (ps.map (renPkg ρ)) (renImpl ρ st) = (extractAll E s project ps st).map (renImpl ρ) := by
  induction ps with
  | nil => intro st; simp [extractAll]
  | cons p ps ih =>
    intro st
    simp only [List.map_cons, extractAll, extractPkg_ren hs]
    cases extractPkg E s project p st with
    | none => rfl
    | some st => exact ih st

theorem extract_ren (E : Ext) (project : Bool) (g : Global) (ps : List Pkg) :
    extract E s' project (renGlobal ρ g) (ps.map (renPkg ρ)) = (extract E s project g ps).map (renImpl ρ) := by
  have := extractAll_ren hs E project ps ⟨g, [], []⟩
  exact this

end

/-! ## Relationships -/

def RenHeap (ρ : Renaming) (h h' : Heap) : Prop := ∀ r, h' (renRef ρ r) = h r

theorem renHeap_set {h h' : Heap} (hh : RenHeap ρ h h') (r : Ref) (l : List Str) : RenHeap ρ (h.set r l) (h'.set (renRef ρ r) l) := by
  intro x
  unfold Heap.set
  by_cases e : x = r
  · simp [e]
  · have : renRef ρ x ≠ renRef ρ r := fun h => e (renRef_inj h)
    simp [e, this, hh x]

theorem renHeap_append {h h' : Heap} (hh : RenHeap ρ h h') (r : Ref) (sym : Str) :
    RenHeap ρ (h.append r sym) (h'.append (renRef ρ r) sym) := by
  unfold Heap.append
  rw [hh r]
  exact renHeap_set hh r _

theorem implements_ren (E : Ext) (ptr : Bool) (t i : NamedT) : implements E ptr (renNamed ρ t) (renNamed ρ i) = implements E ptr t i := by
  unfold implements
  rw [show (renNamed ρ i).methods = i.methods.map (renMethod ρ) from rfl, show (renNamed ρ t).methods = t.methods.map (renMethod ρ) from rfl]
  simp only [List.all_map, List.any_map]
  rfl

theorem passes_ren (E : Ext) (t i : ImplDef) : passes E (renDef ρ t) (renDef ρ i) = passes E t i := by
  unfold passes
  rw [show (renDef ρ t).named = renNamed ρ t.named from rfl, show (renDef ρ i).named = renNamed ρ i.named from rfl, implements_ren,
    implements_ren]
  rfl

theorem addMethods_ren (t : ImplDef) (ms : List (Str × SymRef)) : ∀ {h h' : Heap}, RenHeap ρ h h' →
    RenHeap ρ (addMethods t ms h) (addMethods (renDef ρ t) (renMethods ρ ms) h') := by
  induction ms with
  | nil => intro h h' hh; exact hh
  | cons m ms ih =>
    intro h h' hh
    obtain ⟨id, m⟩ := m
    simp only [renMethods, List.map_cons, addMethods]
    rw [show (renDef ρ t).methods.lookup id = (t.methods.lookup id).map (renSymRef ρ) from lookup_map _ _ _]
    cases t.methods.lookup id with
    | none => exact ih hh
    | some r => exact ih (renHeap_append hh r.ref m.sym)

def renIfaceVisit (ρ : Renaming) (v : IfaceVisit) : IfaceVisit := ⟨renDef ρ v.iface, renMethods ρ v.methods⟩

def renTypeVisit (ρ : Renaming) (v : TypeVisit) : TypeVisit := ⟨renDef ρ v.ty, v.ifaces.map (renIfaceVisit ρ), renMethods ρ v.canon⟩

def renOrders (ρ : Renaming) (o : Orders) : Orders :=
  ⟨o.localLocal.map (renTypeVisit ρ), o.localRemote.map (renTypeVisit ρ), o.remoteLocal.map (renTypeVisit ρ), o.external.map (renDef ρ)⟩

theorem addInterfaces_ren (E : Ext) (t : ImplDef) (vs : List IfaceVisit) : ∀ {h h' : Heap}, RenHeap ρ h h' →
    RenHeap ρ (addInterfaces E t vs h) (addInterfaces E (renDef ρ t) (vs.map (renIfaceVisit ρ)) h') := by
  induction vs with
  | nil => intro h h' hh; exact hh
  | cons v vs ih =>
    intro h h' hh
    simp only [List.map_cons, addInterfaces]
    rw [show (renIfaceVisit ρ v).iface = renDef ρ v.iface from rfl, passes_ren]
    split
    · exact ih (addMethods_ren t v.methods (renHeap_append hh t.symbol.ref v.iface.symbol.sym))
    · exact ih hh

theorem canonMethods_ren (ms : List (Str × SymRef)) : ∀ {h h' : Heap}, RenHeap ρ h h' →
    RenHeap ρ (canonMethods ms h) (canonMethods (renMethods ρ ms) h') := by
  induction ms with
  | nil => intro h h' hh; exact hh
  | cons m ms ih =>
    intro h h' hh
    obtain ⟨id, m⟩ := m
    simp only [renMethods, List.map_cons, canonMethods]
    apply ih
    rw [show (renSymRef ρ m).ref = renRef ρ m.ref from rfl, hh m.ref]
    exact renHeap_set hh m.ref _

theorem findImplementations_ren (E : Ext) (vs : List TypeVisit) : ∀ {h h' : Heap} (n : Nat), RenHeap ρ h h' →
    RenHeap ρ (findImplementations E vs (h, n)).1 (findImplementations E (vs.map (renTypeVisit ρ)) (h', n)).1 ∧
    (findImplementations E (vs.map (renTypeVisit ρ)) (h', n)).2 = (findImplementations E vs (h, n)).2 := by
  induction vs with
  | nil => intro h h' n hh; exact ⟨hh, rfl⟩
  | cons v vs ih =>
    intro h h' n hh
    simp only [List.map_cons, findImplementations]
    apply ih
    have h1 := addInterfaces_ren E v.ty v.ifaces hh
    apply canonMethods_ren
    rw [show (renTypeVisit ρ v).ty.symbol.ref = renRef ρ v.ty.symbol.ref from rfl]
    have h2 := h1 v.ty.symbol.ref
    rw [show (renTypeVisit ρ v).ty = renDef ρ v.ty from rfl, show (renTypeVisit ρ v).ifaces = v.ifaces.map (renIfaceVisit ρ) from rfl, h2]
    exact renHeap_set h1 _ _

theorem remotePackages_ren (ps all : List Pkg) :
    remotePackages (ps.map (renPkg ρ)) (all.map (renPkg ρ)) = (remotePackages ps all).map (renPkg ρ) := by
  unfold remotePackages
  rw [List.filter_map, List.map_map]
  rfl

theorem addImplementations_ren (E : Ext) {s s' : Scopes} (hs : ∀ path, s' path = (s path).map (renData ρ)) (g : Global) {h h' : Heap}
    (hh : RenHeap ρ h h') (ps all : List Pkg) (o o' : Impl.State → Impl.State → Orders)
    (ho : ∀ a b, o' (renImpl ρ a) (renImpl ρ b) = renOrders ρ (o a b)) :
    Option.Rel (fun r r' => r'.g = renGlobal ρ r.g ∧ RenHeap ρ r.heap r'.heap ∧ r'.external = r.external.map (renSymRef ρ))
      (addImplementations E s g h ps all o)
      (addImplementations E s' (renGlobal ρ g) h' (ps.map (renPkg ρ)) (all.map (renPkg ρ)) o') := by
  unfold addImplementations
  rw [extract_ren hs]
  cases extract E s true g ps with
  | none => exact .none
  | some loc =>
    simp only [Option.map_some]
    rw [remotePackages_ren, show (renImpl ρ loc).g = renGlobal ρ loc.g from rfl, extract_ren hs]
    cases extract E s false loc.g (remotePackages ps all) with
    | none => exact .none
    | some rem =>
      simp only [Option.map_some]
      rw [ho]
      obtain ⟨h1, n1⟩ := findImplementations_ren E (o loc rem).localLocal 0 hh
      obtain ⟨h2, n2⟩ := findImplementations_ren E (o loc rem).localRemote (findImplementations E (o loc rem).localLocal (h, 0)).2 h1
      obtain ⟨h3, n3⟩ := findImplementations_ren E (o loc rem).remoteLocal
        (findImplementations E (o loc rem).localRemote (findImplementations E (o loc rem).localLocal (h, 0))).2 h2
      have e1 : findImplementations E (renOrders ρ (o loc rem)).localLocal (h', 0) =
          ((findImplementations E (renOrders ρ (o loc rem)).localLocal (h', 0)).1, (findImplementations E (o loc rem).localLocal (h, 0)).2) := by
        rw [← n1]; rfl
      have e2 : findImplementations E (renOrders ρ (o loc rem)).localRemote (findImplementations E (renOrders ρ (o loc rem)).localLocal (h', 0)) =
          ((findImplementations E ((o loc rem).localRemote.map (renTypeVisit ρ))
            ((findImplementations E ((o loc rem).localLocal.map (renTypeVisit ρ)) (h', 0)).1,
              (findImplementations E (o loc rem).localLocal (h, 0)).2)).1,
            (findImplementations E (o loc rem).localRemote (findImplementations E (o loc rem).localLocal (h, 0))).2) := by
        rw [e1]
        rw [← n2]
        rfl
      refine .some ⟨rfl, ?_, ?_⟩
      · simp only
        rw [e2]
        exact h3
      · simp only
        rw [e2]
        rw [show (renOrders ρ (o loc rem)).external = (o loc rem).external.map (renDef ρ) from rfl,
          show (renOrders ρ (o loc rem)).remoteLocal = (o loc rem).remoteLocal.map (renTypeVisit ρ) from rfl]
        rw [List.filter_map, List.map_map, List.map_map]
        have : ((fun t : ImplDef => decide ((findImplementations E ((o loc rem).remoteLocal.map (renTypeVisit ρ))
            ((findImplementations E ((o loc rem).localRemote.map (renTypeVisit ρ))
            ((findImplementations E ((o loc rem).localLocal.map (renTypeVisit ρ)) (h', 0)).1,
              (findImplementations E (o loc rem).localLocal (h, 0)).2)).1,
            (findImplementations E (o loc rem).localRemote (findImplementations E (o loc rem).localLocal (h, 0))).2)).1 t.symbol.ref ≠ [])) ∘
              renDef ρ) =
            fun t => decide ((findImplementations E (o loc rem).remoteLocal (findImplementations E (o loc rem).localRemote
              (findImplementations E (o loc rem).localLocal (h, 0)))).1 t.symbol.ref ≠ []) := by
          funext t
          have := h3 t.symbol.ref
          simp only [Function.comp, decide_eq_decide, ne_eq]
          rw [show (renDef ρ t).symbol.ref = renRef ρ t.symbol.ref from rfl, this]
        rw [this]
        rfl

end Verif
