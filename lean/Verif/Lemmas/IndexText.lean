import Verif.Lemmas.SourceText
import Verif.Lemmas.Sort
import Verif.Spec.Index
import Verif.Model.Wire
/-! # UTF-8 texts: symbol tables, relationships, documents, messages -/
namespace Verif
open Spec Index

/-! ## The global symbol table -/

structure ComposerText (c : Composer) : Prop where
  path : Text c.defaultModulePath
  version : Text c.defaultModuleVersion
  compositions : ∀ e ∈ c.compositions, Text e.2

def ModuleText (m : Option ModIdent) : Prop := ∀ x, m = some x → Text x.path ∧ Text x.version

structure GlobalText (g : Global) : Prop where
  modules : ∀ e ∈ g.symbols, ModuleText e.2.module
  tables : ∀ e ∈ g.symbols, TableText e.2.table
  pkgSymbols : ∀ e ∈ g.pkgSymbols, Text e.2
  composer : ComposerText g.composer

theorem nameType_text {t : RecvTy} (h : RecvText t) : Text (nameType t) := by
  induction t with
  | «alias» t ih => exact ih h
  | pointer t ih => exact ih h
  | named n b => exact h
  | ifaceLit => exact text_nil
  | other => exact text_nil

theorem describe_text {scopes : Scopes} (hs : ∀ q, ∀ x ∈ scopes q, ObjDataText x) {pkg : Str} (hp : Text pkg) {o : ObjData} (ho : ObjDataText o) :
    ∀ d ∈ describe scopes pkg o, Text d.name := by
  have hn := ho.name
  unfold describe
  split
  · rename_i q hq
    simp only [List.mem_singleton]
    rintro d rfl
    exact ho.imported _ hq
  · simp only [List.mem_cons, List.not_mem_nil, or_false]; rintro d (rfl | rfl); exacts [hp, hn]
  · simp only [List.mem_cons, List.not_mem_nil, or_false]; rintro d (rfl | rfl); exacts [hp, hn]
  · simp
  · simp only [List.mem_cons, List.not_mem_nil, or_false]; rintro d (rfl | rfl); exacts [hp, hn]
  · rename_i recv hr
    split
    · simp
    · simp only [List.mem_cons, List.not_mem_nil, or_false]
      rintro d (rfl | rfl | rfl)
      · exact hp
      · exact nameType_text (ho.receiver _ hr)
      · exact hn
  · simp only [List.mem_cons, List.not_mem_nil, or_false]; rintro d (rfl | rfl); exacts [hp, hn]
  · split
    · simp
    · rename_i owner hw
      simp only [List.mem_cons, List.not_mem_nil, or_false]
      rintro d (rfl | rfl | rfl)
      · exact hp
      · exact (hs pkg owner (List.mem_of_find?_eq_some hw)).name
      · exact hn
  all_goals simp

theorem canon_text {o : Obj} (h : ObjText o) : ObjDataText o.canon := by
  unfold Obj.canon
  split
  · exact h.origin
  · exact h.origin
  · exact h.self

theorem compose_text {scopes : Scopes} (hs : ∀ q, ∀ x ∈ scopes q, ObjDataText x) {c : Composer} (hc : ComposerText c) {m : Option ModIdent}
    (hm : ModuleText m) {o : Obj} (ho : ObjText o) :
    ComposerText (c.compose scopes (some m) (some o)).1 ∧ Text (c.compose scopes (some m) (some o)).2 := by
  unfold Composer.compose
  dsimp only
  split
  · exact ⟨hc, text_nil⟩
  · rename_i path hp
    split
    · rename_i s hl
      exact ⟨hc, hc.compositions _ (mem_of_lookup hl)⟩
    · split
      · exact ⟨hc, text_nil⟩
      · have ht : Text (formatSymbol (c.pack (some m)) (describe scopes path o.canon)) := by
          refine text_formatSymbol ?_ ?_ (describe_text hs (ho.self.pkg _ hp) (canon_text ho))
          · cases m with
            | none => exact hc.path
            | some x => exact (hm x rfl).1
          · cases m with
            | none => exact hc.version
            | some x => exact (hm x rfl).2
        refine ⟨⟨hc.path, hc.version, ?_⟩, ht⟩
        intro e he
        rcases List.mem_cons.1 he with rfl | he
        · exact ht
        · exact hc.compositions e he

theorem getSymbolInformation_text {g : Global} (h : GlobalText g) {path : Str} {q : Nat} {i : SymInfo} (hi : g.getSymbolInformation path q = some i) :
    InfoText i := by
  unfold Global.getSymbolInformation at hi
  obtain ⟨r, h1, h2⟩ := Option.bind_eq_some_iff.1 hi
  exact tableText_get (h.tables _ (mem_of_lookup h1)) h2

theorem getSymbolOfObject_text {scopes : Scopes} (hs : ∀ q, ∀ x ∈ scopes q, ObjDataText x) {g : Global} (hg : GlobalText g) {o : Obj}
    (ho : ObjText o) :
    GlobalText (g.getSymbolOfObject scopes o).1 ∧ ∀ i, (g.getSymbolOfObject scopes o).2 = .info i → InfoText i := by
  have hskip : ∀ l, GlobalText { g with skipped := l } := fun l => ⟨hg.modules, hg.tables, hg.pkgSymbols, hg.composer⟩
  unfold Global.getSymbolOfObject
  dsimp only
  split
  · exact ⟨hg, by simp⟩
  · split
    · exact ⟨hg, by simp⟩
    · exact ⟨hg, by simp⟩
    · exact ⟨hg, by simp⟩
    · split
      · split
        · exact ⟨hskip _, by simp⟩
        · exact ⟨hg, by simp⟩
        · exact ⟨hg, by simp⟩
        · split
          · exact ⟨hg, by simp⟩
          · exact ⟨hg, by simp⟩
        · exact ⟨hg, by simp⟩
      · split
        · exact ⟨hg, by simp⟩
        · split
          · rename_i info hi
            refine ⟨hg, ?_⟩
            simp only [Found.info.injEq]
            rintro i rfl
            obtain ⟨c, _, hc⟩ := List.exists_of_findSome?_eq_some hi
            exact getSymbolInformation_text hg hc
          · split
            · rename_i r hr
              have hc := compose_text hs hg.composer (hg.modules _ (mem_of_lookup hr)) ho
              have hg' : GlobalText { g with composer := (g.composer.compose scopes (some r.module) (some o)).1 } :=
                ⟨hg.modules, hg.tables, hg.pkgSymbols, hc.1⟩
              split
              · exact ⟨hg', by simp⟩
              · refine ⟨hg', ?_⟩
                simp only [Found.info.injEq]
                rintro i rfl
                exact ⟨hc.2, text_nil, by simp [composedInfo], by simp [composedInfo]⟩
            · exact ⟨hg, by simp⟩

/-! ## Relationships -/

def ImplText (d : Impl.ImplDef) : Prop := Text d.symbol.sym ∧ ∀ m ∈ d.methods, Text m.2.sym

structure ImplsText (s : Impl.State) : Prop where
  g : GlobalText s.g
  ifaces : ∀ e ∈ s.ifaces, ImplText e.2
  concretes : ∀ e ∈ s.concretes, ImplText e.2

theorem put_mem {β : Type} {k : Str} {v : β} {m : List (Str × β)} {P : β → Prop} (h : ∀ e ∈ m, P e.2) (hv : P v) : ∀ e ∈ Impl.put k v m, P e.2 := by
  intro e he
  rcases List.mem_cons.1 he with rfl | he
  · exact hv
  · exact h e (List.mem_filter.1 he).1

theorem methodSymbols_text {scopes : Scopes} (hs : ∀ q, ∀ x ∈ scopes q, ObjDataText x) {project : Bool} {sym : Str} {ms : List Impl.Method}
    (hm : ∀ m ∈ ms, ObjText m.obj) {g g' : Global} (hg : GlobalText g) {acc acc' : List (Str × Impl.SymRef)} (ha : ∀ e ∈ acc, Text e.2.sym)
    (h : Impl.methodSymbols scopes project sym g ms acc = some (g', acc')) : GlobalText g' ∧ ∀ e ∈ acc', Text e.2.sym := by
  induction ms generalizing g acc with
  | nil =>
    simp only [Impl.methodSymbols, Option.some.injEq, Prod.mk.injEq] at h
    exact ⟨h.1 ▸ hg, h.2 ▸ ha⟩
  | cons m ms ih =>
    have hm' := fun x hx => hm x (List.mem_cons_of_mem _ hx)
    have ho := getSymbolOfObject_text hs hg (hm m (by simp))
    rw [Impl.methodSymbols] at h
    split at h
    · simp at h
    · rename_i g1 e1
      rw [e1] at ho
      exact ih hm' ho.1 ha h
    · rename_i g1 e1
      rw [e1] at ho
      exact ih hm' ho.1 ha h
    · rename_i g1 i e1
      rw [e1] at ho
      exact ih hm' ho.1 (put_mem (P := fun r : Impl.SymRef => Text r.sym) ha (ho.2 i rfl).symbol) h

theorem classify_text {E : Impl.Ext} {scopes : Scopes} (hs : ∀ q, ∀ x ∈ scopes q, ObjDataText x) {project : Bool} {named : Impl.NamedT}
    (hn : ∀ m ∈ named.methods, ObjText m.obj) {sym : Impl.SymRef} (hsym : Text sym.sym) {pkgPath : Str} {s s' : Impl.State} (hst : ImplsText s)
    (h : Impl.classify E scopes project named sym pkgPath s = some s') : ImplsText s' := by
  unfold Impl.classify at h
  split at h
  · exact (Option.some.inj h) ▸ hst
  · cases e1 : Impl.methodSymbols scopes project sym.sym s.g named.methods [] with
    | none => rw [e1] at h; simp at h
    | some r =>
      obtain ⟨g, methods⟩ := r
      have hm := methodSymbols_text hs hn hst.g (by simp) e1
      cases e2 : Impl.methodMask E named.methods with
      | none => rw [e1, e2] at h; simp at h
      | some mask =>
        rw [e1, e2] at h
        simp only [Option.bind_eq_bind, Option.bind_some, Option.pure_def] at h
        split at h
        · rw [← Option.some.inj h]
          exact ⟨hm.1, put_mem (P := ImplText) hst.ifaces ⟨hsym, hm.2⟩, hst.concretes⟩
        · rw [← Option.some.inj h]
          exact ⟨hm.1, hst.ifaces, put_mem (P := ImplText) hst.concretes ⟨hsym, hm.2⟩⟩

def TypeDefText (t : Impl.TypeDef) : Prop := ObjDataText t.obj ∧ ∀ n, t.named = some n → ∀ m ∈ n.methods, ObjText m.obj

theorem extractDefs_text {E : Impl.Ext} {scopes : Scopes} (hs : ∀ q, ∀ x ∈ scopes q, ObjDataText x) {project : Bool} {p : Impl.Pkg} {table : Table}
    (ht : TableText table) {ds : List (Option Impl.TypeDef)} (hd : ∀ t, some t ∈ ds → TypeDefText t) {s s' : Impl.State} (hst : ImplsText s)
    (h : Impl.extractDefs E scopes project p table ds s = some s') : ImplsText s' := by
  induction ds generalizing s with
  | nil => exact (Option.some.inj h) ▸ hst
  | cons d ds ih =>
    have hd' := fun t ht => hd t (List.mem_cons_of_mem _ ht)
    cases d with
    | none => exact ih hd' hst h
    | some d =>
      rw [Impl.extractDefs] at h
      split at h
      · exact ih hd' hst h
      · split at h
        · exact ih hd' hst h
        · rename_i named hn
          split at h
          · exact ih hd' hst h
          · rename_i i hi
            split at h
            · simp at h
            · rename_i s1 h1
              exact ih hd' (classify_text hs ((hd d (by simp)).2 _ hn) (sym := ⟨_, i.symbol⟩) (tableText_get ht hi).symbol hst h1) h

theorem objText_plain {o : ObjData} (h : ObjDataText o) : ObjText (.plain o) := ⟨h, h⟩

theorem extractScope_text {E : Impl.Ext} {scopes : Scopes} (hs : ∀ q, ∀ x ∈ scopes q, ObjDataText x) {project : Bool} {p : Impl.Pkg}
    (hm : ModuleText p.module) {ds : List (Option Impl.TypeDef)} (hd : ∀ t, some t ∈ ds → TypeDefText t) {s s' : Impl.State} (hst : ImplsText s)
    (h : Impl.extractScope E scopes project p ds s = some s') : ImplsText s' := by
  induction ds generalizing s with
  | nil => exact (Option.some.inj h) ▸ hst
  | cons d ds ih =>
    have hd' := fun t ht => hd t (List.mem_cons_of_mem _ ht)
    cases d with
    | none => exact ih hd' hst h
    | some d =>
      rw [Impl.extractScope] at h
      split at h
      · exact ih hd' hst h
      · split at h
        · exact ih hd' hst h
        · rename_i named hn
          have hc := compose_text hs hst.g.composer hm (objText_plain (hd d (by simp)).1)
          have hst' : ImplsText { s with g := { s.g with composer := (s.g.composer.compose scopes (some p.module) (some (.plain d.obj))).1 } } :=
            ⟨⟨hst.g.modules, hst.g.tables, hst.g.pkgSymbols, hc.1⟩, hst.ifaces, hst.concretes⟩
          dsimp only at h
          split at h
          · exact ih hd' hst' h
          · split at h
            · simp at h
            · rename_i s1 h1
              exact ih hd' (classify_text hs ((hd d (by simp)).2 _ hn) (sym := ⟨_, _⟩) hc.2 hst' h1) h

structure ImplPkgText (p : Impl.Pkg) : Prop where
  module : ModuleText p.module
  defs : ∀ ds, p.defs = some ds → ∀ t, some t ∈ ds → TypeDefText t
  scope : ∀ ds, p.scope = some ds → ∀ t, some t ∈ ds → TypeDefText t

theorem extractAll_text {E : Impl.Ext} {scopes : Scopes} (hs : ∀ q, ∀ x ∈ scopes q, ObjDataText x) {project : Bool} {ps : List Impl.Pkg}
    (hp : ∀ p ∈ ps, ImplPkgText p) {s s' : Impl.State} (hst : ImplsText s) (h : Impl.extractAll E scopes project ps s = some s') : ImplsText s' := by
  induction ps generalizing s with
  | nil => exact (Option.some.inj h) ▸ hst
  | cons p ps ih =>
    rw [Impl.extractAll] at h
    split at h
    · simp at h
    · rename_i s1 h1
      refine ih (fun x hx => hp x (List.mem_cons_of_mem _ hx)) ?_ h
      have hpp := hp p (by simp)
      unfold Impl.extractPkg at h1
      split at h1
      · exact (Option.some.inj h1) ▸ hst
      · split at h1
        · rename_i ds hds
          split at h1
          · exact (Option.some.inj h1) ▸ hst
          · rename_i r hr
            exact extractDefs_text hs (hst.g.tables _ (mem_of_lookup hr)) (hpp.defs ds hds) hst h1
        · split at h1
          · rename_i ds hds
            exact extractScope_text hs hpp.module (hpp.scope ds hds) hst h1
          · exact (Option.some.inj h1) ▸ hst

def HeapText (h : Impl.Heap) : Prop := ∀ r, ∀ x ∈ h r, Text x

theorem heap_set {h : Impl.Heap} (hh : HeapText h) (r : Impl.Ref) {l : List Str} (hl : ∀ x ∈ l, Text x) : HeapText (h.set r l) := by
  intro r' x hx
  unfold Impl.Heap.set at hx
  split at hx
  · exact hl x hx
  · exact hh r' x hx

theorem heap_append {h : Impl.Heap} (hh : HeapText h) (r : Impl.Ref) {s : Str} (hs : Text s) : HeapText (h.append r s) := by
  refine heap_set hh r fun x hx => ?_
  rcases List.mem_append.1 hx with hx | hx
  · exact hh r x hx
  · simp only [List.mem_singleton] at hx
    exact hx ▸ hs

theorem heap_canon {h : Impl.Heap} (hh : HeapText h) (r : Impl.Ref) : HeapText (h.set r (canonicalize (h r))) :=
  heap_set hh r fun x hx => hh r x (mem_canonicalize.1 hx)

theorem addMethods_text {ty : Impl.ImplDef} {ms : List (Str × Impl.SymRef)} (hm : ∀ m ∈ ms, Text m.2.sym) {h : Impl.Heap} (hh : HeapText h) :
    HeapText (Impl.addMethods ty ms h) := by
  induction ms generalizing h with
  | nil => exact hh
  | cons m ms ih =>
    rw [Impl.addMethods]
    split
    · exact ih (fun x hx => hm x (List.mem_cons_of_mem _ hx)) hh
    · exact ih (fun x hx => hm x (List.mem_cons_of_mem _ hx)) (heap_append hh _ (hm m (by simp)))

theorem addInterfaces_text {E : Impl.Ext} {ty : Impl.ImplDef} {vs : List Impl.IfaceVisit}
    (hv : ∀ v ∈ vs, Text v.iface.symbol.sym ∧ ∀ m ∈ v.methods, Text m.2.sym) {h : Impl.Heap} (hh : HeapText h) :
    HeapText (Impl.addInterfaces E ty vs h) := by
  induction vs generalizing h with
  | nil => exact hh
  | cons v vs ih =>
    have ih := @ih (fun x hx => hv x (List.mem_cons_of_mem _ hx))
    rw [Impl.addInterfaces]
    split
    · exact ih (addMethods_text (hv v (by simp)).2 (heap_append hh _ (hv v (by simp)).1))
    · exact ih hh

theorem canonMethods_text {ms : List (Str × Impl.SymRef)} {h : Impl.Heap} (hh : HeapText h) : HeapText (Impl.canonMethods ms h) := by
  induction ms generalizing h with
  | nil => exact hh
  | cons m ms ih =>
    rw [Impl.canonMethods]
    exact ih (heap_canon hh _)

theorem findImplementations_text {E : Impl.Ext} {cs ifs : List (Str × Impl.ImplDef)} (hi : ∀ e ∈ ifs, ImplText e.2) {vs : List Impl.TypeVisit}
    (hv : Enumerates cs ifs vs) {s : Impl.Heap × Nat} (hh : HeapText s.1) : HeapText (Impl.findImplementations E vs s).1 := by
  have key : ∀ vs : List Impl.TypeVisit, (∀ v ∈ vs, ∀ w ∈ v.ifaces, Text w.iface.symbol.sym ∧ ∀ m ∈ w.methods, Text m.2.sym) →
      ∀ s : Impl.Heap × Nat, HeapText s.1 → HeapText (Impl.findImplementations E vs s).1 := by
    intro vs
    induction vs with
    | nil => exact fun _ s hs => hs
    | cons v vs ih =>
      intro h s hs
      rw [Impl.findImplementations]
      exact ih (fun x hx => h x (List.mem_cons_of_mem _ hx)) _
        (canonMethods_text (heap_canon (addInterfaces_text (h v (by simp)) hs) _))
  refine key vs (fun v hvm w hw => ?_) s hh
  obtain ⟨h1, _, h3⟩ := hv.2 v hvm
  obtain ⟨e, he, hew⟩ := List.mem_map.1 (h1.subset (List.mem_map.2 ⟨w, hw, rfl⟩))
  have := hi e he
  rw [hew] at this
  exact ⟨this.1, fun m hm => this.2 m ((h3 w hw).subset hm)⟩

theorem addImplementations_text {E : Impl.Ext} {scopes : Scopes} (hs : ∀ q, ∀ x ∈ scopes q, ObjDataText x) {g : Global} (hg : GlobalText g)
    {h : Impl.Heap} (hh : HeapText h) {pkgs all : List Impl.Pkg} (hp : ∀ p ∈ pkgs, ImplPkgText p) (ha : ∀ p ∈ all, ImplPkgText p)
    {orders : Impl.State → Impl.State → Impl.Orders} (ho : ValidOrders orders) {r : Impl.Result}
    (hr : Impl.addImplementations E scopes g h pkgs all orders = some r) :
    GlobalText r.g ∧ HeapText r.heap ∧ ∀ x ∈ r.external, Text x.sym := by
  unfold Impl.addImplementations Impl.extract at hr
  split at hr
  · simp at hr
  · rename_i loc hl
    have hloc := extractAll_text hs hp (s := ⟨g, [], []⟩) ⟨hg, by simp, by simp⟩ hl
    split at hr
    · simp at hr
    · rename_i rem hrem
      have hremt := extractAll_text hs (fun p hp => ha p (List.mem_filter.1 hp).1) (s := ⟨loc.g, [], []⟩) ⟨hloc.g, by simp, by simp⟩ hrem
      rw [← Option.some.inj hr]
      obtain ⟨h1, h2, h3, h4⟩ := ho loc rem
      have hheap := findImplementations_text (E := E) hloc.ifaces h3 (findImplementations_text (E := E) hremt.ifaces h2
        (findImplementations_text (E := E) hloc.ifaces h1 (s := (h, 0)) hh))
      refine ⟨hremt.g, hheap, ?_⟩
      intro x hx
      obtain ⟨d, hd, rfl⟩ := List.mem_map.1 hx
      obtain ⟨e, he, rfl⟩ := List.mem_map.1 (h4.subset (List.mem_filter.1 hd).1)
      exact (hremt.concretes e he).1

end Verif
