import Verif.Props.Clauses
/-! # Lemmas: two symbol tables with the same contents (for C69) -/
namespace Verif
open Spec Impl

/-- Two symbol tables with the same contents, entered in a different order. -/
structure GEq (g g' : Global) : Prop where
  symbols : ∀ k, g.symbols.lookup k = g'.symbols.lookup k
  packages : ∀ k, g.getPkgSymbol k = g'.getPkgSymbol k
  composer : g.composer = g'.composer
  skipped : g.skipped = g'.skipped

namespace GEq
variable {g g' : Global}

theorem symm (h : GEq g g') : GEq g' g :=
  ⟨fun k => (h.symbols k).symm, fun k => (h.packages k).symm, h.composer.symm, h.skipped.symm⟩

theorem information (h : GEq g g') (c : Str) (pos : Nat) : g.getSymbolInformation c pos = g'.getSymbolInformation c pos := by
  unfold Global.getSymbolInformation; rw [h.symbols]

theorem answer (h : GEq g g') (scopes : Scopes) (o : Obj) : (g.getSymbolOfObject scopes o).2 = (g'.getSymbolOfObject scopes o).2 := by
  have hi : ∀ path, (testPackageCombinations path).findSome? (fun c => g.getSymbolInformation c o.self.pos) =
      (testPackageCombinations path).findSome? (fun c => g'.getSymbolInformation c o.self.pos) := by
    intro path
    congr 1
    funext c
    exact h.information c _
  unfold Global.getSymbolOfObject
  dsimp only
  rw [h.skipped]
  split
  · rfl
  · cases hcls : o.self.cls with
    | pkgName i => rfl
    | nil => rfl
    | label => rfl
    | _ =>
      cases hp : o.self.pkg with
      | none =>
        simp only
        try (split <;> rfl)
      | some path =>
        simp only
        split
        · rfl
        · rw [hi path]
          split
          · rfl
          · rw [h.symbols, h.composer]
            split
            · split <;> rfl
            · rfl

theorem tableOf (h : GEq g g') (o : Obj) : tableOf g o = tableOf g' o := by
  unfold Impl.tableOf
  split
  · rfl
  · congr 1
    funext c
    rw [h.information]

theorem described (h : GEq g g') {scopes b ps t s p} (hd : Described scopes g b ps t s p) : Described scopes g' b ps t s p := by
  cases hd with
  | source h1 h2 h3 h4 h5 h6 h7 h8 => exact .source h1 h2 h3 h4 h5 h6 (by rw [← h.symbols]; exact h7) h8
  | exported h1 h2 h3 h4 h5 h6 h7 h8 h9 => exact .exported h1 h2 h3 h4 h5 h6 h7 (by rw [← h.composer]; exact h8) h9

theorem methodDescribed (h : GEq g g') {scopes b ts m s} (hd : MethodDescribed scopes g b ts m s) :
    MethodDescribed scopes g' b ts m s := by
  obtain ⟨i, h1, h2, h3⟩ := hd
  refine ⟨i, by rw [← h.answer]; exact h1, h2, ?_⟩
  rw [← h.tableOf]; exact h3

theorem shouldRelate (h : GEq g g') {E scopes pkgs all b b' ref x} (hr : ShouldRelate E scopes g pkgs all b b' ref x) :
    ShouldRelate E scopes g' pkgs all b b' ref x := by
  obtain ⟨t, st, pt, i, si, qi, h1, h2, h3, h4, h5, h6, h7, h8⟩ := hr
  refine ⟨t, st, pt, i, si, qi, h.described h1, h2, h.described h3, h4, h5, h6, h7, ?_⟩
  rcases h8 with h8 | ⟨n, hn, m, hm, he, sn, sm, k1, k2, k3⟩
  · exact .inl h8
  · exact .inr ⟨n, hn, m, hm, he, sn, sm, h.methodDescribed k1, h.methodDescribed k2, k3⟩

theorem distinct (h : GEq g g') {scopes b ps} (hd : SymbolsDistinct scopes g b ps) : SymbolsDistinct scopes g' b ps :=
  fun _ _ _ _ _ _ h1 h2 he => hd _ _ _ _ _ _ (h.symm.described h1) (h.symm.described h2) he

theorem consistent (h : GEq g g') {all} (hc : Consistent g all) : Consistent g' all where
  fresh := by rw [← h.composer, ← h.skipped]; exact hc.fresh
  coherent := hc.coherent
  wellFormed := hc.wellFormed
  funcs := hc.funcs
  oneMethod := hc.oneMethod
  scopeTypes := hc.scopeTypes
  modules := fun p hp r hr => hc.modules p hp r (by rw [h.symbols]; exact hr)
  registered := fun p hp => by obtain ⟨r, hr⟩ := hc.registered p hp; exact ⟨r, by rw [← h.symbols]; exact hr⟩

end GEq

/-- C33 for two symbol tables with the same contents. -/
theorem order_independent {E : Ext} {scopes g g' h pkgs pkgs' all all' orders orders' r r'} (hgg : GEq g g') (hcons : Consistent g all)
    (hsub : ∀ p ∈ pkgs, p ∈ all) (hsub' : ∀ p ∈ pkgs', p ∈ all') (hord : ValidOrders orders) (hord' : ValidOrders orders')
    (hdist : ∀ b, SymbolsDistinct scopes g b (side pkgs all b)) (hsame : SameListing pkgs pkgs')
    (hsameAll : SameListing all all') (hempty : ∀ ref, h ref = [])
    (hrun : addImplementations E scopes g h pkgs all orders = some r)
    (hrun' : addImplementations E scopes g' h pkgs' all' orders' = some r') :
    (∀ ref, r.heap ref = r'.heap ref) ∧ r.external.Perm r'.external := by
  have hcons' : Consistent g' all' := hgg.consistent (consistent_same hsameAll hcons)
  have hdist' : ∀ b, SymbolsDistinct scopes g' b (side pkgs' all' b) := by
    intro b
    apply hgg.distinct
    intro t s p t' s' p' h1 h2
    exact hdist b _ _ _ _ _ _ (described_same (side_same hsame hsameAll b).symm h1)
      (described_same (side_same hsame hsameAll b).symm h2)
  have hheap : ∀ ref, r.heap ref = r'.heap ref := by
    intro ref
    obtain ⟨_, _, _, _, _, _, _, hs, _⟩ := run_spec hcons hsub hord hrun
    obtain ⟨_, _, _, _, _, _, _, hs', _⟩ := run_spec hcons' hsub' hord' hrun'
    have hn : StrictlySorted (h ref) := by rw [hempty]; exact List.Pairwise.nil
    apply sorted_ext (hs ref (.inl hn)) (hs' ref (.inl hn))
    intro x
    rw [heap_iff hcons hsub hord hdist hrun, heap_iff hcons' hsub' hord' hdist' hrun']
    constructor
    · rintro (hx | ⟨b, b', hb, hr⟩)
      · exact .inl hx
      · exact .inr ⟨b, b', hb, hgg.shouldRelate (shouldRelate_same hsame hsameAll hr)⟩
    · rintro (hx | ⟨b, b', hb, hr⟩)
      · exact .inl hx
      · exact .inr ⟨b, b', hb, hgg.symm.shouldRelate (shouldRelate_same hsame.symm hsameAll.symm hr)⟩
  refine ⟨hheap, ?_⟩
  obtain ⟨n1, m1⟩ := external_iff hcons hsub hord hdist hrun
  obtain ⟨n2, m2⟩ := external_iff hcons' hsub' hord' hdist' hrun'
  rw [List.perm_ext_iff_of_nodup n1 n2]
  intro s
  rw [m1, m2]
  constructor
  · rintro ⟨t, p, h1, h2, h3, h4⟩
    exact ⟨t, p, hgg.described (described_same (remote_same hsame hsameAll) h1), h2, h3, by rw [← hheap]; exact h4⟩
  · rintro ⟨t, p, h1, h2, h3, h4⟩
    exact ⟨t, p, hgg.symm.described (described_same (remote_same hsame hsameAll).symm h1), h2, h3, by rw [hheap]; exact h4⟩

/-! ## The document of a file under two orders -/

/-- The same file seen through two orders of the type-switch variables. -/
structure EnvSame (env env' : FileEnv) : Prop where
  pkg : env.pkg = env'.pkg
  scopes : env.scopes = env'.scopes
  table : env.pkgTable = env'.pkgTable
  pkgNameOf : env.pkgNameOf = env'.pkgNameOf
  imports : env.imports = env'.imports
  perm : env.implicits.Perm env'.implicits
  /-- variables at the same place look the same -/
  agree : ∀ o ∈ env.implicits, ∀ o' ∈ env.implicits, o.self.pos = o'.self.pos →
    o.self.name = o'.self.name ∧ kindForObject (some o.self) = kindForObject (some o'.self)

/-- Two local variables with the same description. -/
def LooksSame (env env' : FileEnv) (d d' : Nat × Obj) : Prop :=
  d.1 = d'.1 ∧ (d = d' ∨ (env.caseClauses d.2.self.pos).isSome ∧ (env'.caseClauses d'.2.self.pos).isSome ∧
    d.2.self.name = d'.2.self.name ∧ kindForObject (some d.2.self) = kindForObject (some d'.2.self))

namespace EnvSame
variable {env env' : FileEnv}

theorem clause (h : EnvSame env env') (pos : Nat) : (env.caseClauses pos).isSome = (env'.caseClauses pos).isSome := by
  unfold FileEnv.caseClauses
  rw [Bool.eq_iff_iff, List.find?_isSome, List.find?_isSome]
  simp only [List.mem_reverse]
  constructor
  · rintro ⟨x, hx, h2⟩; exact ⟨x, h.perm.subset hx, h2⟩
  · rintro ⟨x, hx, h2⟩; exact ⟨x, h.perm.symm.subset hx, h2⟩

theorem clause_none (h : EnvSame env env') (pos : Nat) : env.caseClauses pos = none ↔ env'.caseClauses pos = none := by
  have := h.clause pos
  cases h1 : env.caseClauses pos <;> cases h2 : env'.caseClauses pos <;> simp_all

theorem clause_obj {env : FileEnv} {pos : Nat} {o : Obj} (h : env.caseClauses pos = some o) : o ∈ env.implicits ∧ o.self.pos = pos := by
  unfold FileEnv.caseClauses at h
  have h1 := List.mem_of_find?_eq_some h
  have h2 := List.find?_some h
  exact ⟨by simpa using h1, by simpa using h2⟩

theorem localDecl_same (h : EnvSame env env') (e : Event) :
    Option.Rel (LooksSame env env') (localDecl env e) (localDecl env' e) := by
  cases e with
  | qualifier i o imported => exact .none
  | imp a b c => exact .none
  | ident i decl =>
    unfold localDecl
    simp only
    split
    · exact .none
    · cases h1 : env.caseClauses i.pos with
      | none =>
        rw [(h.clause_none _).1 h1, h.pkg, h.table]
        simp only
        cases env'.pkg.defs i.uid with
        | none => exact .none
        | some d =>
          simp only
          split
          · exact .none
          · exact .some ⟨rfl, .inl rfl⟩
      | some o =>
        cases h2 : env'.caseClauses i.pos with
        | none => rw [(h.clause_none _).2 h2] at h1; simp at h1
        | some o' =>
          obtain ⟨m1, p1⟩ := clause_obj h1
          obtain ⟨m2, p2⟩ := clause_obj h2
          obtain ⟨a1, a2⟩ := h.agree o m1 o' (h.perm.symm.subset m2) (by rw [p1, p2])
          exact .some ⟨by simp [p1, p2], .inr ⟨by simp only; rw [p1, h1]; rfl, by simp only; rw [p2, h2]; rfl, a1, a2⟩⟩

theorem localDecls_same (h : EnvSame env env') (es : List Event) :
    List.Forall₂ (LooksSame env env') (localDecls env es) (localDecls env' es) := by
  induction es with
  | nil => exact .nil
  | cons e es ih =>
    unfold localDecls at ih ⊢
    rw [List.filterMap_cons, List.filterMap_cons]
    have := h.localDecl_same e
    cases h1 : localDecl env e <;> cases h2 : localDecl env' e <;> rw [h1, h2] at this
    · exact ih
    · cases this
    · cases this
    · cases this with
      | some hs => exact .cons hs ih

theorem forall_length {R : Nat × Obj → Nat × Obj → Prop} {l l'} (h : List.Forall₂ R l l') : l.length = l'.length := by
  induction h <;> simp [*]

theorem forall_fst {l l'} (h : List.Forall₂ (LooksSame env env') l l') : l.map (·.1) = l'.map (·.1) := by
  induction h with
  | nil => rfl
  | cons h _ ih => simp [ih, h.1]

theorem symbolAt (h : EnvSame env env') (es : List Event) (pos : Nat) : localSymbolAt env es pos = localSymbolAt env' es pos := by
  unfold localSymbolAt
  have hf := forall_fst (h.localDecls_same es)
  have : ∀ l : List (Nat × Obj), l.findIdx? (fun d => d.1 == pos) = (l.map (·.1)).findIdx? (fun d => d == pos) := by
    intro l; rw [List.findIdx?_map]; rfl
  rw [this, this, hf]

theorem span_same (h : EnvSame env env') (i : Ident) : identSpan env i = identSpan env' i := by
  unfold identSpan; rw [h.pkg]

theorem occsAt_same (h : EnvSame env env') {g g' : Global} (hg : GEq g g') (a : List Event) (e : Event) :
    occsAt env g a e = occsAt env' g' a e := by
  cases e with
  | qualifier i o imported => simp only [occsAt]; rw [hg.packages, h.span_same]
  | imp uid name pathPos =>
    simp only [occsAt]
    unfold importOccs
    rw [h.pkgNameOf, h.imports, h.pkg]
    cases (env'.pkgNameOf uid).bind env'.imports with
    | none => rfl
    | some q => simp only; rw [hg.packages]
  | ident i decl =>
    simp only [occsAt]
    congr 1
    · unfold defOccs
      rw [forall_length (h.localDecls_same a), h.span_same, h.pkg, h.table]
      cases h1 : env.caseClauses i.pos with
      | none => rw [(h.clause_none _).1 h1]
      | some o =>
        have := h.clause i.pos
        rw [h1] at this
        obtain ⟨o', h2⟩ := Option.isSome_iff_exists.1 this.symm
        rw [h2]
    · unfold refOccs target
      rw [h.clause, h.pkg, h.span_same]
      simp only [h.symbolAt, h.scopes, hg.answer]

theorem occsFrom_same (h : EnvSame env env') {g g' : Global} (hg : GEq g g') (a es : List Event) :
    occsFrom env g a es = occsFrom env' g' a es := by
  induction es generalizing a with
  | nil => rfl
  | cons e es ih => simp only [occsFrom]; rw [h.occsAt_same hg, ih]

theorem localInfo_same (h : EnvSame env env') (os : Obj → Str) {d d' : Nat × Obj} (hd : LooksSame env env' d d') (s : Str) :
    localInfo env os ⟨s, d.2⟩ = localInfo env' os ⟨s, d'.2⟩ := by
  rcases hd with ⟨_, rfl | ⟨h1, h2, h3, h4⟩⟩
  · unfold localInfo
    simp only
    cases h1 : env.caseClauses d.2.self.pos with
    | none => rw [(h.clause_none _).1 h1]
    | some o =>
      have := h.clause d.2.self.pos
      rw [h1] at this
      obtain ⟨o', h2⟩ := Option.isSome_iff_exists.1 this.symm
      rw [h2]
  · obtain ⟨x, hx⟩ := Option.isSome_iff_exists.1 h1
    obtain ⟨y, hy⟩ := Option.isSome_iff_exists.1 h2
    unfold localInfo
    simp only [hx, hy, h3, h4]

theorem locals_same (h : EnvSame env env') (os : Obj → Str) (es : List Event) :
    (localMap (localDecls env es)).map (fun e => localInfo env os e.2) =
    (localMap (localDecls env' es)).map (fun e => localInfo env' os e.2) := by
  have key : ∀ {l l' : List (Nat × Obj)}, List.Forall₂ (LooksSame env env') l l' → ∀ n,
      ((l.zipIdx n).map fun p => (p.1.1, (⟨localSymbol p.2, p.1.2⟩ : Local))).map (fun e => localInfo env os e.2) =
      ((l'.zipIdx n).map fun p => (p.1.1, (⟨localSymbol p.2, p.1.2⟩ : Local))).map (fun e => localInfo env' os e.2) := by
    intro l l' hl
    induction hl with
    | nil => intro n; rfl
    | cons hd _ ih =>
      intro n
      simp only [List.zipIdx_cons, List.map_cons]
      rw [h.localInfo_same os hd]
      congr 1
      exact ih (n + 1)
  exact key (h.localDecls_same es) 0

end EnvSame

end Verif
