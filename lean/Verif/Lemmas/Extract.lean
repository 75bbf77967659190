import Verif.Spec.Implementations
import Verif.Lemmas.Memo
import Verif.Lemmas.Sort
/-! # Lemmas: extraction of types -/
namespace Verif.Impl
open Verif Verif.Spec

theorem tableOf_eq {g g0 : Global} (h : g.symbols = g0.symbols) (o : Obj) : tableOf g o = tableOf g0 o := by
  unfold tableOf Global.getSymbolInformation; rw [h]

/-! ### Maps -/

theorem mem_put {β : Type} {k : Str} {v : β} {m : List (Str × β)} {e : Str × β} :
    e ∈ put k v m ↔ e = (k, v) ∨ (e ∈ m ∧ e.1 ≠ k) := by
  simp [put, List.mem_filter]

theorem put_nodup {β : Type} {k : Str} {v : β} {m : List (Str × β)} (h : (m.map (·.1)).Nodup) :
    ((put k v m).map (·.1)).Nodup := by
  unfold put
  simp only [List.map_cons, List.nodup_cons, List.mem_map, List.mem_filter]
  refine ⟨by rintro ⟨e, ⟨_, h1⟩, h2⟩; simp [h2] at h1, ?_⟩
  exact (List.Sublist.map _ (List.filter_sublist)).nodup h

theorem put_keys {β : Type} {k k' : Str} {v : β} {m : List (Str × β)} :
    k' ∈ (put k v m).map (·.1) ↔ k' = k ∨ k' ∈ m.map (·.1) := by
  simp only [List.mem_map, mem_put]
  constructor
  · rintro ⟨e, rfl | ⟨h1, _⟩, rfl⟩
    · exact .inl rfl
    · exact .inr ⟨e, h1, rfl⟩
  · rintro (rfl | ⟨e, h, rfl⟩)
    · exact ⟨_, .inl rfl, rfl⟩
    · by_cases hk : e.1 = k
      · exact ⟨(k, v), .inl rfl, hk.symm⟩
      · exact ⟨e, .inr ⟨h, hk⟩, rfl⟩

theorem lookup_of_mem {β : Type} {m : List (Str × β)} (h : (m.map (·.1)).Nodup) {k : Str} {v : β} :
    m.lookup k = some v ↔ (k, v) ∈ m := by
  induction m with
  | nil => simp
  | cons e m ih =>
    obtain ⟨k', v'⟩ := e
    simp only [List.map_cons, List.nodup_cons] at h
    rw [List.lookup_cons]
    by_cases hk : k = k'
    · subst hk
      simp only [beq_self_eq_true, Option.some.injEq, List.mem_cons, Prod.mk.injEq, true_and]
      constructor
      · rintro rfl; exact .inl rfl
      · rintro (h' | h')
        · exact h'.symm
        · exact absurd (List.mem_map.2 ⟨_, h', rfl⟩) h.1
    · have : (k == k') = false := by simpa using hk
      simp only [this, List.mem_cons, Prod.mk.injEq, hk, false_and, false_or]
      exact ih h.2

/-! ### Methods -/

theorem methodSymbols_spec {scopes g0 U project sym} (hf : g0.composer.compositions = [] ∧ g0.skipped = [])
    (hc : CoherentObjs U) (hw : ∀ o ∈ U, WellFormedObj o) :
    ∀ (ms : List Method) (g : Global) (acc : List (Str × SymRef)) (g' res),
    GInv scopes g0 U g → (∀ m ∈ ms, m.obj ∈ U) → (ms.map Method.id).Nodup → (acc.map (·.1)).Nodup →
    (∀ m ∈ ms, m.id ∉ acc.map (·.1)) →
    methodSymbols scopes project sym g ms acc = some (g', res) →
    GInv scopes g0 U g' ∧ (res.map (·.1)).Nodup ∧
    ∀ id r, (id, r) ∈ res ↔ (id, r) ∈ acc ∨ ∃ m ∈ ms, m.id = id ∧ MethodDescribed scopes g0 project sym m r := by
  intro ms
  induction ms with
  | nil =>
    intro g acc g' res hI _ _ hn _ h
    simp only [methodSymbols, Option.some.injEq, Prod.mk.injEq] at h
    obtain ⟨rfl, rfl⟩ := h
    exact ⟨hI, hn, by simp⟩
  | cons m ms ih =>
    intro g acc g' res hI hU hnd hn hni h
    obtain ⟨hans, hI'⟩ := hI.lookup hf hc hw (hU m (by simp))
    have hsym := hI.symbols
    simp only [List.map_cons, List.nodup_cons] at hnd
    have hU' : ∀ m ∈ ms, m.obj ∈ U := fun x hx => hU x (by simp [hx])
    have hni' : ∀ m ∈ ms, m.id ∉ acc.map (·.1) := fun x hx => hni x (by simp [hx])
    unfold methodSymbols at h
    have hno : (∀ i, (g0.getSymbolOfObject scopes m.obj).2 ≠ .info i) → ∀ r,
        ¬ MethodDescribed scopes g0 project sym m r := by
      rintro hne r ⟨i, hi, _⟩; exact hne i hi
    obtain ⟨g1, a, hga⟩ : ∃ g1 a, g.getSymbolOfObject scopes m.obj = (g1, a) := ⟨_, _, rfl⟩
    rw [hga] at h hans hI'
    simp only at hans hI'
    cases a with
    | panic => simp at h
    | error =>
      simp only at h
      obtain ⟨r1, r2, r3⟩ := ih _ _ _ _ hI' hU' hnd.2 hn hni' h
      refine ⟨r1, r2, fun id r => ?_⟩
      rw [r3]
      have := hno (by intro i h; rw [← hans] at h; simp at h)
      simp [this]
    | skip =>
      simp only at h
      obtain ⟨r1, r2, r3⟩ := ih _ _ _ _ hI' hU' hnd.2 hn hni' h
      refine ⟨r1, r2, fun id r => ?_⟩
      rw [r3]
      have := hno (by intro i h; rw [← hans] at h; simp at h)
      simp [this]
    | info i =>
      simp only at h
      obtain ⟨ref, href⟩ : ∃ ref, ref = methodRef project sym g m := ⟨_, rfl⟩
      rw [← href] at h
      unfold methodRef at href
      have hmd : ∀ r, MethodDescribed scopes g0 project sym m r ↔ r = ⟨ref, i.symbol⟩ := by
        intro r
        rw [tableOf_eq hsym] at href
        constructor
        · rintro ⟨i', hi', hs, hr⟩
          rw [← hans] at hi'; simp only [Found.info.injEq] at hi'; subst hi'
          obtain ⟨rr, rs⟩ := r
          simp only at hs hr
          subst hs
          rcases hr with ⟨c, h1, h2⟩ | ⟨h1, h2⟩
          · rw [h1] at href; simp only at href; rw [h2, href]
          · rw [h1] at href; simp only at href; rw [h2, href]
        · rintro rfl
          refine ⟨i, hans.symm, rfl, ?_⟩
          cases ht : tableOf g0 m.obj with
          | some c => rw [ht] at href; exact .inl ⟨c, rfl, href⟩
          | none => rw [ht] at href; exact .inr ⟨rfl, href⟩
      have hput : put m.id (⟨ref, i.symbol⟩ : SymRef) acc = (m.id, ⟨ref, i.symbol⟩) :: acc := by
        unfold put
        rw [List.filter_eq_self.2]
        intro e he
        have := hni m (by simp)
        simp only [ne_eq, decide_eq_true_eq]
        intro hk
        exact this (List.mem_map.2 ⟨e, he, hk⟩)
      have hn1 := put_nodup (k := m.id) (v := (⟨ref, i.symbol⟩ : SymRef)) hn
      have hni1 : ∀ x ∈ ms, x.id ∉ (put m.id (⟨ref, i.symbol⟩ : SymRef) acc).map (·.1) := by
        intro x hx
        rw [put_keys]
        rintro (e | h')
        · exact hnd.1 (e ▸ List.mem_map.2 ⟨x, hx, rfl⟩)
        · exact hni' x hx h'
      obtain ⟨r1, r2, r3⟩ := ih _ _ _ _ hI' hU' hnd.2 hn1 hni1 h
      refine ⟨r1, r2, fun id r => ?_⟩
      rw [r3, hput]
      simp only [List.mem_cons, Prod.mk.injEq]
      constructor
      · rintro ((⟨rfl, rfl⟩ | h') | ⟨x, hx, h'⟩)
        · exact .inr ⟨m, .inl rfl, rfl, (hmd _).2 rfl⟩
        · exact .inl h'
        · exact .inr ⟨x, .inr hx, h'⟩
      · rintro (h' | ⟨x, (rfl | hx), h1, h2⟩)
        · exact .inl (.inr h')
        · exact .inl (.inl ⟨h1.symm, (hmd _).1 h2⟩)
        · exact .inr ⟨x, hx, h1, h2⟩

/-! ### Types -/

/-- The data the pass keeps for a described type. -/
structure IsImpl (E : Ext) (scopes : Scopes) (g : Global) (project : Bool) (d : ImplDef) (t : NamedT) (s : SymRef)
    (p : Str) : Prop where
  symbol : d.symbol = s
  named : d.named = t
  path : d.pkgPath = p
  mask : methodMask E t.methods = some d.mask
  count : d.methodCount = t.methods.length
  unexported : d.hasUnexported = hasUnexportedMethods t.methods
  methods : ∀ id r, (id, r) ∈ d.methods ↔ ∃ m ∈ t.methods, m.id = id ∧ MethodDescribed scopes g project s.sym m r
  keys : (d.methods.map (·.1)).Nodup

/-- Invariant of the extraction. -/
structure Sound (E : Ext) (scopes : Scopes) (g0 : Global) (U : List Obj) (project : Bool) (ps : List Pkg) (s : State) :
    Prop where
  ginv : GInv scopes g0 U s.g
  ifaces : ∀ e ∈ s.ifaces, ∃ t sy p, Described scopes g0 project ps t sy p ∧ t.isIface = true ∧ t.methods ≠ [] ∧
    e.1 = sy.sym ∧ IsImpl E scopes g0 project e.2 t sy p
  concretes : ∀ e ∈ s.concretes, ∃ t sy p, Described scopes g0 project ps t sy p ∧ t.isIface = false ∧ t.methods ≠ [] ∧
    e.1 = sy.sym ∧ IsImpl E scopes g0 project e.2 t sy p
  ikeys : (s.ifaces.map (·.1)).Nodup
  ckeys : (s.concretes.map (·.1)).Nodup

/-- Keys are never removed. -/
def Grows (s s' : State) : Prop :=
  (∀ k ∈ s.ifaces.map (·.1), k ∈ s'.ifaces.map (·.1)) ∧ (∀ k ∈ s.concretes.map (·.1), k ∈ s'.concretes.map (·.1))

theorem Grows.refl (s : State) : Grows s s := ⟨fun _ h => h, fun _ h => h⟩
theorem Grows.trans {a b c : State} (h : Grows a b) (h' : Grows b c) : Grows a c :=
  ⟨fun k hk => h'.1 k (h.1 k hk), fun k hk => h'.2 k (h.2 k hk)⟩

/-- The type is recorded under its symbol. -/
def Recorded (s : State) (t : NamedT) (sy : SymRef) : Prop :=
  t.methods ≠ [] → if t.isIface then sy.sym ∈ s.ifaces.map (·.1) else sy.sym ∈ s.concretes.map (·.1)

theorem Recorded.mono {s s' : State} (h : Grows s s') {t sy} (hr : Recorded s t sy) : Recorded s' t sy := by
  intro hm
  have := hr hm
  by_cases hi : t.isIface = true
  · rw [if_pos hi] at this ⊢; exact h.1 _ this
  · rw [if_neg hi] at this ⊢; exact h.2 _ this

theorem classify_spec {E scopes g0 U project ps} (hf : g0.composer.compositions = [] ∧ g0.skipped = [])
    (hc : CoherentObjs U) (hw : ∀ o ∈ U, WellFormedObj o) {t : NamedT} {sy p} {s s' : State}
    (hD : Described scopes g0 project ps t sy p) (hU : ∀ m ∈ t.methods, m.obj ∈ U) (hn : (t.methods.map Method.id).Nodup)
    (hs : Sound E scopes g0 U project ps s) (h : classify E scopes project t sy p s = some s') :
    Sound E scopes g0 U project ps s' ∧ Grows s s' ∧ Recorded s' t sy := by
  unfold classify at h
  by_cases hm : t.methods = []
  · rw [if_pos hm] at h
    simp only [Option.some.injEq] at h
    subst h
    exact ⟨hs, Grows.refl _, fun h => absurd hm h⟩
  · rw [if_neg hm] at h
    cases hms : methodSymbols scopes project sy.sym s.g t.methods [] with
    | none => rw [hms] at h; simp at h
    | some x =>
      obtain ⟨g1, res⟩ := x
      rw [hms] at h
      cases hk : methodMask E t.methods with
      | none => rw [hk] at h; simp at h
      | some mask =>
        rw [hk] at h
        obtain ⟨r1, r2, r3⟩ := methodSymbols_spec hf hc hw t.methods s.g [] g1 res hs.ginv hU hn (by simp) (by simp) hms
        simp only [Option.bind_eq_bind, Option.bind_some, pure] at h
        have himpl : IsImpl E scopes g0 project
            { symbol := sy, named := t, methods := res, mask := mask, methodCount := t.methods.length
              hasUnexported := hasUnexportedMethods t.methods, pkgPath := p } t sy p :=
          ⟨rfl, rfl, rfl, hk, rfl, rfl, by intro id r; rw [r3]; simp, r2⟩
        by_cases hi : t.isIface = true
        · rw [if_pos hi] at h
          simp only [Option.some.injEq] at h
          subst h
          refine ⟨⟨r1, ?_, hs.concretes, put_nodup hs.ikeys, hs.ckeys⟩, ⟨?_, fun _ h => h⟩, ?_⟩
          · intro e he
            rcases mem_put.1 he with rfl | ⟨he, _⟩
            · exact ⟨t, sy, p, hD, hi, hm, rfl, himpl⟩
            · exact hs.ifaces e he
          · intro k hk; exact put_keys.2 (.inr hk)
          · intro _; rw [if_pos hi]; exact put_keys.2 (.inl rfl)
        · rw [if_neg hi] at h
          simp only [Option.some.injEq] at h
          subst h
          refine ⟨⟨r1, hs.ifaces, ?_, hs.ikeys, put_nodup hs.ckeys⟩, ⟨fun _ h => h, ?_⟩, ?_⟩
          · intro e he
            rcases mem_put.1 he with rfl | ⟨he, _⟩
            · exact ⟨t, sy, p, hD, by simpa using hi, hm, rfl, himpl⟩
            · exact hs.concretes e he
          · intro k hk; exact put_keys.2 (.inr hk)
          · intro _; rw [if_neg hi]; exact put_keys.2 (.inl rfl)

theorem mem_methodSets {all : List Pkg} {p : Pkg} (hp : p ∈ all) {d : TypeDef} {t : NamedT}
    (hd : some d ∈ (p.defs.getD []) ++ (p.scope.getD [])) (ht : d.named = some t) : t ∈ methodSets all :=
  List.mem_flatMap.2 ⟨p, hp, List.mem_filterMap.2 ⟨some d, hd, by simp [ht]⟩⟩

theorem mem_askedObjs {all : List Pkg} {t : NamedT} (ht : t ∈ methodSets all) {m : Method} (hm : m ∈ t.methods) :
    m.obj ∈ askedObjs all :=
  List.mem_append_left _ (List.mem_flatMap.2 ⟨t, ht, List.mem_map.2 ⟨m, hm, rfl⟩⟩)

theorem extractDefs_spec {E scopes g0 all project ps} (hcons : Consistent g0 all) {p : Pkg} {r : PkgRecord}
    {ds0 : List (Option TypeDef)} (hp : p ∈ ps) (hpa : p ∈ all) (hb : p.name ≠ go!"builtin") (hds : p.defs = some ds0)
    (hr : g0.symbols.lookup p.path = some r) :
    ∀ (ds : List (Option TypeDef)) (s s' : State), (∀ d ∈ ds, d ∈ ds0) →
    Sound E scopes g0 (askedObjs all) project ps s → extractDefs E scopes project p r.table ds s = some s' →
    Sound E scopes g0 (askedObjs all) project ps s' ∧ Grows s s' ∧
    ∀ d t i, some d ∈ ds → (p.scope.isSome → d.pkgLevel = true) → d.named = some t → r.table.get d.obj.pos = some i →
      Recorded s' t ⟨.entry p.path d.obj.pos, i.symbol⟩ := by
  intro ds
  induction ds with
  | nil =>
    intro s s' _ hs h
    simp only [extractDefs, Option.some.injEq] at h
    subst h
    exact ⟨hs, Grows.refl _, by simp⟩
  | cons x ds ih =>
    intro s s' hsub hs h
    have hsub' : ∀ d ∈ ds, d ∈ ds0 := fun d hd => hsub d (by simp [hd])
    cases x with
    | none =>
      simp only [extractDefs] at h
      obtain ⟨r1, r2, r3⟩ := ih _ _ hsub' hs h
      exact ⟨r1, r2, fun d t i hd => r3 d t i (by simpa using hd)⟩
    | some d =>
      unfold extractDefs at h
      have skip : extractDefs E scopes project p r.table ds s = some s' →
          (¬ (∃ t i, (p.scope.isSome → d.pkgLevel = true) ∧ d.named = some t ∧ r.table.get d.obj.pos = some i)) →
          Sound E scopes g0 (askedObjs all) project ps s' ∧ Grows s s' ∧
          ∀ d' t i, some d' ∈ some d :: ds → (p.scope.isSome → d'.pkgLevel = true) → d'.named = some t →
            r.table.get d'.obj.pos = some i → Recorded s' t ⟨.entry p.path d'.obj.pos, i.symbol⟩ := by
        intro h hno
        obtain ⟨r1, r2, r3⟩ := ih _ _ hsub' hs h
        refine ⟨r1, r2, fun d' t i hd h1 h2 h3 => ?_⟩
        rcases List.mem_cons.1 hd with e | hd
        · simp only [Option.some.injEq] at e; subst e
          exact absurd ⟨t, i, h1, h2, h3⟩ hno
        · exact r3 d' t i hd h1 h2 h3
      split at h
      · rename_i hlv
        exact skip h (by rintro ⟨t, i, h1, _⟩; exact hlv.2 (h1 hlv.1))
      · rename_i hlv
        have hlv' : p.scope.isSome → d.pkgLevel = true := fun h => Classical.byContradiction (fun hn => hlv ⟨h, hn⟩)
        split at h
        · rename_i hn
          exact skip h (by rintro ⟨t, i, _, h2, _⟩; rw [hn] at h2; simp at h2)
        · rename_i t hn
          split at h
          · rename_i hg
            exact skip h (by rintro ⟨t, i, _, _, h3⟩; rw [hg] at h3; simp at h3)
          · rename_i i hg
            split at h
            · simp at h
            · rename_i s1 hcl
              have hD : Described scopes g0 project ps t ⟨.entry p.path d.obj.pos, i.symbol⟩ p.path :=
                .source hp hb hds (hsub _ (by simp)) hlv' hn hr hg
              have hmem : t ∈ methodSets all :=
                mem_methodSets hpa (by rw [hds]; exact List.mem_append_left _ (hsub _ (by simp))) hn
              obtain ⟨c1, c2, c3⟩ := classify_spec hcons.fresh hcons.coherent hcons.wellFormed hD
                (fun m hm => mem_askedObjs hmem hm) (hcons.oneMethod t hmem) hs hcl
              obtain ⟨r1, r2, r3⟩ := ih _ _ hsub' c1 h
              refine ⟨r1, c2.trans r2, fun d' t' i' hd h1 h2 h3 => ?_⟩
              rcases List.mem_cons.1 hd with e | hd
              · simp only [Option.some.injEq] at e; subst e
                rw [hn] at h2; simp only [Option.some.injEq] at h2; subst h2
                rw [hg] at h3; simp only [Option.some.injEq] at h3; subst h3
                exact c3.mono r2
              · exact r3 d' t' i' hd h1 h2 h3

theorem extractScope_spec {E scopes g0 all project ps} (hcons : Consistent g0 all) {p : Pkg}
    {ds0 : List (Option TypeDef)} (hp : p ∈ ps) (hpa : p ∈ all) (hb : p.name ≠ go!"builtin") (hdn : p.defs = none)
    (hsc : p.scope = some ds0) :
    ∀ (ds : List (Option TypeDef)) (s s' : State), (∀ d ∈ ds, d ∈ ds0) →
    Sound E scopes g0 (askedObjs all) project ps s → extractScope E scopes project p ds s = some s' →
    Sound E scopes g0 (askedObjs all) project ps s' ∧ Grows s s' ∧
    ∀ d t sym, some d ∈ ds → Spec.Exported d.obj.name → d.named = some t →
      (g0.composer.compose scopes (some p.module) (some (.plain d.obj))).2 = sym → sym ≠ [] →
      Recorded s' t ⟨.type project sym, sym⟩ := by
  intro ds
  induction ds with
  | nil =>
    intro s s' _ hs h
    simp only [extractScope, Option.some.injEq] at h
    subst h
    exact ⟨hs, Grows.refl _, by simp⟩
  | cons x ds ih =>
    intro s s' hsub hs h
    have hsub' : ∀ d ∈ ds, d ∈ ds0 := fun d hd => hsub d (by simp [hd])
    cases x with
    | none =>
      simp only [extractScope] at h
      obtain ⟨r1, r2, r3⟩ := ih _ _ hsub' hs h
      exact ⟨r1, r2, fun d t i hd => r3 d t i (by simpa using hd)⟩
    | some d =>
      unfold extractScope at h
      have skip : ∀ s₁ : State, Sound E scopes g0 (askedObjs all) project ps s₁ → Grows s s₁ →
          extractScope E scopes project p ds s₁ = some s' →
          (¬ (∃ t sym, Spec.Exported d.obj.name ∧ d.named = some t ∧
            (g0.composer.compose scopes (some p.module) (some (.plain d.obj))).2 = sym ∧ sym ≠ [])) →
          Sound E scopes g0 (askedObjs all) project ps s' ∧ Grows s s' ∧
          ∀ d' t sym, some d' ∈ some d :: ds → Spec.Exported d'.obj.name → d'.named = some t →
            (g0.composer.compose scopes (some p.module) (some (.plain d'.obj))).2 = sym → sym ≠ [] →
            Recorded s' t ⟨.type project sym, sym⟩ := by
        intro s₁ hs₁ hg₁ h hno
        obtain ⟨r1, r2, r3⟩ := ih _ _ hsub' hs₁ h
        refine ⟨r1, hg₁.trans r2, fun d' t sym hd h1 h2 h3 h4 => ?_⟩
        rcases List.mem_cons.1 hd with e | hd
        · simp only [Option.some.injEq] at e; subst e
          exact absurd ⟨t, sym, h1, h2, h3, h4⟩ hno
        · exact r3 d' t sym hd h1 h2 h3 h4
      split at h
      · rename_i hex
        exact skip s hs (Grows.refl _) h (by rintro ⟨t, sym, h1, _⟩; exact hex ((isExported_iff _).2 h1))
      · rename_i hex
        have hex' : Spec.Exported d.obj.name := (isExported_iff _).1 (by simpa using hex)
        split at h
        · rename_i hn
          exact skip s hs (Grows.refl _) h (by rintro ⟨t, i, _, h2, _⟩; rw [hn] at h2; simp at h2)
        · rename_i t hn
          have hin : some d ∈ ds0 := hsub _ (by simp)
          have hpk := hcons.scopeTypes p hpa ds0 hsc d hin
          obtain ⟨r, hr⟩ := hcons.registered p hpa
          have hmod := hcons.modules p hpa r hr
          have hobj : Obj.plain d.obj ∈ askedObjs all := by
            refine List.mem_append_right _ (List.mem_flatMap.2 ⟨p, hpa, List.mem_filterMap.2 ⟨some d, ?_, rfl⟩⟩)
            rw [hsc]; exact hin
          obtain ⟨hcmp, hginv⟩ := hs.ginv.compose hcons.fresh.1 hcons.coherent hobj (path := p.path) (r := r) hpk hr
          rw [hmod] at hcmp hginv
          have hs₁ : Sound E scopes g0 (askedObjs all) project ps { s with g := { s.g with composer :=
              (s.g.composer.compose scopes (some p.module) (some (.plain d.obj))).1 } } :=
            ⟨hginv, hs.ifaces, hs.concretes, hs.ikeys, hs.ckeys⟩
          simp only [hcmp] at h
          split at h
          · rename_i hemp
            refine skip _ hs₁ ⟨fun _ h => h, fun _ h => h⟩ h ?_
            rintro ⟨t, sym, _, _, h3, h4⟩
            rw [← h3] at h4; exact h4 hemp
          · rename_i hne
            split at h
            · simp at h
            · rename_i s1 hcl
              have hD : Described scopes g0 project ps t _ p.path :=
                .exported hp hb hdn hsc hin hex' hn rfl hne
              have hmem : t ∈ methodSets all :=
                mem_methodSets hpa (by rw [hsc]; exact List.mem_append_right _ hin) hn
              obtain ⟨c1, c2, c3⟩ := classify_spec hcons.fresh hcons.coherent hcons.wellFormed hD
                (fun m hm => mem_askedObjs hmem hm) (hcons.oneMethod t hmem) hs₁ hcl
              obtain ⟨r1, r2, r3⟩ := ih _ _ hsub' c1 h
              have hg : Grows s s1 := ⟨fun k hk => c2.1 k hk, fun k hk => c2.2 k hk⟩
              refine ⟨r1, hg.trans r2, fun d' t' sym hd h1 h2 h3 h4 => ?_⟩
              rcases List.mem_cons.1 hd with e | hd
              · simp only [Option.some.injEq] at e; subst e
                rw [hn] at h2; simp only [Option.some.injEq] at h2; subst h2
                subst h3
                exact c3.mono r2
              · exact r3 d' t' sym hd h1 h2 h3 h4

theorem Described.mono {scopes g project ps ps' t s p} (hsub : ∀ q ∈ ps, q ∈ ps')
    (h : Described scopes g project ps t s p) : Described scopes g project ps' t s p := by
  cases h with
  | source h1 h2 h3 h4 h5 h6 h7 h8 => exact .source (hsub _ h1) h2 h3 h4 h5 h6 h7 h8
  | exported h1 h2 h3 h4 h5 h6 h7 h8 h9 => exact .exported (hsub _ h1) h2 h3 h4 h5 h6 h7 h8 h9

theorem extractPkg_spec {E scopes g0 all project ps} (hcons : Consistent g0 all) {p : Pkg} (hp : p ∈ ps) (hpa : p ∈ all)
    {s s' : State} (hs : Sound E scopes g0 (askedObjs all) project ps s)
    (h : extractPkg E scopes project p s = some s') :
    Sound E scopes g0 (askedObjs all) project ps s' ∧ Grows s s' ∧
    ∀ t sy path, Described scopes g0 project [p] t sy path → Recorded s' t sy := by
  have trivialCase : (∀ t sy path, ¬ Described scopes g0 project [p] t sy path) → s = s' →
      Sound E scopes g0 (askedObjs all) project ps s' ∧ Grows s s' ∧
      ∀ t sy path, Described scopes g0 project [p] t sy path → Recorded s' t sy := by
    rintro hno rfl
    exact ⟨hs, Grows.refl _, fun t sy path hd => absurd hd (hno t sy path)⟩
  unfold extractPkg at h
  split at h
  · rename_i hb
    refine trivialCase ?_ (by simpa using h)
    intro t sy path hd
    cases hd with
    | source h1 h2 => simp only [List.mem_singleton] at h1; subst h1; exact h2 hb
    | exported h1 h2 => simp only [List.mem_singleton] at h1; subst h1; exact h2 hb
  · rename_i hb
    split at h
    · rename_i ds hds
      rw [hs.ginv.symbols] at h
      split at h
      · rename_i hl
        refine trivialCase ?_ (by simpa using h)
        intro t sy path hd
        cases hd with
        | source h1 h2 h3 h4 h5 h6 h7 => simp only [List.mem_singleton] at h1; subst h1; rw [hl] at h7; simp at h7
        | exported h1 h2 h3 => simp only [List.mem_singleton] at h1; subst h1; rw [hds] at h3; simp at h3
      · rename_i r hl
        obtain ⟨r1, r2, r3⟩ := extractDefs_spec hcons hp hpa hb hds hl ds s s' (fun _ h => h) hs h
        refine ⟨r1, r2, ?_⟩
        intro t sy path hd
        cases hd with
        | source h1 h2 h3 h4 h5 h6 h7 h8 =>
          simp only [List.mem_singleton] at h1; subst h1
          rw [hds] at h3; simp only [Option.some.injEq] at h3; subst h3
          rw [hl] at h7; simp only [Option.some.injEq] at h7; subst h7
          exact r3 _ _ _ h4 h5 h6 h8
        | exported h1 h2 h3 => simp only [List.mem_singleton] at h1; subst h1; rw [hds] at h3; simp at h3
    · rename_i hdn
      split at h
      · rename_i ds hsc
        obtain ⟨r1, r2, r3⟩ := extractScope_spec hcons hp hpa hb hdn hsc ds s s' (fun _ h => h) hs h
        refine ⟨r1, r2, ?_⟩
        intro t sy path hd
        cases hd with
        | source h1 h2 h3 => simp only [List.mem_singleton] at h1; subst h1; rw [hdn] at h3; simp at h3
        | exported h1 h2 h3 h4 h5 h6 h7 h8 h9 =>
          simp only [List.mem_singleton] at h1; subst h1
          rw [hsc] at h4; simp only [Option.some.injEq] at h4; subst h4
          exact r3 _ _ _ h5 h6 h7 h8 h9
      · rename_i hsc
        refine trivialCase ?_ (by simpa using h)
        intro t sy path hd
        cases hd with
        | source h1 h2 h3 => simp only [List.mem_singleton] at h1; subst h1; rw [hdn] at h3; simp at h3
        | exported h1 h2 h3 h4 => simp only [List.mem_singleton] at h1; subst h1; rw [hsc] at h4; simp at h4

theorem extractAll_spec {E scopes g0 all project ps0} (hcons : Consistent g0 all) :
    ∀ (ps : List Pkg) (s s' : State), (∀ p ∈ ps, p ∈ ps0) → (∀ p ∈ ps, p ∈ all) →
    Sound E scopes g0 (askedObjs all) project ps0 s → extractAll E scopes project ps s = some s' →
    Sound E scopes g0 (askedObjs all) project ps0 s' ∧ Grows s s' ∧
    ∀ t sy path, Described scopes g0 project ps t sy path → Recorded s' t sy := by
  intro ps
  induction ps with
  | nil =>
    intro s s' _ _ hs h
    simp only [extractAll, Option.some.injEq] at h
    subst h
    refine ⟨hs, Grows.refl _, ?_⟩
    intro t sy path hd
    cases hd with
    | source h1 => simp at h1
    | exported h1 => simp at h1
  | cons p ps ih =>
    intro s s' hsub hall hs h
    unfold extractAll at h
    split at h
    · simp at h
    · rename_i s1 h1
      obtain ⟨c1, c2, c3⟩ := extractPkg_spec hcons (hsub p (by simp)) (hall p (by simp)) hs h1
      obtain ⟨r1, r2, r3⟩ := ih _ _ (fun q hq => hsub q (by simp [hq])) (fun q hq => hall q (by simp [hq])) c1 h
      refine ⟨r1, c2.trans r2, ?_⟩
      intro t sy path hd
      have : Described scopes g0 project [p] t sy path ∨ Described scopes g0 project ps t sy path := by
        cases hd with
        | source h1 h2 h3 h4 h5 h6 h7 h8 =>
          rcases List.mem_cons.1 h1 with rfl | h1
          · exact .inl (.source (by simp) h2 h3 h4 h5 h6 h7 h8)
          · exact .inr (.source h1 h2 h3 h4 h5 h6 h7 h8)
        | exported h1 h2 h3 h4 h5 h6 h7 h8 h9 =>
          rcases List.mem_cons.1 h1 with rfl | h1
          · exact .inl (.exported (by simp) h2 h3 h4 h5 h6 h7 h8 h9)
          · exact .inr (.exported h1 h2 h3 h4 h5 h6 h7 h8 h9)
      rcases this with h' | h'
      · exact (c3 t sy path h').mono r2
      · exact r3 t sy path h'

theorem extract_spec {E scopes g0 g all project ps s} (hcons : Consistent g0 all) (hsub : ∀ p ∈ ps, p ∈ all)
    (hg : GInv scopes g0 (askedObjs all) g) (h : extract E scopes project g ps = some s) :
    Sound E scopes g0 (askedObjs all) project ps s ∧
    ∀ t sy path, Described scopes g0 project ps t sy path → Recorded s t sy := by
  obtain ⟨r1, _, r3⟩ := extractAll_spec (E := E) (ps0 := ps) hcons ps ⟨g, [], []⟩ s (fun _ h => h) hsub
    ⟨hg, by simp, by simp, by simp, by simp⟩ h
  exact ⟨r1, r3⟩

end Verif.Impl
