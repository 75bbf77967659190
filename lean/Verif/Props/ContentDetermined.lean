import Verif.Props.Content
/-! # C87: the specification of an index leaves nothing open; and the whole program -/
namespace Verif
open Spec Index

section
variable {D : Deps} {o : Opts} {project all : GoMap Package} {objs : List Obj}

theorem EntityInfo.declared {p : Package} {q : Nat} {s : SymInfo} (h : EntityInfo p q s) : DeclaredAs p q s.symbol := by
  cases h with
  | entity i ds h1 h2 => exact .inl ⟨i, ds, h1, h2⟩
  | clause f h1 h2 h3 => exact .inr ⟨f, h1, h2, by rw [h3]⟩

theorem entity_unique (hu : Unambiguous project) {p : Package} (hp : (p.path, p) ∈ project) {q : Nat} {s s' : SymInfo}
    (h : EntityInfo p q s) (h' : EntityInfo p q s') : s = s' := by
  cases h with
  | entity i ds h1 h2 h3 h4 h5 h6 =>
    cases h' with
    | entity i' ds' h1' h2' h3' h4' h5' h6' =>
      obtain ⟨rfl, rfl⟩ := hu.once p hp q _ _ _ _ h1 h1'
      obtain ⟨f, hf, docs, hd⟩ := hu.documented p hp q _ _ h1
      have e := (h6 f hf docs hd).trans (h6' f hf docs hd).symm
      cases s; cases s'
      simp_all
    | clause f h1' h2' h3' => subst h2'; exact absurd h1 (hu.clause p hp f h1' _ _)
  | clause f h1 h2 h3 =>
    cases h' with
    | entity i' ds' h1' => subst h2; exact absurd h1' (hu.clause p hp f h1 _ _)
    | clause f' h1' h2' h3' => rw [h3, h3']

theorem declaredAs_unique (hu : Unambiguous project) {p : Package} (hp : (p.path, p) ∈ project) {q : Nat} {x y : Str}
    (h : DeclaredAs p q x) (h' : DeclaredAs p q y) : x = y := by
  rcases h with ⟨i, ds, h1, rfl⟩ | ⟨f, h1, h2, rfl⟩
  · rcases h' with ⟨i', ds', h1', rfl⟩ | ⟨f, h1', h2', rfl⟩
    · obtain ⟨rfl, rfl⟩ := hu.once p hp q _ _ _ _ h1 h1'
      rfl
    · subst h2'; exact absurd h1 (hu.clause p hp f h1' _ _)
  · rcases h' with ⟨i', ds', h1', rfl⟩ | ⟨f, h1', h2', rfl⟩
    · subst h2; exact absurd h1' (hu.clause p hp f h1 _ _)
    · rfl

theorem first_unique {α : Type} {P : α → Prop} {l a b a' b' : List α} {x x' : α} (h : l = a ++ x :: b) (h' : l = a' ++ x' :: b') (hx : P x)
    (hx' : P x') (ha : ∀ y ∈ a, ¬ P y) (ha' : ∀ y ∈ a', ¬ P y) : x = x' := by
  subst h
  induction a generalizing a' with
  | nil =>
    cases a' with
    | nil => simp at h'; exact h'.1
    | cons y a' =>
      simp at h'
      obtain ⟨rfl, _⟩ := h'
      exact absurd hx (ha' _ (by simp))
  | cons z a ih =>
    cases a' with
    | nil =>
      simp at h'
      obtain ⟨rfl, _⟩ := h'
      exact absurd hx' (ha _ (by simp))
    | cons y a' =>
      simp at h'
      exact ih (fun y hy => ha y (by simp [hy])) (fun y hy => ha' y (by simp [hy])) h'.2

theorem dependencyPath_unique {scopes : Scopes} {pkg : Str} {x : ObjData} {a b : List Descriptor} (h : DependencyPath scopes pkg x a)
    (h' : DependencyPath scopes pkg x b) : a = b := by
  cases h with
  | typ h => cases h' <;> simp_all
  | const h => cases h' <;> simp_all
  | var h => cases h' <;> simp_all
  | func h => cases h' <;> simp_all
  | method h hb hne =>
    cases h' with
    | method h' hb' _ =>
      rw [h] at h'
      simp only [ObjClass.func.injEq, Option.some.injEq] at h'
      subst h'
      rw [recvBase_unique hb hb']
    | _ => simp_all
  | field h h1 h2 h3 h4 =>
    cases h' with
    | field h' h1' h2' h3' h4' =>
      have : _ := first_unique (P := fun o' : ObjData => ∃ ids', o'.cls = .typeName (.named (.struct ids')) ∧ x.id ∈ ids') h1 h1' ⟨_, h2, h3⟩
        ⟨_, h2', h3'⟩ (fun y hy hc => by obtain ⟨ids', c1, c2⟩ := hc; exact h4 y hy ids' c1 c2)
        (fun y hy hc => by obtain ⟨ids', c1, c2⟩ := hc; exact h4' y hy ids' c1 c2)
      rw [this]
    | _ => simp_all

/-- What is referred to has one symbol. -/
theorem namedBy_unique (ht : TypedProject D project all objs) (hu : Unambiguous project) {r : Obj} {x y : Str}
    (h : NamedBy D project all r x) (h' : NamedBy D project all r y) : x = y := by
  obtain ⟨_, _, path, hp, _, h⟩ := h
  obtain ⟨_, _, path', hp', _, h'⟩ := h'
  rw [hp] at hp'
  simp only [Option.some.injEq] at hp'
  subst hp'
  rcases h with ⟨p, h1, h2, h3⟩ | ⟨hno, p, ds, h1, h2, rfl⟩
  · rcases h' with ⟨p', h1', h2', h3'⟩ | ⟨hno', _⟩
    · have := hu.packages p p' h1 h1' _ _ _ h3 h3'
      subst this
      exact declaredAs_unique hu h1 h3 h3'
    · exact absurd ⟨p, h1, h2, h3⟩ (hno' x)
  · rcases h' with h' | ⟨_, p', ds', h1', h2', rfl⟩
    · exact absurd h' (hno y)
    · have e1 := GoMap.get_of_mem ht.all_keyed.nodup h1
      rw [GoMap.get_of_mem ht.all_keyed.nodup h1'] at e1
      simp only [Option.some.injEq] at e1
      subst e1
      rw [dependencyPath_unique h2 h2']

theorem namedBy_global {r : Obj} {x : Str} (h : NamedBy D project all r x) (k : Nat) : x ≠ localName k := by
  obtain ⟨_, _, path, hp, _, h⟩ := h
  have key : ∀ p ds, formatSymbol p ds ≠ localName k := fun p ds => (C02_global_not_local p ds k).2.2
  rcases h with ⟨p, h1, h2, ⟨i, ds, _, rfl⟩ | ⟨f, _, _, rfl⟩⟩ | ⟨hno, p, ds, h1, h2, rfl⟩
  · exact key _ _
  · exact key _ _
  · exact key _ _

/-! ## Descriptions -/

theorem relationships_unique {p : Package} {q : Nat} {a b : List Str} (h : RelationshipsAt D o project all p q a)
    (h' : RelationshipsAt D o project all p q b) : a = b :=
  sorted_ext h.1 h'.1 fun x => (h.2 x).trans (h'.2 x).symm

theorem forall2_perm {α β : Type} {R : α → β → Prop} (hR : ∀ a b b', R a b → R a b' → b = b') {l l' : List α} {m m' : List β}
    (h : List.Forall₂ R l m) (h' : List.Forall₂ R l' m') (hp : l.Perm l') : m.Perm m' := by
  induction hp generalizing m m' with
  | nil => cases h; cases h'; exact .refl _
  | cons a _ ih =>
    cases h with
    | cons h1 h2 => cases h' with
      | cons h1' h2' => rw [hR _ _ _ h1 h1']; exact (ih h2 h2').cons _
  | swap a b l =>
    cases h with
    | cons h1 h2 => cases h2 with
      | cons h2 h3 => cases h' with
        | cons h1' h2' => cases h2' with
          | cons h2' h3' =>
            rw [hR _ _ _ h1 h2', hR _ _ _ h2 h1']
            have : ∀ {l : List α} {m m' : List β}, List.Forall₂ R l m → List.Forall₂ R l m' → m = m' := by
              intro l m m' h h'
              induction h generalizing m' with
              | nil => cases h'; rfl
              | cons h _ ih => cases h' with | cons h1 h2 => rw [hR _ _ _ h h1, ih h2]
            rw [this h3 h3']
            exact .swap _ _ _
  | trans _ _ ih1 ih2 =>
    rename_i l1 l2 l3 hp1 hp2
    obtain ⟨m2, hm2⟩ : ∃ m2, List.Forall₂ R l2 m2 := by
      obtain ⟨w, hw, _⟩ := List.perm_comp_forall₂ hp1.symm h
      exact ⟨w, hw⟩
    exact (ih1 h hm2).trans (ih2 hm2 h')

theorem localInfo_unique (hu : Unambiguous project) {p : Package} (hp : (p.path, p) ∈ project) {i : Ident} {k : Nat} {s s' : SymInfo}
    (h : LocalInfo D p i k s) (h' : LocalInfo D p i k s') : s = s' := by
  have e1 := h.symbol.trans h'.symbol.symm
  have e2 := h.documentation.trans h'.documentation.symm
  by_cases hs : SwitchIdent p i
  · obtain ⟨a1, x, hx, hxp, a2, a3⟩ := h.switch hs
    obtain ⟨b1, y, hy, hyp, b2, b3⟩ := h'.switch hs
    obtain ⟨c1, c2⟩ := hu.switches p hp x hx y hy (hxp.trans hyp.symm)
    cases s; cases s'
    simp_all
  · obtain ⟨d, hd, a1, a2, a3⟩ := h.declared hs
    obtain ⟨d', hd', b1, b2, b3⟩ := h'.declared hs
    rw [hd] at hd'
    simp only [Option.some.injEq] at hd'
    subst hd'
    cases s; cases s'
    simp_all

theorem descriptions_unique (hu : Unambiguous project) {e : Package × SourceFile} (hp : (e.1.path, e.1) ∈ project)
    {syms syms' : List (SymInfo × List Str)} (h : DocumentDescriptions D o project all e syms)
    (h' : DocumentDescriptions D o project all e syms') : syms.Perm syms' := by
  obtain ⟨qs, en, lo, h1, h2, h3, h4, h5, h6⟩ := h
  obtain ⟨qs', en', lo', h1', h2', h3', h4', h5', h6'⟩ := h'
  have hq : qs.Perm qs' := (List.perm_ext_iff_of_nodup h2 h2').2 fun q => (h3 q).trans (h3' q).symm
  have he : en.Perm en' := by
    refine forall2_perm ?_ h4 h4' hq
    rintro q ⟨a, b⟩ ⟨a', b'⟩ ⟨x1, x2⟩ ⟨y1, y2⟩
    exact Prod.ext (entity_unique hu hp x1 y1) (relationships_unique x2 y2)
  have hl : lo = lo' := by
    refine List.ext_getElem (h5.trans h5'.symm) ?_
    intro k hk hk'
    have hi : k < (localIdents D all e.1 e.2).length := by rw [← h5]; exact hk
    obtain ⟨x1, x2⟩ := h6 k _ _ (List.getElem?_eq_getElem hi) (List.getElem?_eq_getElem hk)
    obtain ⟨y1, y2⟩ := h6' k _ _ (List.getElem?_eq_getElem hi) (List.getElem?_eq_getElem hk')
    exact Prod.ext (localInfo_unique hu hp x1 y1) (x2.trans y2.symm)
  rw [hl] at h1
  exact h1.trans ((he.append_right _).trans h1'.symm)

/-! ## Occurrences -/

theorem localIdents_index (ht : TypedProject D project all objs) {e : Package × SourceFile} (hp : (e.1.path, e.1) ∈ project)
    (hf : e.2 ∈ e.1.files) {k k' : Nat} {i : Ident} (h : (localIdents D all e.1 e.2)[k]? = some i)
    (h' : (localIdents D all e.1 e.2)[k']? = some i) : k = k' := by
  have hapart : ((identsOf (fileEventsOf D all e.1 e.2)).map (·.pos)).Nodup := (ht.files _ _ hp _ hf).apart
  have hnd : ((localIdents D all e.1 e.2).map (·.pos)).Nodup := by
    unfold localIdents
    exact hapart.sublist (List.Sublist.map _ List.filter_sublist)
  have a := findIdx_pos _ hnd k i h
  rw [findIdx_pos _ hnd k' i h'] at a
  simpa using a.symm

theorem identDefs_unique (ht : TypedProject D project all objs) (hu : Unambiguous project) {e : Package × SourceFile}
    (hp : (e.1.path, e.1) ∈ project) (hf : e.2 ∈ e.1.files) {syms syms' : List (SymInfo × List Str)} {i : Ident}
    {decl : Option (Nat × Nat)} {os os' : List Occurrence} (h : IdentDefs D all e syms i decl os) (h' : IdentDefs D all e syms' i decl os') :
    os = os' := by
  by_cases hd : DeclaringIdent e.1 i
  · by_cases hs : SwitchIdent e.1 i
    · obtain ⟨k, h1, rfl⟩ := h.switch hd.1 hs
      obtain ⟨k', h1', rfl⟩ := h'.switch hd.1 hs
      rw [localIdents_index ht hp hf h1 h1']
    · by_cases hl : LocalIdent e.1 i
      · obtain ⟨k, h1, rfl⟩ := h.toLocal hl hs
        obtain ⟨k', h1', rfl⟩ := h'.toLocal hl hs
        rw [localIdents_index ht hp hf h1 h1']
      · obtain ⟨s, _, h1, dep, h2, rfl⟩ := h.toEntity hd hl
        obtain ⟨s', _, h1', dep', h2', rfl⟩ := h'.toEntity hd hl
        have e1 := entity_unique hu hp h1 h1'
        rw [e1] at h2 ⊢
        have : dep = dep' := by rw [Bool.eq_iff_iff]; exact h2.trans h2'.symm
        rw [this]
  · rw [h.nothing hd, h'.nothing hd]

theorem refs_unique (ht : TypedProject D project all objs) (hu : Unambiguous project) {e : Package × SourceFile} {upto : List Ident} {ev : Event}
    {os os' : List Occurrence} (h : EventRefs D project all e upto ev os) (h' : EventRefs D project all e upto ev os')
    (hdep : ∀ i decl, ev = .ident i decl → ∀ r, e.1.env.uses i.uid = some r → RefsDeprecated project r os ∧ RefsDeprecated project r os') :
    os = os' := by
  classical
  cases ev with
  | qualifier i x imported =>
    by_cases hq : ∃ q, (imported, q) ∈ all
    · obtain ⟨q, hq⟩ := hq
      rw [h.1 q hq, h'.1 q hq]
    · have hq' : ∀ q, (imported, q) ∉ all := fun q hx => hq ⟨q, hx⟩
      rw [h.2 hq', h'.2 hq']
  | imp uid name pp =>
    by_cases hq : ∃ imported q, (e.1.pkgNameOf uid).bind e.1.imports = some imported ∧ (imported, q) ∈ all
    · obtain ⟨imported, q, h1, h2⟩ := hq
      rw [h.1 imported q h1 h2, h'.1 imported q h1 h2]
    · have hq' : ∀ imported q, (e.1.pkgNameOf uid).bind e.1.imports = some imported → (imported, q) ∉ all :=
        fun a q h1 h2 => hq ⟨a, q, h1, h2⟩
      rw [h.2 hq', h'.2 hq']
  | ident u decl =>
    have h : IdentRefs D project all e upto u os := h
    have h' : IdentRefs D project all e upto u os' := h'
    by_cases hno : u.name = go!"_" ∨ SwitchIdent e.1 u ∨ e.1.env.uses u.uid = none
    · rw [h.nothing hno, h'.nothing hno]
    · simp only [not_or] at hno
      obtain ⟨hb, hs, hr⟩ := hno
      obtain ⟨r, hr⟩ := Option.ne_none_iff_exists'.1 hr
      by_cases hl : ∃ l ∈ localIdents D all e.1 e.2, l ∈ upto ∧ l.pos = r.self.pos
      · obtain ⟨l, hl1, hl2, hl3⟩ := hl
        obtain ⟨k, hk⟩ := List.mem_iff_getElem?.1 hl1
        rw [h.toLocal hb hs r hr k l hk hl2 hl3, h'.toLocal hb hs r hr k l hk hl2 hl3]
      · have hl' : ∀ l ∈ localIdents D all e.1 e.2, l ∈ upto → l.pos ≠ r.self.pos := fun l h1 h2 h3 => hl ⟨l, h1, h2, h3⟩
        by_cases hn : ∃ sym, NamedBy D project all r sym
        · obtain ⟨sym, dep, e1, h1⟩ := h.toEntity hb hs r hr hl' hn
          obtain ⟨sym', dep', e1', h1'⟩ := h'.toEntity hb hs r hr hl' hn
          have := namedBy_unique ht hu h1 h1'
          subst this
          obtain ⟨d1, d2⟩ := hdep u decl rfl r hr
          rw [e1] at d1
          rw [e1'] at d2
          have d1 := d1 _ (List.mem_singleton_self _) (fun k => namedBy_global h1 k)
          have d2 := d2 _ (List.mem_singleton_self _) (fun k => namedBy_global h1 k)
          have hdd : dep = dep' := by
            rcases d1 with ⟨path, p, s, a1, a2, a3, a4, a5, a6⟩ | ⟨a1, a2⟩
            · rcases d2 with ⟨path', p', s', b1, b2, b3, b4, b5, b6⟩ | ⟨b1, b2⟩
              · have := hu.packages p p' a2 b2 _ _ _ (EntityInfo.declared a4) (EntityInfo.declared b4)
                subst this
                have := entity_unique hu a2 a4 b4
                subst this
                rw [Bool.eq_iff_iff]
                exact a6.trans b6.symm
              · exact absurd ⟨p, a2, a3, EntityInfo.declared a4⟩ (b1 path _ a1)
            · rcases d2 with ⟨path', p', s', b1, b2, b3, b4, b5, b6⟩ | ⟨b1, b2⟩
              · exact absurd ⟨p', b2, b3, EntityInfo.declared b4⟩ (a1 path' _ b1)
              · exact a2.trans b2.symm
          rw [e1, e1', hdd]
        · have hn' : ∀ sym, ¬ NamedBy D project all r sym := fun sym hx => hn ⟨sym, hx⟩
          rw [h.unnamed hb hs r hr hl' hn', h'.unnamed hb hs r hr hl' hn']

theorem occurrences_unique (ht : TypedProject D project all objs) (hu : Unambiguous project) {e : Package × SourceFile}
    (hp : (e.1.path, e.1) ∈ project) (hf : e.2 ∈ e.1.files) {syms syms' : List (SymInfo × List Str)} {occs occs' : List Occurrence}
    (h : DocumentOccurrences D project all e syms occs) (h' : DocumentOccurrences D project all e syms' occs') : occs = occs' := by
  obtain ⟨parts, rfl, hlen, h⟩ := h
  obtain ⟨parts', rfl, hlen', h'⟩ := h'
  have : parts = parts' := by
    refine List.ext_getElem (hlen.trans hlen'.symm) ?_
    intro k hk hk'
    have hev := List.getElem?_eq_getElem (l := fileEventsOf D all e.1 e.2) (i := k) (by omega)
    obtain ⟨a1, a2⟩ := h k _ _ hev (List.getElem?_eq_getElem hk)
    obtain ⟨b1, b2⟩ := h' k _ _ hev (List.getElem?_eq_getElem hk')
    generalize (fileEventsOf D all e.1 e.2)[k]'(by omega) = ev at a1 a2 b1 b2
    cases ev with
    | qualifier => exact Prod.ext (a2.trans b2.symm) (refs_unique ht hu a1 b1 (by simp))
    | imp => exact Prod.ext (a2.trans b2.symm) (refs_unique ht hu a1 b1 (by simp))
    | ident i decl =>
      refine Prod.ext (identDefs_unique ht hu hp hf a2.1 b2.1) (refs_unique ht hu a1 b1 ?_)
      intro i' decl' he r hr
      simp only [Event.ident.injEq] at he
      obtain ⟨rfl, rfl⟩ := he
      exact ⟨a2.2 r hr, b2.2 r hr⟩
  rw [this]

/-! ## Messages -/

theorem externals_nodup {es : List Message} (h : ExternalSymbols D o project all es) : es.Nodup := by
  refine h.once.imp_of_mem ?_
  intro m m' hm _ hx e
  subst e
  obtain ⟨sym, rels, rfl, _⟩ := h.real m hm
  exact hx sym rels rels rfl rfl

theorem externals_subset (ht : TypedProject D project all objs) (hn : NamedTypes D project all) {es es' : List Message}
    (h : ExternalSymbols D o project all es) (h' : ExternalSymbols D o project all es') : ∀ m ∈ es, m ∈ es' := by
  intro m hm
  obtain ⟨sym, rels, rfl, hs, hne, hsort, p, t, n, hT, rfl, hrel⟩ := h.real m hm
  obtain ⟨x, hx⟩ := List.exists_mem_of_ne_nil rels hne
  obtain ⟨p', t', i, hr, _⟩ := (hrel x).1 hx
  obtain ⟨rels', hm'⟩ := h'.complete p t n p' t' i hs hr
  obtain ⟨sym', rels'', he, _, _, hsort', p₁, t₁, n₁, hT₁, hsym, hrel'⟩ := h'.real _ hm'
  simp only [Message.external.injEq] at he
  obtain ⟨rfl, rfl⟩ := he
  obtain ⟨_, rfl, rfl, rfl⟩ := type_symbols_distinct ht hn (b := false) (b' := false) hT hT₁ hsym
  rw [sorted_ext hsort hsort' fun x => (hrel x).trans (hrel' x).symm]
  exact hm'

/-- **C87**: the specification leaves nothing open.  If nothing in the source is ambiguous, then any two lists of messages that are an
index of the project contain the same index: the same metadata, the same documents with the same occurrences in the same order and the
same descriptions with the same relationships, and the same external symbols. -/
theorem C87_determined (ht : TypedProject D project all objs) (hn : NamedTypes D project all) (hu : Unambiguous project)
    (ms ms' : List Message) (h : IndexOf D o project all ms) (h' : IndexOf D o project all ms') : SameIndex ms ms' := by
  obtain ⟨md, ps, ds, es, rfl, hmd, hps, hsort, hds, hes⟩ := h
  obtain ⟨md', ps', ds', es', rfl, hmd', hps', hsort', hds', hes'⟩ := h'
  have e1 : md = md' := by
    obtain ⟨a1, a2, a3, a4, a5, a6⟩ := hmd
    obtain ⟨b1, b2, b3, b4, b5, b6⟩ := hmd'
    cases md; cases md'
    simp_all
  have e2 : ps = ps' := by
    refine List.Perm.eq_of_pairwise ?_ hsort hsort' (hps.trans hps'.symm)
    intro p q _ _ h1 h2
    rw [Str.lt_asymm h1] at h2
    simp at h2
  subst e1
  subst e2
  refine ⟨md, ds, ds', es, es', rfl, rfl, ?_, ?_, ?_⟩
  · have key : ∀ (l : List (Package × SourceFile)) (ds ds' : List Message), (∀ e ∈ l, (e.1.path, e.1) ∈ project ∧ e.2 ∈ e.1.files) →
        List.Forall₂ (fun e m => ∃ path occs syms, m = .document path occs syms ∧ DocumentOf D o project all e path occs syms) l ds →
        List.Forall₂ (fun e m => ∃ path occs syms, m = .document path occs syms ∧ DocumentOf D o project all e path occs syms) l ds' →
        List.Forall₂ SameDocument ds ds' := by
      intro l ds ds' hl h h'
      induction h generalizing ds' with
      | nil => cases h'; exact .nil
      | cons h _ ih =>
        cases h' with
        | cons h1 h2 =>
          obtain ⟨path, occs, syms, rfl, hd⟩ := h
          obtain ⟨path', occs', syms', rfl, hd'⟩ := h1
          obtain ⟨hp, hf⟩ := hl _ (List.mem_cons_self ..)
          exact .cons ⟨hd.path.trans hd'.path.symm, occurrences_unique ht hu hp hf hd.occurrences hd'.occurrences,
            descriptions_unique hu hp hd.descriptions hd'.descriptions⟩ (ih _ (fun e he => hl e (List.mem_cons_of_mem _ he)) h2)
    refine key _ _ _ ?_ hds hds'
    intro e he
    obtain ⟨p, hp, he⟩ := List.mem_flatMap.1 he
    obtain ⟨f, hf, rfl⟩ := List.mem_map.1 he
    obtain ⟨⟨k, q⟩, hq, rfl⟩ := List.mem_map.1 (hps.subset hp)
    have := ht.project_keyed.path _ _ hq
    subst this
    exact ⟨hq, hf⟩
  · exact (List.perm_ext_iff_of_nodup (externals_nodup hes) (externals_nodup hes')).2 fun m =>
      ⟨externals_subset ht hn hes hes' m, externals_subset ht hn hes' hes m⟩
  · intro m hm
    obtain ⟨sym, rels, rfl, _⟩ := hes.real m hm
    trivial

end

/-! ## The whole program -/

theorem distinct_of_maps {d : Program.Delivered} {env : Loader.Env} {o : Cmd.IndexOpts} {project all : GoMap Package}
    (hm : ProgramMaps d env o project all) (hdist : ∀ i, InProject d i → DistinctIdents (d.package i)) :
    ∀ p, (p.path, p) ∈ project → DistinctIdents p := by
  intro p hp
  obtain ⟨hall, r, hr, hk⟩ := (hm.project _ _).1 hp
  rcases hm.chosen _ _ hall with ⟨i, hi, hik, path, v, _, he⟩ | ⟨_, _, he⟩
  · have := hdist i ⟨hi.1, r, hr, hk.trans hik.symm⟩
    rw [he]
    exact this
  · rw [he]
    exact List.nodup_nil

/-- **C87** for the whole program: a successful run writes the index of the packages that the go command delivers, which is determined by
them; and whatever a run writes before it fails, every document is that of one of their files. -/
theorem C87_program (D : Deps) (answer : Program.Query → Except Str Program.Delivered) (env : Loader.Env) (order : Nat → Nat → List Nat)
    (fuel : Nat) (ord : MapOrders) (o : Cmd.IndexOpts) (w : Writer) (d : Program.Delivered) (objs : List Obj)
    (hg : GoProgram d answer order o) (ht : TypedProgram d D objs) (hn : NamedProgram d D env o) (hv : ValidMapOrders ord)
    (hdist : ∀ i, InProject d i → DistinctIdents (d.package i)) (horig : ∀ r ∈ objs, ∀ q, (entityOf r).cls ≠ .pkgName q)
    (hroot : o.moduleRoot = [] ∨ Absolute o.moduleRoot)
    (hdir : ∀ i, Loader.Spec.Reachable d.graph i → Loader.Spec.DirOk (identityOpts o) (d.info i))
    (r : Run) (hr : Program.indexing D answer env order fuel ord o w = some r) (hl : r.outcome = .ok ∨ 1 < r.messages.length) :
    ∃ project all, ProgramMaps d env o project all ∧
      (∀ path occs syms, .document path occs syms ∈ r.messages → ∃ p f, (p.path, p) ∈ project ∧ f ∈ p.files ∧
        DocumentOf D (Program.indexOpts o) project all (p, f) path occs syms) ∧
      (r.outcome = .ok → IndexOf D (Program.indexOpts o) project all r.messages ∧
        (Unambiguous project → ∀ ms, IndexOf D (Program.indexOpts o) project all ms → SameIndex r.messages ms)) := by
  obtain ⟨project, all, hm, htp, hnt, rfl⟩ := C86_indexed_as_delivered D answer env order fuel ord o w d objs hg ht hn hroot hdir r hr hl
  have hd := distinct_of_maps hm hdist
  refine ⟨project, all, hm, ?_, ?_⟩
  · intro path occs syms hmem
    obtain ⟨k, hk⟩ := List.mem_iff_getElem?.1 hmem
    obtain ⟨n, e, rfl, he, _⟩ := document_at D (Program.indexOpts o) ord w project all hk
    obtain ⟨hp, hf, _⟩ := mem_project_files htp (List.mem_of_getElem? he)
    exact ⟨e.1, e.2, hp, hf, C87_document D (Program.indexOpts o) ord w project all objs htp hv hnt hd horig n e he path occs syms hk⟩
  · intro hok
    have h := C87_index D (Program.indexOpts o) ord w project all objs htp hv hnt hd horig hok
    exact ⟨h, fun hu ms hms => C87_determined htp hnt hu _ _ h hms⟩

end Verif
