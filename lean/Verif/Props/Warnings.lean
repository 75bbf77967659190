import Verif.Spec.Warnings
import Verif.Props.Places
import Verif.Props.Log
import Verif.Model.Main
/-! # C104: what a run warns of -/
namespace Verif
open Spec Index Warnings

/-! ## Conflicts -/

theorem mem_conflict {t : Table} {q : Nat} {info : SymInfo} {c : Conflict} (h : c ∈ t.conflict q info) :
    c.pos = q ∧ t.getSymbol q = some c.original ∧ c.symbol = info.symbol ∧ c.original ≠ c.symbol := by
  unfold Table.conflict at h
  cases ho : t.get q with
  | none => rw [ho] at h; simp at h
  | some o =>
    rw [ho] at h
    dsimp only at h
    split at h
    · simp at h
    · rename_i hne
      simp only [List.mem_singleton] at h
      subst h
      exact ⟨rfl, by simp [Table.getSymbol, ho], rfl, hne⟩

theorem getSymbol_setAll_mem {rs : List (Nat × SymInfo)} {t : Table} {q : Nat} {s : Str} (h : (t.setAll rs).getSymbol q = some s) :
    t.getSymbol q = some s ∨ ∃ info, (q, info) ∈ rs ∧ info.symbol = s := by
  simp only [Table.getSymbol, Option.map_eq_some_iff] at h ⊢
  obtain ⟨info, h, rfl⟩ := h
  rcases Table.get_setAll_mem rs t q info h with h | h
  · exact .inl ⟨info, h, rfl⟩
  · exact .inr ⟨info, h, rfl⟩

/-- A conflict names two registrations of different symbols at its position (or one of them was there before). -/
theorem mem_conflicts {rs : List (Nat × SymInfo)} {t : Table} {c : Conflict} (h : c ∈ t.conflicts rs) :
    (t.getSymbol c.pos = some c.original ∨ ∃ info, (c.pos, info) ∈ rs ∧ info.symbol = c.original) ∧
    (∃ info, (c.pos, info) ∈ rs ∧ info.symbol = c.symbol) ∧ c.original ≠ c.symbol := by
  induction rs generalizing t with
  | nil => simp at h
  | cons r rs ih =>
    rw [Table.conflicts_cons, List.mem_append] at h
    rcases h with h | h
    · obtain ⟨h1, h2, h3, h4⟩ := mem_conflict h
      rw [← h1] at h2
      exact ⟨.inl h2, ⟨r.2, by rw [h1]; simp, h3.symm⟩, h4⟩
    · obtain ⟨h1, ⟨info, h2, h3⟩, h4⟩ := ih h
      refine ⟨?_, ⟨info, by simp [h2], h3⟩, h4⟩
      rcases h1 with h1 | ⟨i, h1, h1'⟩
      · have : (t.setAll [r]).getSymbol c.pos = some c.original := h1
        rcases getSymbol_setAll_mem this with h | ⟨i, hi, hs⟩
        · exact .inl h
        · exact .inr ⟨i, by simp only [List.mem_singleton] at hi; rw [hi]; simp, hs⟩
      · exact .inr ⟨i, by simp [h1], h1'⟩

/-- Without a conflict at a position, all that is registered there has the same symbol. -/
theorem agree_of_no_conflict {rs : List (Nat × SymInfo)} {t : Table} {q : Nat} (h : ∀ c ∈ t.conflicts rs, c.pos ≠ q) :
    ∀ s, t.getSymbol q = some s → ∀ info, (q, info) ∈ rs → info.symbol = s := by
  induction rs generalizing t with
  | nil => simp
  | cons r rs ih =>
    intro s hs info hm
    have h1 : ∀ c ∈ t.conflict r.1 r.2, c.pos ≠ q := fun c hc => h c (by simp [hc])
    have h2 : ∀ c ∈ (t.set r.1 r.2).conflicts rs, c.pos ≠ q := fun c hc => h c (by simp [hc])
    have hset : (t.set r.1 r.2).getSymbol q = some s ∧ (r.1 = q → r.2.symbol = s) := by
      by_cases hq : r.1 = q
      · subst hq
        have heq : r.2.symbol = s := by
          by_contra hne
          simp only [Table.getSymbol, Option.map_eq_some_iff] at hs
          obtain ⟨o, ho, rfl⟩ := hs
          refine h1 ⟨r.1, o.symbol, r.2.symbol⟩ ?_ rfl
          unfold Table.conflict
          rw [ho]
          dsimp only
          rw [if_neg (fun e => hne e.symm)]
          simp
        exact ⟨by rw [Table.getSymbol_set_self, heq], fun _ => heq⟩
      · exact ⟨by rw [Table.getSymbol, Table.get_set_ne _ _ _ _ (Ne.symm hq)]; exact hs, fun e => absurd e hq⟩
    rcases List.mem_cons.1 hm with e | hm
    · rw [← e] at hset; exact hset.2 rfl
    · exact ih h2 s hset.1 info hm

theorem agree_of_no_conflict' {rs : List (Nat × SymInfo)} {t : Table} {q : Nat} (h : ∀ c ∈ t.conflicts rs, c.pos ≠ q) (ht : t.getSymbol q = none) :
    ∀ a b, (q, a) ∈ rs → (q, b) ∈ rs → a.symbol = b.symbol := by
  induction rs generalizing t with
  | nil => simp
  | cons r rs ih =>
    intro a b ha hb
    have h2 : ∀ c ∈ (t.set r.1 r.2).conflicts rs, c.pos ≠ q := fun c hc => h c (by simp [hc])
    by_cases hq : r.1 = q
    · subst hq
      have key := agree_of_no_conflict h2 _ (Table.getSymbol_set_self t r.1 r.2)
      have : ∀ x, (r.1, x) ∈ r :: rs → x.symbol = r.2.symbol := by
        intro x hx
        rcases List.mem_cons.1 hx with e | hx
        · rw [← e]
        · exact key x hx
      rw [this a ha, this b hb]
    · have hn : (t.set r.1 r.2).getSymbol q = none := by
        rw [Table.getSymbol, Table.get_set_ne _ _ _ _ (Ne.symm hq)]; exact ht
      have hne : ∀ x, (q, x) ∈ r :: rs → (q, x) ∈ rs := by
        intro x hx
        rcases List.mem_cons.1 hx with e | hx
        · exact absurd (by rw [← e]) hq
        · exact hx
      exact ih h2 hn a b (hne a ha) (hne b hb)

/-- **C104** (conflicts have a cause): a warning about a conflict names a position at which two declarations are recorded, and their symbols. -/
theorem C104_conflict_cause (env : PkgEnv) (files : List Node) (hok : FilesOk files) (c : Conflict) (h : c ∈ visitPackageSyntaxWarned env files []) :
    SharedPlace env files c := by
  obtain ⟨rs, h1, h2, _⟩ := visitPackageSyntax_regsW (Q := fun _ _ => True) env files hok fun _ _ _ d _ => DeclQ_true d
  rw [(h1 []).2] at h
  obtain ⟨ha, ⟨b, hb, hbs⟩, hne⟩ := mem_conflicts h
  have hd : ∀ x, (c.pos, x) ∈ rs → ∃ i ds, PackageDeclares env files i ds c.pos ∧ x.symbol = env.fromDescriptors ds := by
    intro x hx
    obtain ⟨i, p, pos, hr, hpos, par, _, he⟩ := h2 _ hx
    dsimp only at hpos he
    subst hpos he
    exact ⟨i, p, hr, rfl⟩
  rcases ha with ha | ⟨a, ha, has⟩
  · simp [Table.getSymbol, Table.get] at ha
  · obtain ⟨i, ds, hi, hs⟩ := hd a ha
    obtain ⟨i', ds', hi', hs'⟩ := hd b hb
    exact ⟨i, ds, i', ds', hi, hi', by rw [← has, hs], by rw [← hbs, hs'], hne⟩

/-- **C104** (no silent conflict): if two declarations are recorded at one position under different symbols, there is a warning about this position; so
without one, every declaration is found under its own symbol. -/
theorem C104_conflict_reported (env : PkgEnv) (files : List Node) (hok : FilesOk files) (q : Nat)
    (h : ∀ c ∈ visitPackageSyntaxWarned env files [], c.pos ≠ q) :
    (∀ i ds i' ds', PackageDeclares env files i ds q → PackageDeclares env files i' ds' q → env.fromDescriptors ds = env.fromDescriptors ds') ∧
    ∃ t, visitPackageSyntax env files [] = some t ∧ ∀ i ds, PackageDeclares env files i ds q → t.getSymbol q = some (env.fromDescriptors ds) := by
  obtain ⟨rs, h1, h2, h3⟩ := visitPackageSyntax_regsW (Q := fun _ _ => True) env files hok fun _ _ _ d _ => DeclQ_true d
  rw [(h1 []).2] at h
  have key := agree_of_no_conflict' h rfl
  have hr : ∀ i ds, PackageDeclares env files i ds q → ∃ x, (q, x) ∈ rs ∧ x.symbol = env.fromDescriptors ds := by
    intro i ds hd
    obtain ⟨e, he, hpos, par, _, hinfo⟩ := h3 i ds q hd
    exact ⟨e.2, by rw [← hpos]; exact he, by rw [hinfo]; rfl⟩
  refine ⟨?_, _, (h1 []).1, ?_⟩
  · intro i ds i' ds' hd hd'
    obtain ⟨a, ha, hs⟩ := hr i ds hd
    obtain ⟨b, hb, hs'⟩ := hr i' ds' hd'
    rw [← hs, ← hs', key a b ha hb]
  · intro i ds hd
    obtain ⟨a, ha, hs⟩ := hr i ds hd
    exact Table.getSymbol_setAll rs [] q _ (fun x hx => by rw [key x a hx ha, hs]) (.inr ⟨a, ha⟩)

section
variable {D : Deps} {o : Opts} {project all : GoMap Package} {objs : List Obj} {ord : MapOrders} {g : Global}

theorem visitPackageWarned_nil (ht : TypedProject D project all objs) (hp : ParsedProject project) {p : Package} (hm : (p.path, p) ∈ project)
    (root : Str) (s : Docs × Global) : visitPackageWarned root p s = [] := by
  have hok := filesOk_of ht hm
  have h1 : visitPackageSyntaxWarned p.env (p.files.map SourceFile.node) [] = [] := by
    rw [List.eq_nil_iff_forall_not_mem]
    intro c hc
    obtain ⟨i, ds, i', ds', hd, hd', e1, e2, hne⟩ := C104_conflict_cause p.env _ hok c hc
    rw [e1, e2, (C99_one_entity hp p hm _ _ _ _ _ hd hd').2] at hne
    exact hne rfl
  unfold visitPackageWarned
  rw [h1]
  cases hv : visitSyntaxOf root p s.1 with
  | none => rfl
  | some r =>
    obtain ⟨docs, table⟩ := r
    cases hf : p.files with
    | nil => rfl
    | cons f fs =>
      dsimp only
      rw [List.map_nil, List.nil_append, List.map_eq_nil_iff, List.eq_nil_iff_forall_not_mem]
      intro c hc
      obtain ⟨_, hs, _, _⟩ := mem_conflict hc
      obtain ⟨t, hv', e⟩ := Option.map_eq_some_iff.1 hv
      simp only [Prod.mk.injEq] at e
      obtain ⟨_, rfl⟩ := e
      obtain ⟨t', ht', hcol⟩ := (visitPackageSyntax_regs (Q := fun _ _ => True) p.env _ hok fun _ _ _ d _ => DeclQ_true d).collected []
      rw [hv'] at ht'
      cases ht'
      simp only [Table.getSymbol, Option.map_eq_some_iff] at hs
      obtain ⟨info, hget, _⟩ := hs
      rcases hcol.sound _ info hget with hnil | ⟨i, ds, hd, _⟩
      · simp [Table.get] at hnil
      · exact PackageDeclares.not_clause (distinct_package hp.places hm) (List.mem_map.2 ⟨f, by rw [hf]; simp, rfl⟩) hd

theorem visitPackagesWarned_nil (ht : TypedProject D project all objs) (hp : ParsedProject project) (root : Str) :
    ∀ (ps : List Package) (s : Docs × Global), (∀ p ∈ ps, (p.path, p) ∈ project) → visitPackagesWarned root ps s = [] := by
  intro ps
  induction ps with
  | nil => intro s _; rfl
  | cons p ps ih =>
    intro s h
    simp only [visitPackagesWarned, visitPackageWarned_nil ht hp (h p (by simp)), List.nil_append]
    cases visitPackage root p s with
    | none => rfl
    | some s => exact ih s (fun q hq => h q (by simp [hq]))

/-- **C104** (no conflicts): collecting the declarations of a parsed project warns of nothing. -/
theorem C104_no_conflicts (o : Opts) (ord : MapOrders) (ht : TypedProject D project all objs) (hp : ParsedProject project) : collectWarned o ord project all = [] :=
  visitPackagesWarned_nil ht hp _ _ _ fun _ hq => (mem_sortedValues ht.project_keyed).1 hq

/-! ## Packages without types -/

/-- The packages of a list of which there are no types. -/
def untypedOf (ps : List Impl.Pkg) : List Warning :=
  (ps.filter fun p => decide (p.name ≠ go!"builtin") && p.defs.isNone && p.scope.isNone).map fun p => .noTypes p.path

theorem extractWarned_eq {E : Impl.Ext} {scopes : Scopes} {g : Global} {objs : List Obj} {b : Bool} : ∀ (ps : List Impl.Pkg) (s s' : Impl.State),
    (∀ p ∈ ps, Impl.PkgKnown g objs p) → Asked scopes g objs s.g → Impl.extractAll E scopes b ps s = some s' →
    extractWarned E scopes b ps s = untypedOf ps := by
  intro ps
  induction ps with
  | nil => intro s s' _ _ _; rfl
  | cons p ps ih =>
    intro s s' hk ha h
    unfold Impl.extractAll at h
    cases hx : Impl.extractPkg E scopes b p s with
    | none => rw [hx] at h; simp at h
    | some s₁ =>
      rw [hx] at h
      have hrest := ih s₁ s' (fun q hq => hk q (by simp [hq])) (Impl.extractPkg_asked (hk p (by simp)) ha hx) h
      have hone : extractPkgWarned p s = untypedOf [p] := by
        obtain ⟨r, hr, _⟩ := (hk p (by simp)).registered
        unfold extractPkgWarned untypedOf
        by_cases hb : p.name = go!"builtin"
        · simp [hb]
        · rw [if_neg hb]
          cases hd : p.defs with
          | some ds => rw [ha.frame.1, hr]; simp [hd]
          | none =>
            cases hs : p.scope with
            | some ds => simp [hd, hs]
            | none => simp [hd, hs, hb]
      simp only [extractWarned, hx, hone, hrest, untypedOf, ← List.map_append, ← List.filter_append]
      rfl

theorem untypedOf_append (a b : List Impl.Pkg) : untypedOf (a ++ b) = untypedOf a ++ untypedOf b := by simp [untypedOf]

theorem untypedOf_perm {a b : List Impl.Pkg} (h : a.Perm b) : (untypedOf a).Perm (untypedOf b) := (h.filter _).map _

theorem untypedOf_impl (ps : List Package) : untypedOf (ps.map (Package.impl ord)) = (ps.filter untyped).map fun p => .noTypes p.path := by
  unfold untypedOf
  rw [List.filter_map, List.map_map]
  congr 1
  apply List.filter_congr
  intro p _
  simp only [Function.comp, Package.impl, untyped]
  cases p.defs <;> rfl

/-- The two passes of the extractor see every package once. -/
theorem remote_perm {pkgs all : List Impl.Pkg} (hsub : ∀ p ∈ pkgs, p ∈ all) (hp : (pkgs.map (·.path)).Nodup) (ha : (all.map (·.path)).Nodup) :
    (pkgs ++ Impl.remotePackages pkgs all).Perm all := by
  have hinj : ∀ a ∈ all, ∀ b ∈ all, a.path = b.path → a = b := fun a h b h' e => List.inj_on_of_nodup_map ha h h' e
  rw [List.perm_ext_iff_of_nodup]
  · intro q
    simp only [List.mem_append, Impl.remotePackages, List.mem_filter, decide_eq_true_eq]
    constructor
    · rintro (h | h)
      · exact hsub q h
      · exact h.1
    · intro h
      by_cases hm : q.path ∈ pkgs.map (·.path)
      · obtain ⟨p, hpm, e⟩ := List.mem_map.1 hm
        rw [← hinj p (hsub p hpm) q h e]
        exact .inl hpm
      · exact .inr ⟨h, hm⟩
  · rw [List.nodup_append]
    refine ⟨hp.of_map _, (ha.of_map _).filter _, ?_⟩
    intro a hin b hb e
    subst e
    simp only [Impl.remotePackages, List.mem_filter, decide_eq_true_eq] at hb
    exact hb.2 (List.mem_map.2 ⟨a, hin, rfl⟩)
  · exact ha.of_map _

theorem impl_paths (ps : List Package) : (ps.map (Package.impl ord)).map (·.path) = ps.map (·.path) := by
  rw [List.map_map]; rfl

theorem implementationsWarned_perm (hg : Collected' o project all g) (ht : TypedProject D project all objs) (hv : ValidMapOrders ord)
    {g' heap ex} (h : implementations D o ord project all g = some (g', heap, ex)) :
    (implementationsWarned D o ord project all g).Perm
      ((if o.skipImplementations then [] else (all.map (·.2)).filter untyped).map fun p => .noTypes p.path) := by
  unfold implementations at h
  unfold implementationsWarned
  split at h
  · rename_i hs; rw [if_pos hs, if_pos hs]; exact List.Perm.refl _
  · rename_i hs
    rw [if_neg hs, if_neg hs]
    obtain ⟨r, hr, _⟩ := Option.map_eq_some_iff.1 h
    generalize hP : (ord.extractProject (project.map (·.2))).map (Package.impl ord) = P at hr
    generalize hA : (ord.extractAll (all.map (·.2))).map (Package.impl ord) = A at hr
    have hk := pkgKnown_of hg ht hv
    have hsub := impl_sub ht hv
    rw [hA] at hk
    rw [hP, hA] at hsub
    unfold Impl.addImplementations at hr
    unfold addImplementationsWarned
    cases hloc : Impl.extract D.ext D.scopes true g P with
    | none => rw [hloc] at hr; simp at hr
    | some loc =>
      rw [hloc] at hr
      simp only at hr
      cases hrem : Impl.extract D.ext D.scopes false loc.g (Impl.remotePackages P A) with
      | none => rw [hrem] at hr; simp at hr
      | some rem =>
        simp only
        have ha1 := Impl.extractAll_asked _ ⟨g, [], []⟩ loc (fun p hp => hk p (hsub p hp)) Asked.start hloc
        rw [extractWarned_eq P ⟨g, [], []⟩ loc (fun p hp => hk p (hsub p hp)) Asked.start hloc,
          extractWarned_eq (Impl.remotePackages P A) ⟨loc.g, [], []⟩ rem (fun p hp => hk p (List.mem_filter.1 hp).1) ha1 hrem, ← untypedOf_append]
        have hpn : (P.map (·.path)).Nodup := by
          rw [← hP, impl_paths, ((hv.extractProject _).map _).nodup_iff, keyed_paths ht.project_keyed]; exact ht.project_keyed.nodup
        have han : (A.map (·.path)).Nodup := by
          rw [← hA, impl_paths, ((hv.extractAll _).map _).nodup_iff, keyed_paths ht.all_keyed]; exact ht.all_keyed.nodup
        refine (untypedOf_perm (remote_perm hsub hpn han)).trans ?_
        rw [← hA, untypedOf_impl]
        exact ((hv.extractAll _).filter _).map _

theorem exists_perm_map {α β : Type} {f : α → β} {l : List β} {m : List α} (h : l.Perm (m.map f)) : ∃ l' : List α, l'.Perm m ∧ l'.map f = l := by
  generalize hk : m.map f = k at h
  induction h generalizing m with
  | nil => exact ⟨[], by rw [List.map_eq_nil_iff.1 hk], rfl⟩
  | cons x h ih =>
    cases m with
    | nil => simp at hk
    | cons a m =>
      simp only [List.map_cons, List.cons.injEq] at hk
      obtain ⟨l', h1, h2⟩ := ih hk.2
      exact ⟨a :: l', h1.cons a, by rw [List.map_cons, h2, hk.1]⟩
  | swap x y l =>
    match m with
    | [] => simp at hk
    | [_] => simp at hk
    | a :: b :: m =>
      simp only [List.map_cons, List.cons.injEq] at hk
      exact ⟨b :: a :: m, List.Perm.swap _ _ _, by rw [List.map_cons, List.map_cons, hk.1, hk.2.1, hk.2.2]⟩
  | trans h₁ h₂ ih₁ ih₂ =>
    obtain ⟨l', a, b⟩ := ih₂ hk
    obtain ⟨l'', c, d⟩ := ih₁ b
    exact ⟨l'', c.trans a, d⟩

/-! ## Imports -/

/-- What counts as a warning of the file visitor is what is logged at this level. -/
theorem fileWarning_level (r : Log.Record) : (fileWarning r).isSome = true ↔ r.level = Cmd.levelWarn := by
  cases r <;> simp [fileWarning, Log.Record.level, Cmd.levelWarn, Cmd.levelDebug]

theorem fileReport_warnings {e : Package × SourceFile} {log : List Log.Record} (h : FileReport D project all e log) :
    log.filterMap fileWarning = (unresolvedImports D all e.1 e.2).map .importUnresolved := by
  classical
  obtain ⟨parts, rfl, hlen, hall⟩ := h
  have hone : ∀ (k : Nat) (m : Mention) (rs : List Log.Record), (fileMentionsOf D all e.1 e.2)[k]? = some m → parts[k]? = some rs →
      rs.filterMap fileWarning = (unresolvedImport e.1 m).toList.map .importUnresolved := by
    intro k m rs hm hrs
    have hr := hall k m rs hm hrs
    cases m with
    | dropped i imported sel =>
      have hr : rs = [.packageUnknown imported] := hr
      subst hr; rfl
    | met ev =>
      cases ev with
      | qualifier i x imported =>
        have hr : rs = [] := hr
        subst hr; rfl
      | imp uid name pos =>
        have hr : ImportReport all e.1 uid pos rs := hr
        simp only [unresolvedImport]
        cases hi : (e.1.pkgNameOf uid).bind e.1.imports with
        | none => rw [hr.unresolved hi]; rfl
        | some imported =>
          by_cases hq : ∃ q, (imported, q) ∈ all
          · obtain ⟨q, hq⟩ := hq
            rw [hr.known imported q hi hq]; rfl
          · rw [hr.unknown imported hi fun q x => hq ⟨q, x⟩]; rfl
      | ident u decl =>
        have hr : IdentReport D project all e _ u rs := hr
        show rs.filterMap fileWarning = []
        by_cases hb : u.name = go!"_" ∨ SwitchIdent e.1 u
        · rw [hr.blank hb]; rfl
        · push Not at hb
          cases hu : e.1.env.uses u.uid with
          | none =>
            cases hd : e.1.env.defs u.uid with
            | none => rw [hr.unresolved hb.1 hb.2 hu hd]; rfl
            | some d => rw [hr.declares hu (by rw [hd]; simp)]; rfl
          | some r =>
            by_cases hl : ∃ l ∈ localIdents D all e.1 e.2, l ∈ identsOf (eventsMet ((fileMentionsOf D all e.1 e.2).take (k + 1))) ∧ l.pos = r.self.pos
            · rw [hr.toLocal r hu hl]; rfl
            · by_cases hn : (∃ sym, NamedBy D project all r sym) ∨ NeedsNoSymbol r
              · rw [hr.toEntity r hu hn]; rfl
              · push Not at hn hl
                obtain ⟨path, _, he⟩ := hr.lost hb.1 hb.2 r hu hl hn.1 hn.2
                rw [he]; rfl
  unfold unresolvedImports
  generalize fileMentionsOf D all e.1 e.2 = ms at hlen hone
  clear hall
  induction parts generalizing ms with
  | nil =>
    have : ms = [] := List.length_eq_zero_iff.1 hlen.symm
    subst this; rfl
  | cons p parts ih =>
    cases ms with
    | nil => simp at hlen
    | cons m ms =>
      have h0 := hone 0 m p rfl rfl
      have ih' := ih ms (by simpa using hlen) (fun k m rs hm hrs => hone (k + 1) m rs (by simpa using hm) (by simpa using hrs))
      simp only [List.flatten_cons, List.filterMap_append, h0, ih', List.filterMap_cons]
      cases unresolvedImport e.1 m <;> rfl

/-- **C104**: a run warns of the packages of which there are no types, each once (unless implementations are skipped), and then of the imports that could not be
resolved, in the order of the files and of the source, up to the file at which the run ended; and of nothing else. -/
theorem C104_index_warnings (D : Deps) (o : Opts) (ord : MapOrders) (w : Writer) (project all : GoMap Package) (objs : List Obj)
    (ht : TypedProject D project all objs) (hp : ParsedProject project) (hx : ExtractorOk D all) (hv : ValidMapOrders ord)
    (horig : ∀ r ∈ objs, ∀ q, (entityOf r).cls ≠ .pkgName q) :
    (w [] (.metadata (metadata D o)) ≠ none → indexWarned D o ord w (.ok (project, all)) = []) ∧
    (w [] (.metadata (metadata D o)) = none → ∃ (ps : List Package) (k : Nat),
      indexWarned D o ord w (.ok (project, all)) = ps.map (fun p => Warning.noTypes p.path) ++
        ((((filesOf (sortedValues project)).take k).flatMap fun e => unresolvedImports D all e.1 e.2).map .importUnresolved) ∧
      ps.Perm (if o.skipImplementations then [] else (all.map (·.2)).filter untyped) ∧
      (∀ i m, (index D o ord w (.ok (project, all))).messages[i + 1]? = some m → i < (filesOf (sortedValues project)).length → i < k)) := by
  constructor
  · intro h
    unfold indexWarned
    cases hw : w [] (.metadata (metadata D o)) with
    | none => exact absurd hw h
    | some e => rfl
  · intro hw
    obtain ⟨s', hs'⟩ := visitPackages_some (root := o.moduleRoot) (sortedValues project)
          ([], setPkgSymbols (ord.all (all.map (·.2))) (newGlobal o))
          (fun p hp => filesOk_of ht ((mem_sortedValues ht.project_keyed).1 hp))
    obtain ⟨docs, g⟩ := s'
    have hvp : indexVisitPackages o ord project all = some (docs, g) := hs'
    have hg := collected_global ht.project_keyed ht.all_keyed ht.sub hv.all hvp
    obtain ⟨g', heap, ex, him⟩ : ∃ g' heap ex, implementations D o ord project all g = some (g', heap, ex) := by
      cases him : implementations D o ord project all g with
      | some r => exact ⟨_, _, _, rfl⟩
      | none =>
        refine absurd ?_ (C74_never_crashes D o ord w project all objs ht hx hv).1
        simp [index, hw, hvp, him]
    have hask := implementations_asked hg ht hv him
    have hdocs := docs_of ht hv hvp
    obtain ⟨h1, h2⟩ := documentLogs_report (heap := heap) hg ht hv horig w (filesOf (sortedValues project)) g' [.metadata (metadata D o)]
      (fun x hx => ⟨hx, (hdocs x hx).2.2⟩) hask
    have hlogs : Log.indexLogs D o ord w (.ok (project, all)) =
        Log.documentLogs D ord w heap docs (filesOf (sortedValues project)) g' [.metadata (metadata D o)] := by
      simp only [Log.indexLogs, hw, hvp, him]
    obtain ⟨ps, hps, hperm⟩ : ∃ ps : List Package, implementationsWarned D o ord project all g = ps.map (fun p => Warning.noTypes p.path) ∧
        ps.Perm (if o.skipImplementations then [] else (all.map (·.2)).filter untyped) := by
      have := implementationsWarned_perm hg ht hv him
      obtain ⟨ps, hperm, he⟩ := exists_perm_map this
      exact ⟨ps, he.symm, hperm⟩
    refine ⟨ps, (Log.documentLogs D ord w heap docs (filesOf (sortedValues project)) g' [.metadata (metadata D o)]).length, ?_, hperm, ?_⟩
    · unfold indexWarned
      rw [hw]
      simp only
      rw [C104_no_conflicts o ord ht hp, hvp, hlogs]
      simp only [List.nil_append, hps]
      congr 1
      generalize Log.documentLogs D ord w heap docs (filesOf (sortedValues project)) g' [.metadata (metadata D o)] = logs at h2
      generalize filesOf (sortedValues project) = fs at h2
      induction logs generalizing fs with
      | nil => rfl
      | cons l logs ih =>
        obtain ⟨e, he, hr⟩ := h2 0 l rfl
        cases fs with
        | nil => simp at he
        | cons f fs =>
          simp only [List.getElem?_cons_zero, Option.some.injEq] at he
          subst he
          have := ih fs (fun i log h => by simpa using h2 (i + 1) log (by simpa using h))
          simp only [List.flatten_cons, List.filterMap_append, fileReport_warnings hr, this, List.length_cons, List.take_succ_cons,
            List.flatMap_cons, List.map_append]
    · intro i m hm hi
      obtain ⟨ds, a1, a2, a3, _⟩ := writeDocuments_documents (heap := heap) hg ht hv w (filesOf (sortedValues project)) g'
        [.metadata (metadata D o)] hdocs hask
      have hds : ds.length = (Log.documentLogs D ord w heap docs (filesOf (sortedValues project)) g' [.metadata (metadata D o)]).length := by
        rw [a1] at h1; simp at h1; omega
      rw [← hds]
      unfold index at hm
      simp only [hw, hvp, him] at hm
      generalize hrd : writeDocuments D ord w heap docs (filesOf (sortedValues project)) g' [.metadata (metadata D o)] = rd at hm a1 a2 a3
      obtain ⟨done, out⟩ := rd
      cases out with
      | ok => have := a3 rfl; omega
      | failed err =>
        simp only at hm a1
        rw [a1] at hm
        have := (List.getElem?_eq_some_iff.1 hm).1
        simp at this; omega
      | crash => exact absurd rfl a2

end

/-- **C104** (a healthy project is indexed silently): if the type checker resolved all imports of the project and all packages have types, a run warns of
nothing. -/
theorem C104_silent (D : Deps) (o : Opts) (ord : MapOrders) (w : Writer) (project all : GoMap Package) (objs : List Obj)
    (ht : TypedProject D project all objs) (hp : ParsedProject project) (hx : ExtractorOk D all) (hv : ValidMapOrders ord)
    (horig : ∀ r ∈ objs, ∀ q, (entityOf r).cls ≠ .pkgName q) (htypes : ∀ k p, (k, p) ∈ all → untyped p = false)
    (himports : ∀ k p, (k, p) ∈ project → ∀ f ∈ p.files, unresolvedImports D all p f = []) :
    indexWarned D o ord w (.ok (project, all)) = [] := by
  obtain ⟨h1, h2⟩ := C104_index_warnings D o ord w project all objs ht hp hx hv horig
  by_cases hw : w [] (.metadata (metadata D o)) = none
  · obtain ⟨ps, k, he, hps, _⟩ := h2 hw
    have hn : ps = [] := by
      have : (all.map (·.2)).filter untyped = [] := by
        rw [List.filter_eq_nil_iff]
        intro p hpm
        obtain ⟨e, hm, rfl⟩ := List.mem_map.1 hpm
        simp [htypes e.1 e.2 hm]
      rw [this, ite_self] at hps
      exact List.perm_nil.1 hps
    rw [he, hn]
    simp only [List.map_nil, List.nil_append, List.map_eq_nil_iff, List.flatMap_eq_nil_iff]
    intro e hm
    obtain ⟨p, hpm, hf⟩ := List.mem_flatMap.1 (List.mem_of_mem_take hm)
    obtain ⟨f, hf', rfl⟩ := List.mem_map.1 hf
    exact himports p.path p ((mem_sortedValues ht.project_keyed).1 hpm) f hf'
  · exact h1 hw

/-! ## Before indexing -/

/-- **C104** (the module): there is a warning about go.mod exactly if the module path is not given and no go.mod can be read in the module root. -/
theorem C104_module_warning (E : Git.ModuleEnv) (dir inName : Str) :
    (moduleNameWarned E dir inName = [.noGoMod] ↔ inName = [] ∧ E.readGoMod (Git.goModIn dir) = none) ∧
    (moduleNameWarned E dir inName = [] ↔ inName ≠ [] ∨ (E.readGoMod (Git.goModIn dir)).isSome) := by
  unfold moduleNameWarned
  by_cases h : inName = []
  · cases hr : E.readGoMod (Git.goModIn dir) <;> simp [h]
  · simp [h]

/-- **C104** (loading): the command line never leads to a warning about missing patterns, and no package to one about a missing module: the fallback of
loader.go:175-184 is never reached. -/
theorem C104_loading_silent (root : Str) (D : Commands.Defaults) (g : Main.Given) (opts : Loader.Opts) (p : Loader.PkgSt) :
    patternsWarned (Main.sharedFlags root D g).packagePatterns = [] ∧ normalizeWarned opts p = [] := by
  constructor
  · by_cases h : g.packagePatterns = [] <;> simp [patternsWarned, Main.sharedFlags, h]
  · unfold normalizeWarned Loader.isStandardLib
    cases p.module <;> cases opts.driverSet <;> simp

end Verif
