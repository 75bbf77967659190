import Verif.Lemmas.VarVisitor
import Verif.Spec.Package
/-! # The collecting pass over a package as a list of registrations -/
namespace Verif
open Spec

variable {Q : Ident → Parent → Prop}

/-- `f` acts on tables as a list of registrations described exactly by `R`. -/
def RegsAs (env : PkgEnv) (Q : Ident → Parent → Prop) (f : Table → Option Table) (R : Ident → List Descriptor → Nat → Prop) : Prop :=
  ∃ rs : List (Nat × SymInfo), (∀ t, f t = some (t.setAll rs)) ∧
    (∀ e ∈ rs, ∃ i p pos, R i p pos ∧ regOf env Q i p pos e) ∧
    (∀ i p pos, R i p pos → ∃ e ∈ rs, regOf env Q i p pos e)

theorem RegsAs.id (env Q) : RegsAs env Q some (fun _ _ _ => False) := ⟨[], by simp, by simp, by simp⟩

theorem RegsAs.comp {env f g R S} (hf : RegsAs env Q f R) (hg : RegsAs env Q g S) :
    RegsAs env Q (fun t => (f t).bind g) (fun i p q => R i p q ∨ S i p q) := by
  obtain ⟨rs, h1, h2, h3⟩ := hf
  obtain ⟨ss, k1, k2, k3⟩ := hg
  refine ⟨rs ++ ss, ?_, ?_, ?_⟩
  · intro t
    show (f t).bind g = _
    rw [h1, Option.bind_some, k1, Table.setAll_append]
  · intro e he
    rcases List.mem_append.mp he with h | h
    · obtain ⟨i, p, q, hr, ho⟩ := h2 e h; exact ⟨i, p, q, .inl hr, ho⟩
    · obtain ⟨i, p, q, hr, ho⟩ := k2 e h; exact ⟨i, p, q, .inr hr, ho⟩
  · rintro i p q (h | h)
    · obtain ⟨e, he, ho⟩ := h3 i p q h; exact ⟨e, by simp [he], ho⟩
    · obtain ⟨e, he, ho⟩ := k3 i p q h; exact ⟨e, by simp [he], ho⟩

theorem RegsAs.congr {env f R S} (hf : RegsAs env Q f R) (h : ∀ i p pos, R i p pos ↔ S i p pos) : RegsAs env Q f S := by
  have : R = S := by funext i p q; exact propext (h i p q)
  exact this ▸ hf

theorem RegsAs.congr_fun {env f g R} (hf : RegsAs env Q f R) (h : ∀ t, g t = f t) : RegsAs env Q g R := by
  obtain ⟨rs, h1, h2, h3⟩ := hf
  exact ⟨rs, fun t => by rw [h t, h1], h2, h3⟩

theorem RegsAs.collected {env f R} (hf : RegsAs env Q f R) (t : Table) :
    ∃ t', f t = some t' ∧ Collected env t t' R := by
  obtain ⟨rs, h1, h2, h3⟩ := hf
  refine ⟨_, h1 t, ?_, ?_, ?_, ?_⟩
  · intro q info hg
    rcases Table.get_setAll_mem rs t q info hg with h | h
    · exact .inl h
    · obtain ⟨i, p, pos, hr, hpos, par, hq, he⟩ := h2 _ h
      dsimp only at hpos he
      subst hpos he
      exact .inr ⟨i, p, hr, rfl, rfl, rfl, by simp only [newSymInfo]; cases env.defs i.uid <;> rfl⟩
  · intro i p q hr
    obtain ⟨e, he, hpos, par, _, hinfo⟩ := h3 i p q hr
    have : ∀ (rs : List (Nat × SymInfo)) (t : Table), e ∈ rs → ((t.setAll rs).get e.1).isSome := by
      intro rs
      induction rs with
      | nil => simp
      | cons r rs ih =>
        intro t hm
        rw [Table.setAll_cons]
        rcases List.mem_cons.1 hm with rfl | hm
        · apply Table.get_setAll_isSome
          have := Table.getSymbol_set_self t e.1 e.2
          unfold Table.getSymbol at this
          cases hh : (t.set e.1 e.2).get e.1 with
          | none => rw [hh] at this; simp at this
          | some a => rfl
        · exact ih _ hm
    have := this rs t he
    rw [hpos] at this
    exact Option.isSome_iff_exists.1 this
  · intro i p q hr huniq
    apply Table.getSymbol_setAll
    · intro info hm
      obtain ⟨i', p', pos, hr', hpos, par, _, he⟩ := h2 _ hm
      dsimp only at hpos he
      subst hpos he
      rw [huniq i' p' hr']; rfl
    · right
      obtain ⟨e, he, hpos, _⟩ := h3 i p q hr
      exact ⟨e.2, by rw [← hpos]; exact he⟩
  · intro q hno
    have hk : ∀ e ∈ rs, e.1 ≠ q := by
      intro e he h
      obtain ⟨i, p, pos, hr, hpos, _⟩ := h2 e he
      rw [h] at hpos; subst hpos
      exact hno i p hr
    clear h1 h2 h3
    induction rs generalizing t with
    | nil => rfl
    | cons r rs ih =>
      rw [Table.setAll_cons, ih _ (fun e he => hk e (by simp [he]))]
      exact Table.get_set_ne t r.1 q r.2 (fun h => hk r (by simp) h.symm)

/-- The new entries. -/
theorem RegsAs.entries {env f R} (hf : RegsAs env Q f R) {t t' : Table} (h : f t = some t') {q : Nat} {info : SymInfo}
    (hg : t'.get q = some info) : t.get q = some info ∨
      ∃ i p par, R i p q ∧ Q i par ∧ info = newSymInfo env (env.fromDescriptors p) par i := by
  obtain ⟨rs, h1, h2, h3⟩ := hf
  rw [h1] at h
  simp only [Option.some.injEq] at h
  subst h
  rcases Table.get_setAll_mem rs t q info hg with h | h
  · exact .inl h
  · obtain ⟨i, p, pos, hr, hpos, par, hq, he⟩ := h2 _ h
    dsimp only at hpos he
    subst hpos he
    exact .inr ⟨i, p, par, hr, hq, rfl⟩

/-- `f` acts on tables as a list of registrations described exactly by `R`, and `w` are the warnings of these. -/
def RegsW (env : PkgEnv) (Q : Ident → Parent → Prop) (f : Table → Option Table) (w : Table → List Conflict)
    (R : Ident → List Descriptor → Nat → Prop) : Prop :=
  ∃ rs : List (Nat × SymInfo), (∀ t, f t = some (t.setAll rs) ∧ w t = t.conflicts rs) ∧
    (∀ e ∈ rs, ∃ i p pos, R i p pos ∧ regOf env Q i p pos e) ∧
    (∀ i p pos, R i p pos → ∃ e ∈ rs, regOf env Q i p pos e)

theorem RegsW.regsAs {env f w R} (h : RegsW env Q f w R) : RegsAs env Q f R := by
  obtain ⟨rs, h1, h2, h3⟩ := h
  exact ⟨rs, fun t => (h1 t).1, h2, h3⟩

theorem RegsW.id (env Q) : RegsW env Q some (fun _ => []) (fun _ _ _ => False) := ⟨[], by simp, by simp, by simp⟩

theorem RegsW.comp {env f g w v R S} (hf : RegsW env Q f w R) (hg : RegsW env Q g v S) :
    RegsW env Q (fun t => (f t).bind g) (fun t => w t ++ match f t with | none => [] | some t => v t) (fun i p q => R i p q ∨ S i p q) := by
  obtain ⟨rs, h1, h2, h3⟩ := hf
  obtain ⟨ss, k1, k2, k3⟩ := hg
  refine ⟨rs ++ ss, ?_, ?_, ?_⟩
  · intro t
    constructor
    · show (f t).bind g = _
      rw [(h1 t).1, Option.bind_some, (k1 _).1, Table.setAll_append]
    · show w t ++ _ = _
      rw [(h1 t).1, (h1 t).2]
      show _ ++ v (t.setAll rs) = _
      rw [(k1 _).2, Table.conflicts_append]
  · intro e he
    rcases List.mem_append.mp he with h | h
    · obtain ⟨i, p, q, hr, ho⟩ := h2 e h; exact ⟨i, p, q, .inl hr, ho⟩
    · obtain ⟨i, p, q, hr, ho⟩ := k2 e h; exact ⟨i, p, q, .inr hr, ho⟩
  · rintro i p q (h | h)
    · obtain ⟨e, he, ho⟩ := h3 i p q h; exact ⟨e, by simp [he], ho⟩
    · obtain ⟨e, he, ho⟩ := k3 i p q h; exact ⟨e, by simp [he], ho⟩

theorem RegsW.congr {env f w R S} (hf : RegsW env Q f w R) (h : ∀ i p pos, R i p pos ↔ S i p pos) : RegsW env Q f w S := by
  have : R = S := by funext i p q; exact propext (h i p q)
  exact this ▸ hf

theorem RegsW.congr_fun {env f g w v R} (hf : RegsW env Q f w R) (h : ∀ t, g t = f t ∧ v t = w t) : RegsW env Q g v R := by
  obtain ⟨rs, h1, h2, h3⟩ := hf
  exact ⟨rs, fun t => by rw [(h t).1, (h t).2]; exact h1 t, h2, h3⟩

/-- `Q` holds of every attribution of a declared identifier that the visitors make. -/
structure DeclQ (Q : Ident → Parent → Prop) (d : Node) : Prop where
  fields : FieldsQ Q d
  types : ∀ tok specs doc, d = .genDecl tok specs doc → ∀ n tps typ own, .typeSpec n tps typ own ∈ specs → Q n (.genDecl specs doc)
  funcs : ∀ recv name typ body a b doc, d = .funcDecl recv name typ body a b doc → Q name (.funcDecl doc)
  values : ∀ tok specs doc, d = .genDecl tok specs doc → tok = .var ∨ tok = .const → NamesFrom Q (.genDecl specs doc) specs

/-- Nothing is asked of the attributions. -/
theorem DeclQ_true (d : Node) : DeclQ (fun _ _ => True) d where
  fields := fun _ _ _ _ _ _ _ _ => trivial
  types := fun _ _ _ _ _ _ _ _ _ => trivial
  funcs := fun _ _ _ _ _ _ _ _ => trivial
  values := by
    intro tok specs doc h _
    clear h
    generalize Parent.genDecl specs doc = par
    induction specs with
    | nil => trivial
    | cons s ss ih =>
      exact ⟨fun _ _ => trivial, fun _ _ _ _ _ _ _ _ _ _ _ _ => trivial, fun _ => ih, fun _ _ _ _ _ _ _ _ _ _ _ _ _ => trivial⟩

theorem varScopeName_eq (env : PkgEnv) : varScopeName env = specScopeName env.position := by
  funext pos names
  match names with
  | [] => simp [varScopeName, specScopeName]
  | [a] => simp [varScopeName, specScopeName]
  | a :: b :: r => simp [varScopeName, specScopeName]

theorem visitDecl_regsW (env : PkgEnv) (d : Node) (hd : DeclOk d) (hq : DeclQ Q d) :
    RegsW env Q (visitDecl env d) (visitDeclWarned env d) (fun i p q => (FuncDeclares env.pkgPath d i p ∧ q = i.pos) ∨
      ∃ tok specs doc, d = .genDecl tok specs doc ∧ (tok = .var ∨ tok = .const) ∧
        VarDeclares env.anonKey (specScopeName env.position) [⟨env.pkgPath, .nspace⟩] d i p q) := by
  have nofunc : ∀ i p, (∀ a b c e f g h, d ≠ .funcDecl a b c e f g h) → ¬ FuncDeclares env.pkgPath d i p := by
    intro i p h hf
    cases hf <;> exact h _ _ _ _ _ _ _ rfl
  cases d with
  | genDecl tok specs doc =>
    have hvar : (tok = .var ∨ tok = .const) → RegsW env Q
        (fun t => some (varWalk env (.genDecl tok specs doc) ⟨newScope env.pkgPath, t, none, []⟩).table)
        (fun t => (varWalk env (.genDecl tok specs doc) ⟨newScope env.pkgPath, t, none, []⟩).warned)
        (fun i p q => (FuncDeclares env.pkgPath (.genDecl tok specs doc) i p ∧ q = i.pos) ∨
      ∃ tok' specs' doc', Node.genDecl tok specs doc = .genDecl tok' specs' doc' ∧ (tok' = .var ∨ tok' = .const) ∧
        VarDeclares env.anonKey (specScopeName env.position) [⟨env.pkgPath, .nspace⟩]
          (.genDecl tok specs doc) i p q) := by
      intro ht
      obtain ⟨rs, cur', h1, h2, h3⟩ := varSpecs_acts env (newScope env.pkgPath) (.genDecl specs doc) specs
        (fun s hs => (hd.2 ht).child hs) (fun s hs => hq.fields.child hs) (hq.values _ _ _ rfl ht)
      rw [varScopeName_eq] at h2 h3
      refine ⟨rs, fun t => by dsimp only; simp only [varWalk, if_pos ht]; rw [h1]; simp, ?_, ?_⟩
      · intro e he
        obtain ⟨i, p, q, ⟨pre, s, post, rfl, hr⟩, ho⟩ := h2 e he
        exact ⟨i, p, q, .inr ⟨_, _, _, rfl, ht, .decl ht rfl hr⟩, ho⟩
      · rintro i p q (⟨h, _⟩ | ⟨_, _, _, _, _, h⟩)
        · exact absurd h (nofunc i p (by simp))
        · cases h with
          | decl _ e h => exact h3 i p q ⟨_, _, _, e, h⟩
          | descend h => simp [isPlain] at h
    cases tok with
    | var => exact (hvar (.inl rfl)).congr_fun (fun t => ⟨rfl, rfl⟩)
    | const => exact (hvar (.inr rfl)).congr_fun (fun t => ⟨rfl, rfl⟩)
    | other => exact absurd rfl hd.1
    | imp =>
      refine ((RegsW.id env Q).congr ?_).congr_fun (fun t => ⟨rfl, rfl⟩)
      intro i p q
      have := nofunc i p (by simp)
      simp [this]
    | typ =>
      refine ((RegsW.id env Q).congr ?_).congr_fun (fun t => ⟨rfl, rfl⟩)
      intro i p q
      have := nofunc i p (by simp)
      simp [this]
  | funcDecl recv name typ body a b doc =>
    obtain ⟨⟨r, hr⟩, ht⟩ := hd
    have hreceq := receiverTypeName_cases recv r hr
    -- the registrations do not depend on the table
    obtain ⟨rs, h1, h2, h3⟩ := funcWalk_acts env typ
      (newScope env.pkgPath ++ r ++ [⟨go!"func", .metadesc⟩] ++ [⟨name.name, .metadesc⟩]) ht (hq.fields.child (by simp [children]))
    refine ⟨(name.pos, newSymInfo env (env.fromDescriptors (newScope env.pkgPath ++ r ++ [⟨name.name, .method⟩]))
      (.funcDecl doc) name) :: rs, ?_, ?_, ?_⟩
    · intro t
      simp only [visitDecl, visitDeclWarned, funcWalk]
      cases hn : receiverTypeName recv with
      | none =>
        rw [hn] at hreceq; subst hreceq
        dsimp only
        rw [h1 _ (by simp [VState.register, VState.push])]
        simp [VState.regs, VState.register, VState.push, VState.pop]
      | some n =>
        rw [hn] at hreceq; subst hreceq
        dsimp only
        rw [h1 _ (by simp [VState.register, VState.push])]
        simp [VState.regs, VState.register, VState.push, VState.pop]
    · intro e he
      simp only [List.mem_cons] at he
      rcases he with rfl | he
      · exact ⟨name, _, name.pos, .inl ⟨.name hr, rfl⟩, rfl, _, hq.funcs _ _ _ _ _ _ _ rfl, rfl⟩
      · obtain ⟨i, p, q, ⟨rfl, hm, rfl⟩, ho⟩ := h2 e he
        refine ⟨i, _, i.pos, .inl ⟨.result hr hm, rfl⟩, ?_⟩
        simpa [newScope] using ho
    · rintro i p q (⟨h, rfl⟩ | ⟨_, _, _, h, _⟩)
      · generalize hn : Node.funcDecl recv name typ body a b doc = n at h
        cases h with
        | name hr' =>
          cases hn
          have := receiverTypeName_cases recv _ hr'
          rw [← hreceq] at this; subst this
          exact ⟨_, List.mem_cons_self, rfl, _, hq.funcs _ _ _ _ _ _ _ rfl, rfl⟩
        | result hr' hm =>
          cases hn
          have := receiverTypeName_cases recv _ hr'
          rw [← hreceq] at this; subst this
          obtain ⟨e, he, ho⟩ := h3 i _ _ ⟨rfl, hm, rfl⟩
          exact ⟨e, List.mem_cons_of_mem _ he, by simpa [newScope] using ho⟩
      · cases h
  | _ =>
    refine ((RegsW.id env Q).congr ?_).congr_fun (fun t => ⟨rfl, rfl⟩)
    intro i p q
    have := nofunc i p (by simp)
    simp [this]

theorem visitDecls_regsW (env : PkgEnv) (ds : List Node) (hd : ∀ d ∈ ds, DeclOk d) (hq : ∀ d ∈ ds, DeclQ Q d) :
    RegsW env Q (visitDecls env ds) (visitDeclsWarned env ds) (fun i p q => ∃ d ∈ ds, (FuncDeclares env.pkgPath d i p ∧ q = i.pos) ∨
      ∃ tok specs doc, d = .genDecl tok specs doc ∧ (tok = .var ∨ tok = .const) ∧
        VarDeclares env.anonKey (specScopeName env.position) [⟨env.pkgPath, .nspace⟩] d i p q) := by
  induction ds with
  | nil => exact ((RegsW.id env Q).congr (by simp)).congr_fun (fun t => ⟨rfl, rfl⟩)
  | cons d ds ih =>
    refine ((RegsW.comp (visitDecl_regsW env d (hd d (by simp)) (hq d (by simp))) (ih (fun d' h => hd d' (by simp [h])) (fun d' h => hq d' (by simp [h])))).congr ?_).congr_fun
      (fun t => ⟨rfl, rfl⟩)
    intro i p q
    simp only [List.mem_cons, exists_eq_or_imp]

theorem visitSyntax_regsW (env : PkgEnv) (name : Ident) (ds : List Node) (hd : ∀ d ∈ ds, DeclOk d) (hq : ∀ d ∈ ds, DeclQ Q d) :
    RegsW env Q (visitSyntax env (.file name ds)) (visitSyntaxWarned env (.file name ds)) (DeclsDeclare env ds) := by
  obtain ⟨rs, h1, h2, h3⟩ := typeDecls_declares env ds
    (fun tok specs doc h n tps typ own hs => (hq _ h).types _ _ _ rfl n tps typ own hs) (fun d h => (hq d h).fields)
  have ht : RegsW env Q (fun t => some (typeDecls env ds ⟨newScope env.pkgPath, t, none, []⟩).table)
      (fun t => (typeDecls env ds ⟨newScope env.pkgPath, t, none, []⟩).warned)
      (fun i p q => q = i.pos ∧ FileTypeDeclares env.anonKey env.pkgPath ds i p) :=
    ⟨rs, fun t => by dsimp only; rw [h1 _ rfl]; simp [VState.regs], h2, h3⟩
  refine ((RegsW.comp ht (visitDecls_regsW env ds hd hq)).congr ?_).congr_fun (fun t => ⟨rfl, rfl⟩)
  intro i p q
  constructor
  · rintro (⟨rfl, h⟩ | ⟨d, hm, ⟨h, rfl⟩ | ⟨tok, specs, doc, rfl, ht, h⟩⟩)
    · exact .typ h
    · exact .func hm h
    · exact .var hm ht h
  · intro h
    cases h with
    | typ h => exact .inl ⟨rfl, h⟩
    | func hm h => exact .inr ⟨_, hm, .inl ⟨h, rfl⟩⟩
    | var hm ht h => exact .inr ⟨_, hm, .inr ⟨_, _, _, rfl, ht, h⟩⟩

theorem visitPackageSyntax_regsW (env : PkgEnv) (fs : List Node) (hok : FilesOk fs)
    (hq : ∀ name decls, .file name decls ∈ fs → ∀ d ∈ decls, DeclQ Q d) :
    RegsW env Q (visitPackageSyntax env fs) (visitPackageSyntaxWarned env fs) (PackageDeclares env fs) := by
  induction fs with
  | nil => exact ((RegsW.id env Q).congr (by simp [PackageDeclares])).congr_fun (fun t => ⟨rfl, rfl⟩)
  | cons f fs ih =>
    have ih := ih (fun n d h => hok n d (by simp [h])) (fun n d h => hq n d (by simp [h]))
    have hf : RegsW env Q (visitSyntax env f) (visitSyntaxWarned env f) (fun i p q => ∃ name decls, f = .file name decls ∧ DeclsDeclare env decls i p q) := by
      cases f with
      | file name ds =>
        refine (visitSyntax_regsW env name ds (hok name ds (by simp)) (hq name ds (by simp))).congr ?_
        intro i p q
        constructor
        · intro h; exact ⟨_, _, rfl, h⟩
        · rintro ⟨n, d, h, h'⟩; cases h; exact h'
      | _ => exact ((RegsW.id env Q).congr (by simp)).congr_fun (fun t => ⟨rfl, rfl⟩)
    refine ((RegsW.comp hf ih).congr ?_).congr_fun (fun t => ⟨rfl, rfl⟩)
    intro i p q
    simp only [PackageDeclares, List.mem_cons]
    constructor
    · rintro (⟨n, d, h, h'⟩ | ⟨n, d, h, h'⟩)
      · exact ⟨n, d, .inl h.symm, h'⟩
      · exact ⟨n, d, .inr h, h'⟩
    · rintro ⟨n, d, h | h, h'⟩
      · exact .inl ⟨n, d, h.symm, h'⟩
      · exact .inr ⟨n, d, h, h'⟩

theorem visitPackageSyntax_regs (env : PkgEnv) (fs : List Node) (hok : FilesOk fs)
    (hq : ∀ name decls, .file name decls ∈ fs → ∀ d ∈ decls, DeclQ Q d) :
    RegsAs env Q (visitPackageSyntax env fs) (PackageDeclares env fs) := (visitPackageSyntax_regsW env fs hok hq).regsAs

end Verif
